import Verif.Lemmas.LinkCut

/-!
An SVD with few singular values, completed by zeros.
-/

set_option autoImplicit false

namespace AceTN

open Matrix Spec Finset SumTac

variable {𝕜 : Type} [RCLike 𝕜]

section complete

variable {m n : Type} [Fintype m] [Fintype n] [DecidableEq m] [DecidableEq n] {r r' : ℕ}

omit [DecidableEq m] in
/-- Orthonormal columns can be completed. -/
theorem complete_columns (h : r ≤ r') (hr' : r' ≤ Fintype.card m) (U : Matrix m (Fin r) 𝕜) (hU : Uᴴ * U = 1) :
    ∃ U' : Matrix m (Fin r') 𝕜, U'ᴴ * U' = 1 ∧ ∀ i j, U' i (Fin.castLE h j) = U i j := by
  have hU' : Orthonormal 𝕜 fun k : Fin r => (WithLp.toLp 2 fun i => U i k : EuclideanSpace 𝕜 m) := (orthonormal_iff_gram U).2 hU
  let v' : Fin (Fintype.card m) → EuclideanSpace 𝕜 m :=
    fun i => if h : i.val < r then WithLp.toLp 2 fun j => U j ⟨i.val, h⟩ else 0
  let s' : Set (Fin (Fintype.card m)) := {i | i.val < r}
  have ho : Orthonormal 𝕜 (s'.domRestrict v') := by
    rw [orthonormal_iff_ite]
    rintro ⟨i, hi⟩ ⟨j, hj⟩
    have hi : i.val < r := hi
    have hj : j.val < r := hj
    simp only [Set.domRestrict_apply, v', hi, hj, dif_pos]
    rw [orthonormal_iff_ite.1 hU']
    simp [Fin.ext_iff]
  obtain ⟨b, hb⟩ := ho.exists_orthonormalBasis_extension_of_card_eq (by rw [finrank_euclideanSpace, Fintype.card_fin])
  refine ⟨of fun i k => (b (Fin.castLE hr' k)) i, ?_, ?_⟩
  · rw [← orthonormal_iff_gram]
    exact b.orthonormal.comp _ (Fin.castLE_injective _)
  · intro i j
    have hj : (Fin.castLE hr' (Fin.castLE h j)).val < r := j.isLt
    show (b (Fin.castLE hr' (Fin.castLE h j))) i = U i j
    rw [hb _ hj]
    simp only [v']
    rw [dif_pos hj]
    rfl

omit [DecidableEq m] [DecidableEq n] in
/-- An SVD can be completed by zeros, and scaled. -/
theorem complete_svd (h : r ≤ r') (hm : r' ≤ Fintype.card m) (hn : r' ≤ Fintype.card n) {A : Matrix m n 𝕜} {x : LowRank m n r 𝕜}
    (hx : IsSVD A x.U x.S x.Vᴴ) (t : ℝ) (ht : 0 < t) :
    ∃ y : LowRank m n r' 𝕜, IsSVD ((t : 𝕜) • A) y.U y.S y.Vᴴ ∧ (∀ i j, y.U i (Fin.castLE h j) = x.U i j) ∧
      (∀ i j, y.V i (Fin.castLE h j) = x.V i j) ∧ (∀ j, y.S (Fin.castLE h j) = t * x.S j) ∧ ∀ j : Fin r', r ≤ j.val → y.S j = 0 := by
  obtain ⟨U', hU', eU⟩ := complete_columns h hm x.U hx.left
  obtain ⟨V', hV', eV⟩ := complete_columns h hn x.V (by simpa using hx.right)
  let S' : Fin r' → ℝ := fun j => if hj : j.val < r then t * x.S ⟨j.val, hj⟩ else 0
  have eS : ∀ j, S' (Fin.castLE h j) = t * x.S j := fun j => dif_pos j.isLt
  have eS0 : ∀ j : Fin r', r ≤ j.val → S' j = 0 := fun j hj => dif_neg (by omega)
  refine ⟨⟨U', S', V'⟩, ⟨?_, hU', by simpa using hV', ?_, ?_⟩, eU, eV, eS, eS0⟩
  · ext i j
    show _ = (U' * diagonal (fun i => (S' i : 𝕜)) * V'ᴴ) i j
    have := congrFun (congrFun hx.mul i) j
    rw [mul_apply] at this
    rw [Matrix.smul_apply, this, mul_apply, smul_eq_mul, mul_sum]
    refine Finset.sum_of_injOn (Fin.castLE h) (fun a _ b _ h => Fin.castLE_injective _ h)
      (fun _ _ => Finset.mem_coe.2 (Finset.mem_univ _)) ?_ ?_
    · intro k _ hk
      have : r ≤ k.val := by
        by_contra hlt
        exact hk ⟨⟨k.val, by omega⟩, Finset.mem_coe.2 (Finset.mem_univ _), Fin.ext rfl⟩
      rw [mul_diagonal, eS0 k this]
      simp
    · intro k _
      rw [mul_diagonal, mul_diagonal, eU, eS, conjTranspose_apply, conjTranspose_apply, eV]
      push_cast
      ring
  · intro j
    show 0 ≤ S' j
    by_cases hj : j.val < r
    · rw [show S' j = t * x.S ⟨j.val, hj⟩ from dif_pos hj]
      exact mul_nonneg ht.le (hx.nonneg _)
    · rw [eS0 j (by omega)]
  · intro i j hij
    show S' j ≤ S' i
    by_cases hj : j.val < r
    · have hi : i.val < r := by
        have : i.val ≤ j.val := hij
        omega
      rw [show S' j = t * x.S ⟨j.val, hj⟩ from dif_pos hj, show S' i = t * x.S ⟨i.val, hi⟩ from dif_pos hi]
      exact mul_le_mul_of_nonneg_left (hx.sorted _ _ hij) ht.le
    · rw [eS0 j (by omega)]
      by_cases hi : i.val < r
      · rw [show S' i = t * x.S ⟨i.val, hi⟩ from dif_pos hi]
        exact mul_nonneg ht.le (hx.nonneg _)
      · rw [eS0 i (by omega)]

end complete

section ext

variable {m n X B : Type} [Fintype m] [Fintype n] {r r' : ℕ}

omit [RCLike 𝕜] in
theorem ProjPair.ext_cast {c c' : ℕ} (h : c = c') {p1 p2 : X → B → B → Fin c → 𝕜} {p1' p2' : X → B → B → Fin c' → 𝕜}
    (h1 : ∀ e d D z, p1 e d D z = p1' e d D (Fin.cast h z)) (h2 : ∀ e d D z, p2 e d D z = p2' e d D (Fin.cast h z)) :
    (⟨c, p1, p2⟩ : ProjPair X B 𝕜) = ⟨c', p1', p2'⟩ := by
  subst h
  have e1 : p1 = p1' := by
    funext e d D z
    exact h1 e d D z
  have e2 : p2 = p2' := by
    funext e d D z
    exact h2 e d D z
  rw [e1, e2]

theorem ratio_extend (h : r ≤ r') (t : ℝ) (ht : 0 < t) (S : Fin r → ℝ) (S' : Fin r' → ℝ) (hS : ∀ j, S' (Fin.castLE h j) = t * S j)
    (j : Fin r) : S' (Fin.castLE h j) / firstS S' = S j / firstS S := by
  have hr : 0 < r := j.pos
  have hr' : 0 < r' := hr.trans_le h
  have e : firstS S' = t * firstS S := by
    unfold firstS
    rw [dif_pos hr, dif_pos hr', ← hS]
    rfl
  rw [hS, e, mul_div_mul_left _ _ ht.ne']

theorem keep_extend (cutoff : ℝ) (hc : 0 ≤ cutoff) (chi : ℕ) (h : r ≤ r') (t : ℝ) (ht : 0 < t) (S : Fin r → ℝ) (S' : Fin r' → ℝ)
    (hS : ∀ j, S' (Fin.castLE h j) = t * S j) (h0 : ∀ j : Fin r', r ≤ j.val → S' j = 0) :
    keep cutoff chi S' = keep cutoff chi S := by
  unfold keep
  congr 1
  have : (Finset.univ.filter fun i => cutoff < S' i / firstS S') =
      (Finset.univ.filter fun i => cutoff < S i / firstS S).map (Fin.castLEEmb h) := by
    ext j
    simp only [Finset.mem_filter, Finset.mem_univ, true_and, Finset.mem_map]
    constructor
    · intro hj
      have hlt : j.val < r := by
        by_contra hn
        rw [h0 j (by omega), zero_div] at hj
        exact absurd hj (not_lt.2 hc)
      refine ⟨⟨j.val, hlt⟩, ?_, rfl⟩
      rw [← ratio_extend h t ht S S' hS]
      exact hj
    · rintro ⟨i, hi, rfl⟩
      show cutoff < S' (Fin.castLE h i) / firstS S'
      rw [ratio_extend h t ht S S' hS]
      exact hi
  rw [this, Finset.card_map]

/-- Further zeros and a common factor of the singular values do not change the projectors. -/
theorem projFromSvd_extend (cutoff : ℝ) (hc : 0 ≤ cutoff) (chi : ℕ) (h : r ≤ r') (t : ℝ) (ht : 0 < t) (R1 : Matrix m (X × B × B) 𝕜)
    (R2 : Matrix (X × B × B) n 𝕜) (x : LowRank m n r 𝕜) (y : LowRank m n r' 𝕜) (hU : ∀ i j, y.U i (Fin.castLE h j) = x.U i j)
    (hV : ∀ i j, y.V i (Fin.castLE h j) = x.V i j) (hS : ∀ j, y.S (Fin.castLE h j) = t * x.S j)
    (h0 : ∀ j : Fin r', r ≤ j.val → y.S j = 0) : projFromSvd cutoff chi R1 R2 x = projFromSvd cutoff chi R1 R2 y := by
  have hk := keep_extend cutoff hc chi h t ht x.S y.S hS h0
  have sc : ∀ {a : Type} (Y : Matrix a (Fin r) 𝕜) (Y' : Matrix a (Fin r') 𝕜), (∀ i j, Y' i (Fin.castLE h j) = Y i j) → ∀ i z,
      scaled cutoff chi x.S Y i z = scaled cutoff chi y.S Y' i (Fin.cast hk.symm z) := by
    intro a Y Y' hY i z
    unfold scaled
    rw [of_apply, of_apply]
    have e : Fin.castLE (keep_le cutoff chi y.S) (Fin.cast hk.symm z) = Fin.castLE h (Fin.castLE (keep_le cutoff chi x.S) z) := rfl
    rw [e, hY, ratio_extend h t ht x.S y.S hS]
  unfold projFromSvd
  refine ProjPair.ext_cast hk.symm ?_ ?_
  · intro e d D z
    refine sum_congr rfl fun i _ => ?_
    show R1 i (e, d, D) * star (scaled cutoff chi x.S x.U i z) = R1 i (e, d, D) * star (scaled cutoff chi y.S y.U i (Fin.cast hk.symm z))
    rw [sc x.U y.U hU]
  · intro e d D z
    refine sum_congr rfl fun i _ => ?_
    show R2 (e, d, D) i * scaled cutoff chi x.S x.V i z = R2 (e, d, D) i * scaled cutoff chi y.S y.V i (Fin.cast hk.symm z)
    rw [sc x.V y.V hV]

end ext

section pairs

variable {B : Type} [Fintype B] [DecidableEq B] (st : ProjSettings 𝕜) (ω : Draws B 𝕜)

/-- The projectors of the half system come from an SVD of the environment. -/
theorem halfPair_svd (h0 : 0 ≤ st.cutoff) (key : ℕ × Site) (chi : ℕ) {m x n : ℕ} (Q1 : Matrix (Fin m × B × B) (Fin x × B × B) 𝕜)
    (Q4 : Matrix (Fin x × B × B) (Fin n × B × B) 𝕜)
    (hs : st.fullRank = true ∨ Captures (Q1 * Q4) (ω key m n (chi + st.oversampling))) :
    ∃ y : LowRank (Fin m × B × B) (Fin n × B × B) (min (Fintype.card (Fin m × B × B)) (Fintype.card (Fin n × B × B))) 𝕜,
      IsSVD (maxNormalise (Q1 * Q4)) y.U y.S y.Vᴴ ∧ halfPair st ω key chi Q1 Q4 = projFromSvd st.cutoff chi Q1 Q4 y := by
  by_cases hf : st.fullRank = true
  · refine ⟨fullSvd st.la (maxNormalise (Q1 * Q4)), ?_, ?_⟩
    · unfold fullSvd
      rw [conjTranspose_conjTranspose]
      exact st.la.svd_ok _
    · unfold halfPair
      rw [if_pos hf]
      rfl
  · have hcap := hs.resolve_left hf
    have hsvd := C43_exact st.la (chi + st.oversampling) st.niter (Q1 * Q4) _ hcap
    obtain ⟨t, ht, et⟩ := maxNormalise_scale (Q1 * Q4)
    dsimp only at hsvd
    rw [← C44_fused] at hsvd
    have hr : min (Fintype.card (Fin (clipRank (Fin m × B × B) (Fin n × B × B) (chi + st.oversampling)))) (Fintype.card (Fin n × B × B)) ≤
        min (Fintype.card (Fin m × B × B)) (Fintype.card (Fin n × B × B)) := by
      rw [Fintype.card_fin]
      exact min_le_min_right _ (clipRank_le_left _)
    obtain ⟨y, hy, eU, eV, eS, e0⟩ := complete_svd hr (min_le_left _ _) (min_le_right _ _) hsvd t ht
    refine ⟨y, et ▸ hy, ?_⟩
    unfold halfPair
    rw [if_neg hf]
    exact projFromSvd_extend st.cutoff h0 chi hr t ht Q1 Q4 _ y eU eV eS e0

/-- The projectors of the full system come from an SVD of the environment. -/
theorem fullPair_svd (h0 : 0 ≤ st.cutoff) (key : ℕ × Site) (chi : ℕ) {m x n k1 k3 : ℕ}
    (Q1 : Matrix (Fin k1 × B × B) (Fin x × B × B) 𝕜) (Q2 : Matrix (Fin m × B × B) (Fin k1 × B × B) 𝕜)
    (Q3 : Matrix (Fin k3 × B × B) (Fin n × B × B) 𝕜) (Q4 : Matrix (Fin x × B × B) (Fin k3 × B × B) 𝕜)
    (hs : st.fullRank = true ∨ (∀ a : 𝕜, star a = a) ∧ Captures (Q2 * Q1 * Q4 * Q3) (ω key m n (chi + st.oversampling))) :
    ∃ (s1 s2 : ℝ) (y : LowRank (Fin m × B × B) (Fin n × B × B) (min (Fintype.card (Fin m × B × B)) (Fintype.card (Fin n × B × B))) 𝕜),
      0 < s1 ∧ 0 < s2 ∧ IsSVD (maxNormalise (maxNormalise (Q2 * Q1) * maxNormalise (Q4 * Q3))) y.U y.S y.Vᴴ ∧
      fullPair st ω key chi Q1 Q2 Q3 Q4 = projFromSvd st.cutoff chi ((s1 : 𝕜) • (Q2 * Q1)) ((s2 : 𝕜) • (Q4 * Q3)) y := by
  obtain ⟨t1, ht1, et1⟩ := maxNormalise_scale (Q2 * Q1)
  obtain ⟨t2, ht2, et2⟩ := maxNormalise_scale (Q4 * Q3)
  by_cases hf : st.fullRank = true
  · refine ⟨t1, t2, fullSvd st.la (maxNormalise (maxNormalise (Q2 * Q1) * maxNormalise (Q4 * Q3))), ht1, ht2, ?_, ?_⟩
    · unfold fullSvd
      rw [conjTranspose_conjTranspose]
      exact st.la.svd_ok _
    · unfold fullPair
      rw [if_pos hf]
      unfold fullFullRank
      dsimp only
      rw [← et1, ← et2]
  · obtain ⟨hreal, hcap⟩ := hs.resolve_left hf
    have hsvd := C44_fused3_exact st.la (chi + st.oversampling) st.niter Q2 Q1 Q4 Q3 _ hcap
    obtain ⟨t, ht, et⟩ := maxNormalise_scale (maxNormalise (Q2 * Q1) * maxNormalise (Q4 * Q3))
    dsimp only at hsvd
    have hr : min (Fintype.card (Fin (clipRank (Fin m × B × B) (Fin n × B × B) (chi + st.oversampling)))) (Fintype.card (Fin n × B × B)) ≤
        min (Fintype.card (Fin m × B × B)) (Fintype.card (Fin n × B × B)) := by
      rw [Fintype.card_fin]
      exact min_le_min_right _ (clipRank_le_left _)
    obtain ⟨y, hy, eU, eV, eS, e0⟩ := complete_svd hr (min_le_left _ _) (min_le_right _ _) hsvd (t * t1 * t2) (by positivity)
    refine ⟨1, 1, y, one_pos, one_pos, ?_, ?_⟩
    · rw [et, et1, et2]
      have : (t : 𝕜) • ((t1 : 𝕜) • (Q2 * Q1) * ((t2 : 𝕜) • (Q4 * Q3))) = ((t * t1 * t2 : ℝ) : 𝕜) • (Q2 * Q1 * Q4 * Q3) := by
        simp only [Matrix.smul_mul, Matrix.mul_smul, smul_smul, Matrix.mul_assoc]
        push_cast
        congr 1
        ring
      rw [this]
      exact hy
    · rw [← projFromSvd_extend st.cutoff h0 chi hr _ (by positivity) ((((1 : ℝ) : 𝕜)) • (Q2 * Q1)) ((((1 : ℝ) : 𝕜)) • (Q4 * Q3)) _ y eU eV eS e0]
      unfold fullPair
      rw [if_neg hf]
      unfold fullRsvd projFromSvd
      dsimp only
      refine ProjPair.ext_cast rfl ?_ ?_
      · intro e d D z
        have ct : ∀ {a b : Type} (M : Matrix a b 𝕜), Mᴴ = Mᵀ := by
          intro a b M
          ext i j
          exact hreal _
        rw [RCLike.ofReal_one, one_smul, ct, ct, ← Matrix.mul_assoc, ← transpose_mul, Matrix.mul_apply]
        rfl
      · intro e d D z
        rw [RCLike.ofReal_one, one_smul, ← Matrix.mul_assoc, Matrix.mul_apply]
        rfl

omit [Fintype B] [DecidableEq B] in
/-- The environment of the full system, whatever the factors of its two halves. -/
theorem envScale {m x n k1 k3 : Type} [Fintype m] [Fintype x] [Fintype n] [Fintype k1] [Fintype k3] (Q1 : Matrix k1 x 𝕜)
    (Q2 : Matrix m k1 𝕜) (Q3 : Matrix k3 n 𝕜) (Q4 : Matrix x k3 𝕜) {u1 u2 : ℝ} (hu1 : 0 < u1) (hu2 : 0 < u2) :
    ∃ s : ℝ, 0 < s ∧ maxNormalise (maxNormalise (Q2 * Q1) * maxNormalise (Q4 * Q3)) =
      (s : 𝕜) • ((u1 : 𝕜) • (Q2 * Q1) * ((u2 : 𝕜) • (Q4 * Q3))) := by
  obtain ⟨t1, ht1, et1⟩ := maxNormalise_scale (Q2 * Q1)
  obtain ⟨t2, ht2, et2⟩ := maxNormalise_scale (Q4 * Q3)
  obtain ⟨t, ht, et⟩ := maxNormalise_scale (maxNormalise (Q2 * Q1) * maxNormalise (Q4 * Q3))
  refine ⟨t * t1 * t2 / (u1 * u2), by positivity, ?_⟩
  rw [et, et1, et2]
  simp only [Matrix.smul_mul, Matrix.mul_smul, smul_smul]
  congr 1
  have h1 : (u1 : 𝕜) ≠ 0 := RCLike.ofReal_ne_zero.2 hu1.ne'
  have h2 : (u2 : 𝕜) ≠ 0 := RCLike.ofReal_ne_zero.2 hu2.ne'
  push_cast
  field_simp

end pairs

section full

variable {B P : Type} [Fintype B] [Fintype P] [DecidableEq B] {st : ProjSettings 𝕜} (hf : st.fullRank = true) (pk : ProjKind)
  (ω : ℕ → Draws B 𝕜)

include hf

/-- Full-rank decompositions are exact. -/
theorem svdRun_full (ms : List Move) (t : ℕ) (net : Net (Ten B P 𝕜)) : SvdRun st pk ω t ms net := by
  induction ms generalizing t net with
  | nil => exact True.intro
  | cons m ms ih => exact ⟨fun _ _ _ => Or.inl hf, fun _ _ => ih _ _⟩

theorem svdSteps_full (ss : List (NetStep B P 𝕜)) (t : ℕ) (net : Net (Ten B P 𝕜)) : SvdSteps st pk ω t ss net := by
  induction ss generalizing t net with
  | nil => exact True.intro
  | cons s ss ih =>
    cases s with
    | write s a => exact ih _ _
    | move m => exact ⟨fun _ _ _ => Or.inl hf, fun _ _ => ih _ _⟩

end full

end AceTN
