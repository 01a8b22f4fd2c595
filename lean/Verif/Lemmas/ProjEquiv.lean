import Verif.Lemmas.SvdUnique
import Verif.Model.Projectors
import Verif.Spec.LinkChange

/-!
The projectors of a cut after a change of basis of its environment.
-/

set_option autoImplicit false

namespace AceTN

open Matrix Spec

variable {𝕜 : Type} [RCLike 𝕜]

section unit2

variable {m n l k : Type} [Fintype m] [Fintype n] [Fintype l] [Fintype k] [DecidableEq m] [DecidableEq n] [DecidableEq l] [DecidableEq k]

theorem Spec.Unit2.card {J : Matrix m n 𝕜} (h : Unit2 J) : Fintype.card m = Fintype.card n := by
  have h1 := congrArg trace h.left
  have h2 := congrArg trace h.right
  rw [trace_mul_comm, h2, trace_one, trace_one] at h1
  exact_mod_cast h1

theorem Spec.Unit2.one : Unit2 (1 : Matrix m m 𝕜) := ⟨by simp, by simp⟩

theorem Spec.Unit2.map {J : Matrix m n 𝕜} (h : Unit2 J) (σ : ScalarMap 𝕜) : Unit2 (J.map σ.f) := by
  have hs : (J.map σ.f)ᴴ = Jᴴ.map σ.f := by
    ext i j
    exact (σ.star _).symm
  constructor
  · rw [hs, ← Matrix.map_mul, h.left, Matrix.map_one _ (map_zero _) (map_one _)]
  · rw [hs, ← Matrix.map_mul, h.right, Matrix.map_one _ (map_zero _) (map_one _)]

omit [DecidableEq m] [DecidableEq n] [DecidableEq l] [Fintype m] [Fintype l] in
theorem map_star_mul (X : Matrix m n 𝕜) (Y : Matrix n l 𝕜) : (X * Y).map Star.star = X.map Star.star * Y.map Star.star := by
  ext i j
  simp [mul_apply]

theorem Spec.Unit2.star {J : Matrix m n 𝕜} (h : Unit2 J) : Unit2 (J.map star) := by
  have hs : (J.map Star.star)ᴴ = Jᴴ.map Star.star := by
    ext i j
    rfl
  constructor
  · rw [hs, ← map_star_mul, h.left, Matrix.map_one _ (star_zero _) (star_one _)]
  · rw [hs, ← map_star_mul, h.right, Matrix.map_one _ (star_zero _) (star_one _)]

theorem Spec.Unit2.mul {J : Matrix m n 𝕜} {K : Matrix n l 𝕜} (h : Unit2 J) (h' : Unit2 K) : Unit2 (J * K) := by
  constructor
  · rw [conjTranspose_mul, Matrix.mul_assoc, ← Matrix.mul_assoc _ J, h.left, Matrix.one_mul, h'.left]
  · rw [conjTranspose_mul, Matrix.mul_assoc, ← Matrix.mul_assoc K, h'.right, Matrix.one_mul, h.right]

theorem Spec.Unit2.conjTranspose {J : Matrix m n 𝕜} (h : Unit2 J) : Unit2 Jᴴ :=
  ⟨by rw [conjTranspose_conjTranspose, h.right], by rw [conjTranspose_conjTranspose, h.left]⟩

theorem Spec.Unit2.equiv (e : m ≃ n) : Unit2 ((1 : Matrix n n 𝕜).submatrix id e) := by
  have hs : ((1 : Matrix n n 𝕜).submatrix id e)ᴴ = (1 : Matrix n n 𝕜).submatrix e id := by
    rw [conjTranspose_submatrix, conjTranspose_one]
  constructor
  · rw [hs]
    have := submatrix_mul_equiv (1 : Matrix n n 𝕜) (1 : Matrix n n 𝕜) e (Equiv.refl n) e
    refine this.trans ?_
    rw [Matrix.one_mul, submatrix_one_equiv]
  · rw [hs, submatrix_mul_equiv, Matrix.one_mul, submatrix_id_id]

omit [Fintype m] [Fintype n] [Fintype l] [Fintype k] [DecidableEq m] [DecidableEq n] [DecidableEq l] [DecidableEq k] in
/-- The change of a pair of indices. -/
def pairMat (J : Matrix m n 𝕜) (K : Matrix l k 𝕜) : Matrix (m × l) (n × k) 𝕜 := of fun i j => J i.1 j.1 * K i.2 j.2

theorem Spec.Unit2.pair {J : Matrix m n 𝕜} {K : Matrix l k 𝕜} (h : Unit2 J) (h' : Unit2 K) : Unit2 (pairMat J K) := by
  have key : ∀ {a b c d e f : Type} [Fintype b] [Fintype e] (X : Matrix a b 𝕜) (Y : Matrix b c 𝕜) (Z : Matrix d e 𝕜) (T : Matrix e f 𝕜),
      (of fun (i : a × d) (j : b × e) => X i.1 j.1 * Z i.2 j.2) * (of fun (i : b × e) (j : c × f) => Y i.1 j.1 * T i.2 j.2) =
      of fun (i : a × d) (j : c × f) => (X * Y) i.1 j.1 * (Z * T) i.2 j.2 := by
    intro a b c d e f _ _ X Y Z T
    ext i j
    simp only [mul_apply, of_apply, Fintype.sum_prod_type, Finset.sum_mul_sum]
    exact Finset.sum_congr rfl fun _ _ => Finset.sum_congr rfl fun _ _ => by ring
  have hs : (pairMat J K)ᴴ = of fun i j => Jᴴ i.1 j.1 * Kᴴ i.2 j.2 := by
    ext i j
    simp [pairMat]
  have ho : ∀ {a b : Type} [DecidableEq a] [DecidableEq b],
      (of fun (i : a × b) (j : a × b) => (1 : Matrix a a 𝕜) i.1 j.1 * (1 : Matrix b b 𝕜) i.2 j.2) = 1 := by
    intro a b _ _
    ext i j
    simp only [of_apply, one_apply, Prod.ext_iff]
    split_ifs <;> simp_all
  constructor
  · rw [hs]
    refine (key _ _ _ _).trans ?_
    rw [h.left, h'.left, ho]
  · rw [hs]
    refine (key _ _ _ _).trans ?_
    rw [h.right, h'.right, ho]

end unit2

theorem Spec.ScalarMap.norm (σ : ScalarMap 𝕜) (x : 𝕜) : ‖σ.f x‖ = ‖x‖ := by
  have h := congrArg σ.f (RCLike.mul_conj x)
  rw [map_mul, ← RCLike.star_def, σ.star, RCLike.star_def, RCLike.mul_conj, ← RCLike.ofReal_pow, ← RCLike.ofReal_pow, σ.real] at h
  have h : ‖σ.f x‖ ^ 2 = ‖x‖ ^ 2 := by exact_mod_cast h
  exact (sq_eq_sq₀ (norm_nonneg _) (norm_nonneg _)).1 h

section svd

variable {m n m' n' : Type} [Fintype m] [Fintype n] [Fintype m'] [Fintype n'] [DecidableEq m] [DecidableEq n] [DecidableEq m']
  [DecidableEq n'] {r : ℕ}

/-- A decomposition after a change of basis. -/
theorem svd_change (σ : ScalarMap 𝕜) {A : Matrix m n 𝕜} {U : Matrix m (Fin r) 𝕜} {S : Fin r → ℝ} {Vh : Matrix (Fin r) n 𝕜}
    (h : IsSVD A U S Vh) {J : Matrix m' m 𝕜} {K : Matrix n' n 𝕜} (hJ : Unit2 J) (hK : Unit2 K) (t : ℝ) (ht : 0 < t) :
    IsSVD ((t : 𝕜) • (J * A.map σ.f * Kᴴ)) (J * U.map σ.f) (fun i => t * S i) (Vh.map σ.f * Kᴴ) := by
  have hs : ∀ {a b : Type} (X : Matrix a b 𝕜), (X.map σ.f)ᴴ = Xᴴ.map σ.f := by
    intro a b X
    ext i j
    exact (σ.star _).symm
  refine ⟨?_, ?_, ?_, fun i => mul_nonneg ht.le (h.nonneg i), fun i j hij => mul_le_mul_of_nonneg_left (h.sorted i j hij) ht.le⟩
  · have hd : (diagonal fun i => ((t * S i : ℝ) : 𝕜)) = (t : 𝕜) • (diagonal fun i => (S i : 𝕜)).map σ.f := by
      ext i j
      by_cases hij : i = j
      · subst hij
        simp [σ.real]
      · simp [hij]
    rw [hd, h.mul, Matrix.map_mul, Matrix.map_mul]
    simp only [Matrix.mul_assoc, Matrix.mul_smul, Matrix.smul_mul]
  · rw [conjTranspose_mul, Matrix.mul_assoc, ← Matrix.mul_assoc _ J, hJ.left, Matrix.one_mul, hs, ← Matrix.map_mul, h.left,
      Matrix.map_one _ (map_zero _) (map_one _)]
  · rw [conjTranspose_mul, conjTranspose_conjTranspose, Matrix.mul_assoc, ← Matrix.mul_assoc _ K, hK.left, Matrix.one_mul, hs,
      ← Matrix.map_mul, h.right, Matrix.map_one _ (map_zero _) (map_one _)]

end svd

theorem firstS_scale {r : ℕ} (t : ℝ) (s : Fin r → ℝ) : firstS (fun i => t * s i) = t * firstS s := by
  unfold firstS
  split_ifs <;> simp

theorem ratio_scale {r : ℕ} (t : ℝ) (ht : 0 < t) (s : Fin r → ℝ) (i : Fin r) :
    t * s i / firstS (fun i => t * s i) = s i / firstS s := by
  rw [firstS_scale, mul_div_mul_left _ _ ht.ne']

theorem keep_scale {r : ℕ} (cutoff : ℝ) (chi : ℕ) (t : ℝ) (ht : 0 < t) (s : Fin r → ℝ) :
    keep cutoff chi (fun i => t * s i) = keep cutoff chi s := by
  unfold keep
  simp only [ratio_scale t ht s]

/-- Kept singular values are positive. -/
theorem kept_pos {r : ℕ} (cutoff : ℝ) (hc : 0 ≤ cutoff) (chi : ℕ) (S : Fin r → ℝ) (hn : ∀ i, 0 ≤ S i) (hs : ∀ i j, i ≤ j → S j ≤ S i)
    (i : Fin r) (hi : i.val < keep cutoff chi S) : 0 < S i := by
  by_contra h0
  have h0 : S i = 0 := le_antisymm (not_lt.1 h0) (hn i)
  have hsub : (Finset.univ.filter fun j => cutoff < S j / firstS S) ⊆ Finset.univ.filter fun j : Fin r => j.val < i.val := by
    intro j hj
    rw [Finset.mem_filter] at hj ⊢
    refine ⟨Finset.mem_univ _, ?_⟩
    by_contra hji
    have : S j = 0 := le_antisymm ((hs i j (not_lt.1 hji)).trans h0.le) (hn j)
    rw [this, zero_div] at hj
    exact absurd hj.2 (not_lt.2 hc)
  have hcard := Finset.card_le_card hsub
  have : (Finset.univ.filter fun j : Fin r => j.val < i.val).card = i.val := by
    rw [Fin.card_filter_val_lt]
    exact min_eq_right i.isLt.le
  rw [this] at hcard
  have : keep cutoff chi S ≤ i.val := (Nat.min_le_right _ _).trans hcard
  omega

section proj

variable {m n m' n' X X' : Type} [Fintype m] [Fintype n] [Fintype m'] [Fintype n'] [DecidableEq m] [DecidableEq n] [DecidableEq m']
  [DecidableEq n'] [Fintype X] {r r' : ℕ}

/-- The two projectors after a change of basis on both sides of the cut, up to a change of basis of the new bond. -/
theorem proj_equiv (σ : ScalarMap 𝕜) (cutoff : ℝ) (hc : 0 ≤ cutoff) (chi : ℕ)
    {A : Matrix m n 𝕜} {U : Matrix m (Fin r) 𝕜} {S : Fin r → ℝ} {Vh : Matrix (Fin r) n 𝕜} (h : IsSVD A U S Vh)
    {A' : Matrix m' n' 𝕜} {U' : Matrix m' (Fin r') 𝕜} {S' : Fin r' → ℝ} {Vh' : Matrix (Fin r') n' 𝕜} (h' : IsSVD A' U' S' Vh')
    {J : Matrix m' m 𝕜} {K : Matrix n' n 𝕜} (hJ : Unit2 J) (hK : Unit2 K) (t : ℝ) (ht : 0 < t) (hr : r' = r)
    (hA : A' = (t : 𝕜) • (J * A.map σ.f * Kᴴ)) (hgap : Drop cutoff chi S)
    (R1 : Matrix m X 𝕜) (R2 : Matrix X n 𝕜) (R1' : Matrix m' X' 𝕜) (R2' : Matrix X' n' 𝕜) (G : Matrix X' X 𝕜) (t1 t2 : ℝ)
    (h1 : R1' = (t1 : 𝕜) • (J * R1.map σ.f * Gᴴ)) (h2 : R2' = (t2 : 𝕜) • (G * R2.map σ.f * Kᴴ)) :
    ∃ W : Matrix (Fin (keep cutoff chi S')) (Fin (keep cutoff chi S)) 𝕜, Unit2 W ∧
      R1'ᵀ * (scaled cutoff chi S' U').map star =
        (t1 : 𝕜) • (G.map star * (R1ᵀ * (scaled cutoff chi S U).map star).map σ.f * Wᵀ) ∧
      R2' * scaled cutoff chi S' Vh'ᴴ = (t2 : 𝕜) • (G * (R2 * scaled cutoff chi S Vhᴴ).map σ.f * Wᴴ) := by
  subst hr hA
  have hch := svd_change σ h hJ hK t ht
  obtain rfl := svd_values hch h'
  have hkr := keep_le cutoff chi S
  obtain ⟨W, w1, w2, hdeg, u1, u2⟩ := svd_leading hch h' (keep cutoff chi S) hkr
    (fun i hi => mul_pos ht (kept_pos cutoff hc chi S h.nonneg h.sorted i hi))
    (fun i j hi hj => mul_lt_mul_of_pos_left (hgap i j hi hj) ht)
  have hk := keep_scale cutoff chi t ht S
  set δ : Fin (keep cutoff chi S) → 𝕜 := fun z => ((1 / Real.sqrt (S (Fin.castLE hkr z) / firstS S) : ℝ) : 𝕜) with hδ
  set ε : Matrix (Fin (keep cutoff chi S)) (Fin (keep cutoff chi fun i => t * S i)) 𝕜 :=
    (1 : Matrix _ _ 𝕜).submatrix id (Fin.cast hk) with hε
  have sc : ∀ {a : Type} (Y : Matrix a (Fin r') 𝕜), scaled cutoff chi S Y = Y.submatrix id (Fin.castLE hkr) * diagonal δ := by
    intro a Y
    ext x z
    rw [mul_diagonal]
    rfl
  have sc' : ∀ {a : Type} (Y : Matrix a (Fin r') 𝕜),
      scaled cutoff chi (fun i => t * S i) Y = Y.submatrix id (Fin.castLE hkr) * diagonal δ * ε := by
    intro a Y
    ext x z
    have : (Y.submatrix id (Fin.castLE hkr) * diagonal δ * ε) x z = (Y.submatrix id (Fin.castLE hkr) * diagonal δ) x (Fin.cast hk z) := by
      rw [mul_apply, Finset.sum_eq_single (Fin.cast hk z)]
      · rw [hε, submatrix_apply, id, one_apply_eq, mul_one]
      · intro w _ hw
        rw [hε, submatrix_apply, id, one_apply_ne hw, mul_zero]
      · exact fun h => absurd (Finset.mem_univ _) h
    rw [this, mul_diagonal, hδ]
    show _ * ((1 / Real.sqrt (t * S _ / firstS fun i => t * S i) : ℝ) : 𝕜) = _
    rw [ratio_scale t ht S]
    rfl
  have hεu : Unit2 ε := Unit2.equiv (finCongr hk)
  have hWδ : W * diagonal δ = diagonal δ * W := by
    ext a b
    rw [mul_diagonal, diagonal_mul]
    by_cases hab : W a b = 0
    · rw [hab, zero_mul, mul_zero]
    · have := hdeg a b hab
      have : S (Fin.castLE hkr a) = S (Fin.castLE hkr b) := mul_left_cancel₀ ht.ne' this
      rw [hδ]
      dsimp only
      rw [this, mul_comm]
  have hσδ : (diagonal δ).map σ.f = diagonal δ := by
    ext a b
    by_cases hab : a = b
    · subst hab
      simp only [map_apply, diagonal_apply_eq]
      exact σ.real _
    · simp [hab]
  have hsδ : (diagonal δ).map star = diagonal δ := by
    ext a b
    by_cases hab : a = b
    · subst hab
      simp only [map_apply, diagonal_apply_eq]
      exact RCLike.conj_ofReal _
    · simp [hab]
  have sub : ∀ {a b : Type} [Fintype b] (Y : Matrix a b 𝕜) (Z : Matrix b (Fin r') 𝕜),
      (Y * Z).submatrix id (Fin.castLE hkr) = Y * Z.submatrix id (Fin.castLE hkr) := by
    intro a b _ Y Z
    ext i j
    simp [mul_apply]
  have hstar : ∀ {a b : Type} (Y : Matrix a b 𝕜), (Y.map σ.f).map star = (Y.map star).map σ.f := by
    intro a b Y
    ext i j
    exact (σ.star _).symm
  refine ⟨(W * ε)ᴴ, (Unit2.mul ⟨w1, w2⟩ hεu).conjTranspose, ?_, ?_⟩
  · have e1 : U'.submatrix id (Fin.castLE hkr) * diagonal δ * ε =
        J * ((scaled cutoff chi S U).map σ.f * (W * ε)) := by
      rw [u1, sub, sc, Matrix.map_mul, hσδ]
      calc _ = J * (U.map σ.f).submatrix id (Fin.castLE hkr) * (W * diagonal δ) * ε := by simp only [Matrix.mul_assoc]
        _ = _ := by
          rw [hWδ]
          simp only [Matrix.mul_assoc]
          rfl
    have e2 : R1'ᵀ = (t1 : 𝕜) • (G.map star * (R1ᵀ).map σ.f * (J.map star)ᴴ) := by
      rw [h1, transpose_smul, transpose_mul, transpose_mul]
      have hj : (J.map star)ᴴ = Jᵀ := by
        ext i j
        simp
      rw [← Matrix.mul_assoc, hj]
      rfl
    have e3 : ((W * ε)ᴴ)ᵀ = (W * ε).map star := rfl
    rw [sc', e1, map_star_mul, map_star_mul, e2, e3, Matrix.map_mul, hstar, Matrix.smul_mul]
    congr 1
    calc _ = G.map star * (R1ᵀ).map σ.f * ((J.map star)ᴴ * J.map star) * ((scaled cutoff chi S U).map star).map σ.f *
          (W * ε).map star := by simp only [Matrix.mul_assoc]
      _ = _ := by
        rw [hJ.star.left, Matrix.mul_one]
        simp only [Matrix.mul_assoc]
  · have e0 : (Vh'ᴴ).submatrix id (Fin.castLE hkr) = K * ((Vhᴴ).map σ.f).submatrix id (Fin.castLE hkr) * W := by
      have := congrArg conjTranspose u2
      rw [conjTranspose_mul, conjTranspose_conjTranspose] at this
      refine this.trans ?_
      congr 1
      rw [← sub]
      have : (Vhᴴ).map σ.f = (Vh.map σ.f)ᴴ := by
        ext i j
        exact σ.star _
      have hk : K * (Vh.map σ.f)ᴴ = (Vh.map σ.f * Kᴴ)ᴴ := by rw [conjTranspose_mul, conjTranspose_conjTranspose]
      rw [this, hk]
      rfl
    have e1 : (Vh'ᴴ).submatrix id (Fin.castLE hkr) * diagonal δ * ε =
        K * ((scaled cutoff chi S Vhᴴ).map σ.f * (W * ε)) := by
      rw [e0, sc, Matrix.map_mul, hσδ]
      calc _ = K * ((Vhᴴ).map σ.f).submatrix id (Fin.castLE hkr) * (W * diagonal δ) * ε := by simp only [Matrix.mul_assoc]
        _ = _ := by
          rw [hWδ]
          simp only [Matrix.mul_assoc]
          rfl
    rw [sc', e1, h2, conjTranspose_conjTranspose, Matrix.map_mul, Matrix.smul_mul]
    congr 1
    calc _ = G * R2.map σ.f * (Kᴴ * K) * ((scaled cutoff chi S Vhᴴ).map σ.f * (W * ε)) := by simp only [Matrix.mul_assoc]
      _ = _ := by
        rw [hK.left, Matrix.mul_one]
        simp only [Matrix.mul_assoc]

end proj

end AceTN
