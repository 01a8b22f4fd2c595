import Verif.Model.FullUpdate
import Verif.Spec.Pair
import Verif.Lemmas.EckartYoung
import Verif.Lemmas.SumTac

/-! C37 (starting point of the alternating solver) and C38 (finalising). -/

set_option autoImplicit false

namespace AceTN

open Full Matrix Spec SumTac

variable {𝕜 : Type} [RCLike 𝕜] {N P : Type} [Fintype N] [Fintype P] [DecidableEq N] [DecidableEq P] {bD : ℕ}

theorem sum_castLE {M : Type} [AddCommMonoid M] {b r : ℕ} (h : b ≤ r) (f : Fin r → M) :
    ∑ u : Fin b, f (Fin.castLE h u) = ∑ i : Fin r, if i.val < b then f i else 0 := by
  rw [← Finset.sum_filter]
  refine Finset.sum_bij (fun u _ => Fin.castLE h u) (fun u _ => by simp) (fun u _ v _ e => ?_) (fun i hi => ?_)
    (fun u _ => rfl)
  · exact Fin.ext (by simpa using congrArg Fin.val e)
  · exact ⟨⟨i.val, by simpa using hi⟩, Finset.mem_univ _, Fin.ext rfl⟩

/-- A two-site tensor as a matrix between the two sites. -/
def siteMat (t : N → N → P → P → 𝕜) : Matrix (N × P) (N × P) 𝕜 := of fun i j => t i.1 j.1 i.2 j.2

omit [DecidableEq N] [DecidableEq P] in
theorem frobSq_siteMat (t : N → N → P → P → 𝕜) : frobSq (siteMat t) = normSq4 t := by
  unfold frobSq normSq4 siteMat
  simp only [Fintype.sum_prod_type, of_apply]
  refine Finset.sum_congr rfl fun y _ => ?_
  rw [Finset.sum_comm]

omit [DecidableEq N] [DecidableEq P] [Fintype N] [Fintype P] in
theorem siteMat_pairProd {B : Type} [Fintype B] (a1 a2 : N → B → P → 𝕜) :
    siteMat (pairProd a1 a2) = (of fun (i : N × P) u => a1 i.1 u i.2) * (of fun u (j : N × P) => a2 j.1 u j.2) := by
  ext i j
  rw [mul_apply]
  rfl

/-- The singular value decomposition used by `initReduced`. -/
theorem init_svd (la : Lapack 𝕜) (a12g : N → N → P → P → 𝕜) :
    IsSVD (siteMat a12g) (la.svd (siteMat a12g)).1 (la.svd (siteMat a12g)).2.1 (la.svd (siteMat a12g)).2.2 :=
  la.svd_ok _

/-- The product of the starting pair. -/
theorem init_prod (la : Lapack 𝕜) (hb : bD ≤ min (Fintype.card (N × P)) (Fintype.card (N × P)))
    (a12g : N → N → P → P → 𝕜)
    (y x : N) (p q : P) :
    pairProd (initReduced la hb a12g).1 (initReduced la hb a12g).2 y x p q =
      ∑ u : Fin bD, (la.svd (siteMat a12g)).1 (y, p) (Fin.castLE hb u) *
        (((la.svd (siteMat a12g)).2.1 (Fin.castLE hb u) / (la.svd (siteMat a12g)).2.1 (Fin.castLE hb ⟨0, u.pos⟩) : ℝ) : 𝕜) *
        star ((la.svd (siteMat a12g)).2.2 (Fin.castLE hb u) (x, q)) := by
  have hsvd := init_svd la a12g
  unfold pairProd
  refine Finset.sum_congr rfl fun u _ => ?_
  unfold initReduced
  dsimp only
  change (la.svd (siteMat a12g)).1 (y, p) (Fin.castLE hb u) * _ * (star ((la.svd (siteMat a12g)).2.2 (Fin.castLE hb u) (x, q)) * _) = _
  have h0 : 0 ≤ (la.svd (siteMat a12g)).2.1 (Fin.castLE hb u) / (la.svd (siteMat a12g)).2.1 (Fin.castLE hb ⟨0, u.pos⟩) :=
    div_nonneg (hsvd.nonneg _) (hsvd.nonneg _)
  have hs : ∀ t : ℝ, 0 ≤ t → ((t : ℝ) : 𝕜) = ((Real.sqrt t : ℝ) : 𝕜) * ((Real.sqrt t : ℝ) : 𝕜) := fun t ht => by
    rw [← RCLike.ofReal_mul, Real.mul_self_sqrt ht]
  rw [hs _ h0]
  have hm : (of fun (i j : N × P) => a12g i.1 j.1 i.2 j.2) = siteMat a12g := rfl
  rw [hm]
  ring

namespace Spec

/-- `φ` is, up to a positive factor, a best approximation of `t` by a product of two reduced tensors with bond dimension
`bD` (Frobenius norm). -/
def BestSplit (bD : ℕ) (t φ : N → N → P → P → 𝕜) : Prop :=
  (∃ a1 a2 : N → Fin bD → P → 𝕜, φ = pairProd a1 a2) ∧
  ∃ c : ℝ, 0 < c ∧ ∀ b1 b2 : N → Fin bD → P → 𝕜,
    normSq4 (fun y x p q => t y x p q - (c : 𝕜) * φ y x p q) ≤ normSq4 (fun y x p q => t y x p q - pairProd b1 b2 y x p q)

/-- The intended statement: the product of the starting pair is a best approximation of a non-zero target. -/
def InitIsTruncation (𝕜 : Type) [RCLike 𝕜] : Prop :=
  ∀ (N P : Type) [Fintype N] [Fintype P] [DecidableEq N] [DecidableEq P] (bD : ℕ)
    (hb : bD ≤ min (Fintype.card (N × P)) (Fintype.card (N × P))) (la : Lapack 𝕜) (a12g : N → N → P → P → 𝕜),
    a12g ≠ 0 → BestSplit bD a12g (pairProd (initReduced la hb a12g).1 (initReduced la hb a12g).2)

end Spec

/-- **C37** for real dtypes: the starting pair multiplies to the best approximation of the target. -/
theorem C37_real_partial : Spec.InitIsTruncation ℝ := by
  intro N P _ _ _ _ bD hb la a12g hne
  refine ⟨⟨_, _, rfl⟩, ?_⟩
  have hsvd := init_svd la a12g
  set U := (la.svd (siteMat a12g)).1 with hU
  set S := (la.svd (siteMat a12g)).2.1 with hSdef
  set Vh := (la.svd (siteMat a12g)).2.2 with hVh
  have key : ∀ c : ℝ, (∀ h : 0 < bD, c = S (Fin.castLE hb ⟨0, h⟩) ∧ 0 < c) → ∀ b1 b2 : N → Fin bD → P → ℝ,
      normSq4 (fun y x p q => a12g y x p q - (c : ℝ) *
        pairProd (initReduced la hb a12g).1 (initReduced la hb a12g).2 y x p q) ≤
      normSq4 (fun y x p q => a12g y x p q - pairProd b1 b2 y x p q) := by
    intro c hc b1 b2
    have h1 := eckart_young _ U S Vh hsvd (of fun (i : N × P) u => b1 i.1 u i.2) (of fun u (j : N × P) => b2 j.1 u j.2)
    rw [← siteMat_pairProd, Fintype.card_fin] at h1
    have e2 : siteMat a12g - siteMat (pairProd b1 b2) =
        siteMat (fun y x p q => a12g y x p q - pairProd b1 b2 y x p q) := rfl
    have e3 : siteMat a12g - truncSVD U S Vh bD = siteMat (fun y x p q => a12g y x p q - (c : ℝ) *
        pairProd (initReduced la hb a12g).1 (initReduced la hb a12g).2 y x p q) := by
      ext ⟨y, p⟩ ⟨x, q⟩
      simp only [siteMat, Matrix.sub_apply, of_apply]
      congr 1
      rw [init_prod, ← hU, ← hSdef, ← hVh, Finset.mul_sum]
      unfold truncSVD
      rw [mul_apply]
      simp only [mul_diagonal]
      have e4 : ∀ i : Fin (min (Fintype.card (N × P)) (Fintype.card (N × P))),
          (U (y, p) i * if i.val < bD then ((S i : ℝ) : ℝ) else 0) * Vh i (x, q) =
          if i.val < bD then U (y, p) i * S i * Vh i (x, q) else 0 := by
        intro i; split <;> simp
      refine (Finset.sum_congr rfl fun i _ => e4 i).trans ?_
      rw [← sum_castLE hb fun i => U (y, p) i * S i * Vh i (x, q)]
      refine Finset.sum_congr rfl fun u _ => ?_
      obtain ⟨h5, h6⟩ := hc u.pos
      rw [← h5]
      simp only [RCLike.ofReal_real_eq_id, id_eq, star_trivial]
      field_simp
    rw [e2, e3, frobSq_siteMat, frobSq_siteMat] at h1
    exact h1
  rcases Nat.eq_zero_or_pos bD with h0 | h0
  · exact ⟨1, one_pos, key 1 fun h => absurd h (by omega)⟩
  · have hpos : 0 < S (Fin.castLE hb ⟨0, h0⟩) := by
      rcases (hsvd.nonneg (Fin.castLE hb ⟨0, h0⟩)).lt_or_eq with h | h
      · exact h
      · exfalso
        apply hne
        have hz : ∀ i, S i = 0 := fun i =>
          le_antisymm ((hsvd.sorted (Fin.castLE hb ⟨0, h0⟩) i (Fin.mk_le_of_le_val (Nat.zero_le _))).trans h.symm.le)
            (hsvd.nonneg i)
        have hd : diagonal (fun i => ((S i : ℝ) : ℝ)) = 0 := by
          ext i j
          by_cases hij : i = j
          · subst hij; simpa using hz i
          · simp [hij]
        have hA := hsvd.mul
        have hd' : diagonal (fun i => (RCLike.ofReal (S i) : ℝ)) = 0 := hd
        rw [hd', Matrix.mul_zero, Matrix.zero_mul] at hA
        funext y x p q
        exact congrFun (congrFun hA (y, p)) (x, q)
    exact ⟨_, hpos, key _ fun h => ⟨rfl, hpos⟩⟩

/-- The target of the counterexample: `u ⊗ v` with `u = (1, 0)` and `v = (1, i)`. -/
def conjTarget : Fin 1 → Fin 1 → Fin 2 → Fin 2 → ℂ := fun _ _ p q =>
  if p = 0 then (if q = 0 then 1 else Complex.I) else 0

/-- **C37** is violated for complex dtypes, whatever the SVD routine returns: the right factor is conjugated
(`V = Vh.mH`), so that even a product target is not reproduced. -/
theorem C37_violated_complex (la : Lapack ℂ) (hb : 1 ≤ min (Fintype.card (Fin 1 × Fin 2)) (Fintype.card (Fin 1 × Fin 2))) :
    ¬ Spec.BestSplit 1 conjTarget (pairProd (initReduced la hb conjTarget).1 (initReduced la hb conjTarget).2) := by
  rintro ⟨-, c, hc, h⟩
  have hsvd := init_svd la conjTarget
  set U := (la.svd (siteMat conjTarget)).1 with hU
  set S := (la.svd (siteMat conjTarget)).2.1 with hSdef
  set Vh := (la.svd (siteMat conjTarget)).2.2 with hVh
  have hr : pairProd (fun (_ : Fin 1) (_ : Fin 1) (p : Fin 2) => if p = 0 then (1 : ℂ) else 0)
      (fun _ _ q => if q = 0 then 1 else Complex.I) = conjTarget := by
    funext y x p q
    simp only [pairProd, conjTarget, Finset.univ_unique, Finset.sum_singleton]
    by_cases hp : p = 0 <;> simp [hp]
  have h0 := h (fun (_ : Fin 1) (_ : Fin 1) (p : Fin 2) => if p = 0 then (1 : ℂ) else 0)
    (fun _ _ q => if q = 0 then 1 else Complex.I)
  rw [hr] at h0
  have hz : normSq4 (fun y x p q => conjTarget y x p q - (c : ℂ) *
      pairProd (initReduced la hb conjTarget).1 (initReduced la hb conjTarget).2 y x p q) ≤ 0 := by
    refine h0.trans (le_of_eq ?_)
    simp [normSq4]
  have hpt : ∀ q : Fin 2, conjTarget 0 0 0 q = (c : ℂ) *
      pairProd (initReduced la hb conjTarget).1 (initReduced la hb conjTarget).2 0 0 0 q := by
    intro q
    rw [← frobSq_siteMat] at hz
    have := (frobSq_eq_zero _).1 (le_antisymm hz (frobSq_nonneg _))
    exact sub_eq_zero.1 (congrFun (congrFun this (0, 0)) (0, q))
  set z : Fin (min (Fintype.card (Fin 1 × Fin 2)) (Fintype.card (Fin 1 × Fin 2))) := Fin.castLE hb 0 with hzdef
  have hex := truncSVD_exact _ U S Vh hsvd
    (of fun (i : Fin 1 × Fin 2) (_ : Fin 1) => if i.2 = 0 then (1 : ℂ) else 0)
    (of fun (_ : Fin 1) (j : Fin 1 × Fin 2) => if j.2 = 0 then 1 else Complex.I) (by
      rw [← hr]
      exact siteMat_pairProd _ _)
  rw [Fintype.card_fin] at hex
  have hent : ∀ q : Fin 2, conjTarget 0 0 0 q = U (0, 0) z * (S z : ℂ) * Vh z (0, q) := by
    intro q
    have e := congrFun (congrFun hex (0, 0)) (0, q)
    unfold truncSVD at e
    rw [mul_apply, Finset.sum_eq_single z] at e
    · rw [mul_diagonal, if_pos (by simp [hzdef])] at e
      exact e.symm
    · intro i _ hi
      rw [mul_diagonal, if_neg, mul_zero, zero_mul]
      intro hi'
      exact hi (Fin.ext (by simp only [hzdef, Fin.val_castLE, Fin.val_zero]; omega))
    · simp
  have hprod : ∀ q : Fin 2, conjTarget 0 0 0 q = (c : ℂ) * (U (0, 0) z * ((S z / S z : ℝ) : ℂ) * star (Vh z (0, q))) := by
    intro q
    rw [hpt q, init_prod, ← hU, ← hSdef, ← hVh]
    simp only [Finset.univ_unique, Finset.sum_singleton]
    rfl
  have c0 : conjTarget 0 0 0 0 = 1 := by simp [conjTarget]
  have c1 : conjTarget 0 0 0 1 = Complex.I := by simp [conjTarget]
  have a0 := hent 0
  have a1 := hent 1
  have b0 := hprod 0
  have b1 := hprod 1
  rw [c0] at a0 b0
  rw [c1] at a1 b1
  have hS : (S z : ℂ) ≠ 0 := by
    intro h; rw [h] at a0; simp at a0
  have hS' : S z ≠ 0 := by exact_mod_cast hS
  have hUz : U (0, 0) z ≠ 0 := by
    intro h; rw [h] at a0; simp at a0
  rw [div_self hS'] at b0 b1
  -- from the exact decomposition the second entry of the row is `i` times the first
  have v1 : Vh z (0, 1) = Complex.I * Vh z (0, 0) := by
    have : U (0, 0) z * (S z : ℂ) * Vh z (0, 1) = U (0, 0) z * (S z : ℂ) * (Complex.I * Vh z (0, 0)) := by
      rw [← a1]
      linear_combination Complex.I * a0
    exact mul_left_cancel₀ (mul_ne_zero hUz hS) this
  rw [v1, star_mul'] at b1
  have hI : star Complex.I = -Complex.I := Complex.conj_I
  rw [hI] at b1
  have : (2 : ℂ) * Complex.I = 0 := by
    linear_combination b1 + Complex.I * b0
  simp at this

/-- **C37** (negation of the full statement). -/
theorem C37_violated : ¬ Spec.InitIsTruncation ℂ := by
  obtain ⟨la⟩ := nonempty_lapack (𝕜 := ℂ)
  intro h
  exact C37_violated_complex la (by simp) (h _ _ 1 (by simp) la conjTarget fun h0 => by
    have := congrFun (congrFun (congrFun (congrFun h0 0) 0) 0) 0
    simp [conjTarget] at this)

/-! ### Finalising -/

/-- The factors used by `finalizeCore`. -/
theorem fin_spec (la : Lapack 𝕜) (hb : bD ≤ min (Fintype.card (Fin (qD N P bD))) (Fintype.card (Fin (qD N P bD))))
    (a1r a2r : N → Fin bD → P → 𝕜) :
    ∃ (Q1 Q2 : Matrix (N × P) (Fin (qD N P bD)) 𝕜) (U : Matrix (Fin (qD N P bD)) (Fin bD) 𝕜) (s : Fin bD → ℝ)
      (Vh : Matrix (Fin bD) (Fin (qD N P bD)) 𝕜),
      Q1ᴴ * Q1 = 1 ∧ Q2ᴴ * Q2 = 1 ∧ Uᴴ * U = 1 ∧ Vh * Vhᴴ = 1 ∧ (∀ i, 0 ≤ s i) ∧ (∀ i j, i ≤ j → s j ≤ s i) ∧
      siteMat (pairProd a1r a2r) = Q1 * (U * diagonal (fun i => (s i : 𝕜)) * Vh) * Q2ᵀ ∧
      (∀ y u p, (finalizeCore la hb a1r a2r).1 y u p =
        ∑ a, Q1 (y, p) a * (U a u * ((Real.sqrt (s u / Real.sqrt (∑ j, s j ^ 2)) : ℝ) : 𝕜))) ∧
      (∀ x v q, (finalizeCore la hb a1r a2r).2 x v q =
        ∑ b, Q2 (x, q) b * (Vh v b * ((Real.sqrt (s v / Real.sqrt (∑ j, s j ^ 2)) : ℝ) : 𝕜))) := by
  have hq1 := la.qr_ok (finMat a1r)
  have hq2 := la.qr_ok (finMat a2r)
  set r1 := (la.qr (finMat a1r)).2 with hr1
  set r2 := (la.qr (finMat a2r)).2 with hr2
  have hs := la.svd_ok (of fun a b => ∑ u, r1 a u * r2 b u)
  set svd := la.svd (of fun a b => ∑ u, r1 a u * r2 b u) with hsvd
  have hle : min (Fintype.card (Fin (qD N P bD))) (Fintype.card (Fin (qD N P bD))) ≤ bD := by
    simp only [Fintype.card_fin, qD, min_self]
    exact Nat.min_le_right _ _
  have hcast : ∀ {M : Type} [AddCommMonoid M] (f : Fin (min (Fintype.card (Fin (qD N P bD)))
      (Fintype.card (Fin (qD N P bD)))) → M), ∑ u : Fin bD, f (Fin.castLE hb u) = ∑ i, f i := by
    intro M _ f
    rw [sum_castLE hb f]
    exact Finset.sum_congr rfl fun i _ => if_pos (lt_of_lt_of_le i.isLt hle)
  have hinj : ∀ i j : Fin bD, Fin.castLE hb i = Fin.castLE hb j ↔ i = j := fun i j =>
    ⟨fun h => Fin.ext (by simpa using congrArg Fin.val h), fun h => h ▸ rfl⟩
  refine ⟨(la.qr (finMat a1r)).1, (la.qr (finMat a2r)).1, of fun a b => svd.1 a (Fin.castLE hb b),
    fun i => svd.2.1 (Fin.castLE hb i), of fun b a => svd.2.2 (Fin.castLE hb b) a, hq1.iso, hq2.iso, ?_, ?_,
    fun i => hs.nonneg _, fun i j hij => hs.sorted _ _ hij, ?_, ?_, ?_⟩
  · ext i j
    have := congrFun (congrFun hs.left (Fin.castLE hb i)) (Fin.castLE hb j)
    simp only [one_apply, hinj, mul_apply] at this ⊢
    exact this
  · ext i j
    have := congrFun (congrFun hs.right (Fin.castLE hb i)) (Fin.castLE hb j)
    simp only [one_apply, hinj, mul_apply] at this ⊢
    exact this
  · have e1 : (of fun a b => svd.1 a (Fin.castLE hb b)) * diagonal (fun i => ((svd.2.1 (Fin.castLE hb i) : ℝ) : 𝕜)) *
        (of fun b a => svd.2.2 (Fin.castLE hb b) a) = r1 * r2ᵀ := by
      have e2 : r1 * r2ᵀ = of fun a b => ∑ u, r1 a u * r2 b u := by ext a b; rw [mul_apply]; rfl
      rw [e2, hs.mul]
      ext a b
      rw [mul_apply, mul_apply]
      simp only [mul_diagonal, of_apply]
      exact hcast fun i => svd.1 a i * ((svd.2.1 i : ℝ) : 𝕜) * svd.2.2 i b
    have e3 : siteMat (pairProd a1r a2r) = finMat a1r * (finMat a2r)ᵀ := by
      rw [siteMat_pairProd]; rfl
    rw [e1, e3]
    conv_lhs => rw [hq1.mul, hq2.mul]
    rw [transpose_mul]
    simp only [Matrix.mul_assoc]
  · intro y u p
    rw [hcast fun j => svd.2.1 j ^ 2]
    rfl
  · intro x v q
    rw [hcast fun j => svd.2.1 j ^ 2]
    rfl

omit [DecidableEq N] [DecidableEq P] in
theorem frobSq_mul_transpose {k m n : Type} [Fintype k] [Fintype m] [Fintype n] [DecidableEq k] (A : Matrix m k 𝕜)
    (Q : Matrix n k 𝕜) (hQ : Qᴴ * Q = 1) : frobSq (A * Qᵀ) = frobSq A := by
  refine frobSq_mul_coiso Qᵀ ?_ A
  have := congrArg Matrix.transpose hQ
  rw [transpose_mul, transpose_one] at this
  rw [← this]
  rfl

/-- **C38**.  If the product of the two reduced tensors does not vanish, the finalised pair has the same product divided by
its Frobenius norm, and both finalised tensors have orthogonal bond vectors with the same squared lengths: non-negative,
descending weights whose squares sum to one. -/
theorem C38_finalize (la : Lapack 𝕜) (hb : bD ≤ min (Fintype.card (Fin (qD N P bD))) (Fintype.card (Fin (qD N P bD))))
    (a1r a2r : N → Fin bD → P → 𝕜) (hne : pairProd a1r a2r ≠ 0) :
    let f := finalizeCore la hb a1r a2r
    0 < normSq4 (pairProd a1r a2r) ∧
    (∀ y x p q, pairProd f.1 f.2 y x p q =
      ((Real.sqrt (normSq4 (pairProd a1r a2r)))⁻¹ : ℝ) * pairProd a1r a2r y x p q) ∧
    ∃ w : Fin bD → ℝ, (∀ u, 0 ≤ w u) ∧ (∀ u v, u ≤ v → w v ≤ w u) ∧ ∑ u, w u ^ 2 = 1 ∧
      (∀ u v, gram f.1 u v = if u = v then (w u : 𝕜) else 0) ∧ (∀ u v, gram f.2 u v = if u = v then (w u : 𝕜) else 0) := by
  intro f
  obtain ⟨Q1, Q2, U, s, Vh, hQ1, hQ2, hU, hV, hs0, hss, hm, hf1, hf2⟩ := fin_spec la hb a1r a2r
  have hn : normSq4 (pairProd a1r a2r) = ∑ j, s j ^ 2 := by
    rw [← frobSq_siteMat, hm, frobSq_mul_transpose _ _ hQ2, frobSq_iso_mul _ hQ1, frobSq_usv _ _ _ hU hV]
  have hpos : 0 < normSq4 (pairProd a1r a2r) := by
    rw [← frobSq_siteMat]
    refine lt_of_le_of_ne (frobSq_nonneg _) fun h => hne ?_
    have := (frobSq_eq_zero _).1 h.symm
    funext y x p q
    exact congrFun (congrFun this (y, p)) (x, q)
  rw [hn] at hpos ⊢
  set n := Real.sqrt (∑ j, s j ^ 2) with hndef
  have hnpos : 0 < n := Real.sqrt_pos.2 hpos
  have hsq : ∀ u, ((Real.sqrt (s u / n) : ℝ) : 𝕜) * ((Real.sqrt (s u / n) : ℝ) : 𝕜) = ((s u / n : ℝ) : 𝕜) := fun u => by
    rw [← RCLike.ofReal_mul, Real.mul_self_sqrt (div_nonneg (hs0 u) hnpos.le)]
  refine ⟨hpos, ?_, fun u => s u / n, fun u => div_nonneg (hs0 u) hnpos.le,
    fun u v huv => div_le_div_of_nonneg_right (hss u v huv) hnpos.le, ?_, ?_, ?_⟩
  · intro y x p q
    have e1 : pairProd a1r a2r y x p q = ∑ u, ∑ a, ∑ b, Q1 (y, p) a * U a u * (s u : 𝕜) * Vh u b * Q2 (x, q) b := by
      have := congrFun (congrFun hm (y, p)) (x, q)
      refine this.trans ?_
      rw [show Q1 * (U * diagonal (fun i => (s i : 𝕜)) * Vh) * Q2ᵀ =
        Q1 * U * diagonal (fun i => (s i : 𝕜)) * (Vh * Q2ᵀ) by simp only [Matrix.mul_assoc], mul_apply]
      refine Finset.sum_congr rfl fun u _ => ?_
      rw [mul_diagonal, mul_apply, mul_apply, Finset.sum_mul, Finset.sum_mul]
      refine Finset.sum_congr rfl fun a _ => ?_
      rw [Finset.mul_sum]
      refine Finset.sum_congr rfl fun b _ => ?_
      rw [transpose_apply]
      ring
    rw [e1]
    unfold pairProd
    rw [Finset.mul_sum]
    refine Finset.sum_congr rfl fun u _ => ?_
    rw [hf1, hf2, Finset.sum_mul, Finset.mul_sum]
    refine Finset.sum_congr rfl fun a _ => ?_
    rw [Finset.mul_sum, Finset.mul_sum]
    refine Finset.sum_congr rfl fun b _ => ?_
    have h1 := hsq u
    have h2 : ((s u / n : ℝ) : 𝕜) = ((n⁻¹ : ℝ) : 𝕜) * (s u : 𝕜) := by
      rw [← RCLike.ofReal_mul]; congr 1; field_simp
    rw [h2] at h1
    linear_combination (Q1 (y, p) a * U a u * Q2 (x, q) b * Vh u b) * h1
  · have h1 : n ^ 2 = ∑ j, s j ^ 2 := Real.sq_sqrt hpos.le
    simp only [div_pow]
    rw [← Finset.sum_div, ← h1, div_self (by positivity)]
  · intro u v
    have e : gram f.1 u v = ((Q1 * (U * diagonal fun u => ((Real.sqrt (s u / n) : ℝ) : 𝕜)))ᴴ *
        (Q1 * (U * diagonal fun u => ((Real.sqrt (s u / n) : ℝ) : 𝕜)))) u v := by
      rw [mul_apply, Fintype.sum_prod_type]
      unfold gram
      refine Finset.sum_congr rfl fun y _ => Finset.sum_congr rfl fun p _ => ?_
      simp only [f]
      rw [hf1, hf1, conjTranspose_apply, mul_apply, mul_apply]
      simp only [mul_diagonal]
    rw [e, conjTranspose_mul, Matrix.mul_assoc, ← Matrix.mul_assoc Q1ᴴ, hQ1, Matrix.one_mul, conjTranspose_mul,
      Matrix.mul_assoc, ← Matrix.mul_assoc Uᴴ, hU, Matrix.one_mul, diagonal_conjTranspose, diagonal_mul_diagonal,
      diagonal_apply]
    split
    · simp only [Pi.star_apply, RCLike.star_def, RCLike.conj_ofReal]
      exact hsq u
    · rfl
  · intro u v
    have e : gram f.2 u v = ((Q2 * (Vhᵀ * diagonal fun u => ((Real.sqrt (s u / n) : ℝ) : 𝕜)))ᴴ *
        (Q2 * (Vhᵀ * diagonal fun u => ((Real.sqrt (s u / n) : ℝ) : 𝕜)))) u v := by
      rw [mul_apply, Fintype.sum_prod_type]
      unfold gram
      refine Finset.sum_congr rfl fun y _ => Finset.sum_congr rfl fun p _ => ?_
      simp only [f]
      rw [hf2, hf2, conjTranspose_apply, mul_apply, mul_apply]
      simp only [mul_diagonal, transpose_apply]
    have hV' : Vhᵀᴴ * Vhᵀ = 1 := by
      have := congrArg Matrix.transpose hV
      rw [transpose_mul, transpose_one] at this
      rw [← this]
      rfl
    rw [e, conjTranspose_mul, Matrix.mul_assoc, ← Matrix.mul_assoc Q2ᴴ, hQ2, Matrix.one_mul, conjTranspose_mul,
      Matrix.mul_assoc, ← Matrix.mul_assoc Vhᵀᴴ, hV', Matrix.one_mul, diagonal_conjTranspose, diagonal_mul_diagonal,
      diagonal_apply]
    split
    · simp only [Pi.star_apply, RCLike.star_def, RCLike.conj_ofReal]
      exact hsq u
    · rfl

/-- The hypotheses are met: bond dimension 2 with `nD = pD = 2`, and a non-vanishing product. -/
example : (2 : ℕ) ≤ min (Fintype.card (Fin (qD (Fin 2) (Fin 2) 2))) (Fintype.card (Fin (qD (Fin 2) (Fin 2) 2))) ∧
    pairProd (fun (y u p : Fin 2) => if y = u ∧ p = 0 then (1 : ℂ) else 0)
      (fun (x u q : Fin 2) => if x = u ∧ q = 1 then (1 : ℂ) else 0) ≠ 0 := by
  refine ⟨by simp, fun h => ?_⟩
  have := congrFun (congrFun (congrFun (congrFun h 0) 0) 0) 1
  simp [pairProd] at this

end AceTN
