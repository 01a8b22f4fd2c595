import Verif.Lemmas.SimpleSplit

/-!
The two tensors and the weights of a simple-update split are read off a singular value decomposition of the gated
two-site tensor.
-/

set_option autoImplicit false

namespace AceTN

open Matrix Spec SumTac Simple Full

variable {𝕜 : Type} [RCLike 𝕜] {P : Type} [Fintype P] [DecidableEq P] {bD : ℕ} [NeZero bD] [Nonempty P]

/-- The new tensors are the singular vectors times the new weights. -/
theorem splitBond_svd (la : Lapack 𝕜) (gate : P → P → P → P → 𝕜) (a1 a2 : ATensor (Fin bD) P 𝕜) :
    ∃ (r : ℕ) (hr : bD ≤ r) (U : Matrix ((Fin bD × Fin bD × Fin bD) × P) (Fin r) 𝕜) (S : Fin r → ℝ)
      (Vh : Matrix (Fin r) ((Fin bD × Fin bD × Fin bD) × P) 𝕜), IsSVD (twoMat (gated gate (twoSite a1 a2))) U S Vh ∧
      (splitBond la gate a1 a2).2.2 =
        (fun b => Real.sqrt (S (Fin.castLE hr b) / Real.sqrt (∑ c, S (Fin.castLE hr c) ^ 2))) ∧
      (∀ b u r d p, (splitBond la gate a1 a2).1 b u r d p =
        U ((r, d, u), p) (Fin.castLE hr b) * (((splitBond la gate a1 a2).2.2 b : ℝ) : 𝕜)) ∧
      (∀ l u b d p, (splitBond la gate a1 a2).2.1 l u b d p =
        Vh (Fin.castLE hr b) ((d, l, u), p) * (((splitBond la gate a1 a2).2.2 b : ℝ) : 𝕜)) := by
  have hg := C30_gate la a1 a2 gate
  have hiso := C30_isometric la a1 a2
  unfold splitBond
  revert hg hiso
  generalize decompose la a1 a2 = d
  intro hg hiso
  dsimp only
  have i1 := outer_iso (P := P) d.a1q fun x y => (hiso x y).1
  have i2 := outer_iso (P := P) d.a2q fun x y => (hiso x y).2
  have hsvd := la.svd_ok (siteMat (gateReduced d.a1r d.a2r gate))
  set sv := la.svd (siteMat (gateReduced d.a1r d.a2r gate)) with hsv
  have hsvd' := outer_svd d.a1q d.a2q i1 i2 _ _ _ _ hsvd
  rw [← twoMat_assembled, hg] at hsvd'
  have hf1 : ∀ y a p, (splitReduced la bD_le d.a1r d.a2r gate).1 y a p = sv.1 (y, p) (Fin.castLE bD_le a) *
    (((splitReduced la bD_le d.a1r d.a2r gate).2.2 a : ℝ) : 𝕜) := fun _ _ _ => rfl
  have hf2 : ∀ x a q, (splitReduced la bD_le d.a1r d.a2r gate).2.1 x a q = sv.2.2 (Fin.castLE bD_le a) (x, q) *
    (((splitReduced la bD_le d.a1r d.a2r gate).2.2 a : ℝ) : 𝕜) := fun _ _ _ => rfl
  refine ⟨_, bD_le, _, _, _, hsvd', rfl, fun b u r d' p => ?_, fun l u b d' p => ?_⟩
  · have e : (recompose d.a1q (splitReduced la bD_le d.a1r d.a2r gate).1 d.a2q
        (splitReduced la bD_le d.a1r d.a2r gate).2.1).1 b u r d' p =
        ∑ x, d.a1q r d' u x * (splitReduced la bD_le d.a1r d.a2r gate).1 x b p := rfl
    rw [e, mul_apply, Finset.sum_mul, Fintype.sum_prod_type]
    refine Finset.sum_congr rfl fun x _ => ?_
    rw [Finset.sum_eq_single p (fun q _ hq => by simp [outer, Ne.symm hq]) (by simp), hf1]
    simp [outer]
    ring
  · have e : (recompose d.a1q (splitReduced la bD_le d.a1r d.a2r gate).1 d.a2q
        (splitReduced la bD_le d.a1r d.a2r gate).2.1).2 l u b d' p =
        ∑ x, d.a2q d' l u x * (splitReduced la bD_le d.a1r d.a2r gate).2.1 x b p := rfl
    rw [e, mul_apply, Finset.sum_mul, Fintype.sum_prod_type]
    refine Finset.sum_congr rfl fun x _ => ?_
    rw [Finset.sum_eq_single p (fun q _ hq => by simp [outer, Ne.symm hq]) (by simp), hf2]
    simp [outer]
    ring

/-- A singular vector has no component on a vanishing row. -/
theorem svd_row_zero {m n : Type} [Fintype m] [Fintype n] {r : ℕ} {M : Matrix m n 𝕜} {U : Matrix m (Fin r) 𝕜}
    {S : Fin r → ℝ} {Vh : Matrix (Fin r) n 𝕜} (h : IsSVD M U S Vh) (i : m) (hi : ∀ j, M i j = 0) (a : Fin r) (ha : S a ≠ 0) :
    U i a = 0 := by
  have h1 : M * Vhᴴ = U * diagonal fun a => ((S a : ℝ) : 𝕜) := by
    conv_lhs => rw [h.mul]
    rw [Matrix.mul_assoc, h.right, Matrix.mul_one]
  have h2 := congrFun (congrFun h1 i) a
  rw [mul_apply, mul_diagonal] at h2
  simp only [hi, zero_mul, Finset.sum_const_zero] at h2
  rcases mul_eq_zero.1 h2.symm with h3 | h3
  · exact h3
  · exact absurd (RCLike.ofReal_eq_zero.1 h3) ha

theorem svd_col_zero {m n : Type} [Fintype m] [Fintype n] {r : ℕ} {M : Matrix m n 𝕜} {U : Matrix m (Fin r) 𝕜}
    {S : Fin r → ℝ} {Vh : Matrix (Fin r) n 𝕜} (h : IsSVD M U S Vh) (j : n) (hj : ∀ i, M i j = 0) (a : Fin r) (ha : S a ≠ 0) :
    Vh a j = 0 := by
  have h1 : Uᴴ * M = (diagonal fun a => ((S a : ℝ) : 𝕜)) * Vh := by
    conv_lhs => rw [h.mul]
    rw [← Matrix.mul_assoc, ← Matrix.mul_assoc, h.left, Matrix.one_mul]
  have h2 := congrFun (congrFun h1 a) j
  rw [mul_apply, diagonal_mul] at h2
  simp only [hj, mul_zero, Finset.sum_const_zero] at h2
  rcases mul_eq_zero.1 h2.symm with h3 | h3
  · exact absurd (RCLike.ofReal_eq_zero.1 h3) ha
  · exact h3

/-- Physical states of the first site that the gated pair does not contain are not contained in the new tensor. -/
theorem splitBond_zero1 (la : Lapack 𝕜) (gate : P → P → P → P → 𝕜) (a1 a2 : ATensor (Fin bD) P 𝕜) (p : P)
    (h : ∀ u r d l' u' d' q, gated gate (twoSite a1 a2) u r d l' u' d' p q = 0) (b u r d : Fin bD) :
    (splitBond la gate a1 a2).1 b u r d p = 0 := by
  obtain ⟨r', hr, U, S, Vh, hsvd, hl, h1, h2⟩ := splitBond_svd la gate a1 a2
  rw [h1, hl]
  by_cases hS : S (Fin.castLE hr b) = 0
  · simp [hS]
  · rw [svd_row_zero hsvd ((r, d, u), p) (fun j => h _ _ _ _ _ _ _) _ hS, zero_mul]

theorem splitBond_zero2 (la : Lapack 𝕜) (gate : P → P → P → P → 𝕜) (a1 a2 : ATensor (Fin bD) P 𝕜) (q : P)
    (h : ∀ u r d l' u' d' p, gated gate (twoSite a1 a2) u r d l' u' d' p q = 0) (l u b d : Fin bD) :
    (splitBond la gate a1 a2).2.1 l u b d q = 0 := by
  obtain ⟨r', hr, U, S, Vh, hsvd, hl, h1, h2⟩ := splitBond_svd la gate a1 a2
  rw [h2, hl]
  by_cases hS : S (Fin.castLE hr b) = 0
  · simp [hS]
  · rw [svd_col_zero hsvd ((d, l, u), q) (fun i => h _ _ _ _ _ _ _) _ hS, zero_mul]

end AceTN
