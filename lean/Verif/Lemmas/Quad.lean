import Verif.Lemmas.Eigh
import Verif.Lemmas.Svd
import Mathlib.LinearAlgebra.Matrix.PosDef

/-!
Quadratic functions of a matrix of unknowns and their minimisers.
-/

set_option autoImplicit false

namespace AceTN

open Matrix Spec ComplexOrder

variable {𝕜 n p : Type} [RCLike 𝕜] [Fintype n] [Fintype p]

/-- `re tr(Aᴴ R A) - 2 re tr(Aᴴ S)`. -/
def quad (R : Matrix n n 𝕜) (S A : Matrix n p 𝕜) : ℝ :=
  RCLike.re (∑ k, ∑ i, ∑ j, star (A i k) * R i j * A j k) - 2 * RCLike.re (∑ k, ∑ i, star (A i k) * S i k)

/-- The sum of the quadratic forms of the columns. -/
def colForm (R : Matrix n n 𝕜) (A : Matrix n p 𝕜) : ℝ := ∑ k, RCLike.re (qform R fun i => A i k)

theorem quad_eq (R : Matrix n n 𝕜) (S A : Matrix n p 𝕜) :
    quad R S A = colForm R A - 2 * RCLike.re (∑ k, ∑ i, star (A i k) * S i k) := by
  unfold quad colForm qform
  rw [map_sum]

/-- Completing the square. -/
theorem quad_sub (R : Matrix n n 𝕜) (hR : R.IsHermitian) (S A A' : Matrix n p 𝕜) (h : R * A = S) :
    quad R S A' = quad R S A + colForm R (A' - A) := by
  subst h
  rw [quad_eq, quad_eq]
  unfold colForm
  rw [map_sum, map_sum, Finset.mul_sum, Finset.mul_sum, ← Finset.sum_sub_distrib, ← Finset.sum_sub_distrib,
    ← Finset.sum_add_distrib]
  refine Finset.sum_congr rfl fun k _ => ?_
  set a : n → 𝕜 := fun i => A i k with ha
  set b : n → 𝕜 := fun i => A' i k with hb
  have e1 : (fun i => (A' - A) i k) = b - a := rfl
  have e2 : ∀ v : n → 𝕜, (∑ i, star (v i) * (R * A) i k) = star v ⬝ᵥ R *ᵥ a := fun v => rfl
  rw [e1]
  have e3 := e2 a
  have e4 := e2 b
  simp only [ha, hb] at e3 e4
  rw [e3, e4, qform_eq, qform_eq, qform_eq]
  have e5 : RCLike.re (star a ⬝ᵥ R *ᵥ b) = RCLike.re (star b ⬝ᵥ R *ᵥ a) := by
    have : star a ⬝ᵥ R *ᵥ b = star (star b ⬝ᵥ R *ᵥ a) := by
      rw [star_dotProduct, star_mulVec, ← dotProduct_mulVec, hR.eq]
    rw [this, RCLike.star_def, RCLike.conj_re]
  rw [star_sub, mulVec_sub, sub_dotProduct, dotProduct_sub, dotProduct_sub]
  simp only [map_sub]
  rw [e5]
  ring

theorem colForm_nonneg (R : Matrix n n 𝕜) (hR : AtLeast R 0) (A : Matrix n p 𝕜) : 0 ≤ colForm R A :=
  Finset.sum_nonneg fun k _ => by simpa using hR fun i => A i k

/-- A solution of the normal equations minimises. -/
theorem quad_min (R : Matrix n n 𝕜) (hR : R.IsHermitian) (hp : AtLeast R 0) (S A : Matrix n p 𝕜) (h : R * A = S)
    (A' : Matrix n p 𝕜) : quad R S A ≤ quad R S A' := by
  rw [quad_sub R hR S A A' h]
  linarith [colForm_nonneg R hp (A' - A)]

theorem quad_add [DecidableEq n] (R : Matrix n n 𝕜) (t : ℝ) (S A : Matrix n p 𝕜) :
    quad (R + (t : 𝕜) • 1) S A = quad R S A + t * ∑ k, ∑ i, ‖A i k‖ ^ 2 := by
  rw [quad_eq, quad_eq]
  have : colForm (R + (t : 𝕜) • 1) A = colForm R A + t * ∑ k, ∑ i, ‖A i k‖ ^ 2 := by
    unfold colForm
    rw [Finset.mul_sum, ← Finset.sum_add_distrib]
    refine Finset.sum_congr rfl fun k _ => ?_
    rw [qform_eq, qform_eq, add_mulVec, dotProduct_add, map_add, smul_mulVec, one_mulVec, dotProduct_smul,
      ← normSq_eq, smul_eq_mul, ← RCLike.ofReal_mul, RCLike.ofReal_re]
    rfl
  rw [this]; ring

variable [DecidableEq n]

/-- A vector on which a positive semidefinite form vanishes is in the kernel. -/
theorem psd_kernel (N : Matrix n n 𝕜) (hN : N.IsHermitian) (hp : AtLeast N 0) (v : n → 𝕜)
    (h : RCLike.re (qform N v) ≤ 0) : N *ᵥ v = 0 := by
  obtain ⟨w, z, hw⟩ := exists_eigh N hN
  have hw0 : ∀ k, 0 ≤ w k := eigh_of_atLeast hw 0 hp
  rw [qform_eigh hw, RCLike.ofReal_re] at h
  have h0 : ∑ k, w k * ‖(zᴴ *ᵥ v) k‖ ^ 2 = 0 :=
    le_antisymm h (Finset.sum_nonneg fun k _ => mul_nonneg (hw0 k) (by positivity))
  rw [Finset.sum_eq_zero_iff_of_nonneg (fun k _ => mul_nonneg (hw0 k) (by positivity))] at h0
  rw [hw.mul, ← mulVec_mulVec, ← mulVec_mulVec]
  have : diagonal (fun i => (w i : 𝕜)) *ᵥ (zᴴ *ᵥ v) = 0 := by
    funext k
    rw [mulVec_diagonal]
    rcases mul_eq_zero.1 (h0 k (Finset.mem_univ _)) with h1 | h1
    · simp [h1]
    · have : (zᴴ *ᵥ v) k = 0 := by simpa using h1
      simp [this]
  rw [this, mulVec_zero]

omit [DecidableEq n] in
theorem posDef_of_atLeast {R : Matrix n n 𝕜} (hR : R.IsHermitian) {c : ℝ} (hc : 0 < c) (h : AtLeast R c) :
    R.PosDef := by
  refine PosDef.of_dotProduct_mulVec_pos hR fun x hx => ?_
  rw [← qform_eq]
  have h1 := h x
  have h2 : 0 < normSq x := by
    rcases (normSq_nonneg x).lt_or_eq with h2 | h2
    · exact h2
    · refine absurd ?_ hx
      have h3 := h2.symm
      unfold normSq at h3
      rw [Finset.sum_eq_zero_iff_of_nonneg (fun _ _ => by positivity)] at h3
      funext i
      simpa using h3 i (Finset.mem_univ _)
  rw [RCLike.pos_iff]
  refine ⟨lt_of_lt_of_le (mul_pos hc h2) h1, ?_⟩
  have h4 : star (qform R x) = qform R x := by
    rw [qform_eq]
    conv_rhs => rw [star_dotProduct, star_mulVec, ← dotProduct_mulVec, hR.eq]
  rw [RCLike.star_def] at h4
  exact RCLike.conj_eq_iff_im.1 h4

omit [Fintype p] in
/-- The Hermitian pseudo-inverse solves the system if it drops no non-zero eigenvalue and the right-hand side is
orthogonal to the kernel. -/
theorem pinvH_solves (la : Lapack 𝕜) (rcond : ℝ) (R : Matrix n n 𝕜) (hR : R.IsHermitian) (S : Matrix n p 𝕜)
    (hk : ∀ v, R *ᵥ v = 0 → ∀ k, ∑ i, star (v i) * S i k = 0)
    (hgap : ∀ (w : Fin (Fintype.card n) → ℝ) (z : Matrix n (Fin (Fintype.card n)) 𝕜), IsEigh R w z →
      ∀ i j, w i ≠ 0 → rcond * |w j| < |w i|) :
    R * (la.pinvH rcond R * S) = S := by
  obtain ⟨w, z, hw, hp⟩ := la.pinvH_ok rcond R
  rw [la.herm_of R hR] at hw
  have hg := hgap w z hw
  have h1 : R * la.pinvH rcond R = z * diagonal (fun i => if w i = 0 then (0 : 𝕜) else 1) * zᴴ := by
    rw [hp]
    conv_lhs => arg 1; rw [hw.mul]
    rw [Matrix.mul_assoc (z * _), ← Matrix.mul_assoc zᴴ, ← Matrix.mul_assoc zᴴ, hw.left, Matrix.one_mul,
      ← Matrix.mul_assoc, Matrix.mul_assoc z, diagonal_mul_diagonal]
    congr 3
    funext i
    by_cases hi : w i = 0
    · simp [hi]
    · rw [if_pos (fun j => hg i j hi), if_neg hi]
      exact mul_inv_cancel₀ (by exact_mod_cast hi)
  have h2 : diagonal (fun i => if w i = 0 then (0 : 𝕜) else 1) * (zᴴ * S) = zᴴ * S := by
    ext i k
    rw [diagonal_mul]
    by_cases hi : w i = 0
    · rw [if_pos hi, zero_mul]
      have h3 : R *ᵥ (fun a => z a i) = 0 := by
        have : (fun a => z a i) = z *ᵥ Pi.single i 1 := by rw [mulVec_single_one]; rfl
        rw [this, hw.mul, mulVec_mulVec, Matrix.mul_assoc, hw.left, Matrix.mul_one, ← mulVec_mulVec]
        have : diagonal (fun i => (w i : 𝕜)) *ᵥ Pi.single i 1 = 0 := by
          funext j
          rw [mulVec_diagonal]
          by_cases hj : j = i
          · subst hj; simp [hi]
          · simp [hj]
        rw [this, mulVec_zero]
      rw [mul_apply]
      exact (hk _ h3 k).symm
    · rw [if_neg hi, one_mul]
  rw [← Matrix.mul_assoc, h1, Matrix.mul_assoc, Matrix.mul_assoc, h2, ← Matrix.mul_assoc, hw.right, Matrix.one_mul]

end AceTN
