import Verif.Model.LinAlg
import Verif.Spec.QForm
import Mathlib.LinearAlgebra.Matrix.DotProduct

/-!
Quadratic forms and eigenvalues.
-/

set_option autoImplicit false

namespace AceTN

open Matrix Spec

variable {𝕜 n : Type} [RCLike 𝕜] [Fintype n] [DecidableEq n] {r : ℕ}

omit [DecidableEq n] in
theorem qform_eq (M : Matrix n n 𝕜) (v : n → 𝕜) : qform M v = star v ⬝ᵥ M *ᵥ v := by
  simp only [qform, dotProduct, mulVec, Finset.mul_sum, Pi.star_apply, mul_assoc]

omit [DecidableEq n] in
theorem normSq_eq (v : n → 𝕜) : ((normSq v : ℝ) : 𝕜) = star v ⬝ᵥ v := by
  simp only [normSq, dotProduct, Pi.star_apply, RCLike.star_def, RCLike.conj_mul]
  push_cast; rfl

omit [DecidableEq n] in
theorem normSq_nonneg (v : n → 𝕜) : 0 ≤ normSq v := by
  exact Finset.sum_nonneg fun i _ => by positivity

/-- In an eigenbasis the form is the weighted sum of squares. -/
theorem qform_eigh {N : Matrix n n 𝕜} {w : Fin r → ℝ} {z : Matrix n (Fin r) 𝕜} (h : IsEigh N w z) (v : n → 𝕜) :
    qform N v = ((∑ k, w k * ‖(zᴴ *ᵥ v) k‖ ^ 2 : ℝ) : 𝕜) := by
  rw [qform_eq, h.mul, ← mulVec_mulVec, ← mulVec_mulVec, dotProduct_mulVec]
  have e : star v ᵥ* z = star (zᴴ *ᵥ v) := by
    rw [star_mulVec, conjTranspose_conjTranspose]
  rw [e]
  simp only [dotProduct, mulVec_diagonal, Pi.star_apply]
  push_cast
  refine Finset.sum_congr rfl fun k _ => ?_
  rw [← RCLike.conj_mul, RCLike.star_def]; ring

theorem normSq_eigh {N : Matrix n n 𝕜} {w : Fin r → ℝ} {z : Matrix n (Fin r) 𝕜} (h : IsEigh N w z) (v : n → 𝕜) :
    normSq (zᴴ *ᵥ v) = normSq v := by
  have e : ((normSq (zᴴ *ᵥ v) : ℝ) : 𝕜) = (normSq v : ℝ) := by
    rw [normSq_eq, normSq_eq, star_mulVec, conjTranspose_conjTranspose, dotProduct_mulVec, vecMul_vecMul, h.right,
      vecMul_one]
  exact_mod_cast e

theorem atLeast_of_eigh {N : Matrix n n 𝕜} {w : Fin r → ℝ} {z : Matrix n (Fin r) 𝕜} (h : IsEigh N w z) (c : ℝ)
    (hc : ∀ k, c ≤ w k) : AtLeast N c := by
  intro v
  rw [qform_eigh h, RCLike.ofReal_re, ← normSq_eigh h v, normSq, Finset.mul_sum]
  exact Finset.sum_le_sum fun k _ => mul_le_mul_of_nonneg_right (hc k) (by positivity)

theorem eigh_of_atLeast {N : Matrix n n 𝕜} {w : Fin r → ℝ} {z : Matrix n (Fin r) 𝕜} (h : IsEigh N w z) (c : ℝ)
    (hc : AtLeast N c) (k : Fin r) : c ≤ w k := by
  have e : zᴴ *ᵥ (z *ᵥ Pi.single k 1) = Pi.single k 1 := by
    rw [mulVec_mulVec, h.left, one_mulVec]
  have := hc (z *ᵥ Pi.single k 1)
  rw [qform_eigh h, RCLike.ofReal_re, ← normSq_eigh h, e] at this
  have e1 : normSq (Pi.single k 1 : Fin r → 𝕜) = 1 := by
    rw [normSq, Finset.sum_eq_single k]
    · simp
    · intro b _ hb; simp [hb]
    · simp
  have e2 : ∑ j, w j * ‖(Pi.single k 1 : Fin r → 𝕜) j‖ ^ 2 = w k := by
    rw [Finset.sum_eq_single k]
    · simp
    · intro b _ hb; simp [hb]
    · simp
  rw [e1, e2, mul_one] at this
  exact this

theorem IsEigh.isHermitian {N : Matrix n n 𝕜} {w : Fin r → ℝ} {z : Matrix n (Fin r) 𝕜} (h : IsEigh N w z) :
    N.IsHermitian := by
  unfold IsHermitian
  rw [h.mul, conjTranspose_mul, conjTranspose_mul, conjTranspose_conjTranspose, diagonal_conjTranspose,
    Matrix.mul_assoc]
  congr 3
  funext i
  simp

/-- Shifting by a multiple of the identity shifts the eigenvalues. -/
theorem atLeast_add {N : Matrix n n 𝕜} {c : ℝ} (h : AtLeast N c) (t : ℝ) : AtLeast (N + (t : 𝕜) • 1) (c + t) := by
  intro v
  have e : qform (N + (t : 𝕜) • 1) v = qform N v + ((t * normSq v : ℝ) : 𝕜) := by
    rw [qform_eq, qform_eq, add_mulVec, dotProduct_add, smul_mulVec, one_mulVec, dotProduct_smul, ← normSq_eq,
      smul_eq_mul]
    push_cast; rfl
  rw [e, map_add, RCLike.ofReal_re, add_mul]
  linarith [h v]

end AceTN
