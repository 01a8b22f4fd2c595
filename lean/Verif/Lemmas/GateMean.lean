import Verif.Spec.Frob
import Mathlib.Analysis.InnerProductSpace.Basic
import Mathlib.Analysis.InnerProductSpace.PiL2
import Mathlib.LinearAlgebra.Matrix.Hermitian
import Mathlib.LinearAlgebra.Matrix.NonsingularInverse
import Mathlib.Tactic.FieldSimp

/-!
Best approximations after a positive operator: its mean does not go down.
-/

set_option autoImplicit false
set_option linter.unusedSectionVars false

namespace AceTN

section abstract

variable {𝕜 E : Type} [RCLike 𝕜] [NormedAddCommGroup E] [InnerProductSpace 𝕜 E]

open RCLike

local notation "⟪" x ", " y "⟫" => inner 𝕜 x y

/-- `x'` approximates `S² x`, up to a factor, at least as well as all multiples of `x` do. -/
theorem gateMean_step (S : E →ₗ[𝕜] E) (hS : ∀ x y, ⟪S x, y⟫ = ⟪x, S y⟫) (hinj : ∀ x, S x = 0 → x = 0) (x x' : E) (hx : x ≠ 0) (c : 𝕜)
    (h : ∀ t : 𝕜, ‖S (S x) - c • x'‖ ≤ ‖S (S x) - t • x‖) :
    x' ≠ 0 ∧ ‖S x‖ ^ 2 / ‖x‖ ^ 2 ≤ ‖S x'‖ ^ 2 / ‖x'‖ ^ 2 ∧ (‖S x‖ ^ 2 / ‖x‖ ^ 2 = ‖S x'‖ ^ 2 / ‖x'‖ ^ 2 → ∃ a : 𝕜, x' = a • x) := by
  have nx : 0 < ‖x‖ := norm_pos_iff.2 hx
  have nS : 0 < ‖S x‖ := norm_pos_iff.2 fun h0 => hx (hinj x h0)
  have e1 : ⟪x, S (S x)⟫ = ((‖S x‖ ^ 2 : ℝ) : 𝕜) := by
    rw [← hS, inner_self_eq_norm_sq_to_K]
    norm_cast
  have exp : ∀ (a : 𝕜) (y : E), ‖S (S x) - a • y‖ ^ 2 = ‖S (S x)‖ ^ 2 - 2 * re (star a * ⟪y, S (S x)⟫) + ‖a‖ ^ 2 * ‖y‖ ^ 2 := by
    intro a y
    rw [@norm_sub_sq 𝕜, norm_smul, mul_pow, ← inner_re_symm, inner_smul_left]
    rfl
  have h1 := h ((‖S x‖ ^ 2 / ‖x‖ ^ 2 : ℝ) : 𝕜)
  have h2 : ‖S (S x) - c • x'‖ ^ 2 ≤ ‖S (S x)‖ ^ 2 - (‖S x‖ ^ 2) ^ 2 / ‖x‖ ^ 2 := by
    refine (pow_le_pow_left₀ (norm_nonneg _) h1 2).trans (le_of_eq ?_)
    rw [exp, e1, star_def, conj_ofReal, ← ofReal_mul, ofReal_re, norm_ofReal, sq_abs]
    field_simp
    ring
  rw [exp] at h2
  have h3 : re (star c * ⟪x', S (S x)⟫) ≤ ‖c‖ * (‖S x'‖ * ‖S x‖) := by
    refine (re_le_norm _).trans ?_
    rw [norm_mul, norm_star, ← hS]
    gcongr
    exact norm_inner_le_norm _ _
  have hne : x' ≠ 0 := by
    rintro rfl
    have hpos : 0 < (‖S x‖ ^ 2) ^ 2 / ‖x‖ ^ 2 := by positivity
    simp only [inner_zero_left, mul_zero, map_zero, norm_zero] at h2
    nlinarith
  have nx' : 0 < ‖x'‖ := norm_pos_iff.2 hne
  -- the inner product is at least as large as that with `x`
  have h4 : (‖S x‖ ^ 2) ^ 2 / ‖x‖ ^ 2 ≤ ‖⟪S x', S x⟫‖ ^ 2 / ‖x'‖ ^ 2 := by
    have h5 : re (star c * ⟪x', S (S x)⟫) ≤ ‖c‖ * ‖⟪S x', S x⟫‖ := by
      refine (re_le_norm _).trans (le_of_eq ?_)
      rw [norm_mul, norm_star, ← hS]
    have h6 : 2 * (‖c‖ * ‖⟪S x', S x⟫‖) - ‖c‖ ^ 2 * ‖x'‖ ^ 2 ≤ ‖⟪S x', S x⟫‖ ^ 2 / ‖x'‖ ^ 2 := by
      rw [le_div_iff₀ (by positivity)]
      nlinarith [sq_nonneg (‖⟪S x', S x⟫‖ - ‖c‖ * ‖x'‖ ^ 2)]
    linarith
  have h7 : ‖⟪S x', S x⟫‖ ^ 2 ≤ ‖S x'‖ ^ 2 * ‖S x‖ ^ 2 := by
    rw [← mul_pow]
    exact pow_le_pow_left₀ (norm_nonneg _) (norm_inner_le_norm _ _) 2
  have h8 : ‖S x‖ ^ 2 * ‖S x‖ ^ 2 * ‖x'‖ ^ 2 ≤ ‖⟪S x', S x⟫‖ ^ 2 * ‖x‖ ^ 2 := by
    rw [div_le_div_iff₀ (by positivity) (by positivity)] at h4
    nlinarith
  refine ⟨hne, ?_, fun heq => ?_⟩
  · rw [div_le_div_iff₀ (by positivity) (by positivity)]
    have : ‖S x‖ ^ 2 * (‖S x‖ ^ 2 * ‖x'‖ ^ 2) ≤ ‖S x‖ ^ 2 * (‖S x'‖ ^ 2 * ‖x‖ ^ 2) := by nlinarith
    exact le_of_mul_le_mul_left this (by positivity)
  · rw [div_eq_div_iff (by positivity) (by positivity)] at heq
    have nS' : S x' ≠ 0 := fun h0 => hne (hinj _ h0)
    have h9 : ‖S x'‖ ^ 2 * ‖S x‖ ^ 2 * ‖x‖ ^ 2 ≤ ‖⟪S x', S x⟫‖ ^ 2 * ‖x‖ ^ 2 := by nlinarith
    have h10 : ‖S x'‖ ^ 2 * ‖S x‖ ^ 2 ≤ ‖⟪S x', S x⟫‖ ^ 2 := le_of_mul_le_mul_right h9 (by positivity)
    have h11 : ‖⟪S x, S x'⟫‖ = ‖S x‖ * ‖S x'‖ := by
      rw [norm_inner_symm]
      have := le_antisymm h7 h10
      rw [← mul_pow] at this
      rw [mul_comm]
      exact (pow_left_inj₀ (norm_nonneg _) (by positivity) two_ne_zero).1 this
    obtain ⟨r, hr, e⟩ := (norm_inner_eq_norm_iff (norm_pos_iff.1 nS) nS').1 h11
    refine ⟨r, ?_⟩
    have h12 : S (x' - r • x) = 0 := by rw [map_sub, map_smul, e, sub_self]
    exact sub_eq_zero.1 (hinj _ h12)

end abstract

section matrices

open Matrix Spec

variable {𝕜 : Type} [RCLike 𝕜] {O Q : Type} [Fintype O] [Fintype Q] [DecidableEq Q]

/-- Matrices as vectors. -/
noncomputable def flatE (X : Matrix O Q 𝕜) : EuclideanSpace 𝕜 (O × Q) := WithLp.toLp 2 fun i => X i.1 i.2

omit [DecidableEq Q] in
theorem flatE_norm (X : Matrix O Q 𝕜) : ‖flatE X‖ ^ 2 = frobSq X := by
  rw [EuclideanSpace.norm_sq_eq, Fintype.sum_prod_type]
  rfl

/-- Multiplication from the right. -/
noncomputable def rightMul (S : Matrix Q Q 𝕜) : EuclideanSpace 𝕜 (O × Q) →ₗ[𝕜] EuclideanSpace 𝕜 (O × Q) where
  toFun v := flatE (Matrix.of (fun o q => v (o, q)) * S)
  map_add' v w := by
    ext i
    simp [flatE, Matrix.mul_apply, add_mul, Finset.sum_add_distrib]
  map_smul' a v := by
    ext i
    simp [flatE, Matrix.mul_apply, mul_assoc, Finset.mul_sum]

omit [DecidableEq Q] in
theorem rightMul_flatE (S : Matrix Q Q 𝕜) (X : Matrix O Q 𝕜) : rightMul S (flatE X) = flatE (X * S) := rfl

theorem flatE_inj {Y Z : Matrix O Q 𝕜} (e : flatE Y = flatE Z) : Y = Z := by
  ext o q
  exact congrArg (fun v : EuclideanSpace 𝕜 (O × Q) => v (o, q)) e

theorem flatE_unflat (v : EuclideanSpace 𝕜 (O × Q)) : ∃ V : Matrix O Q 𝕜, v = flatE V := ⟨Matrix.of fun o q => v (o, q), rfl⟩

theorem flatE_zero : flatE (0 : Matrix O Q 𝕜) = 0 := rfl

theorem flatE_sub_smul (Y Z : Matrix O Q 𝕜) (a : 𝕜) : flatE (Y - a • Z) = flatE Y - a • flatE Z := rfl

theorem flatE_smul (Z : Matrix O Q 𝕜) (a : 𝕜) : flatE (a • Z) = a • flatE Z := rfl

theorem rightMul_symm (S : Matrix Q Q 𝕜) (hS : S.IsHermitian) (v w : EuclideanSpace 𝕜 (O × Q)) :
    inner 𝕜 (rightMul S v) w = inner 𝕜 v (rightMul S w) := by
  obtain ⟨V, rfl⟩ := flatE_unflat v
  obtain ⟨W, rfl⟩ := flatE_unflat w
  rw [rightMul_flatE, rightMul_flatE]
  simp only [PiLp.inner_apply, flatE, Fintype.sum_prod_type, RCLike.inner_apply, Matrix.mul_apply, map_sum, map_mul, Finset.mul_sum, Finset.sum_mul]
  refine Finset.sum_congr rfl fun o _ => ?_
  rw [Finset.sum_comm]
  refine Finset.sum_congr rfl fun q _ => Finset.sum_congr rfl fun q' _ => ?_
  have := congrFun (congrFun hS.eq q) q'
  rw [conjTranspose_apply] at this
  rw [← this]
  simp only [RCLike.star_def, RCLike.conj_conj]
  ring

theorem rightMul_inj (S : Matrix Q Q 𝕜) (hu : IsUnit S) (v : EuclideanSpace 𝕜 (O × Q)) (hv : rightMul S v = 0) : v = 0 := by
  obtain ⟨V, rfl⟩ := flatE_unflat v
  rw [rightMul_flatE, ← flatE_zero] at hv
  have e := flatE_inj hv
  have : V = 0 := by
    have h' := congrArg (· * S⁻¹) e
    simpa [Matrix.mul_assoc, Matrix.mul_nonsing_inv S ((Matrix.isUnit_iff_isUnit_det S).1 hu)] using h'
  rw [this, flatE_zero]

theorem mean_step_matrix (S : Matrix Q Q 𝕜) (hS : S.IsHermitian) (hu : IsUnit S) (X X' : Matrix O Q 𝕜) (hX : X ≠ 0) (c : 𝕜)
    (h : ∀ t : 𝕜, frobSq (X * (S * S) - c • X') ≤ frobSq (X * (S * S) - t • X)) :
    X' ≠ 0 ∧ frobSq (X * S) / frobSq X ≤ frobSq (X' * S) / frobSq X' ∧ (frobSq (X * S) / frobSq X = frobSq (X' * S) / frobSq X' → ∃ a : 𝕜, X' = a • X) := by
  have k3 : ∀ t : 𝕜, ‖rightMul S (rightMul S (flatE X)) - c • flatE X'‖ ≤ ‖rightMul S (rightMul S (flatE X)) - t • flatE X‖ := by
    intro t
    rw [rightMul_flatE, rightMul_flatE, Matrix.mul_assoc, ← flatE_sub_smul, ← flatE_sub_smul]
    refine (pow_le_pow_iff_left₀ (norm_nonneg _) (norm_nonneg _) two_ne_zero).1 ?_
    rw [flatE_norm, flatE_norm]
    exact h t
  obtain ⟨h1, h2, h3⟩ := @gateMean_step 𝕜 (EuclideanSpace 𝕜 (O × Q)) _ _ _ (rightMul S) (rightMul_symm S hS) (rightMul_inj S hu) (flatE X) (flatE X')
    (fun h0 => hX (flatE_inj (h0.trans flatE_zero.symm))) c k3
  simp only [rightMul_flatE, flatE_norm] at h2 h3
  refine ⟨fun h0 => h1 (by rw [h0, flatE_zero]), h2, fun e => ?_⟩
  obtain ⟨a, ha⟩ := h3 e
  exact ⟨a, flatE_inj (ha.trans (flatE_smul X a).symm)⟩

end matrices

end AceTN
