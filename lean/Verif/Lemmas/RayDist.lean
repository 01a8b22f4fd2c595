import Verif.Lemmas.GroundState
import Mathlib.Order.ConditionallyCompleteLattice.Indexed

/-! The distance of states up to positive factors. -/

set_option autoImplicit false

namespace AceTN

open Spec

variable {𝕜 : Type} [RCLike 𝕜] {ι : Type} [Fintype ι]

/-- Specification: the distance of the positive multiples of the state `φ` from the state `ψ`. -/
noncomputable def Spec.rayDist (φ ψ : ι → 𝕜) : ℝ := ⨅ κ : Set.Ioi (0 : ℝ), stateNorm (((κ : ℝ) : 𝕜) • φ - ψ)

theorem rayDist_bdd (φ ψ : ι → 𝕜) : BddBelow (Set.range fun κ : Set.Ioi (0 : ℝ) => stateNorm (((κ : ℝ) : 𝕜) • φ - ψ)) :=
  ⟨0, by rintro _ ⟨κ, rfl⟩; exact stateNorm_nonneg _⟩

theorem rayDist_le (φ ψ : ι → 𝕜) {κ : ℝ} (h : 0 < κ) : rayDist φ ψ ≤ stateNorm ((κ : 𝕜) • φ - ψ) :=
  ciInf_le (rayDist_bdd φ ψ) ⟨κ, h⟩

theorem le_rayDist (φ ψ : ι → 𝕜) {x : ℝ} (h : ∀ κ : ℝ, 0 < κ → x ≤ stateNorm ((κ : 𝕜) • φ - ψ)) : x ≤ rayDist φ ψ := by
  have : Nonempty (Set.Ioi (0 : ℝ)) := ⟨⟨1, Set.mem_Ioi.2 one_pos⟩⟩
  exact le_ciInf fun κ => h κ.1 κ.2

theorem rayDist_nonneg (φ ψ : ι → 𝕜) : 0 ≤ rayDist φ ψ := le_rayDist _ _ fun _ _ => stateNorm_nonneg _

theorem rayDist_lt (φ ψ : ι → 𝕜) {x : ℝ} (h : rayDist φ ψ < x) : ∃ κ : ℝ, 0 < κ ∧ stateNorm ((κ : 𝕜) • φ - ψ) < x := by
  by_contra hn
  push Not at hn
  exact absurd (le_rayDist φ ψ hn) (not_le.2 h)

theorem stateNorm_zero : stateNorm (0 : ι → 𝕜) = 0 := by simp [stateNorm]

theorem stateNorm_sub_comm (φ ψ : ι → 𝕜) : stateNorm (φ - ψ) = stateNorm (ψ - φ) := by
  rw [← neg_sub, ← neg_one_smul 𝕜, stateNorm_smul, norm_neg, norm_one, one_mul]

/-- A positive multiple has distance zero. -/
theorem rayDist_self {φ ψ : ι → 𝕜} {κ : ℝ} (h : 0 < κ) (e : (κ : 𝕜) • φ = ψ) : rayDist φ ψ = 0 := by
  refine le_antisymm ?_ (rayDist_nonneg _ _)
  have := rayDist_le φ ψ h
  rwa [e, sub_self, stateNorm_zero] at this

theorem rayDist_triangle (φ ψ χ : ι → 𝕜) : rayDist φ χ ≤ rayDist φ ψ + stateNorm (ψ - χ) := by
  rw [← sub_le_iff_le_add]
  refine le_rayDist _ _ fun κ hκ => ?_
  rw [sub_le_iff_le_add]
  refine (rayDist_le φ χ hκ).trans ?_
  rw [show (κ : 𝕜) • φ - χ = ((κ : 𝕜) • φ - ψ) + (ψ - χ) from (sub_add_sub_cancel _ _ _).symm]
  exact stateNorm_add_le _ _

theorem rayDist_smul (φ ψ : ι → 𝕜) {κ : ℝ} (h : 0 < κ) : rayDist φ ((κ : 𝕜) • ψ) ≤ κ * rayDist φ ψ := by
  have h1 : κ⁻¹ * rayDist φ ((κ : 𝕜) • ψ) ≤ rayDist φ ψ := by
    refine le_rayDist _ _ fun μ hμ => ?_
    rw [inv_mul_le_iff₀ h]
    refine (rayDist_le φ _ (mul_pos h hμ)).trans (le_of_eq ?_)
    rw [RCLike.ofReal_mul, mul_smul, ← smul_sub, stateNorm_smul, RCLike.norm_ofReal, abs_of_pos h]
  rwa [inv_mul_le_iff₀ h] at h1

/-- Every state has positive multiples close to zero. -/
theorem rayDist_zero (φ : ι → 𝕜) : rayDist φ 0 = 0 := by
  refine le_antisymm (le_of_forall_pos_le_add fun ε hε => ?_) (rayDist_nonneg _ _)
  have hp : 0 < ε / (stateNorm φ + 1) := div_pos hε (by have := stateNorm_nonneg φ; linarith)
  refine (rayDist_le φ 0 hp).trans ?_
  rw [sub_zero, stateNorm_smul, RCLike.norm_ofReal, abs_of_pos hp, zero_add, div_mul_eq_mul_div, div_le_iff₀ (by have := stateNorm_nonneg φ; linarith)]
  have := stateNorm_nonneg φ
  nlinarith

end AceTN
