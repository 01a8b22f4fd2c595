import Verif.Spec.DtypeSession

/-!
Complex conjugation of all data, and observables that are odd under it.
-/

set_option autoImplicit false

namespace AceTN.Spec

variable {𝕜 : Type} [RCLike 𝕜] {P : Type}

/-- Complex conjugation. -/
noncomputable def conjHom (𝕜 : Type) [RCLike 𝕜] : 𝕜 →⋆ₐ[ℝ] 𝕜 where
  toFun x := star x
  map_one' := star_one _
  map_mul' x y := by rw [star_mul, mul_comm]
  map_zero' := star_zero _
  map_add' := star_add
  commutes' r := by rw [RCLike.algebraMap_eq_ofReal, RCLike.star_def, RCLike.conj_ofReal]
  map_star' _ := rfl

/-- A matrix with imaginary entries, like the Pauli matrix Y. -/
def Odd₁ (op : P → P → 𝕜) : Prop := ∀ p q, star (op p q) = -op p q

/-- A two-site operator with imaginary entries, like X ⊗ Y. -/
def Odd₂ (op : P → P → P → P → 𝕜) : Prop := ∀ p q r s, star (op p q r s) = -op p q r s

end AceTN.Spec
