import Mathlib.Analysis.RCLike.Basic
import Mathlib.Analysis.SpecialFunctions.Sqrt
import Mathlib.LinearAlgebra.Matrix.Hermitian

/-!
Energies and ground states of a Hermitian matrix.
-/

set_option autoImplicit false

namespace AceTN.Spec

variable {𝕜 : Type} [RCLike 𝕜] {ι : Type} [Fintype ι]

/-- The norm of a state. -/
noncomputable def stateNorm (ψ : ι → 𝕜) : ℝ := Real.sqrt (∑ p, ‖ψ p‖ ^ 2)

/-- The inner product of two states. -/
def overlap (φ ψ : ι → 𝕜) : 𝕜 := ∑ p, star (φ p) * ψ p

/-- The energy of a state. -/
noncomputable def energyOf (H : Matrix ι ι 𝕜) (ψ : ι → 𝕜) : ℝ := RCLike.re (overlap ψ (H.mulVec ψ)) / stateNorm ψ ^ 2

/-- `E` is the lowest energy. -/
def IsGroundEnergy (H : Matrix ι ι 𝕜) (E : ℝ) : Prop := ∀ ψ : ι → 𝕜, ψ ≠ 0 → E ≤ energyOf H ψ

end AceTN.Spec
