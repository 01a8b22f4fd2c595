import Mathlib.Analysis.RCLike.Basic

/-!
Pairs of reduced tensors, independent of the model: their product and distances.
-/

set_option autoImplicit false

namespace AceTN.Spec

variable {𝕜 : Type} [RCLike 𝕜] {N B P : Type} [Fintype N] [Fintype B] [Fintype P]

/-- The product of two reduced tensors over their common bond. -/
def pairProd (a1 a2 : N → B → P → 𝕜) : N → N → P → P → 𝕜 := fun y x p q => ∑ u, a1 y u p * a2 x u q

/-- Squared Frobenius norm. -/
def normSq4 (t : N → N → P → P → 𝕜) : ℝ := ∑ y, ∑ x, ∑ p, ∑ q, ‖t y x p q‖ ^ 2

/-- Overlap of the bond vectors `u` and `v` of a reduced tensor. -/
def gram (a : N → B → P → 𝕜) (u v : B) : 𝕜 := ∑ y, ∑ p, star (a y u p) * a y v p

end AceTN.Spec
