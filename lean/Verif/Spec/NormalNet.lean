import Verif.Model.NumMover

/-!
Networks with normalised boundary tensors.
-/

set_option autoImplicit false

namespace AceTN.Spec

variable {𝕜 : Type} [RCLike 𝕜] {B P : Type} [Fintype B]

/-- The sum of the squares of the entries of a corner or edge tensor. -/
noncomputable def tenSq : Ten B P 𝕜 → ℝ
  | .corner _ _ c => ∑ i, ∑ j, ‖c i j‖ ^ 2
  | .edge _ _ e => ∑ i, ∑ j, ∑ g, ∑ h, ‖e i j g h‖ ^ 2
  | _ => 0

/-- All boundary tensors have the norm one, or vanish. -/
def NormalNet (net : Net (Ten B P 𝕜)) : Prop := ∀ s sl, tenSq (net.B s sl) = 0 ∨ tenSq (net.B s sl) = 1

end AceTN.Spec
