import Mathlib.Analysis.RCLike.Basic
import Mathlib.Algebra.BigOperators.Ring.Finset

/-!
The two-site tensor of a bond, in the bond frame: the second site is to the left of the first.
-/

set_option autoImplicit false

namespace AceTN.Spec

variable {𝕜 : Type} [RCLike 𝕜] {B P : Type} [Fintype B] [Fintype P]

/-- The two tensors contracted over the shared bond `b` (left leg of the first, right leg of the second), as a function
of the outer legs `u r d` of the first, `l' u' d'` of the second and the two physical indices. -/
def twoSite (a1 a2 : B → B → B → B → P → 𝕜) (u r d l' u' d' : B) (p q : P) : 𝕜 :=
  ∑ b, a1 b u r d p * a2 l' u' b d' q

/-- A gate (first two indices contracted with the state) applied to a two-site tensor. -/
def gated (gate : P → P → P → P → 𝕜) (T : B → B → B → B → B → B → P → P → 𝕜) (u r d l' u' d' : B) (p q : P) : 𝕜 :=
  ∑ p', ∑ q', T u r d l' u' d' p' q' * gate p' q' p q

/-- Two tensors with an isometric outer part each and a joint reduced part `a12`. -/
def assembled {N : Type} [Fintype N] (a1q a2q : B → B → B → N → 𝕜) (a12 : N → N → P → P → 𝕜)
    (u r d l' u' d' : B) (p q : P) : 𝕜 :=
  ∑ y, ∑ x, a1q r d u y * a2q d' l' u' x * a12 y x p q

end AceTN.Spec
