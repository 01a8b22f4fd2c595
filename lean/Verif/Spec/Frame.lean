import Mathlib.Analysis.RCLike.Basic
import Mathlib.Algebra.BigOperators.Ring.Finset
import Mathlib.Logic.Function.Basic

/-!
Site tensors on the lattice, with legs 0 left, 1 up, 2 right, 3 down; independent of the model.
-/

set_option autoImplicit false

namespace AceTN.Spec

variable {𝕜 : Type} [RCLike 𝕜] {B P : Type} [Fintype B] [Fintype P]

/-- Entry of a site tensor at the leg indices `w`. -/
def atLegs (A : B → B → B → B → P → 𝕜) (w : Fin 4 → B) (p : P) : 𝕜 := A (w 0) (w 1) (w 2) (w 3) p

/-- The leg on side `i`, counted from direction `k`. -/
def side (k i : ℕ) : Fin 4 := ⟨(k + i) % 4, Nat.mod_lt _ (by decide)⟩

/-- `x` is the site tensor `A` turned so that its leg in direction `k` is the left one. -/
def InFrame (k : ℕ) (A x : B → B → B → B → P → 𝕜) : Prop :=
  ∀ (w : Fin 4 → B) (p : P), x (w (side k 0)) (w (side k 1)) (w (side k 2)) (w (side k 3)) p = atLegs A w p

/-- The two-site tensor of a bond in direction `k` on the lattice: the leg of the first tensor in direction `k` is
contracted with the opposite leg of the second one; `w1` and `w2` are the indices of all other legs. -/
def bondPair (k : ℕ) (A1 A2 : B → B → B → B → P → 𝕜) (w1 w2 : Fin 4 → B) (p q : P) : 𝕜 :=
  ∑ b, atLegs A1 (Function.update w1 (side k 0) b) p * atLegs A2 (Function.update w2 (side k 2) b) q

/-- A gate (first two indices contracted with the state) on a two-site tensor of the lattice. -/
def gatedPair (gate : P → P → P → P → 𝕜) (T : (Fin 4 → B) → (Fin 4 → B) → P → P → 𝕜) (w1 w2 : Fin 4 → B) (p q : P) : 𝕜 :=
  ∑ p', ∑ q', T w1 w2 p' q' * gate p' q' p q

/-- One-site gates on the two sites of a two-site tensor of the lattice. -/
def onSites (g1 g2 : P → P → 𝕜) (T : (Fin 4 → B) → (Fin 4 → B) → P → P → 𝕜) (w1 w2 : Fin 4 → B) (p q : P) : 𝕜 :=
  ∑ p', ∑ q', g1 p' p * g2 q' q * T w1 w2 p' q'

end AceTN.Spec
