import Verif.Spec.Frame
import Verif.Model.Lattice
import Mathlib.Data.Fintype.Pi
import Mathlib.Algebra.BigOperators.Group.Finset.Basic

/-!
The many-body state of a network of site tensors on a finite lattice that covers the unit cell; independent of the
model apart from the type of bonds.
-/

set_option autoImplicit false

namespace AceTN.Spec

variable {𝕜 : Type} [RCLike 𝕜] {B P : Type} [Fintype B]

/-- The state of a network on any graph: vertex `v` carries the tensor `T v`, its leg `k` lies on the edge `leg v k`;
all edges are summed over, the physical indices `p` are left open. -/
def netState {V E : Type} [Fintype V] [Fintype E] [DecidableEq E] (leg : V → Fin 4 → E)
    (T : V → B → B → B → B → P → 𝕜) (p : V → P) : 𝕜 :=
  ∑ β : E → B, ∏ v, atLegs (T v) (fun k => β (leg v k)) (p v)

/-- A site of a lattice made of `N` copies of the cell: the copy and the place in the cell. -/
abbrev BigSite (nx ny N : ℕ) := Fin N × Fin nx × Fin ny

/-- An edge of that lattice, named by its left (`true`) or lower (`false`) end. -/
abbrev BigEdge (nx ny N : ℕ) := BigSite nx ny N × Bool

/-- The preceding coordinate on a ring. -/
def before {n : ℕ} (x : Fin n) : Fin n := ⟨(x + (n - 1)) % n, Nat.mod_lt _ (by have := x.2; omega)⟩

/-- The edge at leg `k` (0 left, 1 up, 2 right, 3 down) of a site of the lattice in which the bond `b` leads from its
first end in copy `c` to its second end in copy `σ b c`. -/
def bigLeg {nx ny N : ℕ} (σ : Bond → Equiv.Perm (Fin N)) (v : BigSite nx ny N) (k : Fin 4) : BigEdge nx ny N :=
  match k with
  | 0 => (((σ ⟨((before v.2.1 : ℕ), (v.2.2 : ℕ)), (v.2.1, v.2.2), 2⟩).symm v.1, before v.2.1, v.2.2), true)
  | 1 => (v, false)
  | 2 => (v, true)
  | 3 => (((σ ⟨((v.2.1 : ℕ), (before v.2.2 : ℕ)), (v.2.1, v.2.2), 1⟩).symm v.1, v.2.1, before v.2.2), false)

/-- The state on that lattice of the network with tensor `A s` at every copy of the site `s` of the cell. -/
def latticeState {nx ny N : ℕ} (σ : Bond → Equiv.Perm (Fin N)) (A : Site → B → B → B → B → P → 𝕜) :
    (BigSite nx ny N → P) → 𝕜 :=
  netState (bigLeg σ) fun v => A (v.2.1, v.2.2)

end AceTN.Spec
