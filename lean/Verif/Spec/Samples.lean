import Verif.Model.Pauli
import Mathlib.Algebra.BigOperators.Fin
import Mathlib.Algebra.Order.BigOperators.Group.Finset

/-!
What the sample models are meant to be: the transverse-field Ising model with nearest-neighbour couplings on the
honeycomb and on the kagome lattice, drawn in the plane.

Points of the plane are integer combinations of two unit vectors at an angle of 60 degrees (the triangular lattice);
the squared length of `a e₁ + b e₂` is `a² + ab + b²`.
-/

set_option autoImplicit false

namespace AceTN.Pauli.Spec

/-- A point of the triangular lattice. -/
abbrev Point := ℤ × ℤ

/-- Squared distance of two points. -/
def dist2 (p q : Point) : ℤ :=
  (p.1 - q.1) * (p.1 - q.1) + (p.1 - q.1) * (p.2 - q.2) + (p.2 - q.2) * (p.2 - q.2)

/-- The two spins `A`, `B` of the unit cell at `c` of the honeycomb lattice. -/
def honeycombPos (c : ℤ × ℤ) : Fin 2 → Point :=
  ![(2 * c.1 - c.2, -c.1 - c.2), (2 * c.1 - c.2 + 1, -c.1 - c.2)]

/-- The three spins `A`, `B`, `C` of the unit cell at `c` of the kagome lattice. -/
def kagomePos (c : ℤ × ℤ) : Fin 3 → Point :=
  ![(2 * c.1 - 2 * c.2 - 1, 2 * c.2 + 1), (2 * c.1 - 2 * c.2, 2 * c.2), (2 * c.1 - 2 * c.2 + 1, 2 * c.2)]

/-- The honeycomb lattice: the triangular lattice with every third point (the centres of the hexagons) removed. -/
def OnHoneycomb (p : Point) : Prop := (p.1 - p.2) % 3 ≠ 2

/-- The kagome lattice: the triangular lattice with every fourth point removed. -/
def OnKagome (p : Point) : Prop := ¬ (p.1 % 2 = 0 ∧ p.2 % 2 = 1)

/-- The neighbouring cell in direction `k` of the tensor network (left, up, right, down). -/
def step (c : ℤ × ℤ) : ℕ → ℤ × ℤ
  | 0 => (c.1 - 1, c.2)
  | 1 => (c.1, c.2 + 1)
  | 2 => (c.1 + 1, c.2)
  | _ => (c.1, c.2 - 1)

variable {𝕜 : Type} [RCLike 𝕜] {n : ℕ}

/-- The value of a spin in the `z` basis: `1` for bit `0` (up), `-1` for bit `1`. -/
def spin (b : Fin 2) : 𝕜 := if b = 0 then 1 else -1

/-- `Z` of spin `i`, on `n` spins: diagonal, with the value of that spin. -/
def zAt (i : Fin n) : Mat 𝕜 n := Matrix.diagonal fun s => spin (s i)

/-- `Z Z` of spins `i` and `j`: diagonal, with the product of the values. -/
def zzAt (i j : Fin n) : Mat 𝕜 n := Matrix.diagonal fun s => spin (s i) * spin (s j)

/-- `X` of spin `i`: flips that spin and leaves the others alone. -/
def xAt (i : Fin n) : Mat 𝕜 n := fun s t => if t = Function.update s i (s i + 1) then 1 else 0

/-- Transverse-field Ising terms inside one cell with spins at `pos`: every pair of nearest neighbours once. -/
noncomputable def cellIsing (pos : Fin n → Point) (jz hx : ℝ) : Mat 𝕜 n :=
  -((jz : 𝕜) • ∑ i, ∑ j, if i < j ∧ dist2 (pos i) (pos j) = 1 then zzAt i j else 0) - (hx : 𝕜) • ∑ i, xAt i

/-- Ising couplings between two cells with spins at `pos` and `pos'`: every pair of nearest neighbours once. -/
noncomputable def bondIsing (pos pos' : Fin n → Point) (jz : ℝ) : Mat 𝕜 (n + n) :=
  -((jz : 𝕜) • ∑ i, ∑ j, if dist2 (pos i) (pos' j) = 1 then zzAt (Fin.castAdd n i) (Fin.natAdd n j) else 0)

end AceTN.Pauli.Spec
