import Verif.Model.Lattice

/-!
Independent vocabulary for statements about the periodic square lattice.
-/

set_option autoImplicit false

namespace AceTN.Spec

/-- `s` is a coordinate of the `nx × ny` unit cell. -/
def InCell (nx ny : ℕ) (s : Site) : Prop := s.1 < nx ∧ s.2 < ny

/-- The nearest neighbour of `s` in direction `k` (0 = left, 1 = up, 2 = right, 3 = down) on the torus:
the coordinate is shifted by one and reduced modulo the cell, using integer arithmetic. -/
def neighbour (nx ny : ℕ) (s : Site) : ℕ → Site
  | 0 => ((((s.1 : ℤ) - 1) % nx).toNat, s.2)
  | 1 => (s.1, (((s.2 : ℤ) + 1) % ny).toNat)
  | 2 => ((((s.1 : ℤ) + 1) % nx).toNat, s.2)
  | _ => (s.1, (((s.2 : ℤ) - 1) % ny).toNat)

/-- The direction opposite to `k`. -/
def opposite : ℕ → ℕ
  | 0 => 2
  | 1 => 3
  | 2 => 0
  | _ => 1

/-- The bond `b` leaves site `s` in direction `d`, seen from either of its two ends. -/
def HasEnd (b : Bond) (s : Site) (d : ℕ) : Prop :=
  (b.s1 = s ∧ b.k = d) ∨ (b.s2 = s ∧ opposite b.k = d)

end AceTN.Spec
