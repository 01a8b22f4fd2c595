import Verif.Spec.ClusterNet

/-!
Which sites a sequence of moves collects in the boundary of a rectangle; independent of how the moves work.
-/

set_option autoImplicit false

namespace AceTN.Spec

/-- The sites of a rectangle. -/
def Rect.Has (r : Rect) (p : ℤ × ℤ) : Prop := r.x ≤ p.1 ∧ p.1 < r.x + r.w ∧ r.y ≤ p.2 ∧ p.2 < r.y + r.h

/-- The rectangle whose sites are those of `r` and, if the line absorbed by the move is the next one beyond `r` in the
direction of the move, those of this line along the side of `r`. -/
def growMove (nx ny : ℕ) (m : Move) (r : Rect) : Rect :=
  match m with
  | .left x => if (r.x - 1) % nx = x then ⟨r.x - 1, r.y, r.w + 1, r.h⟩ else r
  | .up y => if (r.y + r.h) % ny = y then ⟨r.x, r.y, r.w, r.h + 1⟩ else r
  | .right x => if (r.x + r.w) % nx = x then ⟨r.x, r.y, r.w + 1, r.h⟩ else r
  | .down y => if (r.y - 1) % ny = y then ⟨r.x, r.y - 1, r.w, r.h + 1⟩ else r

/-- The same for a sequence of moves, the last one first: what is inside the boundary after it. -/
def growAll (nx ny : ℕ) (ms : List Move) (r : Rect) : Rect := ms.foldr (growMove nx ny) r

/-- The rectangle made of the sites `p` and `p + dir K`. -/
def bondRect (p : ℤ × ℤ) : Fin 4 → Rect
  | 0 => ⟨p.1 - 1, p.2, 2, 1⟩
  | 1 => ⟨p.1, p.2, 1, 2⟩
  | 2 => ⟨p.1, p.2, 2, 1⟩
  | 3 => ⟨p.1, p.2 - 1, 1, 2⟩

/-- The physical indices of site `p` fixed. -/
def fixSite {P : Type} (p : ℤ × ℤ) (bra ket : P) (s : ℤ × ℤ) : Option (P × P) := if s = p then some (bra, ket) else none

/-- The physical indices of the sites `p` and `q` fixed. -/
def fixBond {P : Type} (p q : ℤ × ℤ) (b1 b2 k1 k2 : P) (s : ℤ × ℤ) : Option (P × P) :=
  if s = p then some (b1, k1) else if s = q then some (b2, k2) else none

end AceTN.Spec
