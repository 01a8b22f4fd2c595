import Verif.Spec.ClusterNet

/-!
Finite patches of the infinite lattice as states: a rectangle of sites inside a ring of sites whose outward legs are left
open.  Independent of the moves and of the boundary tensors.
-/

set_option autoImplicit false

namespace AceTN.Spec

variable {𝕜 : Type} [RCLike 𝕜] {B P : Type}

/-- The open legs of a patch: the physical legs of the sites of the rectangle, one outward bond and the physical leg of every
site above, to the right of, below and to the left of it, two outward bonds and the physical leg of the four sites in the
corners, clockwise from the upper left. -/
abbrev PatchLegs (B P : Type) (w h : ℕ) :=
  ((((((Fin w → Fin h → P) × (Fin w → B × P)) × (Fin h → B × P)) × (Fin w → B × P)) × (Fin h → B × P))) ×
    ((((B × B × P) × (B × B × P)) × (B × B × P)) × (B × B × P))

/-- The patch with given labels of the open legs.  `A` gives the tensor of every site of the lattice, legs left, up, right,
down, physical; every site of the ring has the tensor of the site of the rectangle next to it.  Where `fix` gives a label, it
replaces the one of the physical leg. -/
def patchFrame (A : ℤ × ℤ → ATensor B P 𝕜) (fix : ℤ × ℤ → Option P) (r : Rect) (e : PatchLegs B P r.w r.h) :
    Frame B B 𝕜 r.w r.h where
  D i j a b c d := A (r.x + i, r.y + j) a b c d ((fix (r.x + i, r.y + j)).getD (e.1.1.1.1.1 i j))
  Eu i z z' g := A (r.x + i, r.y + r.h - 1) z (e.1.1.1.1.2 i).1 z' g (e.1.1.1.1.2 i).2
  Er j z z' g := A (r.x + r.w - 1, r.y + j) g z (e.1.1.1.2 j).1 z' (e.1.1.1.2 j).2
  Ed i z z' g := A (r.x + i, r.y) z' g z (e.1.1.2 i).1 (e.1.1.2 i).2
  El j z z' g := A (r.x, r.y + j) (e.1.2 j).1 z' g z (e.1.2 j).2
  C0 z z' := A (r.x, r.y + r.h - 1) e.2.1.1.1.1 e.2.1.1.1.2.1 z' z e.2.1.1.1.2.2
  C1 z z' := A (r.x + r.w - 1, r.y + r.h - 1) z e.2.1.1.2.1 e.2.1.1.2.2.1 z' e.2.1.1.2.2.2
  C2 z z' := A (r.x + r.w - 1, r.y) z' z e.2.1.2.1 e.2.1.2.2.1 e.2.1.2.2.2
  C3 z z' := A (r.x, r.y) e.2.2.2.1 z' z e.2.2.1 e.2.2.2.2

/-- The amplitude of the patch. -/
def patchAmp [Fintype B] (A : ℤ × ℤ → ATensor B P 𝕜) (fix : ℤ × ℤ → Option P) (r : Rect) (e : PatchLegs B P r.w r.h) : 𝕜 :=
  (patchFrame A fix r e).value

/-- The overlap of two patches that differ in the labels fixed by `bra` and `ket`. -/
def patchOverlap [Fintype B] [Fintype P] (A : ℤ × ℤ → ATensor B P 𝕜) (r : Rect) (bra ket : ℤ × ℤ → Option P) : 𝕜 :=
  ∑ e, patchAmp A ket r e * star (patchAmp A bra r e)

end AceTN.Spec
