import Mathlib.Algebra.BigOperators.Fin
import Mathlib.Algebra.BigOperators.Ring.Finset
import Mathlib.Data.Fintype.Pi
import Mathlib.Data.Fin.Tuple.Basic

/-!
A rectangle of sites inside a boundary and its value: the sum over all labellings of all bonds of the product of all
tensors; independent of the model.
-/

set_option autoImplicit false

namespace AceTN.Spec

/-- A `w × h` rectangle.  `D i j` is the tensor of the site in column `i` (from the left) and row `j` (from below), legs
left, up, right, down.  `Eu`, `Er`, `Ed`, `El` are the upper, right, lower and left edge tensors, `C0`, …, `C3` the corners,
clockwise from the upper left.  The first leg of a boundary tensor points backwards and the second one forwards, going round
the rectangle clockwise; the third leg of an edge points to the site.  `X` labels boundary bonds and `G` bonds of sites. -/
structure Frame (X G 𝕜 : Type) (w h : ℕ) where
  D : Fin w → Fin h → G → G → G → G → 𝕜
  Eu : Fin w → X → X → G → 𝕜
  Er : Fin h → X → X → G → 𝕜
  Ed : Fin w → X → X → G → 𝕜
  El : Fin h → X → X → G → 𝕜
  C0 : X → X → 𝕜
  C1 : X → X → 𝕜
  C2 : X → X → 𝕜
  C3 : X → X → 𝕜

variable {X G 𝕜 : Type} [CommRing 𝕜] {w h : ℕ}

/-- The product of all tensors for one labelling: `H i j` is the bond on the left of column `i` in row `j`, `V i j` the bond
below row `j` in column `i`; `T`, `R`, `B`, `L` are the bonds of the upper, right, lower and left boundary, numbered from the
left or from below. -/
def Frame.weight (F : Frame X G 𝕜 w h) (H : Fin (w + 1) → Fin h → G) (V : Fin w → Fin (h + 1) → G) (T : Fin (w + 1) → X)
    (R : Fin (h + 1) → X) (B : Fin (w + 1) → X) (L : Fin (h + 1) → X) : 𝕜 :=
  (∏ i, ∏ j, F.D i j (H i.castSucc j) (V i j.succ) (H i.succ j) (V i j.castSucc)) *
  (∏ i, F.Eu i (T i.castSucc) (T i.succ) (V i (Fin.last h))) *
  (∏ j, F.Er j (R j.succ) (R j.castSucc) (H (Fin.last w) j)) *
  (∏ i, F.Ed i (B i.succ) (B i.castSucc) (V i 0)) *
  (∏ j, F.El j (L j.castSucc) (L j.succ) (H 0 j)) *
  (F.C0 (L (Fin.last h)) (T 0) * F.C1 (T (Fin.last w)) (R (Fin.last h)) * F.C2 (R 0) (B (Fin.last w)) * F.C3 (B 0) (L 0))

/-- The value of the rectangle. -/
def Frame.value [Fintype X] [Fintype G] (F : Frame X G 𝕜 w h) : 𝕜 :=
  ∑ H : Fin (w + 1) → Fin h → G, ∑ V : Fin w → Fin (h + 1) → G, ∑ T : Fin (w + 1) → X, ∑ R : Fin (h + 1) → X,
    ∑ B : Fin (w + 1) → X, ∑ L : Fin (h + 1) → X, F.weight H V T R B L

end AceTN.Spec
