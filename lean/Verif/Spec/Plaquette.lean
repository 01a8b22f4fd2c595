import Verif.Spec.Lattice
import Mathlib.Analysis.RCLike.Basic
import Mathlib.Algebra.BigOperators.Ring.Finset

/-!
The norm of a 2 × 2 block of sites inside its boundary, written out leg by leg; independent of the model.

Corners and edges are numbered clockwise from the upper left corner and the upper edge; the first leg of each boundary
tensor points backwards and the second one forwards, going round the block clockwise.  An edge has two more legs towards
the site, ket and bra.
-/

set_option autoImplicit false

namespace AceTN.Spec

variable {𝕜 : Type} [RCLike 𝕜] {B P X : Type} [Fintype B] [Fintype P] [Fintype X]

/-- The upper left part: corner `c`, left edge `el`, upper edge `eu` and site `a`, as a function of the bond to the right
(`x`, ket `t`, bra `t'`) and the bond below (`y`, `m`, `m'`). -/
def upperLeft (c : X → X → 𝕜) (el eu : X → X → B → B → 𝕜) (a : B → B → B → B → P → 𝕜) (x : X) (t t' : B) (y : X) (m m' : B) : 𝕜 :=
  ∑ i, ∑ j, ∑ l, ∑ l', ∑ u, ∑ u', ∑ p, c i j * eu j x u u' * el y i l l' * a l u t m p * star (a l' u' t' m' p)

/-- The upper right part: bonds to the left (`x`, `t`, `t'`) and below (`y`, `m`, `m'`). -/
def upperRight (c : X → X → 𝕜) (eu er : X → X → B → B → 𝕜) (a : B → B → B → B → P → 𝕜) (x : X) (t t' : B) (y : X) (m m' : B) : 𝕜 :=
  ∑ i, ∑ j, ∑ u, ∑ u', ∑ r, ∑ r', ∑ p, c i j * er j y r r' * eu x i u u' * a t u r m p * star (a t' u' r' m' p)

/-- The lower right part: bonds to the left (`x`, `t`, `t'`) and above (`y`, `m`, `m'`). -/
def lowerRight (c : X → X → 𝕜) (er ed : X → X → B → B → 𝕜) (a : B → B → B → B → P → 𝕜) (x : X) (t t' : B) (y : X) (m m' : B) : 𝕜 :=
  ∑ i, ∑ j, ∑ r, ∑ r', ∑ d, ∑ d', ∑ p, c i j * ed j x d d' * er y i r r' * a t m r d p * star (a t' m' r' d' p)

/-- The lower left part: bonds to the right (`x`, `t`, `t'`) and above (`y`, `m`, `m'`). -/
def lowerLeft (c : X → X → 𝕜) (ed el : X → X → B → B → 𝕜) (a : B → B → B → B → P → 𝕜) (x : X) (t t' : B) (y : X) (m m' : B) : 𝕜 :=
  ∑ i, ∑ j, ∑ d, ∑ d', ∑ l, ∑ l', ∑ p, c i j * el j y l l' * ed x i d d' * a l m t d p * star (a l' m' t' d' p)

/-- Four parts joined along their four common bonds. -/
def plaquette (ul ur lr ll : X → B → B → X → B → B → 𝕜) : 𝕜 :=
  ∑ x, ∑ t, ∑ t', ∑ y, ∑ r, ∑ r', ∑ z, ∑ b, ∑ b', ∑ w, ∑ l, ∑ l',
    ul x t t' w l l' * ur x t t' y r r' * lr z b b' y r r' * ll z b b' w l l'

/-- The four sites of the block whose lower left site is `s`, clockwise from the upper left one. -/
def blockSite (nx ny : ℕ) (s : Site) : Fin 4 → Site
  | 0 => neighbour nx ny s 1
  | 1 => neighbour nx ny (neighbour nx ny s 1) 2
  | 2 => neighbour nx ny s 2
  | 3 => s

end AceTN.Spec
