import Verif.Spec.Cluster
import Verif.Spec.Lattice
import Verif.Model.NumMover

/-!
Rectangular clusters of the infinite lattice inside the boundary tensors of a network; independent of the moves.
-/

set_option autoImplicit false

namespace AceTN.Spec

variable {𝕜 : Type} [RCLike 𝕜] {B P : Type}

/-- The entries of a corner tensor, 0 outside its dimensions. -/
def cornerEnt : Ten B P 𝕜 → ℕ → ℕ → 𝕜
  | .corner _ _ c => ent2 c
  | _ => fun _ _ => 0

/-- The entries of an edge tensor, 0 outside its dimensions. -/
def edgeEnt : Ten B P 𝕜 → ℕ → ℕ → B → B → 𝕜
  | .edge _ _ e => ent4 e
  | _ => fun _ _ _ _ => 0

/-- The entries of a site tensor. -/
def siteEnt : Ten B P 𝕜 → ATensor B P 𝕜
  | .site a => a
  | _ => fun _ _ _ _ _ => 0

/-- The dimensions of the boundary legs of a tensor. -/
def legDim : Ten B P 𝕜 → ℕ
  | .corner m n _ => max m n
  | .edge m n _ => max m n
  | _ => 0

/-- The site of the cell that stands for the site `(a, b)` of the infinite lattice. -/
def cellSite (nx ny : ℕ) (p : ℤ × ℤ) : Site := ((p.1 % nx).toNat, (p.2 % ny).toNat)

/-- The step to the next site on the left, above, on the right and below. -/
def dir : Fin 4 → ℤ × ℤ
  | 0 => (-1, 0)
  | 1 => (0, 1)
  | 2 => (1, 0)
  | 3 => (0, -1)

/-- The ket and bra layers of a site, with the physical index summed over or, for `some (bra, ket)`, fixed. -/
def layer [Fintype P] (a : ATensor B P 𝕜) (o : Option (P × P)) (l u r d : B × B) : 𝕜 :=
  match o with
  | none => ∑ p, a l.1 u.1 r.1 d.1 p * star (a l.2 u.2 r.2 d.2 p)
  | some (bra, ket) => a l.1 u.1 r.1 d.1 ket * star (a l.2 u.2 r.2 d.2 bra)

/-- A rectangle of the infinite lattice: the position of its lower left site, its width and its height. -/
structure Rect where
  x : ℤ
  y : ℤ
  w : ℕ
  h : ℕ
  deriving DecidableEq

/-- The rectangle with the boundary tensors of the sites along its sides; `N` labels for each boundary bond. -/
def clusterFrame [Fintype P] (N : ℕ) (net : Net (Ten B P 𝕜)) (o : ℤ × ℤ → Option (P × P)) (r : Rect) :
    Frame (Fin N) (B × B) 𝕜 r.w r.h where
  D i j := layer (siteEnt (net.A (cellSite net.nx net.ny (r.x + i, r.y + j)))) (o (r.x + i, r.y + j))
  Eu i z z' g := edgeEnt (net.B (cellSite net.nx net.ny (r.x + i, r.y + r.h - 1)) (.E 0)) z z' g.1 g.2
  Er j z z' g := edgeEnt (net.B (cellSite net.nx net.ny (r.x + r.w - 1, r.y + j)) (.E 1)) z z' g.1 g.2
  Ed i z z' g := edgeEnt (net.B (cellSite net.nx net.ny (r.x + i, r.y)) (.E 2)) z z' g.1 g.2
  El j z z' g := edgeEnt (net.B (cellSite net.nx net.ny (r.x, r.y + j)) (.E 3)) z z' g.1 g.2
  C0 z z' := cornerEnt (net.B (cellSite net.nx net.ny (r.x, r.y + r.h - 1)) (.C 0)) z z'
  C1 z z' := cornerEnt (net.B (cellSite net.nx net.ny (r.x + r.w - 1, r.y + r.h - 1)) (.C 1)) z z'
  C2 z z' := cornerEnt (net.B (cellSite net.nx net.ny (r.x + r.w - 1, r.y)) (.C 2)) z z'
  C3 z z' := cornerEnt (net.B (cellSite net.nx net.ny (r.x, r.y)) (.C 3)) z z'

/-- The largest boundary dimension of a network. -/
def netDim (net : Net (Ten B P 𝕜)) : ℕ :=
  (Finset.range net.nx ×ˢ Finset.range net.ny ×ˢ Finset.range 4).sup fun i =>
    max (legDim (net.B (i.1, i.2.1) (.C i.2.2))) (legDim (net.B (i.1, i.2.1) (.E i.2.2)))

/-- The value of a cluster: all sites of the rectangle in both layers inside the boundary, summed over all bonds.  The
physical index of a site is summed over unless `o` fixes it. -/
def cluster [Fintype B] [Fintype P] (net : Net (Ten B P 𝕜)) (o : ℤ × ℤ → Option (P × P)) (r : Rect) : 𝕜 :=
  (clusterFrame (netDim net) net o r).value

/-- The tensors of a network fit together: `f s k` is the dimension of the bond between corner `k` and edge `k` of site `s`,
which for the edge before corner `k` is the one of the next site along that side. -/
structure Wired (net : Net (Ten B P 𝕜)) (f : Site → ℕ → ℕ) : Prop where
  site : ∀ s, InCell net.nx net.ny s → ∃ a, net.A s = .site a
  corner : ∀ s, InCell net.nx net.ny s → ∀ k < 4, ∃ c, net.B s (.C k) =
    .corner (f (neighbour net.nx net.ny s ((k + 1) % 4)) ((k + 3) % 4)) (f s k) c
  edge : ∀ s, InCell net.nx net.ny s → ∀ k < 4, ∃ e, net.B s (.E k) =
    .edge (f s k) (f (neighbour net.nx net.ny s ((k + 2) % 4)) k) e

end AceTN.Spec
