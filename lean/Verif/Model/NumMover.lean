import Verif.Model.Mover
import Verif.Model.Boundary

/-!
The boundary moves with numerical tensors whose dimensions are only known at run time: the operations of
`Model/Mover.lean` carried out by the contractions of `Model/Projectors.lean` and `Model/Boundary.lean`.
-/

set_option autoImplicit false

namespace AceTN

open Matrix

/-- A tensor handled by a move, with its dimensions.  Bond legs have the index type `B` (all bonds of a network have one
dimension, ipeps.py), physical legs `P`; boundary legs have run-time dimensions.  `bad` is the result of an operation on
tensors whose shapes do not fit, where PyTorch raises an exception. -/
inductive Ten (B P 𝕜 : Type)
  | site (a : ATensor B P 𝕜)
  | corner (m n : ℕ) (c : Fin m → Fin n → 𝕜)
  | edge (m n : ℕ) (e : Fin m → Fin n → B → B → 𝕜)
  | quarter (m n : ℕ) (q : Matrix (Fin m × B × B) (Fin n × B × B) 𝕜)
  | proj (m n : ℕ) (p : Fin m → B → B → Fin n → 𝕜)
  | bad

section entries

variable {B 𝕜 : Type} [Zero 𝕜]

/-- The entries of a corner tensor; 0 outside its dimensions. -/
def ent2 {m n : ℕ} (c : Fin m → Fin n → 𝕜) (i j : ℕ) : 𝕜 := if h : i < m ∧ j < n then c ⟨i, h.1⟩ ⟨j, h.2⟩ else 0

/-- The entries of an edge tensor; 0 outside its dimensions. -/
def ent4 {m n : ℕ} (e : Fin m → Fin n → B → B → 𝕜) (i j : ℕ) (l l' : B) : 𝕜 :=
  if h : i < m ∧ j < n then e ⟨i, h.1⟩ ⟨j, h.2⟩ l l' else 0

/-- The entries of a projector; 0 outside its dimensions. -/
def entP {m n : ℕ} (p : Fin m → B → B → Fin n → 𝕜) (i : ℕ) (l l' : B) (j : ℕ) : 𝕜 :=
  if h : i < m ∧ j < n then p ⟨i, h.1⟩ l l' ⟨j, h.2⟩ else 0

/-- A corner tensor read with dimensions `m'`, `n'`, used when these are its dimensions. -/
def as2 {m n : ℕ} (m' n' : ℕ) (c : Fin m → Fin n → 𝕜) : Fin m' → Fin n' → 𝕜 := fun i j => ent2 c i j

/-- An edge tensor read with dimensions `m'`, `n'`, used when these are its dimensions. -/
def as4 {m n : ℕ} (m' n' : ℕ) (e : Fin m → Fin n → B → B → 𝕜) : Fin m' → Fin n' → B → B → 𝕜 := fun i j => ent4 e i j

/-- A projector read with dimensions `m'`, `n'`, used when these are its dimensions. -/
def asP {m n : ℕ} (m' n' : ℕ) (p : Fin m → B → B → Fin n → 𝕜) : Fin m' → B → B → Fin n' → 𝕜 := fun i l l' j => entP p i l l' j

/-- A quarter tensor read with dimensions `m'`, `n'`, used when these are its dimensions. -/
def asQ {m n : ℕ} (m' n' : ℕ) (q : Matrix (Fin m × B × B) (Fin n × B × B) 𝕜) : Matrix (Fin m' × B × B) (Fin n' × B × B) 𝕜 :=
  of fun i j => if h : i.1.val < m ∧ j.1.val < n then q (⟨i.1, h.1⟩, i.2) (⟨j.1, h.2⟩, j.2) else 0

end entries

variable {𝕜 : Type} [RCLike 𝕜] {B P : Type} [Fintype B] [Fintype P] [DecidableEq B]

/-- The random draws of a move: the test matrix of every projector computation, for the shape and the number of columns it
is asked for (linalg.py, `torch.randn`). -/
abbrev Draws (B 𝕜 : Type) [Fintype B] := ℕ × Site → (m n q : ℕ) → Matrix (Fin n × B × B) (Fin (clipRank (Fin m × B × B) (Fin n × B × B) q)) 𝕜

/-- The settings of the projector calculation, projectors.py 9-19. -/
structure ProjSettings (𝕜 : Type) [RCLike 𝕜] where
  la : Lapack 𝕜
  fullRank : Bool
  cutoff : ℝ
  oversampling : ℕ
  niter : ℕ

/-- The operations of a move on numerical tensors.

* `permute`: site_tensor.py 138-150;
* `quarter`: projectors.py 52-60;
* `half`: projectors.py 138-174, from the quarter tensors on;
* `full`: projectors.py 176-217, from the quarter tensors on;
* `cj1`, `cj2`, `ej`: directional_mover.py 305-366. -/
noncomputable def numOps (st : ProjSettings 𝕜) (ω : Draws B 𝕜) : Ops (Ten B P 𝕜) where
  permute k
    | .site a => .site (bondPermute k a)
    | _ => .bad
  quarter
    | .site a, .corner xa xb c, .edge xe xa' e1, .edge xb' xc e2 =>
      if xa' = xa ∧ xb' = xb then .quarter xc xe (maxNormalise (quarterCore c (as4 xe xa e1) (as4 xb xc e2) a)) else .bad
    | _, _, _, _ => .bad
  half key chi
    | .quarter m x Q1, .quarter x' n Q4 =>
      if x' = x then
        let p := if st.fullRank then halfFullRank st.la st.cutoff chi Q1 (asQ x n Q4)
          else halfRsvd st.la st.cutoff chi st.oversampling st.niter Q1 (asQ x n Q4) (ω key m n (chi + st.oversampling))
        (.proj x p.cD p.proj1, .proj x p.cD p.proj2)
      else (.bad, .bad)
    | _, _ => (.bad, .bad)
  full key chi
    | .quarter k1 x Q1, .quarter m k1' Q2, .quarter k3 n Q3, .quarter x' k3' Q4 =>
      if k1' = k1 ∧ k3' = k3 ∧ x' = x then
        let p := if st.fullRank then fullFullRank st.la st.cutoff chi Q1 (asQ m k1 Q2) Q3 (asQ x k3 Q4)
          else fullRsvd st.la st.cutoff chi st.oversampling st.niter Q1 (asQ m k1 Q2) Q3 (asQ x k3 Q4)
            (ω key m n (chi + st.oversampling))
        (.proj x p.cD p.proj1, .proj x p.cD p.proj2)
      else (.bad, .bad)
    | _, _, _, _ => (.bad, .bad)
  cj1
    | .corner xb xc c, .edge xa xb' e, .proj xc' z p =>
      if xb' = xb ∧ xc' = xc then .corner xa z (renormalizeCj1 c (as4 xa xb e) (asP xc z p)) else .bad
    | _, _, _ => .bad
  cj2
    | .corner xa xb c, .edge xb' xc e, .proj xa' z p =>
      if xb' = xb ∧ xa' = xa then .corner z xc (renormalizeCj2 c (as4 xb xc e) (asP xa z p)) else .bad
    | _, _, _ => .bad
  ej
    | .edge xa xb e, .site a, .proj xa' z' p2, .proj xb' z p1 =>
      if xa' = xa ∧ xb' = xb then .edge z' z (renormalizeEj e a (asP xa z' p2) (asP xb z p1)) else .bad
    | _, _, _, _ => .bad

omit [DecidableEq B] [Fintype P] in
/-- `build_site_rdm(ipeps, site)`, rdm.py 48-67; an exception if shapes do not fit. -/
def numSiteRdm (net : Net (Ten B P 𝕜)) (s : Site) : Except PyErr (P → P → 𝕜) :=
  match net.B s (.C 0), net.B s (.E 0), net.B s (.C 1), net.B s (.E 1), net.B s (.C 2), net.B s (.E 2), net.B s (.C 3),
    net.B s (.E 3), net.A s with
  | .corner x0 x1 c1, .edge x1' x2 e1, .corner x2' x3 c2, .edge x3' x4 e2, .corner x4' x5 c3, .edge x5' x6 e3,
    .corner x6' x7 c4, .edge x7' x0' e4, .site a =>
    if x1' = x1 ∧ x2' = x2 ∧ x3' = x3 ∧ x4' = x4 ∧ x5' = x5 ∧ x6' = x6 ∧ x7' = x7 ∧ x0' = x0 then
      .ok (siteRdmCore c1 (as4 x1 x2 e1) (as2 x2 x3 c2) (as4 x3 x4 e2) (as2 x4 x5 c3) (as4 x5 x6 e3) (as2 x6 x7 c4)
        (as4 x7 x0 e4) a)
    else .error .runtimeError
  | _, _, _, _, _, _, _, _, _ => .error .runtimeError

/-- `build_bond_rdm(ipeps, bond)`, rdm.py 82-99; an exception if shapes do not fit.  `init` is uninitialised memory. -/
def numBondRdm {pD : ℕ} (init : Fin pD → Fin pD → Fin pD → Fin pD → 𝕜) (net : Net (Ten B (Fin pD) 𝕜)) (b : Bond) :
    Except PyErr (Fin pD → Fin pD → Fin pD → Fin pD → 𝕜) :=
  match net.B b.s1 (.C ((1 + b.k) % 4)), net.B b.s1 (.E ((1 + b.k) % 4)), net.B b.s1 (.E ((0 + b.k) % 4)),
    net.B b.s1 (.C ((2 + b.k) % 4)), net.B b.s1 (.E ((2 + b.k) % 4)), net.A b.s1, net.B b.s2 (.C ((0 + b.k) % 4)),
    net.B b.s2 (.E ((0 + b.k) % 4)), net.B b.s2 (.E ((3 + b.k) % 4)), net.B b.s2 (.C ((3 + b.k) % 4)),
    net.B b.s2 (.E ((2 + b.k) % 4)), net.A b.s2 with
  | .corner y2 y3 c12, .edge y3' y4 e12, .edge y1 y2' e11, .corner y4' y5 c13, .edge y5' y6 e13, .site a1,
    .corner y9 y0 c21, .edge y0' y1' e21, .edge y8 y9' e24, .corner y7 y8' c24, .edge y6' y7' e23, .site a2 =>
    if y3' = y3 ∧ y2' = y2 ∧ y4' = y4 ∧ y5' = y5 ∧ y0' = y0 ∧ y1' = y1 ∧ y9' = y9 ∧ y8' = y8 ∧ y7' = y7 ∧ y6' = y6 then
      .ok (bondRdmCoreBlocked init c12 (as4 y3 y4 e12) (as4 y1 y2 e11) (as2 y4 y5 c13) (as4 y5 y6 e13) (bondPermute b.k a1)
        c21 (as4 y0 y1 e21) (as4 y8 y9 e24) (as2 y7 y8 c24) (as4 y6 y7 e23) (bondPermute b.k a2))
    else .error .runtimeError
  | _, _, _, _, _, _, _, _, _, _, _, _ => .error .runtimeError

/-- A list of moves with fresh random draws for every move: move number `t` uses `ω t`. -/
noncomputable def runDrawn (st : ProjSettings 𝕜) (pk : ProjKind) (ω : ℕ → Draws B 𝕜) :
    ℕ → List Move → Net (Ten B P 𝕜) → Except PyErr (Net (Ten B P 𝕜))
  | _, [], net => .ok net
  | t, m :: ms, net => do
    let net ← m.run (numOps st (ω t)) pk net
    runDrawn st pk ω (t + 1) ms net

/-- `ctmrg(ipeps, config)` on a non-distributed network, ctmrg.py 15-31, with fresh random draws for every move: `n` sweeps,
the first move of which has number `t`. -/
noncomputable def ctmrgDrawn (st : ProjSettings 𝕜) (pk : ProjKind) (ω : ℕ → Draws B 𝕜) :
    ℕ → ℕ → Net (Ten B P 𝕜) → Except PyErr (Net (Ten B P 𝕜))
  | _, 0, net => .ok net
  | t, n + 1, net => do
    let net' ← runDrawn st pk ω t (sweepMoves net.nx net.ny) net
    ctmrgDrawn st pk ω (t + (sweepMoves net.nx net.ny).length) n net'

/-- A network with freshly initialised boundary tensors, tensor_network.py 150 and site_tensor.py 34-37, 152-205 (`initial_condition`
is `None`): the two legs of every boundary leg are combined by `reshape`. -/
noncomputable def freshNet {D : ℕ} (nx ny chi : ℕ) (A : Site → ATensor (Fin D) P 𝕜) : Net (Ten (Fin D) P 𝕜) where
  nx := nx
  ny := ny
  chi := chi
  A s := .site (A s)
  B s
    | .C k => .corner (D * D) (D * D) fun i j => initialCorner (A s) k (finProdFinEquiv.symm i) (finProdFinEquiv.symm j)
    | .E k => .edge (D * D) (D * D) fun i j => initialEdge (A s) k (finProdFinEquiv.symm i) (finProdFinEquiv.symm j)
  writes _ _ := 0

end AceTN
