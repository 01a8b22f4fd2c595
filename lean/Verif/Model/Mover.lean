import Verif.Model.Lattice
import Verif.Model.Py

/-!
The boundary state machine: `acetn/renormalization/directional_mover.py`, `ctmrg.py` and the parts of
`projectors.py` that select which tensors are read.  Tensors are an arbitrary type `T`; the contractions are
the fields of `Ops T`.  The arithmetic of the contractions is modelled in `Model/Projectors.lean` and
`Model/Boundary.lean`; their shapes in `Model/Shapes.lean`.
-/

set_option autoImplicit false

namespace AceTN

/-- The tensor operations used by a boundary move, as parameters.

* `permute k a`: `SiteTensor.bond_permute`, site_tensor.py 138-150;
* `quarter ak ck ek1 ek2`: the contraction of `make_quarter_tensor`, projectors.py 52-60;
* `half key chi Q1 Q4`: projectors from two quarter tensors, projectors.py 150-174;
* `full key chi Q1 Q2 Q3 Q4`: projectors from four quarter tensors, projectors.py 188-217;
* `cj1`, `cj2`, `ej`: directional_mover.py 305-366.

The extra argument `key = (k, site)` of `half` and `full` stands for everything a projector computation may
use besides its tensor arguments (the random test matrix drawn for that cut): the theorems hold for any
assignment of random matrices to cuts, but the same cut is assumed to use the same one in the runs compared. -/
structure Ops (T : Type) where
  permute : ℕ → T → T
  quarter : T → T → T → T → T
  half : ℕ × Site → ℕ → T → T → T × T
  full : ℕ × Site → ℕ → T → T → T → T → T × T
  cj1 : T → T → T → T
  cj2 : T → T → T → T
  ej : T → T → T → T → T

/-- A boundary tensor of a site: corner `C[k]` or edge `E[k]`. -/
inductive Slot
  | C (k : ℕ)
  | E (k : ℕ)
  deriving DecidableEq, Repr

/-- The network as seen by a boundary move.  `A s` is `ipeps[s]['A']`, `B s (.C k)` is `ipeps[s]['C'][k]`,
`B s (.E k)` is `ipeps[s]['E'][k]`; `chi` is `ipeps.dims['chi']`.  Simplification: the site dictionary is a
total function (moves only access sites of the cell, which all exist by C01).  `writes` is a ghost counter
of the assignments made to each boundary tensor; no model function reads it. -/
structure Net (T : Type) where
  nx : ℕ
  ny : ℕ
  chi : ℕ
  A : Site → T
  B : Site → Slot → T
  writes : Site → Slot → ℕ

namespace Net
variable {T : Type}

/-- `ipeps[s]['C'][k] = v` / `ipeps[s]['E'][k] = v`. -/
def setB (net : Net T) (s : Site) (sl : Slot) (v : T) : Net T :=
  { net with
    B := fun s' sl' => if s' = s ∧ sl' = sl then v else net.B s' sl'
    writes := fun s' sl' => if s' = s ∧ sl' = sl then net.writes s' sl' + 1 else net.writes s' sl' }

/-- `ipeps[s]['A'] = v`. -/
def setA (net : Net T) (s : Site) (v : T) : Net T :=
  { net with A := fun s' => if s' = s then v else net.A s' }

end Net

section mover
variable {T : Type}

/-- `make_quarter_tensor(ipeps[s], k)`, projectors.py 35-60: which tensors enter. -/
def quarterTensor (o : Ops T) (net : Net T) (s : Site) (k : ℕ) : T :=
  o.quarter (o.permute k (net.A s)) (net.B s (.C ((0 + k) % 4)))
    (net.B s (.E ((3 + k) % 4))) (net.B s (.E ((0 + k) % 4)))

/-- The value of `config.projectors` after `set_calculate`, projectors.py 21-33. -/
inductive ProjKind
  | half
  | full
  deriving DecidableEq, Repr

/-- `ProjectorCalculator.set_calculate`, projectors.py 21-33 (`none` is python's `None`). -/
def setCalculate (projectors : Option String) : Except PyErr ProjKind :=
  if projectors = none ∨ projectors = some "full-system" then .ok .full
  else if projectors = some "half-system" then .ok .half
  else .error .valueError

/-- `calculate_projectors(ipeps, sites, k)` with `sites = [s1, s2, s3, s4]`: half system,
projectors.py 138-174 (only `s1` and `s4` are read), or full system, projectors.py 176-217. -/
def calcProjectors (o : Ops T) (pk : ProjKind) (net : Net T) (s1 s2 s3 s4 : Site) (k : ℕ) : T × T :=
  match pk with
  | .half => o.half (k, s1) net.chi (quarterTensor o net s1 k) (quarterTensor o net s4 (k + 3))
  | .full => o.full (k, s1) net.chi (quarterTensor o net s1 k) (quarterTensor o net s2 (k + 1))
      (quarterTensor o net s3 (k + 2)) (quarterTensor o net s4 (k + 3))

/-- `calculate_left_projectors`, directional_mover.py 99-118.  Python's `yi-1+ny` is written `yi+ny-1`
(the same integer for `yi ≥ 0`, `ny ≥ 1`). -/
def calcLeft (o : Ops T) (pk : ProjKind) (net : Net T) (xi yi : ℕ) : T × T :=
  let xj := (xi + 1) % net.nx
  let yj := (yi + net.ny - 1) % net.ny
  calcProjectors o pk net (xi, yi) (xj, yi) (xj, yj) (xi, yj) 0

/-- `calculate_right_projectors`, directional_mover.py 120-139. -/
def calcRight (o : Ops T) (pk : ProjKind) (net : Net T) (xi yi : ℕ) : T × T :=
  let xj := (xi + net.nx - 1) % net.nx
  let yj := (yi + 1) % net.ny
  calcProjectors o pk net (xi, yi) (xj, yi) (xj, yj) (xi, yj) 2

/-- `calculate_up_projectors`, directional_mover.py 141-160. -/
def calcUp (o : Ops T) (pk : ProjKind) (net : Net T) (xi yi : ℕ) : T × T :=
  let xj := (xi + net.nx - 1) % net.nx
  let yj := (yi + net.ny - 1) % net.ny
  calcProjectors o pk net (xi, yi) (xi, yj) (xj, yj) (xj, yi) 1

/-- `calculate_down_projectors`, directional_mover.py 162-181. -/
def calcDown (o : Ops T) (pk : ProjKind) (net : Net T) (xi yi : ℕ) : T × T :=
  let xj := (xi + 1) % net.nx
  let yj := (yi + 1) % net.ny
  calcProjectors o pk net (xi, yi) (xi, yj) (xj, yj) (xj, yi) 3

/-- A projector dictionary `{index: (proj1, proj2)}`; the code keeps `proj1` and `proj2` in two
dictionaries with the same keys. -/
abbrev ProjDict (T : Type) := ℕ → Option (T × T)

/-- `proj[i]`, `KeyError` when absent. -/
def ProjDict.item (d : ProjDict T) (i : ℕ) : Except PyErr (T × T) :=
  match d i with
  | some p => .ok p
  | none => .error .keyError

/-- The dictionary filled by `for i in range(n): proj1[i], proj2[i] = f(i)`, e.g.
directional_mover.py 31-34. -/
def fillProj (n : ℕ) (f : ℕ → T × T) : ProjDict T := fun i => if i < n then some (f i) else none

/-- `renormalize_boundary(ipeps, proj1, proj2, s1, s2, i, j, k)`, directional_mover.py 293-303, statement
by statement: every read is of the state as modified by the preceding writes. -/
def renormalizeBoundary (o : Ops T) (net : Net T) (proj : ProjDict T) (s1 s2 : Site) (i j k : ℕ) :
    Except PyErr (Net T) := do
  let ci := net.B s1 (.C ((3 + k) % 4))
  let ei := net.B s1 (.E ((2 + k) % 4))
  let pi ← proj.item i
  let net := net.setB s2 (.C ((3 + k) % 4)) (o.cj1 ci ei pi.1)
  let ci := net.B s1 (.C k)
  let ei := net.B s1 (.E k)
  let pj ← proj.item j
  let net := net.setB s2 (.C k) (o.cj2 ci ei pj.2)
  let ai := o.permute k (net.A s1)
  let ei := net.B s1 (.E ((3 + k) % 4))
  return net.setB s2 (.E ((3 + k) % 4)) (o.ej ei ai pi.2 pj.1)

/-- The second loop of a move: `for i in idx: renormalize_boundary(…, s1(i), s2(i), i, j(i), k)`. -/
def renormLoop (o : Ops T) (proj : ProjDict T) (s1 s2 : ℕ → Site) (jOf : ℕ → ℕ) (k : ℕ) :
    List ℕ → Net T → Except PyErr (Net T)
  | [], net => .ok net
  | i :: is, net => do
    let net ← renormalizeBoundary o net proj (s1 i) (s2 i) i (jOf i) k
    renormLoop o proj s1 s2 jOf k is net

/-- The renormalization loop of a left move, directional_mover.py 35-40 (also 214-219). -/
def leftLoop (o : Ops T) (proj : ProjDict T) (xi : ℕ) (net : Net T) : Except PyErr (Net T) :=
  renormLoop o proj (fun yi => (xi, yi)) (fun yi => ((xi + 1) % net.nx, yi))
    (fun yi => (yi + 1) % net.ny) 0 (List.range net.ny) net

/-- The renormalization loop of an up move, directional_mover.py 54-59 (also 259-264). -/
def upLoop (o : Ops T) (proj : ProjDict T) (yi : ℕ) (net : Net T) : Except PyErr (Net T) :=
  renormLoop o proj (fun xi => (xi, yi)) (fun xi => (xi, (yi + net.ny - 1) % net.ny))
    (fun xi => (xi + 1) % net.nx) 1 (List.range net.nx) net

/-- The renormalization loop of a right move, directional_mover.py 73-78 (also 221-226). -/
def rightLoop (o : Ops T) (proj : ProjDict T) (xi : ℕ) (net : Net T) : Except PyErr (Net T) :=
  renormLoop o proj (fun yi => (xi, yi)) (fun yi => ((xi + net.nx - 1) % net.nx, yi))
    (fun yi => (yi + net.ny - 1) % net.ny) 2 (List.range net.ny) net

/-- The renormalization loop of a down move, directional_mover.py 92-97 (also 266-271). -/
def downLoop (o : Ops T) (proj : ProjDict T) (yi : ℕ) (net : Net T) : Except PyErr (Net T) :=
  renormLoop o proj (fun xi => (xi, yi)) (fun xi => (xi, (yi + 1) % net.ny))
    (fun xi => (xi + net.nx - 1) % net.nx) 3 (List.range net.nx) net

/-- `left_move`, directional_mover.py 23-40. -/
def leftMove (o : Ops T) (pk : ProjKind) (net : Net T) (xi : ℕ) : Except PyErr (Net T) :=
  leftLoop o (fillProj net.ny (calcLeft o pk net xi)) xi net

/-- `up_move`, directional_mover.py 42-59. -/
def upMove (o : Ops T) (pk : ProjKind) (net : Net T) (yi : ℕ) : Except PyErr (Net T) :=
  upLoop o (fillProj net.nx (fun xi => calcUp o pk net xi yi)) yi net

/-- `right_move`, directional_mover.py 61-78. -/
def rightMove (o : Ops T) (pk : ProjKind) (net : Net T) (xi : ℕ) : Except PyErr (Net T) :=
  rightLoop o (fillProj net.ny (calcRight o pk net xi)) xi net

/-- `down_move`, directional_mover.py 80-97. -/
def downMove (o : Ops T) (pk : ProjKind) (net : Net T) (yi : ℕ) : Except PyErr (Net T) :=
  downLoop o (fillProj net.nx (fun xi => calcDown o pk net xi yi)) yi net

/-- A directional move together with the column or row index it is called with. -/
inductive Move
  | left (xi : ℕ)
  | up (yi : ℕ)
  | right (xi : ℕ)
  | down (yi : ℕ)
  deriving DecidableEq, Repr

/-- Perform a move. -/
def Move.run (o : Ops T) (pk : ProjKind) (net : Net T) : Move → Except PyErr (Net T)
  | .left xi => leftMove o pk net xi
  | .up yi => upMove o pk net yi
  | .right xi => rightMove o pk net xi
  | .down yi => downMove o pk net yi

/-- The moves of one non-distributed sweep in program order, ctmrg.py 25-31. -/
def sweepMoves (nx ny : ℕ) : List Move :=
  ((List.range nx).flatMap fun xi => [.left xi, .right ((nx - xi + 1) % nx)]) ++
  ((List.range ny).flatMap fun yi => [.up ((ny - yi + 1) % ny), .down yi])

/-- Perform a list of moves in order, stopping at the first exception. -/
def runMoves (o : Ops T) (pk : ProjKind) : List Move → Net T → Except PyErr (Net T)
  | [], net => .ok net
  | m :: ms, net => do
    let net ← m.run o pk net
    runMoves o pk ms net

/-- `ctmrg(ipeps, config)` on a non-distributed network, ctmrg.py 15-31: `steps` sweeps. -/
def ctmrg (o : Ops T) (pk : ProjKind) : ℕ → Net T → Except PyErr (Net T)
  | 0, net => .ok net
  | n + 1, net => do
    let net ← runMoves o pk (sweepMoves net.nx net.ny) net
    ctmrg o pk n net

/-- `FastFullUpdater.absorb_bond`, fast_full_update.py 71-101: the two moves after a bond update.
Other values of `k` match no case: nothing happens. -/
def absorbMoves (b : Bond) : List Move :=
  match b.k with
  | 0 => [.right b.s1.1, .left b.s2.1]
  | 1 => [.down b.s1.2, .up b.s2.2]
  | 2 => [.left b.s1.1, .right b.s2.1]
  | 3 => [.up b.s1.2, .down b.s2.2]
  | _ => []

end mover
end AceTN
