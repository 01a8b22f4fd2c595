import Verif.Model.Mover

/-!
Distributed boundary moves and bond updates: `directional_mover.py` 183-271, `ctmrg.py` 21-25,
`fast_full_update.py` 29-69 and 103-129, `utils/distributed.py` 85-108.

SPMD in lockstep: `ws` ranks, rank `r` holds its own network `nets r` (entries with `r ≥ ws` are unused).
Collectives are assumed to deliver: `all_gather` returns rank `i`'s tensor at position `i` on every rank,
`broadcast` gives every rank the tensor of the source.  An exception on some rank is the outcome of the
whole collective program (the other ranks would block or be killed); if several ranks fail the lowest
rank's exception is reported.  Device transfers (`.to(rank)`) are the identity on values; `Model/Gather.lean` has the devices.
-/

set_option autoImplicit false

namespace AceTN
variable {T : Type}

/-- `range(0, stop, step)` for `step > 0`. -/
def pyRange3 (stop step : ℕ) : List ℕ := (List.range ((stop + step - 1) / step)).map (· * step)

/-- `all_gather_tensor`, utils/distributed.py 85-108, called with the local variable `proj_i` of each rank;
a rank on which the variable was never assigned raises `UnboundLocalError`. -/
def allGather (ws : ℕ) (loc : ℕ → Option (T × T)) : Except PyErr (ℕ → Option (T × T)) :=
  if ∀ r < ws, (loc r).isSome then .ok loc else .error .unboundLocalError

/-- `for yi in range(ws//2): proj[yi + shift] = all[yi + off]`, directional_mover.py 208-212 / 253-257. -/
def storeGathered (h shift off : ℕ) (all : ℕ → Option (T × T)) (d : ProjDict T) : ProjDict T :=
  (List.range h).foldl (fun d yi => fun key => if key = yi + shift then all (yi + off) else d key) d

/-- One pass of the gathering loop, directional_mover.py 195-212 / 240-257.  `loc` are the ranks' local
variables, `n` is `ipeps.ny` (`ipeps.nx`), `calc1 r` / `calc2 r` are rank `r`'s calls of
`calculate_left_projectors` / `calculate_right_projectors` (up / down). -/
def gatherStep (ws n : ℕ) (calc1 calc2 : ℕ → ℕ → T × T)
    (st : (ℕ → Option (T × T)) × ProjDict T × ProjDict T) (yShift : ℕ) :
    Except PyErr ((ℕ → Option (T × T)) × ProjDict T × ProjDict T) := do
  let loc := fun rank =>
    if rank < ws / 2 then
      let yi := rank + yShift / ws
      if yi < n then some (calc1 rank yi) else st.1 rank
    else
      let yi := rank - ws / 2 + yShift / ws
      if yi < n then some (calc2 rank yi) else st.1 rank
  let all ← allGather ws loc
  return (loc, storeGathered (ws / 2) (yShift / ws) 0 all st.2.1,
    storeGathered (ws / 2) (yShift / ws) (ws / 2) all st.2.2)

/-- The gathering loop, directional_mover.py 193-212 / 238-257: all ranks end up with the same two projector
dictionaries. -/
def gatherProjectors (ws n : ℕ) (calc1 calc2 : ℕ → ℕ → T × T) :
    Except PyErr (ProjDict T × ProjDict T) := do
  let st ← (pyRange3 (2 * n) ws).foldlM (gatherStep ws n calc1 calc2) (fun _ => none, fun _ => none, fun _ => none)
  return st.2

/-- Run a local computation on every rank. -/
def onRanks (f : ℕ → Except PyErr (Net T)) (nets : ℕ → Net T) : ℕ → Except PyErr (ℕ → Net T)
  | 0 => .ok nets
  | r + 1 => do
    let ns ← onRanks f nets r
    let n ← f r
    return Function.update ns r n

/-- `left_right_move_dist(ipeps, x1, x2)` on all ranks, directional_mover.py 183-226.  `po r` are the tensor
operations used by rank `r` when it computes projectors: the ranks draw their own random test matrices, so
`po r` may differ from rank to rank. -/
def leftRightDist (po : ℕ → Ops T) (o : Ops T) (pk : ProjKind) (ws : ℕ) (x1 x2 : ℕ) (nets : ℕ → Net T) :
    Except PyErr (ℕ → Net T) := do
  let d ← gatherProjectors ws (nets 0).ny (fun r y => calcLeft (po r) pk (nets r) x1 y)
    (fun r y => calcRight (po r) pk (nets r) x2 y)
  onRanks (fun r => do
    let net ← leftLoop o d.1 x1 (nets r)
    rightLoop o d.2 x2 net) nets ws

/-- `up_down_move_dist(ipeps, y1, y2)` on all ranks, directional_mover.py 228-271. -/
def upDownDist (po : ℕ → Ops T) (o : Ops T) (pk : ProjKind) (ws : ℕ) (y1 y2 : ℕ) (nets : ℕ → Net T) :
    Except PyErr (ℕ → Net T) := do
  let d ← gatherProjectors ws (nets 0).nx (fun r x => calcUp (po r) pk (nets r) x y1)
    (fun r x => calcDown (po r) pk (nets r) x y2)
  onRanks (fun r => do
    let net ← upLoop o d.1 y1 (nets r)
    downLoop o d.2 y2 net) nets ws

/-- The distributed moves of one sweep in program order, ctmrg.py 21-25: `.inl (x1, x2)` is
`left_right_move_dist(x1, x2)`, `.inr (y1, y2)` is `up_down_move_dist(y1, y2)`. -/
def sweepMovesDist (nx ny : ℕ) : List ((ℕ × ℕ) ⊕ (ℕ × ℕ)) :=
  ((List.range nx).map fun xi => .inl (xi, (nx - xi + 1) % nx)) ++
  ((List.range ny).map fun yi => .inr ((ny - yi + 1) % ny, yi))

/-- Perform distributed moves in order. -/
def runMovesDist (po : ℕ → Ops T) (o : Ops T) (pk : ProjKind) (ws : ℕ) :
    List ((ℕ × ℕ) ⊕ (ℕ × ℕ)) → (ℕ → Net T) → Except PyErr (ℕ → Net T)
  | [], nets => .ok nets
  | .inl p :: ms, nets => do
    let nets ← leftRightDist po o pk ws p.1 p.2 nets
    runMovesDist po o pk ws ms nets
  | .inr p :: ms, nets => do
    let nets ← upDownDist po o pk ws p.1 p.2 nets
    runMovesDist po o pk ws ms nets

/-- `ctmrg(ipeps, config)` on a distributed network, ctmrg.py 15-25. -/
def ctmrgDist (po : ℕ → Ops T) (o : Ops T) (pk : ProjKind) (ws : ℕ) : ℕ → (ℕ → Net T) → Except PyErr (ℕ → Net T)
  | 0, nets => .ok nets
  | n + 1, nets => do
    let nets ← runMovesDist po o pk ws (sweepMovesDist (nets 0).nx (nets 0).ny) nets
    ctmrgDist po o pk ws n nets

/-- `absorb_bond_dist`, fast_full_update.py 103-129. -/
def absorbMovesDist (b : Bond) : List ((ℕ × ℕ) ⊕ (ℕ × ℕ)) :=
  match b.k with
  | 0 => [.inl (b.s2.1, b.s1.1)]
  | 1 => [.inr (b.s2.2, b.s1.2)]
  | 2 => [.inl (b.s1.1, b.s2.1)]
  | 3 => [.inr (b.s1.2, b.s2.2)]
  | _ => []

/-- `FastFullUpdater.bond_update`, fast_full_update.py 29-69, non-distributed (rank 0 of 1): `upd net b` is
`self.update(bond)`. -/
def bondUpdateSerial (o : Ops T) (pk : ProjKind) (upd : Net T → Bond → T × T) (b : Bond) (net : Net T) :
    Except PyErr (Net T) :=
  let a := upd net b
  runMoves o pk (absorbMoves b) ((net.setA b.s1 a.1).setA b.s2 a.2)

/-- `FastFullUpdater.bond_update` on `ws` ranks: rank 0 computes, both tensors are broadcast, every rank
stores them and takes part in the distributed absorption. -/
def bondUpdateDist (po : ℕ → Ops T) (o : Ops T) (pk : ProjKind) (ws : ℕ) (upd : Net T → Bond → T × T) (b : Bond)
    (nets : ℕ → Net T) : Except PyErr (ℕ → Net T) :=
  let a := upd (nets 0) b
  runMovesDist po o pk ws (absorbMovesDist b) (fun r => ((nets r).setA b.s1 a.1).setA b.s2 a.2)

end AceTN
