import Verif.Model.Session
import Verif.Model.Dist

/-!
A whole session with an `Ipeps` object on several ranks: `acetn/ipeps/ipeps.py` with the distributed moves of `Model/Dist.lean`,
`ctmrg.py` 15-31, `fast_full_update.py` 29-129 and `simple_update.py`, which is not distributed, on boundary tensors of run-time dimensions.
The ranks run the same script in lockstep, as in `Model/Dist.lean`.
-/

set_option autoImplicit false

namespace AceTN

variable {𝕜 F : Type} [RCLike 𝕜]

/-- A list of distributed moves with fresh random draws for every move: rank `r` uses `ω r t` in move number `t`.  The loops over the boundary
tensors draw nothing. -/
noncomputable def runDistDrawn {B P : Type} [Fintype B] [Fintype P] [DecidableEq B] (st : ProjSettings 𝕜) (pk : ProjKind) (ws : ℕ)
    (ω : ℕ → ℕ → Draws B 𝕜) : ℕ → List ((ℕ × ℕ) ⊕ (ℕ × ℕ)) → (ℕ → Net (Ten B P 𝕜)) → Except PyErr (ℕ → Net (Ten B P 𝕜))
  | _, [], nets => .ok nets
  | t, m :: ms, nets => do
    let nets ← runMovesDist (fun r => numOps st (ω r t)) (numOps st (ω 0 t)) pk ws [m] nets
    runDistDrawn st pk ws ω (t + 1) ms nets

/-- `ctmrg(ipeps, config)` on a distributed network, ctmrg.py 15-31: `n` sweeps, the first move of which has number `t`. -/
noncomputable def ctmrgDistDrawn {B P : Type} [Fintype B] [Fintype P] [DecidableEq B] (st : ProjSettings 𝕜) (pk : ProjKind) (ws : ℕ)
    (ω : ℕ → ℕ → Draws B 𝕜) : ℕ → ℕ → (ℕ → Net (Ten B P 𝕜)) → Except PyErr (ℕ → Net (Ten B P 𝕜))
  | _, 0, nets => .ok nets
  | t, n + 1, nets => do
    let nets' ← runDistDrawn st pk ws ω t (sweepMovesDist (nets 0).nx (nets 0).ny) nets
    ctmrgDistDrawn st pk ws ω (t + (sweepMovesDist (nets 0).nx (nets 0).ny).length) n nets'

variable {bD pD : ℕ} [NeZero bD] [NeZero pD]

/-- `bond_update`, fast_full_update.py 29-69 and 103-129, in a distributed run: rank 0 computes the new tensors, all ranks get them by
`broadcast`, store them and absorb the bond together.  Simplifications as in `Full.fullBondStep`. -/
noncomputable def Full.distBondStep (st : ProjSettings 𝕜) (pk : ProjKind) (ws : ℕ) (ω : ℕ → ℕ → Draws (Fin bD) 𝕜) (la : Lapack 𝕜)
    (fo : Als.FloatOps F) (rep : ℝ → F) (cfg : Full.Settings F) (gates : Bond → Fin pD → Fin pD → Fin pD → Fin pD → 𝕜)
    (s : (ℕ → Net (Ten (Fin bD) (Fin pD) 𝕜)) × ℕ) (b : Bond) : ((ℕ → Net (Ten (Fin bD) (Fin pD) 𝕜)) × ℕ) × Option PyErr :=
  match Full.numUpdate la fo rep cfg none gates (s.1 0) b with
  | none => (s, some .runtimeError)
  | some (.error e) => (s, some e)
  | some (.ok (a1, a2)) =>
    let nets := fun r => writeSite (writeSite (s.1 r) b.s1 a1) b.s2 a2
    match runDistDrawn st pk ws ω s.2 (absorbMovesDist b) nets with
    | .error e => ((nets, s.2), some e)
    | .ok nets => ((nets, s.2 + (absorbMovesDist b).length), none)

namespace Session

/-- The `Ipeps` objects of the ranks: rank `r` holds the network `nets r` (`r < ws`), the rest does not depend on tensors and is the same on
all ranks.  `moves` counts the distributed moves. -/
structure Ranks (bD pD : ℕ) (𝕜 : Type) where
  nets : ℕ → Net (Ten (Fin bD) (Fin pD) 𝕜)
  bonds : List Bond
  initialized : Bool
  moves : ℕ

/-- The ranks: their number, what they bring along (the same library, with the same results, on all of them), the random numbers `ω r` that
rank `r` draws for its projectors, and `own r A`, the site tensors that rank `r` creates in a call whose argument is `A` in the script:
`initialize_site_tensor` draws the noise on each rank for itself (site_tensor.py 120-150), so they are different unless the ranks have
the same seed (C14).  `A` may be taken to be those of rank 0. -/
structure Team (F : Type) (bD pD : ℕ) (𝕜 : Type) [RCLike 𝕜] where
  ws : ℕ
  la : Lapack 𝕜
  fo : Als.FloatOps F
  rep : ℝ → F
  ω : ℕ → ℕ → Draws (Fin bD) 𝕜
  cx : Bool
  own : ℕ → (Site → ATensor (Fin bD) (Fin pD) 𝕜) → Site → ATensor (Fin bD) (Fin pD) 𝕜

/-- Rank 0 of a team on its own. -/
def Team.first (D : Team F bD pD 𝕜) : Machine F bD 𝕜 := ⟨D.la, D.fo, D.rep, D.ω 0, D.cx⟩

/-- `initialize_site_tensors` on all ranks, tensor_network.py 138-151. -/
noncomputable def distInitSites (D : Team F bD pD 𝕜) (start : Site → ATensor (Fin bD) (Fin pD) 𝕜) (s : Ranks bD pD 𝕜) : Ranks bD pD 𝕜 :=
  { s with
    nets := fun r => freshNet (s.nets r).nx (s.nets r).ny (s.nets r).chi (D.own r start)
    bonds := buildBondList (s.nets 0).nx (s.nets 0).ny
    initialized := true }

/-- `ctmrg(ipeps, config)`, ctmrg.py 15-31; simplification as in `sweeps`. -/
noncomputable def distSweeps (D : Team F bD pD 𝕜) (c : Config F) (pk : ProjKind) (k : Set.SvdKind) (s : Ranks bD pD 𝕜) :
    Ranks bD pD 𝕜 × Option PyErr :=
  match ctmrgDistDrawn (c.proj D.first k) pk D.ws D.ω s.moves c.sweeps s.nets with
  | .error e => (s, some e)
  | .ok nets => ({ s with nets := nets, moves := s.moves + c.sweeps * (sweepMovesDist (s.nets 0).nx (s.nets 0).ny).length }, none)

/-- The computations of a call of `evolve`.  The simple update is done by each rank on its own network (simple_update.py has no communication);
the exception is that of the lowest rank that raises one. -/
noncomputable def distComp (D : Team F bD pD 𝕜) (c : Config F) (e : Evolution bD pD 𝕜) : Set.Comp (Ranks bD pD 𝕜) where
  initSites := distInitSites D e.start
  sweeps := distSweeps D c
  fullLoop pk k s :=
    let r := evolveLoop (Full.distBondStep (c.proj D.first k) pk D.ws D.ω D.la D.fo D.rep c.update (twoSiteGate e.model e.dtau)) e.steps s.bonds
      (s.nets, s.moves)
    ({ s with bonds := r.1, nets := r.2.1.1, moves := r.2.1.2 }, r.2.2)
  simpleLoop s :=
    let r := fun k => Simple.numEvolve D.la D.cx (twoSiteGate e.model e.dtau) e.steps (s.bonds, s.nets k)
    ({ s with bonds := (r 0).1, nets := fun k => (r k).2.1 }, (List.range D.ws).findSome? fun k => (r k).2.2)

/-- A call on all ranks: `set_chi`, ipeps.py 60-68; `renormalize`, ipeps.py 93-97; `evolve`, ipeps.py 99-115. -/
noncomputable def distExec (D : Team F bD pD 𝕜) (s : Ranks bD pD 𝕜) : Call F bD pD 𝕜 → Ranks bD pD 𝕜 × Option PyErr
  | .setChi chi => ({ s with nets := fun r => { s.nets r with chi := chi } }, none)
  | .renormalize c =>
    match setCalculate c.strings.projectors with
    | .error e => (s, some e)
    | .ok k => distSweeps D c k (Set.svdKind c.strings.svdType) s
  | .evolve c e => Set.evolve (distComp D c e) c.strings s.initialized s

/-- A script on all ranks. -/
noncomputable def distRun (D : Team F bD pD 𝕜) : List (Call F bD pD 𝕜) → Ranks bD pD 𝕜 → Ranks bD pD 𝕜 × Option PyErr
  | [], s => (s, none)
  | c :: cs, s => Set.andThen (distExec D s c) (distRun D cs)

/-- `Ipeps(config)` on all ranks, ipeps.py 28-41. -/
noncomputable def distNew (D : Team F bD pD 𝕜) (nx ny chi : ℕ) (A : Site → ATensor (Fin bD) (Fin pD) 𝕜) : Ranks bD pD 𝕜 where
  nets := fun r => freshNet nx ny chi (D.own r A)
  bonds := buildBondList nx ny
  initialized := false
  moves := 0

/-- The object rank `r` holds; `measure`, which has no communication, is called on it (measure.py 5-28). -/
def Ranks.view (s : Ranks bD pD 𝕜) (r : ℕ) : State bD pD 𝕜 := ⟨s.nets r, s.bonds, s.initialized, s.moves⟩

end Session

end AceTN
