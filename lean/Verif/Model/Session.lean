import Verif.Model.FullRun
import Verif.Model.SimpleEvolve
import Verif.Model.Gate
import Verif.Model.Settings
import Verif.Model.Measure

/-!
A whole session with an `Ipeps` object on one process: construction, `set_chi`, `renormalize`, `evolve` and `measure`
(`acetn/ipeps/ipeps.py`) with the numerical work of `ctmrg.py`, `evolve.py`, `fast_full_update.py` and `simple_update.py` on boundary
tensors of run-time dimensions.  `Model/Settings.lean` is the order in which `evolve` calls them and looks at the settings.
-/

set_option autoImplicit false

namespace AceTN

variable {𝕜 F : Type} [RCLike 𝕜] {bD pD : ℕ} [NeZero bD] [NeZero pD]

/-- `bond_update` of the simple update, simple_update.py 28-76, on a network with boundary tensors of run-time dimensions, which it does not
look at.  If it raises, nothing has been stored. -/
noncomputable def Simple.numBondStep (la : Lapack 𝕜) (gates : Bond → Fin pD → Fin pD → Fin pD → Fin pD → 𝕜)
    (s : Net (Ten (Fin bD) (Fin pD) 𝕜) × LambdaTensors (Weight bD)) (b : Bond) :
    (Net (Ten (Fin bD) (Fin pD) 𝕜) × LambdaTensors (Weight bD)) × Option PyErr :=
  match s.1.A b.s1, s.1.A b.s2 with
  | .site a1, .site a2 =>
    match Simple.bondTensors la s.2 none (gates b) b a1 a2 with
    | .error e => (s, some e)
    | .ok (a1, a2, lambda) => ((writeSite (writeSite s.1 b.s1 a1) b.s2 a2, s.2.setItem b ⟨false, lambda⟩), none)
  | _, _ => (s, some .runtimeError)

/-- `evolve` with the simple update, evolve.py 21-59 and simple_update.py 17-23: unit weights at the beginning of the call. -/
noncomputable def Simple.numEvolve (la : Lapack 𝕜) (cx : Bool) (gates : Bond → Fin pD → Fin pD → Fin pD → Fin pD → 𝕜) (steps : ℕ)
    (s : List Bond × Net (Ten (Fin bD) (Fin pD) 𝕜)) : List Bond × Net (Ten (Fin bD) (Fin pD) 𝕜) × Option PyErr :=
  evolveCall (fun bl => LambdaTensors.init bl (Simple.ones bD cx)) (Simple.numBondStep la gates) steps s

namespace Session

/-- An `Ipeps` object: its tensors, lattice and chi (`net`), `bond_list`, `site_states_initialized`, and the number of boundary moves made so
far, by which the random numbers are counted. -/
structure State (bD pD : ℕ) (𝕜 : Type) where
  net : Net (Ten (Fin bD) (Fin pD) 𝕜)
  bonds : List Bond
  initialized : Bool
  moves : ℕ

/-- What a process brings along: the linear algebra library, comparison of floats, random numbers (`ω t` for the move number `t`), and
whether the dtype is complex. -/
structure Machine (F : Type) (bD : ℕ) (𝕜 : Type) [RCLike 𝕜] where
  la : Lapack 𝕜
  fo : Als.FloatOps F
  rep : ℝ → F
  ω : ℕ → Draws (Fin bD) 𝕜
  cx : Bool

/-- The settings in `config.ctmrg` and `config.evolution`, ipeps_config.py 10-43. -/
structure Config (F : Type) where
  strings : Set.Settings
  sweeps : ℕ
  cutoff : ℝ
  oversampling : ℕ
  niter : ℕ
  update : Full.Settings F

/-- The settings of the projectors, projectors.py 9-19. -/
def Config.proj (c : Config F) (M : Machine F bD 𝕜) (k : Set.SvdKind) : ProjSettings 𝕜 where
  la := M.la
  fullRank := k = .fullRank
  cutoff := c.cutoff
  oversampling := c.oversampling
  niter := c.niter

/-- The arguments of a call of `evolve`: `dtau`, `steps`, the model, and `start`, the site tensors that
`initialize_site_tensors(model.initial_site_state)` would create (`initialize_site_tensor`, C53; site states that are too long for the
physical dimension, for which it raises, are left out). -/
structure Evolution (bD pD : ℕ) (𝕜 : Type) where
  dtau : ℝ
  steps : ℕ
  model : ModelTerms (Fin pD) 𝕜
  start : Site → ATensor (Fin bD) (Fin pD) 𝕜

/-- `initialize_site_tensors`, tensor_network.py 138-151. -/
noncomputable def initSites (start : Site → ATensor (Fin bD) (Fin pD) 𝕜) (s : State bD pD 𝕜) : State bD pD 𝕜 :=
  { s with
    net := freshNet s.net.nx s.net.ny s.net.chi start
    bonds := buildBondList s.net.nx s.net.ny
    initialized := true }

/-- `ctmrg(ipeps, config)`, ctmrg.py 15-31.  Simplification: if a move raises, which C88 excludes, the boundary tensors written before
are forgotten. -/
noncomputable def sweeps (M : Machine F bD 𝕜) (c : Config F) (pk : ProjKind) (k : Set.SvdKind) (s : State bD pD 𝕜) : State bD pD 𝕜 × Option PyErr :=
  match ctmrgDrawn (c.proj M k) pk M.ω s.moves c.sweeps s.net with
  | .error e => (s, some e)
  | .ok net => ({ s with net := net, moves := s.moves + c.sweeps * (sweepMoves s.net.nx s.net.ny).length }, none)

/-- The computations of a call of `evolve`. -/
noncomputable def comp (M : Machine F bD 𝕜) (c : Config F) (e : Evolution bD pD 𝕜) : Set.Comp (State bD pD 𝕜) where
  initSites := initSites e.start
  sweeps := sweeps M c
  fullLoop pk k s :=
    let r := Full.fullEvolve (c.proj M k) pk M.ω M.la M.fo M.rep c.update none (twoSiteGate e.model e.dtau) e.steps (s.bonds, s.net, s.moves)
    ({ s with bonds := r.1, net := r.2.1.1, moves := r.2.1.2 }, r.2.2)
  simpleLoop s :=
    let r := Simple.numEvolve M.la M.cx (twoSiteGate e.model e.dtau) e.steps (s.bonds, s.net)
    ({ s with bonds := r.1, net := r.2.1 }, r.2.2)

/-- The methods of an `Ipeps` object that change it.  Settings and model may be different from call to call (`config` is a mutable
attribute, `evolve` takes a model, and `set_model` and `set_model_params` change it, C22). -/
inductive Call (F : Type) (bD pD : ℕ) (𝕜 : Type)
  | setChi (chi : ℕ)
  | renormalize (c : Config F)
  | evolve (c : Config F) (e : Evolution bD pD 𝕜)

/-- A call, which may raise: `set_chi`, ipeps.py 60-68; `renormalize`, ipeps.py 93-97; `evolve`, ipeps.py 99-115. -/
noncomputable def exec (M : Machine F bD 𝕜) (s : State bD pD 𝕜) : Call F bD pD 𝕜 → State bD pD 𝕜 × Option PyErr
  | .setChi chi => ({ s with net := { s.net with chi := chi } }, none)
  | .renormalize c =>
    match setCalculate c.strings.projectors with
    | .error e => (s, some e)
    | .ok k => sweeps M c k (Set.svdKind c.strings.svdType) s
  | .evolve c e => Set.evolve (comp M c e) c.strings s.initialized s

/-- A script: it stops at the first exception. -/
noncomputable def run (M : Machine F bD 𝕜) : List (Call F bD pD 𝕜) → State bD pD 𝕜 → State bD pD 𝕜 × Option PyErr
  | [], s => (s, none)
  | c :: cs, s => Set.andThen (exec M s c) (run M cs)

/-- A script that catches all exceptions. -/
noncomputable def runCatching (M : Machine F bD 𝕜) : List (Call F bD pD 𝕜) → State bD pD 𝕜 → State bD pD 𝕜
  | [], s => s
  | c :: cs, s => runCatching M cs (exec M s c).1

/-- `Ipeps(config)`, ipeps.py 28-41 with tensor_network.py 35-36 and 125-132: the tensors `A` of a polarised product state with noise, not
marked as initialised. -/
noncomputable def new (nx ny chi : ℕ) (A : Site → ATensor (Fin bD) (Fin pD) 𝕜) : State bD pD 𝕜 where
  net := freshNet nx ny chi A
  bonds := buildBondList nx ny
  initialized := false
  moves := 0

/-- The value of an operator on a site, measure.py 47, 86 and 134. -/
noncomputable def siteVal (net : Net (Ten (Fin bD) (Fin pD) 𝕜)) (s : Site) (op : Fin pD → Fin pD → 𝕜) : Except PyErr ℝ := do
  let ρ ← numSiteRdm net s
  return measureOneSite ρ op / siteNorm ρ

/-- The value of an operator on a bond, measure.py 68, 108 and 164. -/
noncomputable def bondVal (init : Fin pD → Fin pD → Fin pD → Fin pD → 𝕜) (net : Net (Ten (Fin bD) (Fin pD) 𝕜)) (b : Bond)
    (op : Fin pD → Fin pD → Fin pD → Fin pD → 𝕜) : Except PyErr ℝ := do
  let ρ ← numBondRdm init net b
  return measureTwoSite ρ op / bondNorm ρ

/-- `measure(ipeps, model)`, measure.py 5-28.  Simplification: the density matrices are all built before the averages are taken, so that an
exception of the former comes first. -/
noncomputable def measure (init : Fin pD → Fin pD → Fin pD → Fin pD → 𝕜)
    (model : MeasModel (Fin pD → Fin pD → 𝕜) (Fin pD → Fin pD → Fin pD → Fin pD → 𝕜)) (s : State bD pD 𝕜) : Except PyErr (PyDict String ℝ) := do
  let sites := buildSiteList s.net.nx s.net.ny
  for x in sites do
    let _ ← numSiteRdm s.net x
  for b in s.bonds do
    let _ ← numBondRdm init s.net b
  Meas.measure model (fun x op => (siteVal s.net x op).toOption.getD 0) (fun b op => (bondVal init s.net b op).toOption.getD 0) sites s.bonds

end Session

end AceTN
