import Verif.Model.Mover
import Verif.Model.Evolve

/-!
Where `Ipeps.renormalize` and `Ipeps.evolve` look at string settings: `acetn/ipeps/ipeps.py` 93-115, `ctmrg.py` 4-31,
`evolve.py` 10-59, `directional_mover.py` 13-21, `projectors.py` 21-33 and 150, 188.  The network is a value of type `σ`;
the computations themselves are parameters.  A raising call returns the state it leaves behind.
-/

set_option autoImplicit false

namespace AceTN.Set

/-- The string settings. -/
structure Settings where
  projectors : Option String
  svdType : String
  updateType : String

/-- Which SVD a projector computation performs. -/
inductive SvdKind
  | fullRank
  | randomised
  deriving DecidableEq, Repr

/-- The `if self.svd_type == "full-rank"` of projectors.py 150 and 188: everything else is the randomised routine. -/
def svdKind (svdType : String) : SvdKind := if svdType = "full-rank" then .fullRank else .randomised

/-- The computations. -/
structure Comp (σ : Type) where
  /-- `initialize_site_tensors(model.initial_site_state)` -/
  initSites : σ → σ
  /-- the sweeps of `ctmrg`, ctmrg.py 18-31 -/
  sweeps : ProjKind → SvdKind → σ → σ × Option PyErr
  /-- the loop of a full-update evolution -/
  fullLoop : ProjKind → SvdKind → σ → σ × Option PyErr
  /-- the loop of a simple-update evolution -/
  simpleLoop : σ → σ × Option PyErr

variable {σ : Type}

/-- `Ipeps.renormalize`, ipeps.py 93-97 with ctmrg.py 15-31: the mover (and with it `set_calculate`) comes first. -/
def renormalize (c : Comp σ) (st : Settings) (s : σ) : σ × Option PyErr :=
  match setCalculate st.projectors with
  | .error e => (s, some e)
  | .ok k => c.sweeps k (svdKind st.svdType) s

/-- `evolve(ipeps, …)`, evolve.py 31-56: the updater (and for the full update a mover) comes before the loop. -/
def evolveFn (c : Comp σ) (st : Settings) (s : σ) : σ × Option PyErr :=
  match createTensorUpdater st.updateType with
  | .error e => (s, some e)
  | .ok .simple => c.simpleLoop s
  | .ok .full =>
    match setCalculate st.projectors with
    | .error e => (s, some e)
    | .ok k => c.fullLoop k (svdKind st.svdType) s

/-- Sequencing of calls that may raise. -/
def andThen (r : σ × Option PyErr) (f : σ → σ × Option PyErr) : σ × Option PyErr :=
  match r with
  | (s, some e) => (s, some e)
  | (s, none) => f s

/-- `Ipeps.evolve`, ipeps.py 109-115 (with a model that can be built): the site tensors are initialised if needed, then
renormalize, evolve, renormalize. -/
def evolve (c : Comp σ) (st : Settings) (initialised : Bool) (s : σ) : σ × Option PyErr :=
  let s := if initialised then s else c.initSites s
  andThen (andThen (renormalize c st s) (evolveFn c st)) (renormalize c st)

/-- The whole of `Ipeps.evolve`, ipeps.py 109-115: `factory` is `model_factory.create(self.config.model)`, used if no model
is given.  `log_evolve_start_message` (utils/logger.py 64-77) comes after the initialisation and calls
`model.params.items()`: `hasParams` says whether `model.params` is a dictionary and not `None`, the default of
`ModelConfig.params` (ipeps_config.py 47).  The other parts of the message cannot raise for a numeric `dtau`. -/
def ipepsEvolve {M : Type} (factory : Except PyErr M) (hasParams : M → Bool) (c : M → Comp σ) (st : Settings)
    (model : Option M) (initialised : Bool) (s : σ) : σ × Option PyErr :=
  match (match model with | some m => Except.ok m | none => factory) with
  | .error e => (s, some e)
  | .ok m =>
    if hasParams m then evolve (c m) st initialised s
    else (if initialised then s else (c m).initSites s, some .attributeError)

end AceTN.Set
