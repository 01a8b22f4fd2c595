import Verif.Model.Lattice
import Verif.Model.Py

/-!
The evolution loop: `acetn/evolution/evolve.py`.  The state `σ` (tensors, random generator, …) and the bond
update are parameters.  A bond update may raise: it returns the state at that moment and the exception.
-/

set_option autoImplicit false

namespace AceTN

/-- The two updater classes `create_tensor_updater` can return. -/
inductive UpdaterKind
  | full
  | simple
  deriving DecidableEq, Repr

/-- `create_tensor_updater`, evolve.py 10-18: dispatch on `config.update_type`. -/
def createTensorUpdater (updateType : String) : Except PyErr UpdaterKind :=
  if updateType = "full" then .ok .full
  else if updateType = "simple" then .ok .simple
  else .error .valueError

section loop
variable {σ : Type}

/-- `for bond in ipeps.bond_list: tensor_updater.bond_update(bond)`, evolve.py 40-43; stops at the first
exception.  (No bond update touches `bond_list`.) -/
def bondPass (upd : σ → Bond → σ × Option PyErr) : List Bond → σ → σ × Option PyErr
  | [], s => (s, none)
  | b :: bl, s =>
    match upd s b with
    | (s', some e) => (s', some e)
    | (s', none) => bondPass upd bl s'

/-- The step loop, evolve.py 39-44: one pass over the bond list followed by `bond_list.reverse()` in
place.  Returns the bond list left in the network, the state, and the exception if one escaped.
Progress bar and debug timing (45-55) are not modelled here (see `Model/Timing.lean`). -/
def evolveLoop (upd : σ → Bond → σ × Option PyErr) :
    ℕ → List Bond → σ → List Bond × σ × Option PyErr
  | 0, bl, s => (bl, s, none)
  | n + 1, bl, s =>
    match bondPass upd bl s with
    | (s', some e) => (bl, s', some e)
    | (s', none) => evolveLoop upd n bl.reverse s'

/-- `evolve(ipeps, dtau, steps, model, config)`, evolve.py 21-59, for an updater that carries auxiliary
data `α` created afresh in its constructor from the current bond list (evolve.py 32: for the full update
there is none that survives from one bond update to the next, for the simple update it is the bond
weights, simple_update.py 17-23) and dropped at the end of the call. -/
def evolveCall {α : Type} (mkAux : List Bond → α) (upd : σ × α → Bond → (σ × α) × Option PyErr)
    (steps : ℕ) (st : List Bond × σ) : List Bond × σ × Option PyErr :=
  let r := evolveLoop upd steps st.1 (st.2, mkAux st.1)
  (r.1, r.2.1.1, r.2.2)

end loop
end AceTN
