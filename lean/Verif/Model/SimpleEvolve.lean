import Verif.Model.SimpleUpdate
import Verif.Model.Evolve

/-!
A call of `evolve` with the simple update: `acetn/evolution/evolve.py` with `acetn/evolution/simple_update.py`.
-/

set_option autoImplicit false

namespace AceTN.Simple

variable {𝕜 : Type} [RCLike 𝕜] {bD : ℕ} {P X : Type} [Fintype P] [DecidableEq P] [NeZero bD] [Nonempty P]

/-- One iteration of the loop over the bonds, evolve.py 42-43: the gates of a bond come from the gate table
(simple_update.py 41 and 66-69).  If the update raises, nothing has been stored. -/
noncomputable def bondStep (la : Lapack 𝕜) (oneSite : Bond → Option ((P → P → 𝕜) × (P → P → 𝕜))) (gates : Bond → P → P → P → P → 𝕜)
    (st : NetT (Fin bD) P X 𝕜 × LambdaTensors (Weight bD)) (bond : Bond) :
    (NetT (Fin bD) P X 𝕜 × LambdaTensors (Weight bD)) × Option PyErr :=
  match bondUpdate la (oneSite bond) (gates bond) st bond with
  | .ok st' => (st', none)
  | .error e => (st, some e)

/-- `evolve(ipeps, dtau, steps, model, config)` with `update_type` "simple", evolve.py 21-59: the constructor of the updater
(simple_update.py 17-23) creates unit weights of the dtype of the network for the current bond list, and the weights are
dropped at the end of the call.  Building the gates from the model and `dtau` is modelled in `Model/Gate*.lean`. -/
noncomputable def evolve (la : Lapack 𝕜) (cx : Bool) (oneSite : Bond → Option ((P → P → 𝕜) × (P → P → 𝕜)))
    (gates : Bond → P → P → P → P → 𝕜) (steps : ℕ) (st : List Bond × NetT (Fin bD) P X 𝕜) :
    List Bond × NetT (Fin bD) P X 𝕜 × Option PyErr :=
  evolveCall (fun bl => LambdaTensors.init bl (ones bD cx)) (bondStep la oneSite gates) steps st

end AceTN.Simple
