import Verif.Model.FullUpdateBond
import Verif.Model.TensorUpdate
import Verif.Model.Evolve

/-!
A call of `evolve` with the fast full update: `acetn/evolution/evolve.py` with `acetn/evolution/fast_full_update.py`.
-/

set_option autoImplicit false

namespace AceTN.Full

variable {𝕜 F : Type} [RCLike 𝕜] {bD : ℕ} {P X : Type} [Fintype P] [DecidableEq P] [Fintype X] [NeZero bD] [Nonempty P]

/-- One iteration of the loop over the bonds, evolve.py 42-43, with `bond_update` of the fast full update in a
non-distributed run, fast_full_update.py 29-69.  The second component of the state counts the bond updates: `absorb t b`
are the moves of `absorb_bond` in the `t`-th one, which may draw random numbers and may raise when part of the boundary
has been written.  The regularisation loop that does not end is excluded by C33.  The shape of the boundary tensors is
kept fixed. -/
noncomputable def bondStep (la : Lapack 𝕜) (fo : Als.FloatOps F) (rep : ℝ → F) (cfg : Settings F)
    (oneSite : Bond → Option ((P → P → 𝕜) × (P → P → 𝕜))) (gates : Bond → P → P → P → P → 𝕜)
    (absorb : ℕ → Bond → NetT (Fin bD) P X 𝕜 → NetT (Fin bD) P X 𝕜 × Option PyErr)
    (st : NetT (Fin bD) P X 𝕜 × ℕ) (bond : Bond) : (NetT (Fin bD) P X 𝕜 × ℕ) × Option PyErr :=
  let tensorUpdate := fun a1 a2 =>
    (fullTensorUpdate la fo rep cfg st.1 bond.s1 bond.s2 bond.k (gates bond) a1 a2).getD (.error .runtimeError)
  match tensorUpdaterUpdate tensorUpdate (oneSite bond) st.1 bond.s1 bond.s2 bond.k with
  | .error e => (st, some e)
  | .ok (a1, a2) =>
    let r := absorb st.2 bond (storePair st.1 bond.s1 bond.s2 a1 a2)
    ((r.1, st.2 + 1), r.2)

/-- `evolve(ipeps, dtau, steps, model, config)` with `update_type` "full", evolve.py 21-59. -/
noncomputable def evolve (la : Lapack 𝕜) (fo : Als.FloatOps F) (rep : ℝ → F) (cfg : Settings F)
    (oneSite : Bond → Option ((P → P → 𝕜) × (P → P → 𝕜))) (gates : Bond → P → P → P → P → 𝕜)
    (absorb : ℕ → Bond → NetT (Fin bD) P X 𝕜 → NetT (Fin bD) P X 𝕜 × Option PyErr)
    (steps : ℕ) (st : List Bond × NetT (Fin bD) P X 𝕜) : List Bond × NetT (Fin bD) P X 𝕜 × Option PyErr :=
  evolveCall (fun _ => 0) (bondStep la fo rep cfg oneSite gates absorb) steps st

end AceTN.Full
