import Verif.Model.NumSteps
import Verif.Model.FullUpdateBond
import Verif.Model.Evolve

/-!
Imaginary-time evolution with the full update on a network with boundary tensors of run-time dimensions: `bond_update` of
`acetn/evolution/fast_full_update.py` (49-101) in a non-distributed run, with `update` of `tensor_update.py` (18-38) and
`tensor_update` of `full_update.py` (34-63), and `evolve` of `evolve.py` (21-59).
-/

set_option autoImplicit false

namespace AceTN.Full

variable {𝕜 F : Type} [RCLike 𝕜]

/-- `build_norm_tensor(ipeps, bond, a1q, a2q)`, full_update.py 163-206; an exception if shapes do not fit. -/
def numNorm {B P N : Type} [Fintype B] (net : Net (Ten B P 𝕜)) (b : Bond) (a1q a2q : B → B → B → N → 𝕜) :
    Except PyErr (N → N → N → N → 𝕜) :=
  match net.B b.s1 (.C ((b.k + 1) % 4)), net.B b.s1 (.E ((b.k + 1) % 4)), net.B b.s1 (.E ((b.k + 0) % 4)),
    net.B b.s1 (.C ((b.k + 2) % 4)), net.B b.s1 (.E ((b.k + 2) % 4)), net.B b.s2 (.C ((b.k + 0) % 4)),
    net.B b.s2 (.E ((b.k + 0) % 4)), net.B b.s2 (.E ((b.k + 3) % 4)), net.B b.s2 (.C ((b.k + 3) % 4)),
    net.B b.s2 (.E ((b.k + 2) % 4)) with
  | .corner y2 y3 c12, .edge y3' y4 e12, .edge y1 y2' e11, .corner y4' y5 c13, .edge y5' y6 e13,
    .corner y9 y0 c21, .edge y0' y1' e21, .edge y8 y9' e24, .corner y7 y8' c24, .edge y6' y7' e23 =>
    if y3' = y3 ∧ y2' = y2 ∧ y4' = y4 ∧ y5' = y5 ∧ y0' = y0 ∧ y1' = y1 ∧ y9' = y9 ∧ y8' = y8 ∧ y7' = y7 ∧ y6' = y6 then
      .ok (normCore c12 (as4 y3 y4 e12) (as4 y1 y2 e11) (as2 y4 y5 c13) (as4 y5 y6 e13) a1q
        c21 (as4 y0 y1 e21) (as4 y8 y9 e24) (as2 y7 y8 c24) (as4 y6 y7 e23) a2q)
    else .error .runtimeError
  | _, _, _, _, _, _, _, _, _, _ => .error .runtimeError

section update

variable {P : Type} [Fintype P] [DecidableEq P] {bD : ℕ} [NeZero bD] [Nonempty P]

/-- `tensor_update`, full_update.py 34-63, on tensors in the bond frame.  `none` is a regularisation loop that has not ended. -/
noncomputable def numTensorUpdate (la : Lapack 𝕜) (fo : Als.FloatOps F) (rep : ℝ → F) (cfg : Settings F) (net : Net (Ten (Fin bD) P 𝕜))
    (b : Bond) (gate : P → P → P → P → 𝕜) (a1 a2 : ATensor (Fin bD) P 𝕜) :
    Option (Except PyErr (ATensor (Fin bD) P 𝕜 × ATensor (Fin bD) P 𝕜)) :=
  let d := decompose la a1 a2
  match numNorm net b d.a1q d.a2q with
  | .error e => some (.error e)
  | .ok n12 => (updateReduced la fo rep cfg bD_le d.a1r d.a2r n12 gate).map fun r => do
    let p ← r
    let (a1, a2) := recompose d.a1q p.1 d.a2q p.2
    return (normalise a1, normalise a2)

/-- `update`, tensor_update.py 18-38. `oneSite` is `none` if the one-site terms are wrapped into the bond gates. -/
noncomputable def numUpdate (la : Lapack 𝕜) (fo : Als.FloatOps F) (rep : ℝ → F) (cfg : Settings F) (oneSite : Option (Site → P → P → 𝕜))
    (gates : Bond → P → P → P → P → 𝕜) (net : Net (Ten (Fin bD) P 𝕜)) (b : Bond) :
    Option (Except PyErr (ATensor (Fin bD) P 𝕜 × ATensor (Fin bD) P 𝕜)) :=
  match net.A b.s1, net.A b.s2 with
  | .site a1, .site a2 =>
    (numTensorUpdate la fo rep cfg net b (gates b) (bondPermute b.k a1) (bondPermute b.k a2)).map fun r => do
      let (a1, a2) ← r
      let a1 := bondPermute (4 - (b.k : ℤ)) a1
      let a2 := bondPermute (4 - (b.k : ℤ)) a2
      match oneSite with
      | none => return (a1, a2)
      | some g => return (applyOneSite (g b.s1) a1, applyOneSite (g b.s2) a2)
  | _, _ => some (.error .runtimeError)

/-- `bond_update`, fast_full_update.py 47-101, in a non-distributed run.  The state is the network together with the number of moves
made so far (move number `t` uses the random draws `ω t`).  If an exception is raised the site tensors are left as they were.
Simplification: a regularisation loop that has not ended (`none`, excluded by C33) is an exception here. -/
noncomputable def fullBondStep (st : ProjSettings 𝕜) (pk : ProjKind) (ω : ℕ → Draws (Fin bD) 𝕜) (la : Lapack 𝕜) (fo : Als.FloatOps F)
    (rep : ℝ → F) (cfg : Settings F) (oneSite : Option (Site → P → P → 𝕜)) (gates : Bond → P → P → P → P → 𝕜)
    (s : Net (Ten (Fin bD) P 𝕜) × ℕ) (b : Bond) : (Net (Ten (Fin bD) P 𝕜) × ℕ) × Option PyErr :=
  match numUpdate la fo rep cfg oneSite gates s.1 b with
  | none => (s, some .runtimeError)
  | some (.error e) => (s, some e)
  | some (.ok (a1, a2)) =>
    let net := writeSite (writeSite s.1 b.s1 a1) b.s2 a2
    match runDrawn st pk ω s.2 (absorbMoves b) net with
    | .error e => ((net, s.2), some e)
    | .ok net => ((net, s.2 + (absorbMoves b).length), none)

/-- `evolve`, evolve.py 21-59, with the full update: `steps` passes over the bond list, which is reversed after each of them. -/
noncomputable def fullEvolve (st : ProjSettings 𝕜) (pk : ProjKind) (ω : ℕ → Draws (Fin bD) 𝕜) (la : Lapack 𝕜) (fo : Als.FloatOps F)
    (rep : ℝ → F) (cfg : Settings F) (oneSite : Option (Site → P → P → 𝕜)) (gates : Bond → P → P → P → P → 𝕜) (steps : ℕ)
    (s : List Bond × Net (Ten (Fin bD) P 𝕜) × ℕ) : List Bond × (Net (Ten (Fin bD) P 𝕜) × ℕ) × Option PyErr :=
  evolveLoop (fullBondStep st pk ω la fo rep cfg oneSite gates) steps s.1 s.2

end update

end AceTN.Full
