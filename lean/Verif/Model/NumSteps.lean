import Verif.Model.NumMover

/-!
Programs that write site tensors and move boundaries.
-/

set_option autoImplicit false

namespace AceTN

variable {𝕜 : Type} [RCLike 𝕜] {B P : Type} [Fintype B] [Fintype P] [DecidableEq B]

/-- What an evolution does to a network: `ipeps[site]['A'] = a` (fast_full_update.py 61-62, simple_update.py 72-73) and the
moves of `absorb_bond` (fast_full_update.py 88-101) and `ctmrg`. -/
inductive NetStep (B P 𝕜 : Type)
  | write (s : Site) (a : ATensor B P 𝕜)
  | move (m : Move)

omit [RCLike 𝕜] [Fintype B] [Fintype P] [DecidableEq B] in
/-- `ipeps[site]['A'] = a`. -/
def writeSite (net : Net (Ten B P 𝕜)) (s : Site) (a : ATensor B P 𝕜) : Net (Ten B P 𝕜) :=
  { net with A := fun s' => if s' = s then .site a else net.A s' }

/-- A list of steps, with fresh random draws for every move.  Which tensors are written and when is left open, so that the list
may stand for any evolution. -/
noncomputable def runSteps (st : ProjSettings 𝕜) (pk : ProjKind) (ω : ℕ → Draws B 𝕜) :
    ℕ → List (NetStep B P 𝕜) → Net (Ten B P 𝕜) → Except PyErr (Net (Ten B P 𝕜))
  | _, [], net => .ok net
  | t, .write s a :: ss, net => runSteps st pk ω t ss (writeSite net s a)
  | t, .move m :: ss, net => do
    let net ← m.run (numOps st (ω t)) pk net
    runSteps st pk ω (t + 1) ss net

end AceTN
