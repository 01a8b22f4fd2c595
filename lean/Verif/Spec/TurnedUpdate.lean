import Verif.Spec.Turned
import Verif.Model.FullUpdateBond

/-!
When a full update of a bond leaves no choice to the library but that of bases.
-/

set_option autoImplicit false

namespace AceTN.Spec

open Matrix Full

variable {𝕜 F : Type} [RCLike 𝕜] {N P : Type} [Fintype N] [Fintype P] [DecidableEq N] [DecidableEq P] {bD : ℕ}

/-- The settings for which the linear systems of the solver are solved in the same way in all bases (the other ones add a multiple
of the largest entry of the matrix to its diagonal, which only changes of signs leave alone). -/
def EvenSolver (sgn : Bool) (method : Als.Solver) (epsilon : ℝ) : Prop := sgn = true ∨ method = .pinv ∨ epsilon = 0

/-- The pair the solver starts from is unambiguous, and, with `sgn`, so is the returned one. -/
structure ClearUpdate [Nonempty N] (sgn : Bool) (la : Lapack 𝕜) (fo : Als.FloatOps F) (rep : ℝ → F) (cfg : Settings F)
    (hb : bD ≤ Fintype.card (N × P)) (a1r a2r : N → Fin bD → P → 𝕜) (n12 : N → N → N → N → 𝕜) (gate : P → P → P → P → 𝕜) : Prop where
  start : ∀ nz, positiveApprox la 2 cfg.positive_approx_cutoff n12 = some nz →
    if cfg.use_gauge_fix then ClearSvd sgn bD (gatedMat (gaugeFix la cfg.gauge_fix_atol nz (gateReduced a1r a2r gate)).a12g)
    else ClearSvd sgn bD (gatedMat (gateReduced a1r a2r gate))
  result : sgn = true → ∀ p, updateReduced la fo rep cfg hb a1r a2r n12 gate = some (.ok p) → Distinct (finMat p.1 * (finMat p.2)ᵀ)

end AceTN.Spec
