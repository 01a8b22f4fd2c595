import Verif.Spec.LinkChange
import Verif.Spec.RandomDraw

/-!
Runs of the renormalization with random draws.
-/

set_option autoImplicit false

namespace AceTN.Spec

open Matrix MeasureTheory

variable {𝕜 : Type} [RCLike 𝕜] [MeasurableSpace 𝕜] {B P W : Type} [Fintype B] [Fintype P] [DecidableEq B] [MeasurableSpace W]

/-- A random generator with outcomes in `W`: the entries of each draw are independent and have the distribution `ν`.  The
draws of one move may depend on each other. -/
structure Generates (ν : Measure 𝕜) (μ : Measure W) (gen : W → Draws B 𝕜) : Prop where
  meas : ∀ key m n q, AEMeasurable (fun w (e : (Fin n × B × B) × Fin (clipRank (Fin m × B × B) (Fin n × B × B) q)) =>
    gen w key m n q e.1 e.2) μ
  law : ∀ key m n q, μ.map (fun w (e : (Fin n × B × B) × Fin (clipRank (Fin m × B × B) (Fin n × B × B) q)) =>
    gen w key m n q e.1 e.2) = iid ν (Fin n × B × B) (clipRank (Fin m × B × B) (Fin n × B × B) q)

/-- `w` and then `ws`. -/
def andThen (w : W) (ws : ℕ → W) : ℕ → W
  | 0 => w
  | i + 1 => ws i

/-- `n` outcomes drawn one after the other have the property `p` with probability one. -/
def Almost (μ : Measure W) : ℕ → ((ℕ → W) → Prop) → Prop
  | 0, p => ∀ ws, p ws
  | n + 1, p => ∀ᵐ w ∂μ, Almost μ n fun ws => p (andThen w ws)

variable (st : ProjSettings 𝕜)

/-- The environment of a cut has a rank of at most `r`. -/
def RankCut (r : ℕ) (ω : Draws B 𝕜) (pk : ProjKind) (net : Net (Ten B P 𝕜)) (s1 s2 s3 s4 : Site) (k : ℕ) : Prop :=
  match pk with
  | .half => ∀ (m x n : ℕ) (Q1 : Matrix (Fin m × B × B) (Fin x × B × B) 𝕜) (Q4 : Matrix (Fin x × B × B) (Fin n × B × B) 𝕜),
    quarterTensor (numOps st ω) net s1 k = .quarter m x Q1 → quarterTensor (numOps st ω) net s4 (k + 3) = .quarter x n Q4 →
    RankLE (Q1 * Q4) r
  | .full => ∀ (m x n k1 k3 : ℕ) (Q1 : Matrix (Fin k1 × B × B) (Fin x × B × B) 𝕜)
      (Q2 : Matrix (Fin m × B × B) (Fin k1 × B × B) 𝕜) (Q3 : Matrix (Fin k3 × B × B) (Fin n × B × B) 𝕜)
      (Q4 : Matrix (Fin x × B × B) (Fin k3 × B × B) 𝕜),
    quarterTensor (numOps st ω) net s1 k = .quarter k1 x Q1 → quarterTensor (numOps st ω) net s2 (k + 1) = .quarter m k1 Q2 →
    quarterTensor (numOps st ω) net s3 (k + 2) = .quarter k3 n Q3 → quarterTensor (numOps st ω) net s4 (k + 3) = .quarter x k3 Q4 →
    RankLE (Q2 * Q1 * Q4 * Q3) r

/-- The same for all cuts of a move. -/
def RankMove (r : ℕ) (ω : Draws B 𝕜) (pk : ProjKind) (net : Net (Ten B P 𝕜)) (m : Move) : Prop :=
  ∀ s, InCell net.nx net.ny s → IsAbsorbed m s →
    RankCut st r ω pk net s (neighbour net.nx net.ny s ((moveDir m + 2) % 4))
      (neighbour net.nx net.ny (neighbour net.nx net.ny s ((moveDir m + 2) % 4)) ((moveDir m + 3) % 4))
      (neighbour net.nx net.ny s ((moveDir m + 3) % 4)) (moveDir m)

/-- The same for all moves of a run. -/
def RankRun (r : ℕ) (pk : ProjKind) (ω : ℕ → Draws B 𝕜) : ℕ → List Move → Net (Ten B P 𝕜) → Prop
  | _, [], _ => True
  | t, m :: ms, net => RankMove st r (ω t) pk net m ∧
    ∀ net', m.run (numOps st (ω t)) pk net = .ok net' → RankRun r pk ω (t + 1) ms net'

end AceTN.Spec
