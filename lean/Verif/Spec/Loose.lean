import Verif.Props.Projectors
import Verif.Spec.ClusterNet

/-!
Runs of the renormalization in which nothing is truncated.
-/

set_option autoImplicit false

namespace AceTN.Spec

open Matrix

variable {𝕜 : Type} [RCLike 𝕜]

/-- A cut that needs no truncation: it has a positive dimension, the two parts of its environment have a left and a right
inverse, `chi` is at least the dimension of the cut, no singular value is at or below the cut-off, and the random draw, if one
is used, captures the environment. -/
structure Loose {m n X B : Type} [Fintype m] [Fintype n] [Fintype X] [Fintype B] [DecidableEq X] [DecidableEq B] {q : ℕ}
    (fullRank : Bool) (cutoff : ℝ) (chi : ℕ) (L : Matrix m (X × B × B) 𝕜) (R : Matrix (X × B × B) n 𝕜)
    (Ω : Matrix n (Fin q) 𝕜) : Prop where
  pos : Nonempty (X × B × B)
  left : ∃ L' : Matrix (X × B × B) m 𝕜, L' * L = 1
  right : ∃ R' : Matrix n (X × B × B) 𝕜, R * R' = 1
  large : Fintype.card (X × B × B) ≤ chi
  gap : CutGap (L * R) cutoff
  draw : fullRank = false → L * R * Ω ≠ 0 ∧ Captures (L * R) Ω

variable {B P : Type} [Fintype B] [Fintype P] [DecidableEq B]

/-- The cut of a move in direction `k` at the sites `s1`, `s2`, `s3`, `s4` needs no truncation: its environment is made of
the quarter tensors of `s1` and `s4` or of all four sites. -/
def LooseCut (st : ProjSettings 𝕜) (ω : Draws B 𝕜) (pk : ProjKind) (net : Net (Ten B P 𝕜)) (s1 s2 s3 s4 : Site) (k : ℕ) : Prop :=
  match pk with
  | .half => ∃ (m x n : ℕ) (Q1 : Matrix (Fin m × B × B) (Fin x × B × B) 𝕜) (Q4 : Matrix (Fin x × B × B) (Fin n × B × B) 𝕜),
    quarterTensor (numOps st ω) net s1 k = .quarter m x Q1 ∧ quarterTensor (numOps st ω) net s4 (k + 3) = .quarter x n Q4 ∧
    Loose st.fullRank st.cutoff net.chi Q1 Q4 (ω (k, s1) m n (net.chi + st.oversampling))
  | .full => ∃ (m x n k1 k3 : ℕ) (Q1 : Matrix (Fin k1 × B × B) (Fin x × B × B) 𝕜)
      (Q2 : Matrix (Fin m × B × B) (Fin k1 × B × B) 𝕜) (Q3 : Matrix (Fin k3 × B × B) (Fin n × B × B) 𝕜)
      (Q4 : Matrix (Fin x × B × B) (Fin k3 × B × B) 𝕜),
    quarterTensor (numOps st ω) net s1 k = .quarter k1 x Q1 ∧ quarterTensor (numOps st ω) net s2 (k + 1) = .quarter m k1 Q2 ∧
    quarterTensor (numOps st ω) net s3 (k + 2) = .quarter k3 n Q3 ∧
    quarterTensor (numOps st ω) net s4 (k + 3) = .quarter x k3 Q4 ∧
    Loose st.fullRank st.cutoff net.chi (Q2 * Q1) (Q4 * Q3) (ω (k, s1) m n (net.chi + st.oversampling))

/-- The direction of a move. -/
def moveDir : Move → ℕ
  | .left _ => 0 | .up _ => 1 | .right _ => 2 | .down _ => 3

/-- The sites that a move absorbs: its column or row. -/
def IsAbsorbed (m : Move) (s : Site) : Prop :=
  match m with
  | .left x | .right x => s.1 = x
  | .up y | .down y => s.2 = y

/-- None of the cuts of a move needs truncation: the one at every absorbed site, with the site behind it, the one next to
that, and the one next to the absorbed site, seen against the direction of the move. -/
def LooseMove (st : ProjSettings 𝕜) (ω : Draws B 𝕜) (pk : ProjKind) (net : Net (Ten B P 𝕜)) (m : Move) : Prop :=
  ∀ s, InCell net.nx net.ny s → IsAbsorbed m s →
    LooseCut st ω pk net s (neighbour net.nx net.ny s ((moveDir m + 2) % 4))
      (neighbour net.nx net.ny (neighbour net.nx net.ny s ((moveDir m + 2) % 4)) ((moveDir m + 3) % 4))
      (neighbour net.nx net.ny s ((moveDir m + 3) % 4)) (moveDir m)

/-- No move of a run needs truncation. -/
def LooseRun (st : ProjSettings 𝕜) (pk : ProjKind) (ω : ℕ → Draws B 𝕜) : ℕ → List Move → Net (Ten B P 𝕜) → Prop
  | _, [], _ => True
  | t, m :: ms, net => LooseMove st (ω t) pk net m ∧
    ∀ net', m.run (numOps st (ω t)) pk net = .ok net' → LooseRun st pk ω (t + 1) ms net'

/-- The line of a move is one of the cell. -/
def InRange (nx ny : ℕ) : Move → Prop
  | .left x | .right x => x < nx
  | .up y | .down y => y < ny

end AceTN.Spec
