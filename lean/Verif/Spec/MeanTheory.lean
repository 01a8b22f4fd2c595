import Verif.Model.Lattice
import Verif.Spec.Lattice
import Mathlib.Data.Real.Basic
import Mathlib.Algebra.BigOperators.Group.Finset.Basic
import Mathlib.Data.Fintype.Basic

/-!
Time-dependent mean-field theory: product states, one vector for every site of the cell, whose pairs are replaced by nearest products.  Nothing here
refers to tensors, weights, environments or decompositions.
-/

set_option autoImplicit false

namespace AceTN.Spec

variable {P : Type} [Fintype P]

/-- The pair `x ⊗ y` after a gate, whose first two indices act on the state. -/
def pairAfter (gate : P → P → P → P → ℝ) (x y : P → ℝ) (p q : P) : ℝ := ∑ p', ∑ q', x p' * y q' * gate p' q' p q

/-- Up to a positive factor, `x ⊗ y` is a product that is as near to `T` as a product can be. -/
def BestProduct (T : P → P → ℝ) (x y : P → ℝ) : Prop :=
  ∃ κ : ℝ, 0 < κ ∧ ∀ f g : P → ℝ, ∑ p, ∑ q, (T p q - κ * (x p * y q)) ^ 2 ≤ ∑ p, ∑ q, (T p q - f p * g q) ^ 2

/-- There is only one such product, up to factors. -/
def OneNearest (T : P → P → ℝ) : Prop :=
  (∃ p q, T p q ≠ 0) ∧ ∀ x y x' y' : P → ℝ, BestProduct T x y → BestProduct T x' y' → ∃ c : ℝ, ∀ p q, x' p * y' q = c * (x p * y q)

/-- A step of mean-field theory on a bond: the pair is replaced by a nearest product of the pair after the gate. -/
def MeanStep (nx ny : ℕ) (gate : P → P → P → P → ℝ) (b : Bond) (v v' : Site → P → ℝ) : Prop :=
  BestProduct (pairAfter gate (v b.s1) (v b.s2)) (v' b.s1) (v' b.s2) ∧ ∀ s, InCell nx ny s → s ≠ b.s1 → s ≠ b.s2 → v' s = v s

/-- Steps on the bonds of a list, one after the other. -/
def MeanRun (nx ny : ℕ) (gates : Bond → P → P → P → P → ℝ) : List Bond → (Site → P → ℝ) → (Site → P → ℝ) → Prop
  | [], v, v' => ∀ s, InCell nx ny s → v' s = v s
  | b :: bs, v, v' => ∃ w, MeanStep nx ny (gates b) b v w ∧ MeanRun nx ny gates bs w v'

/-- All nearest products that such a run meets are unique. -/
def NoChoiceRun (nx ny : ℕ) (gates : Bond → P → P → P → P → ℝ) : List Bond → (Site → P → ℝ) → Prop
  | [], _ => True
  | b :: bs, v => OneNearest (pairAfter (gates b) (v b.s1) (v b.s2)) ∧ ∀ w, MeanStep nx ny (gates b) b v w → NoChoiceRun nx ny gates bs w

/-- The vectors on all sites of the cell agree up to factors that are not zero. -/
def UpToFactors (nx ny : ℕ) (v v' : Site → P → ℝ) : Prop := ∀ s, InCell nx ny s → ∃ c : ℝ, c ≠ 0 ∧ v' s = c • v s

end AceTN.Spec
