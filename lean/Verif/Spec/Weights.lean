import Verif.Spec.TwoSite

/-!
Bond weights on the legs of a site tensor, and distances of two-site tensors; independent of the model.
-/

set_option autoImplicit false

namespace AceTN.Spec

variable {𝕜 : Type} [RCLike 𝕜] {B P : Type} [Fintype B] [Fintype P]

/-- The weight on leg `d` (0 left, 1 up, 2 right, 3 down): one on the excluded leg. -/
noncomputable def legWeight (w : ℕ → B → ℝ) (ex d : ℕ) (i : B) : ℝ := if d = ex then 1 else w d i

/-- A site tensor with the weights of all legs but `ex` multiplied in. -/
noncomputable def weighted (w : ℕ → B → ℝ) (ex : ℕ) (a : B → B → B → B → P → 𝕜) : B → B → B → B → P → 𝕜 :=
  fun l u r d p => ((legWeight w ex 0 l * legWeight w ex 1 u * legWeight w ex 2 r * legWeight w ex 3 d : ℝ) : 𝕜) * a l u r d p

/-- Squared Frobenius norm of a two-site tensor. -/
def normSq8 (T : B → B → B → B → B → B → P → P → 𝕜) : ℝ :=
  ∑ r, ∑ d, ∑ u, ∑ p, ∑ d', ∑ l', ∑ u', ∑ q, ‖T u r d l' u' d' p q‖ ^ 2

/-- `T'` is, up to the positive factor `c`, a best approximation of `T` by the product of two site tensors with the same
bond dimension. -/
def BestBond (T T' : B → B → B → B → B → B → P → P → 𝕜) (c : ℝ) : Prop :=
  0 < c ∧ ∀ c1 c2 : B → B → B → B → P → 𝕜,
    normSq8 (fun u r d l' u' d' p q => T u r d l' u' d' p q - (c : 𝕜) * T' u r d l' u' d' p q) ≤
      normSq8 (fun u r d l' u' d' p q => T u r d l' u' d' p q - twoSite c1 c2 u r d l' u' d' p q)

/-- Properly normalised bond weights: non-negative, descending, at most one, with unit fourth-power sum. -/
def Normalised {n : ℕ} (w : Fin n → ℝ) : Prop :=
  (∀ a, 0 ≤ w a) ∧ (∀ a b, a ≤ b → w b ≤ w a) ∧ (∀ a, w a ≤ 1) ∧ ∑ a, w a ^ 4 = 1

end AceTN.Spec
