import Mathlib.Analysis.RCLike.Basic
import Mathlib.LinearAlgebra.Matrix.Defs
import Mathlib.Algebra.BigOperators.Fin

/-!
Quadratic forms of matrices.
-/

set_option autoImplicit false

namespace AceTN.Spec

open scoped BigOperators

variable {𝕜 n : Type} [RCLike 𝕜] [Fintype n]

/-- `⟨v|M|v⟩`. -/
def qform (M : Matrix n n 𝕜) (v : n → 𝕜) : 𝕜 := ∑ i, ∑ j, star (v i) * M i j * v j

/-- `⟨v|v⟩`. -/
def normSq (v : n → 𝕜) : ℝ := ∑ i, ‖v i‖ ^ 2

/-- Every eigenvalue of the Hermitian matrix is at least `c`. -/
def AtLeast (M : Matrix n n 𝕜) (c : ℝ) : Prop := ∀ v, c * normSq v ≤ RCLike.re (qform M v)

end AceTN.Spec
