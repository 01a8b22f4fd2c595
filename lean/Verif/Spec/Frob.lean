import Mathlib.Analysis.RCLike.Basic
import Mathlib.LinearAlgebra.Matrix.Defs
import Mathlib.Algebra.BigOperators.Fin

/-!
Squared Frobenius norm.
-/

set_option autoImplicit false

namespace AceTN.Spec

open scoped BigOperators

/-- The sum of the squared moduli of the entries. -/
def frobSq {𝕜 m n : Type} [RCLike 𝕜] [Fintype m] [Fintype n] (A : Matrix m n 𝕜) : ℝ := ∑ i, ∑ j, ‖A i j‖ ^ 2

end AceTN.Spec
