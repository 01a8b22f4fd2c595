import Mathlib.MeasureTheory.Constructions.Pi
import Mathlib.LinearAlgebra.Matrix.Defs

/-!
The distribution of the random matrix of the randomised SVDs.
-/

set_option autoImplicit false

namespace AceTN.Spec

open MeasureTheory

/-- Independent identically distributed entries: `torch.randn(n, q)` is the case where `μ` is a normal distribution,
svd_lowrank.py 32. -/
noncomputable def iid {𝕜 : Type} [MeasurableSpace 𝕜] (μ : Measure 𝕜) (n : Type) [Fintype n] (q : ℕ) : Measure (n × Fin q → 𝕜) :=
  Measure.pi fun _ => μ

/-- The matrix with these entries. -/
def drawn {𝕜 n : Type} {q : ℕ} (ω : n × Fin q → 𝕜) : Matrix n (Fin q) 𝕜 := Matrix.of fun i j => ω (i, j)

end AceTN.Spec
