import Verif.Model.Einsum
import Verif.Model.Lattice
import Mathlib.Data.Fin.VecNotation
import Mathlib.Data.Int.Basic

/-!
Numerical tensors of a network: index ranges are arbitrary finite types, entries are in `𝕜` (`ℝ` or `ℂ`).
-/

set_option autoImplicit false

namespace AceTN

/-- A site tensor with legs left, up, right, down, physical. -/
abbrev ATensor (B P 𝕜 : Type) := B → B → B → B → P → 𝕜

/-- The tensors of a site, ipeps/site_tensor.py 29-39: the site tensor and four corner and edge tensors.  All boundary
legs share one index type here; the contractions below are defined for legs of different dimensions. -/
structure NumSite (B P X 𝕜 : Type) where
  A : ATensor B P 𝕜
  C : Fin 4 → X → X → 𝕜
  E : Fin 4 → X → X → B → B → 𝕜

/-- A network: tensors at every site. -/
abbrev NetT (B P X 𝕜 : Type) := Site → NumSite B P X 𝕜

/-- Python's `(i+k)%4` for a direction `i` and any integer `k`. -/
def rotIdx (k : ℤ) (i : Fin 4) : Fin 4 := ⟨((i.val + k) % 4).toNat, by omega⟩

/-- `x.permute([(i+k)%4 for i in range(4)] + [4])`, site_tensor.py 150 and tensor_update.py 41-50: leg `i` of the result
is leg `(i+k)%4` of the argument.  So leg `a` of the argument receives the index given for leg `(a-k)%4` of the
result. -/
def bondPermute {B P 𝕜 : Type} (k : ℤ) (A : ATensor B P 𝕜) : ATensor B P 𝕜 := fun l u r d p =>
  let v : Fin 4 → B := ![l, u, r, d]
  A (v (rotIdx (-k) 0)) (v (rotIdx (-k) 1)) (v (rotIdx (-k) 2)) (v (rotIdx (-k) 3)) p

end AceTN
