import Verif.Model.Lattice
import Mathlib.LinearAlgebra.Matrix.Kronecker
import Mathlib.Analysis.Normed.Algebra.MatrixExponential
import Mathlib.Analysis.RCLike.Basic

/-!
Values computed by `acetn/evolution/gate.py` (object identity and the shared dictionary are modelled in
`Model/GateHeap.lean`).  `P` is the index set of the physical leg (`model.dim` elements).
-/

set_option autoImplicit false

namespace AceTN
open scoped Kronecker
variable {P : Type*} [Fintype P] [DecidableEq P] {𝕜 : Type*} [RCLike 𝕜]

/-- The Hamiltonian terms a model supplies: `model.two_site_hamiltonian(bond).mat` and
`model.one_site_hamiltonian(site)`, the latter `None` or an operator; model/model.py 100-152. -/
structure ModelTerms (P 𝕜 : Type*) where
  two : Bond → Matrix (P × P) (P × P) 𝕜
  one : Site → Option (Matrix P P 𝕜)

/-- The generator exponentiated for a bond, gate.py 97-106: `bond_ham`, to which
`0.25*(kron(h1, id) + kron(id, h2))` is added when *both* one-site terms are not `None`. -/
noncomputable def bondHam (m : ModelTerms P 𝕜) (b : Bond) : Matrix (P × P) (P × P) 𝕜 :=
  match m.one b.s1, m.one b.s2 with
  | some h1, some h2 => m.two b + (0.25 : 𝕜) • (h1 ⊗ₖ (1 : Matrix P P 𝕜) + (1 : Matrix P P 𝕜) ⊗ₖ h2)
  | _, _ => m.two b

/-- `calculate_gate`, gate.py 109-125: `matrix_exp(-dtau * ham)`. -/
noncomputable def calculateGate {n : Type*} [Fintype n] [DecidableEq n]
    (ham : Matrix n n 𝕜) (dtau : ℝ) : Matrix n n 𝕜 :=
  NormedSpace.exp ((-(dtau : 𝕜)) • ham)

/-- The two-site gate of a bond, gate.py 107: the exponential reshaped to `(pD,pD,pD,pD)`, i.e. the row
index `(p,q)` and the column index `(r,s)` are split (row-major). -/
noncomputable def twoSiteGate (m : ModelTerms P 𝕜) (dtau : ℝ) (b : Bond) : P → P → P → P → 𝕜 :=
  fun p q r s => calculateGate (bondHam m b) dtau (p, q) (r, s)

/-- The one-site gate of a site, gate.py 76-80, with `scale = 1` because `wrap_one_site` is always
`True` (gate.py 27); `None` when the model has no one-site term there. -/
noncomputable def oneSiteGate (m : ModelTerms P 𝕜) (dtau : ℝ) (s : Site) : Option (Matrix P P 𝕜) :=
  (m.one s).map fun h => calculateGate h dtau

end AceTN
