import Verif.Model.Pauli
import Verif.Model.Gate
import Verif.Model.Measure

/-!
The built-in models as seen by `evolve` and by `measure`: `acetn/model/models/ising.py` and `acetn/model/models/heisenberg.py`, for a real dtype.

`evolve` reads the hooks in `evolution/gate.py` 76-107 and `measure` in `measurement/measure.py` 30-108; both take the matrix of the `PauliMatrix` and,
for operators on bonds, split its row-major indices into those of the two sites.  A hook that raises does so whenever it is called, so the
`Except` stands around the whole model.
-/

set_option autoImplicit false

namespace AceTN.Pauli

/-- The matrix of an operator on one spin; `.mat` in gate.py 80, 104, 105 and measure.py 46, 85. -/
def siteOp (A : Mat ℝ 1) : Matrix (Fin 2) (Fin 2) ℝ := fun i j => A (fun _ => i) fun _ => j

/-- The matrix of an operator on two spins, with the row-major index split into the two bits; gate.py 98-107 and measure.py 66-67. -/
def bondOp (A : Mat ℝ 2) : Matrix (Fin 2 × Fin 2) (Fin 2 × Fin 2) ℝ := fun i j => A ![i.1, i.2] ![j.1, j.2]

/-- `IsingModel.one_site_observables`, models/ising.py 8-11. -/
noncomputable def isingObservables : PyDict String (PM ℝ 1) := [("sx", X), ("sz", Z)]

/-- The terms of `IsingModel` that `evolve` uses, models/ising.py 13-21. -/
noncomputable def isingTerms (params : PyDict String ℝ) : Except PyErr (ModelTerms (Fin 2) ℝ) := do
  let h1 ← isingOneSite params
  let h2 ← isingTwoSite false params
  return ⟨fun _ => bondOp h2.mat, fun _ => some (siteOp h1.mat)⟩

/-- What `measure` reads from `IsingModel`, models/ising.py 8-21; there are no observables on bonds, model.py 118-133. -/
noncomputable def isingMeas (params : PyDict String ℝ) : Except PyErr (MeasModel (Fin 2 → Fin 2 → ℝ) (Fin 2 → Fin 2 → Fin 2 → Fin 2 → ℝ)) := do
  let h1 ← isingOneSite params
  let h2 ← isingTwoSite false params
  return { one_site_observables := fun _ => isingObservables.map fun o => (o.1, siteOp o.2.mat)
           two_site_observables := fun _ => []
           one_site_hamiltonian := fun _ => some (siteOp h1.mat)
           two_site_hamiltonian := fun _ k1 k2 b1 b2 => bondOp h2.mat (k1, k2) (b1, b2) }

/-- The terms of `HeisenbergModel` that `evolve` uses, models/heisenberg.py 22-26; there is none on sites, model.py 136-152. -/
noncomputable def heisenbergTerms (params : PyDict String ℝ) : Except PyErr (ModelTerms (Fin 2) ℝ) := do
  let h2 ← heisenbergTwoSite false params
  return ⟨fun _ => bondOp h2.mat, fun _ => none⟩

/-- What `measure` reads from `HeisenbergModel`, models/heisenberg.py 13-26. -/
noncomputable def heisenbergMeas (params : PyDict String ℝ) : Except PyErr (MeasModel (Fin 2 → Fin 2 → ℝ) (Fin 2 → Fin 2 → Fin 2 → Fin 2 → ℝ)) := do
  let h2 ← heisenbergTwoSite false params
  return { one_site_observables := fun s => (heisenbergObservables s).map fun o => (o.1, siteOp o.2.mat)
           two_site_observables := fun _ => []
           one_site_hamiltonian := fun _ => none
           two_site_hamiltonian := fun _ k1 k2 b1 b2 => bondOp h2.mat (k1, k2) (b1, b2) }

end AceTN.Pauli
