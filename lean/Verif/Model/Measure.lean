import Verif.Model.Rdm
import Verif.Model.Lattice
import Verif.Model.Py

/-!
Measurements: `acetn/measurement/measure.py`.

The printed text is in `Model/MeasurePrint`.  Not modelled: `.item()` on a value that is not a scalar.
-/

set_option autoImplicit false

namespace AceTN

variable {𝕜 : Type} [RCLike 𝕜]

section values

variable {P Q : Type} [Fintype P] [Fintype Q]

/-- `measure_one_site`, measure.py 173-184. -/
noncomputable def measureOneSite (rdm : P → P → 𝕜) (operator : P → P → 𝕜) : ℝ :=
  RCLike.re (einsum% "Pp,pP->" rdm operator)

/-- `measure_two_site`, measure.py 187-198. -/
noncomputable def measureTwoSite (rdm : P → Q → P → Q → 𝕜) (operator : P → Q → P → Q → 𝕜) : ℝ :=
  RCLike.re (einsum% "PQpq,pqPQ->" rdm operator)

/-- `einsum("pp->", site_rdm).real`, measure.py 134. -/
noncomputable def siteNorm (rdm : P → P → 𝕜) : ℝ := RCLike.re (einsum% "pp->" rdm)

/-- `einsum("pqpq->", bond_rdm).real`, measure.py 163. -/
noncomputable def bondNorm (rdm : P → Q → P → Q → 𝕜) : ℝ := RCLike.re (einsum% "pqpq->" rdm)

end values

section network

variable {B X : Type} [Fintype B] [Fintype X] {pD : ℕ}

/-- `measure_one_site(rdm[site], op)/site_norm`, measure.py 47, 86. -/
noncomputable def siteValue {P : Type} [Fintype P] (net : NetT B P X 𝕜) (s : Site) (op : P → P → 𝕜) : ℝ :=
  measureOneSite (buildSiteRdm net s) op / siteNorm (buildSiteRdm net s)

/-- `measure_two_site(rdm[bond], op)/bond_norm`, measure.py 68, 108.  `init` is uninitialised memory (C32). -/
noncomputable def bondValue (init : Fin pD → Fin pD → Fin pD → Fin pD → 𝕜) (net : NetT B (Fin pD) X 𝕜) (b : Bond)
    (op : Fin pD → Fin pD → Fin pD → Fin pD → 𝕜) : ℝ :=
  measureTwoSite (buildBondRdm init net b.s1 b.s2 b.k) op / bondNorm (buildBondRdm init net b.s1 b.s2 b.k)

end network

/-! ### Averages -/

/-- The hooks of a model used by `measure`; operators are of type `O₁` and `O₂`, already unwrapped from `.mat` and
reshaped.  Dictionaries are association lists without repeated keys. -/
structure MeasModel (O₁ O₂ : Type) where
  one_site_observables : Site → PyDict String O₁
  two_site_observables : Bond → PyDict String O₂
  one_site_hamiltonian : Site → Option O₁
  two_site_hamiltonian : Bond → O₂

namespace Meas

variable {O₁ O₂ : Type}

/-- `measurements_ave[op_name] += v`. -/
noncomputable def addTo (ave : PyDict String ℝ) (name : String) (v : ℝ) : Except PyErr (PyDict String ℝ) := do
  let old ← ave.getItem name
  return ave.set name (old + v)

/-- The loop over the observables of one site or bond, measure.py 84-88 and 105-110. -/
noncomputable def addAll {O : Type} (value : O → ℝ) (obs : PyDict String O) (ave : PyDict String ℝ) : Except PyErr (PyDict String ℝ) :=
  obs.foldlM (fun ave p => addTo ave p.1 (value p.2)) ave

/-- `for key in keys: measurements_ave[key] = 0`. -/
noncomputable def zeroKeys (keys : List String) (ave : PyDict String ℝ) : PyDict String ℝ :=
  keys.foldl (fun ave key => ave.set key 0) ave

/-- `for key in keys: measurements_ave[key] /= n`. -/
noncomputable def divKeys (keys : List String) (n : ℕ) (ave : PyDict String ℝ) : Except PyErr (PyDict String ℝ) :=
  keys.foldlM (fun ave key => do let old ← ave.getItem key; return ave.set key (old / n)) ave

/-- The common shape of `calculate_one_site_measurements`, measure.py 114-141, and `calculate_two_site_measurements`,
144-170: `places` are the sites or bonds, `obs` the dictionaries of observables, `first` the place whose keys are used,
`energy` the energy of a place and `value` the value of an observable there. -/
noncomputable def calculate {S O : Type} (places : List S) (first : S) (obs : S → PyDict String O) (energy : S → ℝ)
    (value : S → O → ℝ) (ave : PyDict String ℝ) : Except PyErr (PyDict String ℝ) := do
  let keys := (obs first).keys
  let ave := zeroKeys keys ave
  let ave ← places.foldlM (fun ave s => do
    let ave ← addTo ave "Energy" (energy s)
    if keys ≠ [] then addAll (value s) (obs s) ave else return ave) ave
  divKeys keys places.length ave

/-- `measure`, measure.py 5-28, for given values of operators at sites and bonds.  The energy of a site without a
one-site Hamiltonian is `0.`, measure.py 48-49; the keys of the two-site observables are those of the first bond, whose
absence is an `IndexError`, measure.py 155. -/
noncomputable def measure (model : MeasModel O₁ O₂) (v1 : Site → O₁ → ℝ) (v2 : Bond → O₂ → ℝ) (site_list : List Site)
    (bond_list : List Bond) : Except PyErr (PyDict String ℝ) := do
  let ave : PyDict String ℝ := [("Energy", 0)]
  let ave ← calculate site_list (0, 0) model.one_site_observables
    (fun s => match model.one_site_hamiltonian s with | some h => v1 s h | none => 0) v1 ave
  let first ← match bond_list.head? with | some b => Except.ok b | none => .error .indexError
  let ave ← calculate bond_list first model.two_site_observables (fun b => v2 b (model.two_site_hamiltonian b)) v2 ave
  let e ← ave.getItem "Energy"
  return ave.set "Energy" (e / site_list.length)

end Meas

end AceTN
