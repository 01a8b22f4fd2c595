import Verif.Model.Pauli
import Verif.Model.Lattice

/-!
The custom models shipped as samples: `samples/04_compass_model.py`, `samples/05_honeycomb_ising.py` and
`samples/06_kagome_ising.py`, and the helper `Model.bond_direction` they use.

The operator expressions are transcribed with python's precedence: `-jz*A*B` is `((-jz)*A)*B`.  The dtype and device
arguments are those of `Verif/Model/Pauli.lean` (`𝕜`, `cx`).
-/

set_option autoImplicit false

namespace AceTN.Pauli

variable {𝕜 : Type} [RCLike 𝕜]

/-- `Model.bond_direction`, model/model.py 80-82: a dictionary lookup with default `None`. -/
def bondDirection (b : Bond) : Option String :=
  PyDict.get? [(0, "-x"), (1, "+y"), (2, "+x"), (3, "-y")] b.k

/-! ### Honeycomb Ising model, two spins per site -/

/-- `HoneycombIsingModel.one_site_observables`, 05_honeycomb_ising.py 10-25. -/
def honeycombObservables (cx : Bool) : PyDict String (PM 𝕜 2) :=
  let mxA := mul cx X I
  let mxB := mul cx I X
  let mzA := mul cx Z I
  let mzB := mul cx I Z
  let mx := add mxA mxB
  let mz := add mzA mzB
  [("mag_x(A)", mxA), ("mag_x(B)", mxB), ("mag_z(A)", mzA), ("mag_z(B)", mzB), ("mag_x", mx), ("mag_z", mz)]

/-- `HoneycombIsingModel.one_site_hamiltonian`, 05_honeycomb_ising.py 27-31. -/
def honeycombOneSite (cx : Bool) (params : PyDict String ℝ) : Except PyErr (PM 𝕜 2) := do
  let jz ← param params "jz"
  let hx ← param params "hx"
  pure (sub (mul cx (smul (-jz) Z) Z) (smul hx (add (mul cx X I) (mul cx I X))))

/-- `HoneycombIsingModel.two_site_hamiltonian`, 05_honeycomb_ising.py 33-44; no case matching gives `None`. -/
def honeycombTwoSite (cx : Bool) (params : PyDict String ℝ) (b : Bond) : Except PyErr (Option (PM 𝕜 (2 + 2))) :=
  match bondDirection b with
  | some "+x" => do
    let jz ← param params "jz"
    pure (some (mul cx (smul (-jz) (mul cx I Z)) (mul cx Z I)))
  | some "-x" => do
    let jz ← param params "jz"
    pure (some (mul cx (smul (-jz) (mul cx Z I)) (mul cx I Z)))
  | some "+y" => do
    let jz ← param params "jz"
    pure (some (mul cx (smul (-jz) (mul cx Z I)) (mul cx I Z)))
  | some "-y" => do
    let jz ← param params "jz"
    pure (some (mul cx (smul (-jz) (mul cx I Z)) (mul cx Z I)))
  | _ => pure none

/-! ### Kagome Ising model, three spins per site -/

/-- `A*B*C` is `(A*B)*C`. -/
def mul3 (cx : Bool) (a b c : PM 𝕜 1) : PM 𝕜 3 := mul cx (mul cx a b) c

/-- `KagomeIsingModel.one_site_observables`, 06_kagome_ising.py 10-28. -/
noncomputable def kagomeObservables (cx : Bool) : PyDict String (PM 𝕜 3) :=
  let mxA := mul3 cx X I I
  let mxB := mul3 cx I X I
  let mxC := mul3 cx I I X
  let mzA := mul3 cx Z I I
  let mzB := mul3 cx I Z I
  let mzC := mul3 cx I I Z
  [("mag_x(A)", mxA), ("mag_x(B)", mxB), ("mag_x(C)", mxC), ("mag_z(A)", mzA), ("mag_z(B)", mzB), ("mag_z(C)", mzC),
   ("mx", div (add (add mxA mxB) mxC) 3), ("mz", div (add (add mzA mzB) mzC) 3)]

/-- `KagomeIsingModel.one_site_hamiltonian`, 06_kagome_ising.py 30-35. -/
def kagomeOneSite (cx : Bool) (params : PyDict String ℝ) : Except PyErr (PM 𝕜 3) := do
  let jz ← param params "jz"
  let hx ← param params "hx"
  pure (sub (smul (-jz) (add (mul3 cx I Z Z) (mul3 cx Z Z I)))
    (smul hx (add (add (mul3 cx X I I) (mul3 cx I X I)) (mul3 cx I I X))))

/-- `KagomeIsingModel.two_site_hamiltonian`, 06_kagome_ising.py 37-48; no case matching gives `None`. -/
def kagomeTwoSite (cx : Bool) (params : PyDict String ℝ) (b : Bond) : Except PyErr (Option (PM 𝕜 (3 + 3))) :=
  match bondDirection b with
  | some "-x" => do
    let jz ← param params "jz"
    pure (some (sub (mul cx (smul (-jz) (mul3 cx Z I I)) (mul3 cx I I Z))
      (mul cx (smul jz (mul3 cx I Z I)) (mul3 cx I I Z))))
  | some "+x" => do
    let jz ← param params "jz"
    pure (some (sub (mul cx (smul (-jz) (mul3 cx I I Z)) (mul3 cx Z I I))
      (mul cx (smul jz (mul3 cx I I Z)) (mul3 cx I Z I))))
  | some "-y" => do
    let jz ← param params "jz"
    pure (some (sub (mul cx (smul (-jz) (mul3 cx I Z I)) (mul3 cx Z I I))
      (mul cx (smul jz (mul3 cx I I Z)) (mul3 cx Z I I))))
  | some "+y" => do
    let jz ← param params "jz"
    pure (some (sub (mul cx (smul (-jz) (mul3 cx Z I I)) (mul3 cx I Z I))
      (mul cx (smul jz (mul3 cx Z I I)) (mul3 cx I I Z))))
  | _ => pure none

/-! ### Compass model -/

/-- `CompassModel.one_site_hamiltonian`, 04_compass_model.py 25-29. -/
def compassOneSite (params : PyDict String ℝ) : Except PyErr (PM 𝕜 1) := do
  let hx ← param params "hx"
  let hz ← param params "hz"
  pure (sub (smul (-hx) X) (smul hz Z))

/-- `CompassModel.two_site_hamiltonian`, 04_compass_model.py 31-38. -/
def compassTwoSite (cx : Bool) (params : PyDict String ℝ) (b : Bond) : Except PyErr (Option (PM 𝕜 (1 + 1))) :=
  if bondDirection b = some "+x" ∨ bondDirection b = some "-x" then do
    let jx ← param params "jx"
    pure (some (mul cx (smul (-jx) X) X))
  else if bondDirection b = some "+y" ∨ bondDirection b = some "-y" then do
    let jz ← param params "jz"
    pure (some (mul cx (smul (-jz) Z) Z))
  else pure none

/-- `CompassModel.two_site_observables`, 04_compass_model.py 14-23; an unknown direction leaves `phi` unbound, an
`UnboundLocalError` (a `NameError`). -/
def compassObservables (cx : Bool) (b : Bond) : Except PyErr (PyDict String (PM 𝕜 (1 + 1))) :=
  let chi := sub (mul cx X Z) (mul cx Z X)
  if bondDirection b = some "+x" ∨ bondDirection b = some "-x" then
    .ok [("phi", mul cx X X), ("chi", chi)]
  else if bondDirection b = some "+y" ∨ bondDirection b = some "-y" then
    .ok [("phi", mul cx (neg Z) Z), ("chi", chi)]
  else .error .unboundLocalError

end AceTN.Pauli
