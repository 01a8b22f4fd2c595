import Verif.Model.Gate
import Verif.Model.GateHeap

/-!
What the hooks of a model return, and how `acetn/evolution/gate.py` and `acetn/measurement/measure.py` take the matrix out
of it.  `Model/Gate.lean` and `Model/Measure.lean` begin with the matrices.
-/

set_option autoImplicit false

namespace AceTN.Hk

/-- What `one_site_hamiltonian`, `two_site_hamiltonian` or an entry of the dictionaries of observables is: `None`, a
`torch.Tensor` (the type documented in model/model.py 149-150 and 168-169), or an object with an attribute `mat`
(pauli_matrix.py 4-39). -/
inductive Ret (M : Type)
  | none
  | tensor (a : M)
  | object (mat : M)

namespace Ret
variable {M : Type}

/-- `x is not None`. -/
def notNone : Ret M → Bool
  | none => false
  | _ => true

/-- `x.mat`; a `torch.Tensor` and `None` have no such attribute. -/
def mat : Ret M → Except PyErr M
  | object a => .ok a
  | _ => .error .attributeError

/-- `x.mat if hasattr(x, 'mat') else x` used as a tensor, measure.py 46, 66-67, 85, 106-107.  `None.reshape` is an
`AttributeError`. -/
def unwrap : Ret M → Except PyErr M
  | object a => .ok a
  | tensor a => .ok a
  | none => .error .attributeError

end Ret

variable {P 𝕜 : Type} [Fintype P] [DecidableEq P] [RCLike 𝕜]

/-- The Hamiltonian hooks of a model, model/model.py 136-171. -/
structure Hooks (P 𝕜 : Type) where
  two : Bond → Ret (Matrix (P × P) (P × P) 𝕜)
  one : Site → Ret (Matrix P P 𝕜)

/-- The matrices whose expectation value is the energy of a site, measure.py 44-49 (`none`: the energy is `0.`). -/
def siteTerm (m : Hooks P 𝕜) (s : Site) : Except PyErr (Option (Matrix P P 𝕜)) :=
  let ham := m.one s
  if ham.notNone then do
    let a ← ham.unwrap
    return some a
  else return none

/-- The matrix whose expectation value is the energy of a bond, measure.py 65-67. -/
def bondTerm (m : Hooks P 𝕜) (b : Bond) : Except PyErr (Matrix (P × P) (P × P) 𝕜) := (m.two b).unwrap

/-- An entry of the dictionary of gates. -/
inductive Entry (P 𝕜 : Type)
  | one (g : Matrix P P 𝕜)
  | two (g : P → P → P → P → 𝕜)

abbrev Gates (P 𝕜 : Type) := PyDict GH.Key (Entry P 𝕜)

/-- Loop body of `build_one_site_gates`, gate.py 77-80; `scale` is 1 because `wrap_one_site` is `True`, gate.py 27. -/
noncomputable def stepOne (m : Hooks P 𝕜) (dtau : ℝ) (g : Gates P 𝕜) (s : Site) : Except PyErr (Gates P 𝕜) :=
  let ham := m.one s
  if ham.notNone then do
    let a ← ham.mat
    return g.set (.site s) (.one (calculateGate a dtau))
  else return g

open scoped Kronecker in
/-- Loop body of `build_two_site_gates`, gate.py 97-107.  The addition is in place, see `Model/GateHeap.lean`. -/
noncomputable def stepTwo (m : Hooks P 𝕜) (dtau : ℝ) (g : Gates P 𝕜) (b : Bond) : Except PyErr (Gates P 𝕜) := do
  let bondHam ← (m.two b).mat
  let h1 := m.one b.s1
  let h2 := m.one b.s2
  let bondHam ← if h1.notNone && h2.notNone then do
      let a1 ← h1.mat
      let a2 ← h2.mat
      pure (bondHam + (0.25 : 𝕜) • (a1 ⊗ₖ (1 : Matrix P P 𝕜) + (1 : Matrix P P 𝕜) ⊗ₖ a2))
    else pure bondHam
  return g.set (.bond b) (.two fun p q r s => calculateGate bondHam dtau (p, q) (r, s))

/-- `Gate(model, dtau, bond_list, site_list)`, gate.py 10-31, on the dictionary left by earlier calls (C28). -/
noncomputable def newGate (m : Hooks P 𝕜) (dtau : ℝ) (bonds : List Bond) (sites : List Site) (g : Gates P 𝕜) :
    Except PyErr (Gates P 𝕜) := do
  let g ← sites.foldlM (stepOne m dtau) g
  bonds.foldlM (stepTwo m dtau) g

end AceTN.Hk
