import Verif.Model.Lattice
import Verif.Model.Py
import Mathlib.Algebra.Group.Basic
import Mathlib.Logic.Function.Basic

/-!
Object identity in `acetn/evolution/gate.py`: the class-level dictionary `_gate` (line 9), shared by all `Gate` objects,
and the in-place addition `bond_ham += …` (line 106) on the tensor the model returned.

Matrices of operators are elements of an additive group `M`; `wrap h1 h2` is `0.25*(kron(h1, id) + kron(id, h2))` (lines
104-106) and `gateOf dtau h` is `matrix_exp(-dtau*h)` (line 125); both create new tensors.  One-site terms are values of
any type `N`.
-/

set_option autoImplicit false

namespace AceTN.GH

/-- What `model.two_site_hamiltonian(bond).mat` is: computed anew at every call (as in the built-in models), or a tensor
the model keeps and returns every time (address in the heap). -/
inductive Two (M : Type)
  | fresh (h : M)
  | cached (a : ℕ)

/-- A model: its two-site and one-site terms. -/
structure Mdl (M N : Type) where
  two : Bond → Two M
  one : Site → Option N

/-- Keys of the gate dictionary, gate.py 33-60: a site or a bond. -/
inductive Key
  | site (s : Site)
  | bond (b : Bond)
  deriving DecidableEq, Repr

/-- The tensors kept by models, and the class attribute `Gate._gate`. -/
structure St (M : Type) where
  heap : ℕ → M
  gates : PyDict Key M

section
variable {M N D : Type} [AddCommGroup M] (wrap : N → N → M) (gateOf : D → M → M) (gate1 : D → N → M)

/-- The matrix a call of `model.two_site_hamiltonian(bond)` gives to the caller. -/
def ham (s : St M) (m : Mdl M N) (b : Bond) : M :=
  match m.two b with
  | .fresh h => h
  | .cached a => s.heap a

/-- `build_one_site_gates`, gate.py 76-80. -/
def buildOne (m : Mdl M N) (dtau : D) : List Site → St M → St M
  | [], s => s
  | x :: xs, s =>
    buildOne m dtau xs
      (match m.one x with
        | none => s
        | some h => { s with gates := s.gates.set (.site x) (gate1 dtau h) })

/-- Loop body of `build_two_site_gates`, gate.py 97-107: the addition is in place, so a cached tensor is changed. -/
def stepTwo (m : Mdl M N) (dtau : D) (b : Bond) (s : St M) : St M :=
  match m.one b.s1, m.one b.s2 with
  | some h1, some h2 =>
    let v := ham s m b + wrap h1 h2
    { heap := match m.two b with
        | .fresh _ => s.heap
        | .cached a => Function.update s.heap a v
      gates := s.gates.set (.bond b) (gateOf dtau v) }
  | _, _ => { s with gates := s.gates.set (.bond b) (gateOf dtau (ham s m b)) }

/-- `build_two_site_gates`, gate.py 96-107. -/
def buildTwo (m : Mdl M N) (dtau : D) : List Bond → St M → St M
  | [], s => s
  | b :: bs, s => buildTwo m dtau bs (stepTwo wrap gateOf m dtau b s)

/-- `Gate(model, dtau, bond_list, site_list)`, gate.py 10-31. -/
def newGate (m : Mdl M N) (dtau : D) (bonds : List Bond) (sites : List Site) (s : St M) : St M :=
  buildTwo wrap gateOf m dtau bonds (buildOne gate1 m dtau sites s)

/-- `gate[key]`, gate.py 33-47, through any `Gate` object. -/
def look (s : St M) (k : Key) : Except PyErr M := s.gates.getItem k

end
end AceTN.GH
