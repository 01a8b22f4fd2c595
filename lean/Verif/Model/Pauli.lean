import Verif.Model.Py
import Mathlib.Analysis.RCLike.Basic
import Mathlib.LinearAlgebra.Matrix.Notation

/-!
Pauli operators: `acetn/model/pauli_matrix.py`, and the built-in models `acetn/model/models/*.py`.

An operator on `n` spins is a matrix whose rows and columns are indexed by `n` bits (the row-major index of the
`2^n` by `2^n` torch tensor written in binary).  `𝕜` is `ℝ` for a real dtype and `ℂ` for a complex one, and `cx` is
`torch.is_complex(self.mat)`; operands of one expression share a dtype, as they do when they come from one call of
`pauli_matrices`.  Scalars are real (a complex scalar would change the dtype of the tensor).
-/

set_option autoImplicit false

namespace AceTN.Pauli

/-- Matrices of `n`-spin operators. -/
abbrev Mat (𝕜 : Type) (n : ℕ) := Matrix (Fin n → Fin 2) (Fin n → Fin 2) 𝕜

variable {𝕜 : Type} [RCLike 𝕜] {m n : ℕ}

/-- `torch.kron`: the bits of the first factor come first. -/
def kron (A : Mat 𝕜 m) (B : Mat 𝕜 n) : Mat 𝕜 (m + n) := fun i j =>
  A (fun a => i (Fin.castAdd n a)) (fun a => j (Fin.castAdd n a)) *
  B (fun a => i (Fin.natAdd m a)) (fun a => j (Fin.natAdd m a))

/-- A 2 by 2 matrix as a one-spin operator. -/
def one (M : Matrix (Fin 2) (Fin 2) 𝕜) : Mat 𝕜 1 := fun i j => M (i 0) (j 0)

/-- A `PauliMatrix`: its key and its matrix (dtype and device are fixed), pauli_matrix.py 33-49. -/
structure PM (𝕜 : Type) (n : ℕ) where
  key : List Char
  mat : Mat 𝕜 n

/-- `PauliMatrix('X', …)`, pauli_matrix.py 40-41. -/
def X : PM 𝕜 1 := ⟨['X'], one !![0, 1; 1, 0]⟩

/-- `PauliMatrix('Y', …)`, pauli_matrix.py 42-45: real-valued, multiplied by `1j` when the dtype is complex. -/
noncomputable def Y (cx : Bool) : PM 𝕜 1 :=
  ⟨['Y'], if cx then (RCLike.I : 𝕜) • one !![0, -1; 1, 0] else one !![0, -1; 1, 0]⟩

/-- `PauliMatrix('Z', …)`, pauli_matrix.py 46-47. -/
def Z : PM 𝕜 1 := ⟨['Z'], one !![1, 0; 0, -1]⟩

/-- `PauliMatrix('I', …)`, pauli_matrix.py 48-49. -/
def I : PM 𝕜 1 := ⟨['I'], one !![1, 0; 0, 1]⟩

/-- `__mul__` with another `PauliMatrix`, pauli_matrix.py 64-70. -/
def mul (cx : Bool) (a : PM 𝕜 m) (b : PM 𝕜 n) : PM 𝕜 (m + n) :=
  let newKey := a.key ++ b.key
  let phase : 𝕜 :=
    if cx then 1
    else if newKey.count 'Y' % 2 = 0 ∧ a.key.count 'Y' % 2 ≠ 0 then -1 else 1
  ⟨newKey, phase • kron a.mat b.mat⟩

/-- `__imul__` with another `PauliMatrix`, pauli_matrix.py 87-88: a bare tensor, without the phase. -/
def imul (a : PM 𝕜 m) (b : PM 𝕜 n) : Mat 𝕜 (m + n) := kron a.mat b.mat

/-- `__mul__`, `__rmul__`, `__imul__` with a real number, pauli_matrix.py 72, 90, 104. -/
def smul (r : ℝ) (a : PM 𝕜 n) : PM 𝕜 n := ⟨a.key, (r : 𝕜) • a.mat⟩

/-- `__add__`, pauli_matrix.py 118-119: the keys are concatenated. -/
def add (a b : PM 𝕜 n) : PM 𝕜 n := ⟨a.key ++ b.key, a.mat + b.mat⟩

/-- `__sub__`, pauli_matrix.py 133-134. -/
def sub (a b : PM 𝕜 n) : PM 𝕜 n := ⟨a.key ++ b.key, a.mat - b.mat⟩

/-- `__neg__`, pauli_matrix.py 145. -/
def neg (a : PM 𝕜 n) : PM 𝕜 n := ⟨a.key, -a.mat⟩

/-- `__truediv__`, pauli_matrix.py 159. -/
noncomputable def div (a : PM 𝕜 n) (r : ℝ) : PM 𝕜 n := ⟨a.key, (r : 𝕜)⁻¹ • a.mat⟩

/-- Operator expressions a user can write (division by zero, which gives infinities, is left out). -/
inductive Expr : ℕ → Type
  | X : Expr 1
  | Y : Expr 1
  | Z : Expr 1
  | I : Expr 1
  | mul {m n : ℕ} (a : Expr m) (b : Expr n) : Expr (m + n)
  | smul {n : ℕ} (r : ℝ) (a : Expr n) : Expr n
  | add {n : ℕ} (a b : Expr n) : Expr n
  | sub {n : ℕ} (a b : Expr n) : Expr n
  | neg {n : ℕ} (a : Expr n) : Expr n
  | div {n : ℕ} (a : Expr n) (r : ℝ) (hr : r ≠ 0) : Expr n

/-- What python computes for an expression. -/
noncomputable def eval (cx : Bool) : {n : ℕ} → Expr n → PM 𝕜 n
  | _, .X => Pauli.X
  | _, .Y => Pauli.Y cx
  | _, .Z => Pauli.Z
  | _, .I => Pauli.I
  | _, .mul a b => Pauli.mul cx (eval cx a) (eval cx b)
  | _, .smul r a => Pauli.smul r (eval cx a)
  | _, .add a b => Pauli.add (eval cx a) (eval cx b)
  | _, .sub a b => Pauli.sub (eval cx a) (eval cx b)
  | _, .neg a => Pauli.neg (eval cx a)
  | _, .div a r _ => Pauli.div (eval cx a) r

/-! ### Built-in models -/

/-- A parameter used in arithmetic: a missing one is `None` (`params.get`), and arithmetic on `None` is a
`TypeError`. -/
def param (params : PyDict String ℝ) (k : String) : Except PyErr ℝ :=
  match params.get? k with
  | some v => .ok v
  | none => .error .typeError

/-- `IsingModel.one_site_hamiltonian`, models/ising.py 13-16: `-hx*X`, i.e. `(-hx)*X`. -/
def isingOneSite (params : PyDict String ℝ) : Except PyErr (PM 𝕜 1) :=
  (param params "hx").map fun hx => smul (-hx) X

/-- `IsingModel.two_site_hamiltonian`, models/ising.py 18-21: `-jz*Z*Z`, i.e. `((-jz)*Z)*Z`. -/
def isingTwoSite (cx : Bool) (params : PyDict String ℝ) : Except PyErr (PM 𝕜 2) :=
  (param params "jz").map fun jz => mul cx (smul (-jz) Z) Z

/-- `HeisenbergModel.two_site_hamiltonian`, models/heisenberg.py 22-26: `0.25*J*(X*X + Y*Y + Z*Z)`. -/
noncomputable def heisenbergTwoSite (cx : Bool) (params : PyDict String ℝ) : Except PyErr (PM 𝕜 2) :=
  (param params "J").map fun J =>
    smul (0.25 * J) (add (add (mul cx X X) (mul cx (Y cx) (Y cx))) (mul cx Z Z))

/-- `HeisenbergModel.initial_site_state`, models/heisenberg.py 8-11. -/
def neel (site : ℕ × ℕ) : Fin 2 → ℝ := if (site.1 + site.2) % 2 = 0 then ![1, 0] else ![0, 1]

/-- `HeisenbergModel.one_site_observables`, models/heisenberg.py 13-20. -/
def heisenbergObservables (site : ℕ × ℕ) : PyDict String (PM 𝕜 1) :=
  if (site.1 + site.2) % 2 = 0 then [("sx", X), ("sz", Z)] else [("sx", neg X), ("sz", neg Z)]

/-- `Model.initial_site_state`, model/model.py 98: `[1] + [0]*(dim-1)`. -/
def defaultState (dim : ℕ) : List ℤ := 1 :: List.replicate (dim - 1) 0

end AceTN.Pauli
