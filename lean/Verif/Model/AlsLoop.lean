import Verif.Model.Py

/-!
The iteration of the alternating solver: `acetn/evolution/als_solver.py` 55-82 and `csrc/evolution/als_solve.cpp` 55-105.
The pair of tensors is a value of type `P`; `half` is one pass (solve for `a1r`, then for `a2r`), which may raise; costs
are values of a type `F` with the floating point operations as parameters (so that division by zero, infinities and NaN
behave as they do).
-/

set_option autoImplicit false

namespace AceTN.Als

/-- The scalar operations used by the stopping rule. -/
structure FloatOps (F : Type) where
  sub : F → F → F
  abs : F → F
  div : F → F → F
  lt : F → F → Bool

variable {P F : Type}

/-- `abs(d2 - d1) / d1.abs()`, als_solver.py 78 and als_solve.cpp 73. -/
def relErr (fo : FloatOps F) (d2 d1 : F) : F := fo.div (fo.abs (fo.sub d2 d1)) (fo.abs d1)

/-- The body of `solve_torch` from iteration `i` on, als_solver.py 74-82; `fuel = niter - i`. -/
def torchLoop (fo : FloatOps F) (half : P → Except PyErr P) (cost : P → F) (tol : F) :
    (fuel i : ℕ) → P → F → Except PyErr P
  | 0, _, p, _ => .ok p
  | fuel + 1, i, p, d1 => do
    let p ← half p
    let d2 := cost p
    if fo.lt (relErr fo d2 d1) tol && decide (1 < i) then return p
    else torchLoop fo half cost tol fuel (i + 1) p d2

/-- `solve_torch`, als_solver.py 55-82: the first cost is taken in absolute value. -/
def solveTorch (fo : FloatOps F) (half : P → Except PyErr P) (cost : P → F) (tol : F) (niter : ℕ) (p : P) :
    Except PyErr P :=
  torchLoop fo half cost tol niter 0 p (fo.abs (cost p))

/-- `AlsUpdate::operator()`, als_solve.cpp 61-76: the object holds `cost_`; returns the new pair, the new `cost_` and
the error. -/
def alsUpdate (fo : FloatOps F) (half : P → Except PyErr P) (cost : P → F) (p : P) (c : F) :
    Except PyErr (P × F × F) := do
  let p ← half p
  let new := cost p
  return (p, new, relErr fo new c)

/-- The loop of `als_solve_impl`, als_solve.cpp 100-103. -/
def nativeLoop (fo : FloatOps F) (half : P → Except PyErr P) (cost : P → F) (tol : F) :
    (fuel i : ℕ) → P → F → Except PyErr P
  | 0, _, p, _ => .ok p
  | fuel + 1, i, p, c => do
    let r ← alsUpdate fo half cost p c
    if decide (1 < i) && fo.lt r.2.2 tol then return r.1
    else nativeLoop fo half cost tol fuel (i + 1) r.1 r.2.1

/-- `als_solve_impl`, als_solve.cpp 84-105: the first cost is taken as it is. -/
def solveNative (fo : FloatOps F) (half : P → Except PyErr P) (cost : P → F) (tol : F) (niter : ℕ) (p : P) :
    Except PyErr P :=
  nativeLoop fo half cost tol niter 0 p (cost p)

/-- The two linear solvers. -/
inductive Solver
  | cholesky
  | pinv
  deriving DecidableEq, Repr

/-- The dispatch inside `solve_ar`, als_solver.py 218-230: for any other method no branch assigns `ar`, and the
`return` raises `UnboundLocalError`. -/
def torchSolver (method : String) : Except PyErr Solver :=
  if method = "cholesky" then .ok .cholesky
  else if method = "pinv" then .ok .pinv
  else .error .unboundLocalError

/-- `parse_solver_method`, als_solve.cpp 15-23 (called once, before the loop, line 125). -/
def nativeSolver (method : String) : Except PyErr Solver :=
  if method = "cholesky" then .ok .cholesky
  else if method = "pinv" then .ok .pinv
  else .error .runtimeError

/-- `ALSSolver.solve`, als_solver.py 34-53, on the starting pair: the backend is chosen by name, the method looked up in
every half-step (torch) or once (native). -/
def solve (fo : FloatOps F) (half : Solver → P → Except PyErr P) (cost : P → F) (tol : F) (niter : ℕ)
    (backend method : String) (p : P) : Except PyErr P :=
  if backend = "cutensor" then do
    let m ← nativeSolver method
    solveNative fo (half m) cost tol niter p
  else solveTorch fo (fun p => (torchSolver method).bind fun m => half m p) cost tol niter p

end AceTN.Als
