import Verif.Model.Py
import Mathlib.Algebra.Field.Rat
import Mathlib.Algebra.BigOperators.Group.Finset.Basic

/-!
The timing decorators, `acetn/utils/benchmarking.py`.

A python function acts on the state `σ` of the program and may raise; its arguments are fixed.  `dt i` is the time measured
for the `i`-th timed call (`time.time()` or CUDA events).  Progress bars, NVTX ranges and the profiler are not modelled.
-/

set_option autoImplicit false

namespace AceTN.Bench

/-- What a function returns. -/
inductive Ret (α : Type)
  | none
  | tuple (l : List α)
  | val (a : α)

/-- A returned value or a time. -/
inductive Cell (α : Type)
  | out (a : α)
  | time (t : ℚ)

inductive Err
  | func (e : PyErr)
  | zeroDivision
  | unboundLocal

/-- A function that is called in a given gradient mode (`torch.is_grad_enabled()`) and state. -/
abbrev Fn (σ ε β : Type) := Bool → σ → Except ε β × σ

variable {σ α : Type}

/-- `if result is None: … elif isinstance(result, tuple): … else: …`, benchmarking.py 36-41 and 98-103. -/
def withTime (r : Ret α) (t : ℚ) : Ret (Cell α) :=
  match r with
  | .none => .val (.time t)
  | .tuple l => .tuple (l.map .out ++ [.time t])
  | .val a => .tuple [.out a, .time t]

/-- `record_runtime`, benchmarking.py 22-42: the body of the decorator, which returns the wrapper.  The wrapper runs in the
gradient mode of its caller. -/
def recordRuntimeBody (dt : ℚ) (func : Fn σ PyErr (Ret α)) : Fn σ Err (Ret (Cell α)) := fun grad s =>
  match func grad s with
  | (.error e, s) => (.error (.func e), s)
  | (.ok r, s) => (.ok (withTime r dt), s)

/-- `@torch.no_grad()` before a definition: calls of the defined function run with gradients disabled. -/
def noGrad {β : Type} (f : Bool → β) : Bool → β := fun _ => f false

/-- `record_runtime` with its decorator, benchmarking.py 7-8, applied in the gradient mode `grad₀` of the import. -/
def recordRuntime (grad₀ : Bool) (dt : ℚ) (func : Fn σ PyErr (Ret α)) : Fn σ Err (Ret (Cell α)) :=
  noGrad (fun _ => recordRuntimeBody dt func) grad₀

/-- `for _ in range(n): result = func(*args, **kwargs)`, benchmarking.py 65-66, 79-83 and 90-92: `result` keeps its value if there
is no call. -/
def calls (func : Fn σ PyErr (Ret α)) (grad : Bool) : ℕ → Option (Ret α) → σ → Except PyErr (Option (Ret α)) × σ
  | 0, r, s => (.ok r, s)
  | n + 1, _, s =>
    match func grad s with
    | (.error e, s) => (.error e, s)
    | (.ok r, s) => calls func grad n (some r) s

/-- `runtime_ave += runtime` for the timed calls, benchmarking.py 68, 87-88 and 94-95. -/
def total (dt : ℕ → ℚ) (n : ℕ) : ℚ := (List.range n).foldl (fun acc i => acc + dt i) 0

/-- `record_runtime_ave`, benchmarking.py 45-104. -/
def recordRuntimeAve (num_record num_warmup : ℕ) (dt : ℕ → ℚ) (func : Fn σ PyErr (Ret α)) : Fn σ Err (Ret (Cell α)) := fun grad s =>
  match calls func grad num_warmup none s with
  | (.error e, s) => (.error (.func e), s)
  | (.ok r, s) =>
    match calls func grad num_record r s with
    | (.error e, s) => (.error (.func e), s)
    | (.ok r, s) =>
      if num_record = 0 then (.error .zeroDivision, s)
      else
        let ave := total dt num_record / num_record
        match r with
        | none => (.error .unboundLocal, s)
        | some r => (.ok (withTime r ave), s)

end AceTN.Bench
