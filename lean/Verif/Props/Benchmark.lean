import Verif.Model.Benchmark
import Mathlib.Tactic.FieldSimp

/-!
# C82: Timing a function does not change what it does
-/

set_option autoImplicit false

namespace AceTN.Bench

variable {σ α : Type}

namespace Spec

/-- The state after `n` calls in a row and the outcome of the last one, up to the first exception. -/
inductive Runs (func : Fn σ PyErr (Ret α)) (grad : Bool) : ℕ → σ → Except PyErr (Ret α) → σ → Prop
  | last {s s' : σ} {r : Except PyErr (Ret α)} : func grad s = (r, s') → Runs func grad 1 s r s'
  | more {n : ℕ} {s s' s'' : σ} {x : Ret α} {r : Except PyErr (Ret α)} :
      func grad s = (.ok x, s') → Runs func grad n s' r s'' → Runs func grad (n + 1) s r s''
  | raise {n : ℕ} {s s' : σ} {e : PyErr} : func grad s = (.error e, s') → Runs func grad (n + 1) s (.error e) s'

/-- The value in a cell. -/
def Cell.value? {α : Type} : Cell α → Option α
  | .out a => some a
  | .time _ => Option.none

/-- How a caller takes the return value of a timed function apart: the values and the time. -/
def split : Ret (Cell α) → Option (List α × ℚ)
  | .val (.time t) => some ([], t)
  | .tuple l => match l.getLast? with
    | some (.time t) => (l.dropLast.mapM Cell.value?).map fun vs => (vs, t)
    | _ => none
  | _ => none

/-- The values a function returns: none, some, or one. -/
def values : Ret α → List α
  | .none => []
  | .tuple l => l
  | .val a => [a]

/-- Timed functions run with gradients disabled. -/
def NoGradients : Prop :=
  ∀ (σ α : Type) (grad₀ grad : Bool) (dt : ℚ) (func : Fn σ PyErr (Ret α)) (s : σ),
    recordRuntime grad₀ dt func grad s = recordRuntime grad₀ dt func false s

end Spec

open Spec

theorem split_withTime (r : Ret α) (t : ℚ) : split (withTime r t) = some (values r, t) := by
  have key : ∀ l : List α, (l.map Cell.out).mapM Spec.Cell.value? = some l := by
    intro l
    induction l with
    | nil => rfl
    | cons a l ih => simp [List.mapM_cons, ih, Spec.Cell.value?]
  cases r with
  | none => rfl
  | val a => rfl
  | tuple l =>
    simp only [withTime, split, List.getLast?_append, List.getLast?_singleton, Option.some_or, List.dropLast_concat, key]
    rfl

/-- **C82 (one call).** A function with `@record_runtime` is called once, in the same state and gradient mode; an exception
passes through, otherwise the values it returns come back in the same order, followed by the time. -/
theorem C82_once (grad₀ grad : Bool) (dt : ℚ) (func : Fn σ PyErr (Ret α)) (s s' : σ) (r : Except PyErr (Ret α))
    (h : func grad s = (r, s')) : (recordRuntime grad₀ dt func grad s).2 = s' ∧
      match (generalizing := false) r with
      | .error e => (recordRuntime grad₀ dt func grad s).1 = .error (.func e)
      | .ok x => ∃ y, (recordRuntime grad₀ dt func grad s).1 = .ok y ∧ split y = some (values x, dt) := by
  have e : recordRuntime grad₀ dt func grad s = match func grad s with
      | (.error e, s) => (.error (.func e), s)
      | (.ok r, s) => (.ok (withTime r dt), s) := rfl
  rw [e, h]
  cases r with
  | error e => exact ⟨rfl, rfl⟩
  | ok x => exact ⟨rfl, _, rfl, split_withTime x dt⟩

/-- Calls in a row. -/
theorem calls_runs (func : Fn σ PyErr (Ret α)) (grad : Bool) (n : ℕ) : ∀ (r₀ : Option (Ret α)) (s s' : σ) (r : Except PyErr (Ret α)),
    Runs func grad (n + 1) s r s' → calls func grad (n + 1) r₀ s = (match r with | .error e => .error e | .ok x => .ok (some x), s') := by
  induction n with
  | zero =>
    intro r₀ s s' r h
    cases h with
    | last h => unfold calls; rw [h]; cases r <;> rfl
    | more h h' => cases h'
    | raise h => unfold calls; rw [h]
  | succ n ih =>
    intro r₀ s s' r h
    cases h with
    | more h h' => unfold calls; rw [h]; exact ih _ _ _ _ h'
    | raise h => unfold calls; rw [h]

theorem calls_add (func : Fn σ PyErr (Ret α)) (grad : Bool) (m : ℕ) : ∀ (n : ℕ) (r₀ : Option (Ret α)) (s : σ),
    calls func grad (m + n) r₀ s = match calls func grad m r₀ s with
      | (.error e, s) => (.error e, s)
      | (.ok r, s) => calls func grad n r s := by
  induction m with
  | zero => intro n r₀ s; rw [Nat.zero_add]; rfl
  | succ m ih =>
    intro n r₀ s
    have e : ∀ (k : ℕ), calls func grad (k + 1) r₀ s = match func grad s with
        | (.error e, s) => (.error e, s)
        | (.ok r, s) => calls func grad k (some r) s := fun _ => rfl
    rw [Nat.add_right_comm, e, e]
    rcases func grad s with ⟨_ | x, s'⟩
    · rfl
    · exact ih _ _ _

theorem total_eq (dt : ℕ → ℚ) (n : ℕ) : total dt n = ∑ i ∈ Finset.range n, dt i := by
  unfold total
  induction n with
  | zero => rfl
  | succ n ih => rw [List.range_succ, List.foldl_append, ih, Finset.sum_range_succ]; rfl

/-- **C82 (average).** A function with `@record_runtime_ave` is called `num_warmup + num_record` times, up to the first
exception, which passes through; otherwise the values of the last call come back, followed by the mean of the times of the
last `num_record` calls. -/
theorem C82_average (num_record num_warmup : ℕ) (hr : 0 < num_record) (dt : ℕ → ℚ) (func : Fn σ PyErr (Ret α)) (grad : Bool)
    (s s' : σ) (r : Except PyErr (Ret α)) (h : Runs func grad (num_warmup + num_record) s r s') :
    (recordRuntimeAve num_record num_warmup dt func grad s).2 = s' ∧
      match (generalizing := false) r with
      | .error e => (recordRuntimeAve num_record num_warmup dt func grad s).1 = .error (.func e)
      | .ok x => ∃ y t, (recordRuntimeAve num_record num_warmup dt func grad s).1 = .ok y ∧ split y = some (values x, t) ∧
          num_record * t = ∑ i ∈ Finset.range num_record, dt i := by
  obtain ⟨k, rfl⟩ := Nat.exists_eq_succ_of_ne_zero hr.ne'
  have h1 := calls_runs func grad (num_warmup + k) none s s' r h
  have h2 := calls_add func grad num_warmup (k + 1) none s
  rw [show num_warmup + (k + 1) = num_warmup + k + 1 from rfl, h1] at h2
  unfold recordRuntimeAve
  rcases h3 : calls func grad num_warmup none s with ⟨e | r1, s1⟩
  · rw [h3] at h2
    cases r with
    | error e' =>
      simp only [Prod.mk.injEq, Except.error.injEq] at h2
      exact ⟨h2.2.symm, by rw [h2.1]⟩
    | ok x => simp at h2
  · rw [h3] at h2
    simp only at h2 ⊢
    rw [Nat.succ_eq_add_one, ← h2]
    cases r with
    | error e' => exact ⟨rfl, rfl⟩
    | ok x =>
      simp only [Nat.add_eq_zero_iff, one_ne_zero, and_false, if_false]
      refine ⟨trivial, _, _, rfl, split_withTime x _, ?_⟩
      rw [total_eq]
      have : ((k + 1 : ℕ) : ℚ) ≠ 0 := by exact_mod_cast Nat.succ_ne_zero k
      field_simp

/-- **C82 (no timed call).** With `num_record = 0` the warm-up runs and then the division raises. -/
theorem C82_zero (num_warmup : ℕ) (dt : ℕ → ℚ) (func : Fn σ PyErr (Ret α)) (grad : Bool) (s s' : σ) (r : Option (Ret α))
    (h : calls func grad num_warmup none s = (.ok r, s')) :
    recordRuntimeAve 0 num_warmup dt func grad s = (.error .zeroDivision, s') := by
  unfold recordRuntimeAve
  rw [h]
  rfl

/-- **C82 is violated** as to gradients: `@torch.no_grad()` stands before the decorators and so acts while functions are
decorated, not while they run. -/
theorem C82_violated_no_grad : ¬ NoGradients := by
  intro h
  have := h Unit Bool true true 0 (fun g s => (.ok (.val g), s)) ()
  simp [recordRuntime, noGrad, recordRuntimeBody, withTime] at this

/-- A function that counts its calls and returns the count: by default it is called thirty times. -/
example (dt : ℕ → ℚ) (grad : Bool) : (recordRuntimeAve 20 10 dt (fun _ (n : ℕ) => (Except.ok (Ret.val n), n + 1)) grad 0).2 = 30 := by
  rfl

/-- Every number of calls of such a function is a case of the theorem. -/
example (grad : Bool) (n s : ℕ) : Runs (fun _ (n : ℕ) => (Except.ok (Ret.val n), n + 1)) grad (n + 1) s (.ok (.val (s + n))) (s + n + 1) := by
  induction n generalizing s with
  | zero => exact .last rfl
  | succ n ih =>
    have := ih (s + 1)
    rw [Nat.add_right_comm s 1 n] at this
    exact .more rfl this

end AceTN.Bench
