import Verif.Model.AlsLoop
import Mathlib.Logic.Function.Iterate

/-! C36: when the alternating solver stops; the solver-method part of C58. -/

set_option autoImplicit false

namespace AceTN.Als
variable {P F : Type}

theorem loops_equal (fo : FloatOps F) (half : P → Except PyErr P) (cost : P → F) (tol : F) (fuel i : ℕ) (p : P)
    (d : F) : torchLoop fo half cost tol fuel i p d = nativeLoop fo half cost tol fuel i p d := by
  induction fuel generalizing i p d with
  | zero => rfl
  | succ fuel ih =>
    simp only [torchLoop, nativeLoop, alsUpdate]
    cases half p with
    | error e => rfl
    | ok q =>
      simp only [bind, Except.bind, pure, Except.pure, Bool.and_comm, ih]

theorem loop_first_cost (fo : FloatOps F) (half : P → Except PyErr P) (cost : P → F) (tol : F) (fuel : ℕ) (p : P)
    (d d' : F) : torchLoop fo half cost tol fuel 0 p d = torchLoop fo half cost tol fuel 0 p d' := by
  cases fuel with
  | zero => rfl
  | succ fuel => simp [torchLoop]

/-- C36: the PyTorch loop and the native loop return the same pair (or raise the same exception), although one takes the
first cost in absolute value and the other does not. -/
theorem C36_backends_agree (fo : FloatOps F) (half : P → Except PyErr P) (cost : P → F) (tol : F) (niter : ℕ) (p : P) :
    solveTorch fo half cost tol niter p = solveNative fo half cost tol niter p := by
  unfold solveTorch solveNative
  rw [loop_first_cost fo half cost tol niter p (fo.abs (cost p)) (cost p), loops_equal]

/-- Specification: after `m` passes the relative change of the cost in the last pass is below the tolerance. -/
def Spec.small (fo : FloatOps F) (f : P → P) (cost : P → F) (tol : F) (p : P) (m : ℕ) : Prop :=
  fo.lt (fo.div (fo.abs (fo.sub (cost (f^[m] p)) (cost (f^[m - 1] p)))) (fo.abs (cost (f^[m - 1] p)))) tol = true

theorem torchLoop_spec (fo : FloatOps F) (f : P → P) (cost : P → F) (tol : F) (p : P) (fuel i : ℕ)
    (d : F) (hd : 1 < i → d = cost (f^[i] p)) :
    ∃ n, torchLoop fo (fun q => .ok (f q)) cost tol fuel i (f^[i] p) d = .ok (f^[n] p) ∧ i ≤ n ∧ n ≤ i + fuel ∧
      (n < i + fuel → 3 ≤ n ∧ Spec.small fo f cost tol p n) ∧
      ∀ m, i < m → 3 ≤ m → m < n → ¬ Spec.small fo f cost tol p m := by
  induction fuel generalizing i d with
  | zero => exact ⟨i, rfl, Nat.le_refl _, Nat.le_refl _, fun h => absurd h (Nat.lt_irrefl _), fun m h _ h' => by omega⟩
  | succ fuel ih =>
    simp only [torchLoop, bind, Except.bind, pure, Except.pure]
    rw [← Function.iterate_succ_apply' f i p]
    by_cases hs : (fo.lt (relErr fo (cost (f^[i + 1] p)) d) tol && decide (1 < i)) = true
    · rw [if_pos hs]
      rw [Bool.and_eq_true, decide_eq_true_eq] at hs
      refine ⟨i + 1, rfl, by omega, by omega, fun _ => ⟨by omega, ?_⟩, fun m h h3 h' => by omega⟩
      have := hs.1
      rw [hd hs.2] at this
      simpa [Spec.small, relErr] using this
    · rw [if_neg hs]
      obtain ⟨n, h1, h2, h3, h4, h5⟩ := ih (i + 1) (cost (f^[i + 1] p)) (fun _ => rfl)
      refine ⟨n, h1, by omega, by omega, fun h => h4 (by omega), fun m hm hm3 hmn => ?_⟩
      by_cases e : m = i + 1
      · subst e
        intro hsm
        refine hs ?_
        rw [Bool.and_eq_true, decide_eq_true_eq]
        refine ⟨?_, by omega⟩
        rw [hd (by omega)]
        simpa [Spec.small, relErr] using hsm
      · exact h5 m (by omega) hm3 hmn

/-- C36: the solver returns the pair after `n` passes where `n` is at most `als_niter`, at least three if three are
allowed, and smaller than `als_niter` only if the relative cost change of pass `n` is below `als_tol`; it does stop at
the first such pass after the second. -/
theorem C36_stopping_rule (fo : FloatOps F) (f : P → P) (cost : P → F) (tol : F) (niter : ℕ) (p : P) :
    ∃ n, solveTorch fo (fun q => .ok (f q)) cost tol niter p = .ok (f^[n] p) ∧
      solveNative fo (fun q => .ok (f q)) cost tol niter p = .ok (f^[n] p) ∧
      n ≤ niter ∧ min 3 niter ≤ n ∧ (n < niter → Spec.small fo f cost tol p n) ∧
      ∀ m, 3 ≤ m → m < n → ¬ Spec.small fo f cost tol p m := by
  obtain ⟨n, h1, -, h3, h4, h5⟩ := torchLoop_spec fo f cost tol p niter 0 (fo.abs (cost p)) (by omega)
  refine ⟨n, h1, ?_, by omega, ?_, fun h => (h4 (by omega)).2, fun m hm hmn => h5 m (by omega) hm hmn⟩
  · rw [← C36_backends_agree]; exact h1
  · by_cases h : n < niter
    · have := (h4 (by omega)).1; omega
    · omega

/-- C58, solver method: an unknown method raises at the first half-step of the PyTorch loop and before the loop in the
native one; the two known ones never raise for this reason. -/
theorem C58_solver_method (fo : FloatOps F) (half : Solver → P → Except PyErr P) (cost : P → F) (tol : F) (niter : ℕ)
    (method : String) (p : P) :
    (method ≠ "cholesky" → method ≠ "pinv" → (∀ backend, backend ≠ "cutensor" →
        solve fo half cost tol (niter + 1) backend method p = .error .unboundLocalError) ∧
      solve fo half cost tol niter "cutensor" method p = .error .runtimeError) ∧
    ((method = "cholesky" ∨ method = "pinv") → ∀ backend, ∃ m, nativeSolver method = .ok m ∧
      solve fo half cost tol niter backend method p = solveTorch fo (half m) cost tol niter p) := by
  constructor
  · intro h1 h2
    refine ⟨fun backend hb => ?_, ?_⟩
    · simp [solve, hb, solveTorch, torchLoop, torchSolver, h1, h2, bind, Except.bind]
    · simp [solve, nativeSolver, h1, h2, bind, Except.bind]
  · intro h backend
    have ht : ∃ m, nativeSolver method = .ok m ∧ torchSolver method = .ok m := by
      rcases h with rfl | rfl
      · exact ⟨.cholesky, rfl, rfl⟩
      · exact ⟨.pinv, rfl, rfl⟩
    obtain ⟨m, h1, h2⟩ := ht
    refine ⟨m, h1, ?_⟩
    unfold solve
    split
    · rw [h1]
      exact (C36_backends_agree fo (half m) cost tol niter p).symm
    · simp only [h2, Except.bind]

/-- C58 fails for the solver method when no iteration is asked for: the PyTorch backend then accepts any method. -/
theorem C58_violated_solver_method (fo : FloatOps F) (half : Solver → P → Except PyErr P) (cost : P → F) (tol : F)
    (method : String) (p : P) : solve fo half cost tol 0 "torch" method p = .ok p := by
  simp [solve, solveTorch, torchLoop]

/-- Natural numbers as costs. -/
def natOps : FloatOps ℕ := ⟨(· - ·), id, (· / ·), fun a b => decide (a < b)⟩

example : ∃ n, solveTorch natOps (fun q : ℕ => .ok (q + 1)) (fun q => 100 - 10 * q) 1 50 0 = .ok n ∧ n = 3 :=
  ⟨3, by decide, rfl⟩

end AceTN.Als
