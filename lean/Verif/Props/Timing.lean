import Verif.Model.Timing
import Mathlib.Algebra.BigOperators.Group.Finset.Basic
import Mathlib.Algebra.BigOperators.Intervals
import Mathlib.Tactic.Ring

/-! C57: which phase the logged times belong to. -/

set_option autoImplicit false

namespace AceTN.Tm

/-- Specification: the average per bond update of a quantity over the ten iterations up to `10 (m+1)`. -/
def Spec.average (f : ℕ → Bond → ℚ) (bl : List Bond) (m : ℕ) : ℚ :=
  (∑ j ∈ Finset.range 10, (bl.map (f (10 * m + j + 1))).sum) / bl.length / 10

/-- C57: the log has one line for every ten iterations, attributing tensor-update time to the update and boundary time to
the boundary. -/
def Spec.TimingsRight (ret : Spent → ℚ × ℚ) : Prop :=
  ∀ (spent : ℕ → Bond → Spent) (steps : ℕ) (bl : List Bond),
    (loop true (fun i b => ret (spent i b)) steps bl).2.log = (List.range (steps / 10)).map fun m =>
      (10 * (m + 1), Spec.average (fun i b => (spent i b).tensor) bl m,
        Spec.average (fun i b => (spent i b).boundary) bl m)

theorem pass_spec (ret : Bond → ℚ × ℚ) (bl : List Bond) (a : Acc) :
    pass ret bl a = { a with upd := a.upd + (bl.map fun b => (ret b).1).sum,
                             ctm := a.ctm + (bl.map fun b => (ret b).2).sum } := by
  induction bl generalizing a with
  | nil => simp [pass]
  | cons b bl ih =>
    have h : pass ret (b :: bl) a = pass ret bl { a with upd := a.upd + (ret b).1, ctm := a.ctm + (ret b).2 } := rfl
    rw [h, ih]
    simp [add_assoc]

/-- Sum over the iterations of the current group of ten. -/
def partialSum (f : ℕ → Bond → ℚ) (bl : List Bond) (n : ℕ) : ℚ :=
  ∑ j ∈ Finset.range (n % 10), (bl.map (f (10 * (n / 10) + j + 1))).sum

theorem loop_inv (ret : ℕ → Bond → ℚ × ℚ) (bl : List Bond) (n : ℕ) :
    (loop true ret n bl).1.Perm bl ∧
    (loop true ret n bl).2.upd = partialSum (fun i b => (ret i b).1) bl n ∧
    (loop true ret n bl).2.ctm = partialSum (fun i b => (ret i b).2) bl n ∧
    (loop true ret n bl).2.log = (List.range (n / 10)).map fun m =>
      (10 * (m + 1), Spec.average (fun i b => (ret i b).1) bl m, Spec.average (fun i b => (ret i b).2) bl m) := by
  induction n with
  | zero => simp [loop, partialSum]
  | succ n ih =>
    obtain ⟨h1, h2, h3, h4⟩ := ih
    have hs : loop true ret (n + 1) bl = iteration true ret (n + 1) (loop true ret n bl) := by
      simp [loop, List.range'_1_concat, Nat.add_comm]
    rw [hs]
    set st := loop true ret n bl with hst
    have sum1 : (st.1.map fun b => (ret (n + 1) b).1).sum = (bl.map fun b => (ret (n + 1) b).1).sum :=
      (h1.map _).sum_eq
    have sum2 : (st.1.map fun b => (ret (n + 1) b).2).sum = (bl.map fun b => (ret (n + 1) b).2).sum :=
      (h1.map _).sum_eq
    have hp : st.1.reverse.Perm bl := (List.reverse_perm _).trans h1
    simp only [iteration, pass_spec, sum1, sum2, h2, h3, h4]
    by_cases hd : (n + 1) % 10 = 0
    · have hn : n % 10 = 9 := by omega
      have hq : (n + 1) / 10 = n / 10 + 1 := by omega
      simp only [hd, decide_true, Bool.and_true, if_true]
      have full : ∀ f : ℕ → Bond → ℚ, partialSum f bl n + (bl.map fun b => f (n + 1) b).sum
          = ∑ j ∈ Finset.range 10, (bl.map (f (10 * (n / 10) + j + 1))).sum := by
        intro f
        have e : 10 * (n / 10) + 9 + 1 = n + 1 := by omega
        rw [Finset.sum_range_succ _ 9, partialSum, hn, e]
      refine ⟨hp, by simp [partialSum, hd], by simp [partialSum, hd], ?_⟩
      rw [hq, List.range_succ, List.map_append]
      congr 1
      simp only [List.map_cons, List.map_nil, List.cons.injEq, Prod.mk.injEq, and_true]
      refine ⟨by omega, ?_, ?_⟩
      · rw [full fun i b => (ret i b).1, hp.length_eq, Spec.average]
      · rw [full fun i b => (ret i b).2, hp.length_eq, Spec.average]
    · have hn : (n + 1) % 10 = n % 10 + 1 := by omega
      have hq : (n + 1) / 10 = n / 10 := by omega
      simp only [hd, decide_false, Bool.and_false, Bool.false_eq_true, if_false]
      have more : ∀ f : ℕ → Bond → ℚ, partialSum f bl n + (bl.map fun b => f (n + 1) b).sum = partialSum f bl (n + 1) := by
        intro f
        have e : 10 * (n / 10) + n % 10 + 1 = n + 1 := by omega
        rw [partialSum, partialSum, hn, hq, Finset.sum_range_succ, e]
      exact ⟨hp, more fun i b => (ret i b).1, more fun i b => (ret i b).2, by rw [hq]⟩

/-- What the log of a full update says: the line "full update" is the average boundary time and the line "ctm update" the
average tensor-update time, for every run. -/
theorem C57_violated_swapped (spent : ℕ → Bond → Spent) (steps : ℕ) (bl : List Bond) :
    (loop true (fun i b => fullReturn (spent i b)) steps bl).2.log = (List.range (steps / 10)).map fun m =>
      (10 * (m + 1), Spec.average (fun i b => (spent i b).boundary) bl m,
        Spec.average (fun i b => (spent i b).tensor) bl m) :=
  (loop_inv (fun i b => fullReturn (spent i b)) bl steps).2.2.2

/-- C57 fails for the full update. -/
theorem C57_violated_full : ¬ Spec.TimingsRight fullReturn := by
  intro h
  have h1 := h (fun _ _ => ⟨1, 0⟩) 10 [⟨(0, 0), (0, 0), 1⟩]
  rw [C57_violated_swapped] at h1
  simp [Spec.average] at h1

/-- C57 fails for the simple update: all its time is logged as boundary time. -/
theorem C57_violated_simple : ¬ Spec.TimingsRight simpleReturn := by
  intro h
  have h1 := h (fun _ _ => ⟨1, 0⟩) 10 [⟨(0, 0), (0, 0), 1⟩]
  rw [(loop_inv (fun i b => simpleReturn ⟨1, 0⟩) _ 10).2.2.2] at h1
  simp [Spec.average, simpleReturn] at h1

/-- C57, what holds: the bookkeeping itself is right.  With the two values returned in the order `evolve` expects, the
log would attribute the times correctly, whatever the number of iterations, also after the list is reversed.
Missing: the updaters return them in the other order (false, above). -/
theorem C57_bookkeeping_partial : Spec.TimingsRight fun s => (s.tensor, s.boundary) := by
  intro spent steps bl
  exact (loop_inv (fun i b => ((spent i b).tensor, (spent i b).boundary)) bl steps).2.2.2

/-- C57, what holds: outside debug mode nothing is logged. -/
theorem C57_quiet_partial (ret : ℕ → Bond → ℚ × ℚ) (steps : ℕ) (bl : List Bond) : (loop false ret steps bl).2.log = [] := by
  induction steps with
  | zero => rfl
  | succ n ih =>
    have hs : loop false ret (n + 1) bl = iteration false ret (n + 1) (loop false ret n bl) := by
      simp [loop, List.range'_1_concat, Nat.add_comm]
    rw [hs]
    simp [iteration, pass_spec, ih]

example : (loop true (fun i b => fullReturn ⟨i, 100 * b.k⟩) 20 [⟨(0, 0), (0, 0), 1⟩, ⟨(0, 0), (0, 0), 2⟩]).2.log.length
    = 2 := by
  rw [C57_violated_swapped (fun i b => ⟨i, 100 * b.k⟩)]; rfl

end AceTN.Tm
