import Verif.Model.Evolve
import Verif.Props.Lattice
import Mathlib.Algebra.Ring.Parity
import Mathlib.Data.List.Perm.Basic

/-!
Properties C05 (schedule of bond updates) and C06 (splitting an evolution), plus the dispatcher part of C58.
-/

set_option autoImplicit false

namespace AceTN

/-- Specification: the bonds visited during `n` steps when the bond list is `bl` at the start — the list
itself on the first, third, … step and its reverse on the second, fourth, … step. -/
def Spec.schedule (n : ℕ) (bl : List Bond) : List Bond :=
  (List.range n).flatMap fun i => if i % 2 = 0 then bl else bl.reverse

/-- Specification: the bond list after `n` steps. -/
def Spec.listAfter (n : ℕ) (bl : List Bond) : List Bond := if n % 2 = 0 then bl else bl.reverse

open Spec

theorem Spec.schedule_succ (n : ℕ) (bl : List Bond) :
    schedule (n + 1) bl = bl ++ schedule n bl.reverse := by
  unfold schedule
  rw [List.range_succ_eq_map, List.flatMap_cons, List.flatMap_map]
  simp only [Nat.zero_mod, if_true]
  congr 1
  refine List.flatMap_congr fun i _ => ?_
  by_cases h : i % 2 = 0
  · have : (Nat.succ i) % 2 ≠ 0 := by omega
    simp [h, this]
  · have : (Nat.succ i) % 2 = 0 := by omega
    simp [h, this]

theorem Spec.listAfter_succ (n : ℕ) (bl : List Bond) : listAfter (n + 1) bl = listAfter n bl.reverse := by
  unfold listAfter
  by_cases h : n % 2 = 0
  · have : (n + 1) % 2 ≠ 0 := by omega
    simp [h, this]
  · have : (n + 1) % 2 = 0 := by omega
    simp [h, this]

theorem Spec.listAfter_add (n m : ℕ) (bl : List Bond) :
    listAfter m (listAfter n bl) = listAfter (n + m) bl := by
  unfold listAfter
  by_cases h : n % 2 = 0 <;> by_cases h' : m % 2 = 0
  · have : (n + m) % 2 = 0 := by omega
    simp [h, h', this]
  · have : (n + m) % 2 ≠ 0 := by omega
    simp [h, h', this]
  · have : (n + m) % 2 ≠ 0 := by omega
    simp [h, h', this]
  · have : (n + m) % 2 = 0 := by omega
    simp [h, h', this]

theorem Spec.schedule_add (n m : ℕ) (bl : List Bond) :
    schedule (n + m) bl = schedule n bl ++ schedule m (listAfter n bl) := by
  induction n generalizing bl with
  | zero => simp [schedule, listAfter]
  | succ n ih =>
    rw [Nat.succ_add, schedule_succ, ih, schedule_succ, listAfter_succ, List.append_assoc]

section
variable {σ : Type} (upd : σ → Bond → σ × Option PyErr)

theorem bondPass_ok (h : ∀ s b, (upd s b).2 = none) (bl : List Bond) (s : σ) :
    bondPass upd bl s = (bl.foldl (fun s b => (upd s b).1) s, none) := by
  induction bl generalizing s with
  | nil => rfl
  | cons b bl ih =>
    have hb := h s b
    unfold bondPass
    cases hu : upd s b with
    | mk s' e =>
      rw [hu] at hb
      simp only at hb
      subst hb
      simp only [List.foldl_cons, hu]
      exact ih s'

/-- **C05 (schedule).** `n` steps starting with bond list `bl` apply the bond update to exactly the bonds
of the schedule, in that order, and leave the bond list as it was (even `n`) or reversed (odd `n`). -/
theorem C05_schedule (h : ∀ s b, (upd s b).2 = none) (n : ℕ) (bl : List Bond) (s : σ) :
    evolveLoop upd n bl s
      = (listAfter n bl, (schedule n bl).foldl (fun s b => (upd s b).1) s, none) := by
  induction n generalizing bl s with
  | zero => simp [evolveLoop, listAfter, schedule]
  | succ n ih =>
    unfold evolveLoop
    rw [bondPass_ok upd h]
    simp only
    rw [ih, schedule_succ, listAfter_succ, List.foldl_append]

/-- **C05 (list invariant).** Whatever the bond updates do, and even if one of them raises in the middle
of a step, the bond list left behind is the list before the call or its reverse. -/
theorem C05_list_invariant (n : ℕ) (bl : List Bond) (s : σ) :
    (evolveLoop upd n bl s).1 = bl ∨ (evolveLoop upd n bl s).1 = bl.reverse := by
  induction n generalizing bl s with
  | zero => left; rfl
  | succ n ih =>
    unfold evolveLoop
    cases h : bondPass upd bl s with
    | mk s' e =>
      cases e with
      | some e => left; rfl
      | none =>
        rcases ih bl.reverse s' with h' | h'
        · right; exact h'
        · left; simpa using h'

theorem bondPass_append (l1 l2 : List Bond) (s : σ) :
    bondPass upd (l1 ++ l2) s =
      match bondPass upd l1 s with
      | (s', some e) => (s', some e)
      | (s', none) => bondPass upd l2 s' := by
  induction l1 generalizing s with
  | nil => rfl
  | cons b l1 ih =>
    rw [List.cons_append, bondPass, bondPass]
    cases hu : upd s b with
    | mk s' e =>
      cases e with
      | some e => rfl
      | none => exact ih s'

theorem evolveLoop_flat (n : ℕ) (bl : List Bond) (s : σ) :
    (evolveLoop upd n bl s).2 = bondPass upd (schedule n bl) s := by
  induction n generalizing bl s with
  | zero => simp [evolveLoop, schedule, bondPass]
  | succ n ih =>
    rw [schedule_succ, bondPass_append]
    unfold evolveLoop
    cases hp : bondPass upd bl s with
    | mk s' e =>
      cases e with
      | some e => rfl
      | none => exact ih bl.reverse s'

/-- Specification: `pre` is a part of a run in which no update raises. -/
def Spec.NoneRaise (pre : List Bond) (s : σ) : Prop :=
  ∀ q b, q ++ [b] <+: pre → (upd (q.foldl (fun s b => (upd s b).1) s) b).2 = none

theorem noneRaise_cons {b : Bond} {pre : List Bond} {s : σ} (hb : (upd s b).2 = none)
    (h : NoneRaise upd pre (upd s b).1) : NoneRaise upd (b :: pre) s := by
  intro q c hq
  cases q with
  | nil =>
    obtain ⟨r, hr⟩ := hq
    simp only [List.nil_append, List.cons_append, List.cons.injEq] at hr
    rw [hr.1]
    exact hb
  | cons x q =>
    obtain ⟨r, hr⟩ := hq
    simp only [List.cons_append, List.cons.injEq] at hr
    rw [hr.1, List.foldl_cons]
    exact h q c ⟨r, hr.2⟩

/-- **C05 (exceptions).** An exception of a bond update ends the evolution at once and reaches the caller: if the call
returns normally no update of the schedule has raised; if it raises `e`, then `e` is what the update of some bond of the
schedule raised, all updates before it succeeded and none came after it. -/
theorem C05_exception (n : ℕ) (bl : List Bond) (s : σ) :
    ((evolveLoop upd n bl s).2.2 = none → NoneRaise upd (schedule n bl) s) ∧
    (∀ e, (evolveLoop upd n bl s).2.2 = some e → ∃ pre b post, schedule n bl = pre ++ b :: post ∧ NoneRaise upd pre s ∧
      upd (pre.foldl (fun s b => (upd s b).1) s) b = ((evolveLoop upd n bl s).2.1, some e)) := by
  rw [evolveLoop_flat]
  generalize schedule n bl = l
  induction l generalizing s with
  | nil =>
    refine ⟨fun _ q b h => ?_, fun e h => ?_⟩
    · have := h.length_le; simp at this
    · simp [bondPass] at h
  | cons b l ih =>
    unfold bondPass
    cases hu : upd s b with
    | mk s' e =>
      cases e with
      | some e =>
        refine ⟨fun h => by simp at h, fun e' h => ⟨[], b, l, rfl, ?_, ?_⟩⟩
        · intro q c hq
          have := hq.length_le
          simp at this
        · simp only [Option.some.injEq] at h
          rw [List.foldl_nil, hu, ← h]
      | none =>
        have h1 : (upd s b).2 = none := by rw [hu]
        have h2 : (upd s b).1 = s' := by rw [hu]
        refine ⟨fun h => noneRaise_cons upd h1 (h2 ▸ (ih s').1 h), fun e h => ?_⟩
        obtain ⟨pre, c, post, hl, hn, hc⟩ := (ih s').2 e h
        refine ⟨b :: pre, c, post, by rw [hl, List.cons_append], noneRaise_cons upd h1 (h2 ▸ hn), ?_⟩
        rw [List.foldl_cons, h2]
        exact hc

/-- Non-vacuity: an update that raises on the third call. -/
example : (evolveLoop (fun (s : ℕ) _ => (s + 1, if s = 2 then some .runtimeError else none)) 3 (buildBondList 1 1) 0).2
    = (3, some .runtimeError) := by decide

end

/-- **C05 (histories).** After any history of evolution calls (each with its own step count and its own,
possibly raising, bond update) on a network built for an `nx × ny` cell, the bond list is the freshly
built one or its reverse; in particular no bond is ever lost or duplicated. -/
theorem C05_history {σ : Type} (nx ny : ℕ)
    (calls : List (ℕ × (σ → Bond → σ × Option PyErr))) (s : σ) :
    let st := calls.foldl (fun (st : List Bond × σ) c =>
      let r := evolveLoop c.2 c.1 st.1 st.2; (r.1, r.2.1)) (buildBondList nx ny, s)
    st.1 = buildBondList nx ny ∨ st.1 = (buildBondList nx ny).reverse := by
  intro st
  have key : ∀ (calls : List (ℕ × (σ → Bond → σ × Option PyErr))) (st₀ : List Bond × σ) (L : List Bond),
      (st₀.1 = L ∨ st₀.1 = L.reverse) →
      let st := calls.foldl (fun (st : List Bond × σ) c =>
        let r := evolveLoop c.2 c.1 st.1 st.2; (r.1, r.2.1)) st₀
      st.1 = L ∨ st.1 = L.reverse := by
    intro calls
    induction calls with
    | nil => intro st₀ L h; exact h
    | cons c calls ih =>
      intro st₀ L h
      rw [List.foldl_cons]
      apply ih
      simp only
      rcases C05_list_invariant c.2 c.1 st₀.1 st₀.2 with h' | h' <;> rcases h with h | h <;>
        rw [h', h] <;> simp
  exact key calls (buildBondList nx ny, s) (buildBondList nx ny) (Or.inl rfl)

/-- **C05 (every bond once per step).** Started from the freshly built list or its reverse, the block of
the schedule executed in step `i` contains every bond of the lattice exactly once and nothing else. -/
theorem C05_each_bond_once (nx ny i : ℕ) (bl : List Bond)
    (hbl : bl = buildBondList nx ny ∨ bl = (buildBondList nx ny).reverse) (b : Bond) :
    ((schedule (i + 1) bl).drop (schedule i bl).length).count b
      = if b ∈ buildBondList nx ny then 1 else 0 := by
  rw [schedule_add, List.drop_left]
  have hperm : (schedule 1 (listAfter i bl)).Perm (buildBondList nx ny) := by
    have h1 : schedule 1 (listAfter i bl) = listAfter i bl := by simp [schedule]
    rw [h1, listAfter]
    have h2 : bl.Perm (buildBondList nx ny) := by
      rcases hbl with rfl | rfl
      · exact List.Perm.refl _
      · exact List.reverse_perm _
    split
    · exact h2
    · exact (List.reverse_perm _).trans h2
  rw [hperm.count_eq]
  split
  · exact List.count_eq_one_of_mem (nodup_buildBondList nx ny) ‹_›
  · exact List.count_eq_zero_of_not_mem ‹_›

/-- Non-vacuity: two steps on a 2 × 1 cell, recording the visited bonds. -/
example : (evolveLoop (fun (s : List Bond) b => (s ++ [b], none)) 2 (buildBondList 2 1) []).2.1
    = buildBondList 2 1 ++ (buildBondList 2 1).reverse := by decide

/-- **C06 (full update).** For an updater without auxiliary data, evolving `n` steps and then `m` steps
is evolving `n + m` steps: same final state, same final bond list, provided no bond update raises. -/
theorem C06_split_partial {σ : Type} (upd : σ × Unit → Bond → (σ × Unit) × Option PyErr)
    (h : ∀ s b, (upd s b).2 = none) (n m : ℕ) (st : List Bond × σ) :
    let r := evolveCall (fun _ => ()) upd n st
    evolveCall (fun _ => ()) upd m (r.1, r.2.1) = evolveCall (fun _ => ()) upd (n + m) st := by
  intro r
  have hr : r = evolveCall (fun _ => ()) upd n st := rfl
  simp only [evolveCall, C05_schedule upd h] at hr ⊢
  rw [hr]
  simp only [listAfter_add, schedule_add, List.foldl_append]

/-- **C58 (update type).** Exactly the two documented update types are accepted; every other string
raises `ValueError`. -/
theorem C58_update_type (t : String) :
    (t = "full" ∧ createTensorUpdater t = .ok .full) ∨
    (t = "simple" ∧ createTensorUpdater t = .ok .simple) ∨
    (t ≠ "full" ∧ t ≠ "simple" ∧ createTensorUpdater t = .error .valueError) := by
  unfold createTensorUpdater
  by_cases h : t = "full"
  · left; simp [h]
  · by_cases h' : t = "simple"
    · right; left; subst h'; exact ⟨rfl, by decide⟩
    · right; right; simp [h, h']

end AceTN
