import Verif.Model.DistSave

/-! C100: saving from the ranks of a distributed run. -/

set_option autoImplicit false

namespace AceTN.DistSave

variable {S : Type}

/-- Reading back a file that was written completely gives the state; an empty file raises (`EOFError` in `torch.load`). -/
structure Spec.FileFormat (ser : S → List ℕ) (deser : List ℕ → Except PyErr S) : Prop where
  back : ∀ x, deser (ser x) = .ok x
  empty : ∃ e, deser [] = .error e

/-- C100 for the schedules `sched`: if all ranks hold the state `x` and call `save`, then whenever all of them are through,
all have returned with the state they had, and the file of each of them holds it. -/
def Spec.Saves (ser : S → List ℕ) (deser : List ℕ → Except PyErr S) (fname : ℕ → ℕ) (ws : ℕ) (x : S)
    (files : ℕ → List ℕ) (sched : List ℕ) : Prop :=
  (∀ r < ws, ∃ out, (run ser deser fname (fun _ => x) (before files) sched).phase r = .done out) →
  ∀ r < ws, (run ser deser fname (fun _ => x) (before files) sched).phase r = .done (.ok x) ∧
    (run ser deser fname (fun _ => x) (before files) sched).files (fname r) = ser x

/-! ### Files -/

theorem writeAt_length (f : List ℕ) (i b : ℕ) : (writeAt f i b).length = max f.length (i + 1) := by
  unfold writeAt
  split
  · rw [List.length_set]; omega
  · simp only [List.length_append, List.length_replicate, List.length_cons, List.length_nil]; omega

theorem writeAt_self (f : List ℕ) (i b : ℕ) : (writeAt f i b)[i]? = some b := by
  unfold writeAt
  split
  · next h => rw [List.getElem?_set_self h]
  · next h =>
    rw [List.getElem?_append_right (by simp only [List.length_append, List.length_replicate]; omega)]
    simp only [List.length_append, List.length_replicate]
    rw [show i - (f.length + (i - f.length)) = 0 by omega]
    rfl

theorem writeAt_other (f : List ℕ) (i j b : ℕ) (hj : j < f.length) (h : j ≠ i) : (writeAt f i b)[j]? = f[j]? := by
  unfold writeAt
  split
  · rw [List.getElem?_set_ne (Ne.symm h)]
  · rw [List.append_assoc, List.getElem?_append_left hj]

/-- The first `k` bytes are those of `d`, and the file is not longer than `d`. -/
def Agrees (d f : List ℕ) (k : ℕ) : Prop := f.length ≤ d.length ∧ k ≤ f.length ∧ ∀ i < k, f[i]? = d[i]?

theorem Agrees.write {d f : List ℕ} {k : ℕ} (h : Agrees d f k) {i b : ℕ} (hb : d[i]? = some b) :
    Agrees d (writeAt f i b) k := by
  have hi : i < d.length := (List.getElem?_eq_some_iff.1 hb).1
  refine ⟨by rw [writeAt_length]; have := h.1; omega, by rw [writeAt_length]; have := h.2.1; omega, fun j hj => ?_⟩
  by_cases e : j = i
  · subst e; rw [writeAt_self, hb]
  · rw [writeAt_other _ _ _ _ (by have := h.2.1; omega) e, h.2.2 j hj]

theorem Agrees.next {d f : List ℕ} {k b : ℕ} (h : Agrees d f k) (hb : d[k]? = some b) :
    Agrees d (writeAt f k b) (k + 1) := by
  have h' := h.write hb
  refine ⟨h'.1, by rw [writeAt_length]; omega, fun j hj => ?_⟩
  rcases Nat.lt_succ_iff_lt_or_eq.1 hj with hj | rfl
  · exact h'.2.2 j hj
  · rw [writeAt_self, hb]

theorem Agrees.all {d f : List ℕ} (h : Agrees d f d.length) : f = d := by
  refine List.ext_getElem? fun i => ?_
  by_cases hi : i < d.length
  · exact h.2.2 i hi
  · rw [List.getElem?_eq_none (by have := h.1; omega), List.getElem?_eq_none (by omega)]

/-! ### Progress of a rank -/

variable {ser : S → List ℕ} {deser : List ℕ → Except PyErr S} {fname : ℕ → ℕ} {x : S}

local notation "stepX" => step ser deser fname (fun _ => x)
local notation "runX" => run ser deser fname (fun _ => x)

/-- A rank that has opened the file has got so far with writing it. -/
def Written (ser : S → List ℕ) (x : S) : Phase S → ℕ → Prop
  | .start, _ => False
  | .writing k, n => n = k
  | .reading, n => n = (ser x).length
  | .done _, n => n = (ser x).length

theorem step_phase_other (w : World S) (r r' : ℕ) (h : r' ≠ r) : (stepX w r).phase r' = w.phase r' := by
  unfold step
  split
  · simp [h]
  · split <;> simp [h]
  · simp [h]
  · rfl

theorem step_files_other (w : World S) (r f : ℕ) (h : f ≠ fname r) : (stepX w r).files f = w.files f := by
  unfold step
  split
  · simp [h]
  · split <;> simp [h]
  · rfl
  · rfl

/-- What a step of a rank that has opened its file does to the file. -/
theorem step_agrees (w : World S) (r f n : ℕ) (hf : fname r = f) (hs : w.phase r ≠ .start)
    (h : Agrees (ser x) (w.files f) n) : Agrees (ser x) ((stepX w r).files f) n := by
  subst hf
  unfold step
  split
  · next e => exact absurd e hs
  · split
    · next k _ b hb => simpa using h.write hb
    · exact h
  · exact h
  · exact h

/-- The file agrees with what rank `L` has written since it opened the file. -/
def Since (ser : S → List ℕ) (fname : ℕ → ℕ) (x : S) (w : World S) (L : ℕ) : Prop :=
  ∃ n, Written ser x (w.phase L) n ∧ Agrees (ser x) (w.files (fname L)) n

theorem since_open (w : World S) (L : ℕ) (h : w.phase L = .start) : Since ser fname x (stepX w L) L := by
  refine ⟨0, ?_, ?_⟩ <;> unfold step <;> rw [h]
  · simp [Written]
  · simp [Agrees]

theorem since_step (w : World S) (L r : ℕ) (h : Since ser fname x w L) (hr : r = L ∨ fname r = fname L → w.phase r ≠ .start) :
    Since ser fname x (stepX w r) L := by
  obtain ⟨n, hw, ha⟩ := h
  by_cases e : r = L
  · subst e
    unfold step
    split
    · next e => exact absurd e (hr (Or.inl rfl))
    · next k e =>
      rw [e] at hw
      obtain rfl : n = k := hw
      split
      · next b hb => exact ⟨n + 1, by simp [Written], by simpa using ha.next hb⟩
      · next hb =>
        have hk : n = (ser x).length := by
          have h1 : (ser x).length ≤ n := List.getElem?_eq_none_iff.1 hb
          have h2 := ha.1
          have h3 := ha.2.1
          omega
        exact ⟨n, by simpa [Written] using hk, ha⟩
    · next e =>
      rw [e] at hw
      exact ⟨n, by simpa [Written] using hw, ha⟩
    · exact ⟨n, hw, ha⟩
  · refine ⟨n, by rw [step_phase_other w r L (Ne.symm e)]; exact hw, ?_⟩
    by_cases ef : fname r = fname L
    · exact step_agrees w r _ n ef (hr (Or.inr ef)) ha
    · rw [step_files_other w r _ (Ne.symm ef)]; exact ha

/-- A rank that has read has read the bytes of the state. -/
def ReadOk (x : S) : Phase S → Prop
  | .done out => out = .ok x
  | _ => True

theorem since_full {w : World S} {L : ℕ} (h : Since ser fname x w L)
    (hp : w.phase L = .reading ∨ ∃ out, w.phase L = .done out) : w.files (fname L) = ser x := by
  obtain ⟨n, hw, ha⟩ := h
  have : n = (ser x).length := by
    rcases hp with e | ⟨out, e⟩ <;> rw [e] at hw <;> exact hw
  exact Agrees.all (this ▸ ha)

theorem step_started (w : World S) (r r' : ℕ) (h : w.phase r' ≠ .start) : (stepX w r).phase r' ≠ .start := by
  by_cases e : r' = r
  · subst e
    unfold step
    split
    · next e => exact absurd e h
    · split <;> simp
    · simp
    · exact h
  · rw [step_phase_other w r r' e]; exact h

/-- **C100** (a rank by itself), what holds: from the moment a rank opens its file on, if no other rank opens the same file
before this rank has read it, the rank gets back its state.  The others may write to the file if they have opened it
before. -/
theorem C100_own_partial (hs : Spec.FileFormat ser deser) (w : World S) (L : ℕ) (hL : w.phase L = .start) (mid : List ℕ)
    (hmid : ∀ r ∈ mid, r ≠ L → fname r = fname L → w.phase r ≠ .start) :
    ∀ out, (runX (stepX w L) mid).phase L = .done out →
      out = .ok x ∧ (runX (stepX w L) mid).files (fname L) = ser x := by
  have key : ∀ (mid : List ℕ) (w : World S), Since ser fname x w L → ReadOk x (w.phase L) →
      (∀ r ∈ mid, r ≠ L → fname r = fname L → w.phase r ≠ .start) →
      Since ser fname x (runX w mid) L ∧ ReadOk x ((runX w mid).phase L) := by
    intro mid
    induction mid with
    | nil => exact fun w h h' _ => ⟨h, h'⟩
    | cons r mid ih =>
      intro w h h' hr
      have hst : w.phase L ≠ .start := by
        obtain ⟨n, hw, -⟩ := h
        intro e
        rw [e] at hw
        exact hw
      refine ih (stepX w r) (since_step w L r h ?_) ?_ fun r' hr' hne hf =>
        step_started w r r' (hr r' (List.mem_cons_of_mem _ hr') hne hf)
      · intro hc
        by_cases e : r = L
        · exact e ▸ hst
        · exact hr r List.mem_cons_self e (hc.resolve_left e)
      · by_cases e : L = r
        · subst e
          unfold step
          split
          · next e => exact absurd e hst
          · split <;> simp [ReadOk]
          · next e =>
            have := since_full h (Or.inl e)
            simp [ReadOk, this, hs.back]
          · exact h'
        · rw [step_phase_other w r L e]; exact h'
  intro out ho
  obtain ⟨h1, h2⟩ := key mid (stepX w L) (since_open w L hL) (by unfold step; rw [hL]; simp [ReadOk]) fun r hr hne hf => by
    rw [step_phase_other w L r hne]; exact hmid r hr hne hf
  refine ⟨?_, since_full h1 (Or.inr ⟨out, ho⟩)⟩
  rw [ho] at h2
  exact h2

/-- Nobody has opened the file, or it agrees with what the rank that opened it last has written. -/
def FileInv (ser : S → List ℕ) (fname : ℕ → ℕ) (x : S) (w : World S) (f : ℕ) : Prop :=
  (∀ r, fname r = f → w.phase r = .start) ∨ ∃ L, fname L = f ∧ Since ser fname x w L

theorem fileInv_step (w : World S) (f r : ℕ) (h : FileInv ser fname x w f) : FileInv ser fname x (stepX w r) f := by
  by_cases hf : fname r = f
  · by_cases hs : w.phase r = .start
    · exact Or.inr ⟨r, hf, since_open w r hs⟩
    · rcases h with h | ⟨L, hL, h⟩
      · exact absurd (h r hf) hs
      · exact Or.inr ⟨L, hL, since_step w L r h fun _ => hs⟩
  · rcases h with h | ⟨L, hL, h⟩
    · refine Or.inl fun r' hr' => ?_
      have : r' ≠ r := fun e => hf (e ▸ hr')
      rw [step_phase_other w r r' this, h r' hr']
    · refine Or.inr ⟨L, hL, ?_⟩
      obtain ⟨n, hw, ha⟩ := h
      have : L ≠ r := fun e => hf (e ▸ hL)
      exact ⟨n, by rw [step_phase_other w r L this]; exact hw,
        by rw [step_files_other w r _ (by rw [hL]; exact Ne.symm hf)]; exact ha⟩

theorem fileInv_run (w : World S) (f : ℕ) (sched : List ℕ) (h : FileInv ser fname x w f) :
    FileInv ser fname x (runX w sched) f := by
  induction sched generalizing w with
  | nil => exact h
  | cons r sched ih => exact ih (stepX w r) (fileInv_step w f r h)

/-- **C100** (with a barrier), what holds: if every rank has closed its file before any of them reads, which a barrier
between writing and reading would make sure, all get back their state, however they are interleaved otherwise.  Missing:
the code has no barrier, and without it the claim is false, `C100_violated`. -/
theorem C100_barrier_partial (hs : Spec.FileFormat ser deser) (ws : ℕ) (files : ℕ → List ℕ) (sched1 sched2 : List ℕ)
    (hsched : ∀ r ∈ sched1 ++ sched2, r < ws)
    (hb : ∀ r < ws, (runX (before files) sched1).phase r = .reading) :
    Spec.Saves ser deser fname ws x files (sched1 ++ sched2) := by
  intro hd r hr
  have hrun : runX (before files) (sched1 ++ sched2) = runX (runX (before files) sched1) sched2 := by
    unfold run; rw [List.foldl_append]
  have hfile : ∀ r < ws, (runX (before files) sched1).files (fname r) = ser x := by
    intro r hr
    rcases fileInv_run (ser := ser) (deser := deser) (fname := fname) (x := x) (before files) (fname r) sched1
      (Or.inl fun _ _ => rfl) with h | ⟨L, hL, h⟩
    · have := h r rfl
      rw [hb r hr] at this
      cases this
    · have hLw : L < ws := by
        by_contra hc
        have : ∀ (sched : List ℕ) (w : World S), (∀ r ∈ sched, r < ws) → (runX w sched).phase L = w.phase L := by
          intro sched
          induction sched with
          | nil => exact fun _ _ => rfl
          | cons q sched ih =>
            intro w hq
            have e : L ≠ q := fun e => hc (e ▸ hq q List.mem_cons_self)
            rw [show runX w (q :: sched) = runX (stepX w q) sched from rfl,
              ih _ fun r hr => hq r (List.mem_cons_of_mem _ hr), step_phase_other w q L e]
        obtain ⟨n, hw, -⟩ := h
        rw [this sched1 _ fun r hr => hsched r (List.mem_append_left _ hr)] at hw
        exact hw
      rw [← hL]
      exact since_full h (Or.inl (hb L hLw))
  have key : ∀ (sched : List ℕ) (w : World S), (∀ r ∈ sched, r < ws) → (∀ r < ws, w.files (fname r) = ser x) →
      (∀ r < ws, w.phase r = .reading ∨ w.phase r = .done (.ok x)) →
      (∀ r < ws, (runX w sched).files (fname r) = ser x) ∧
      ∀ r < ws, (runX w sched).phase r = .reading ∨ (runX w sched).phase r = .done (.ok x) := by
    intro sched
    induction sched with
    | nil => exact fun w _ h1 h2 => ⟨h1, h2⟩
    | cons q sched ih =>
      intro w hq h1 h2
      have hqw := hq q List.mem_cons_self
      refine ih (stepX w q) (fun r hr => hq r (List.mem_cons_of_mem _ hr)) (fun r hr => ?_) fun r hr => ?_
      · unfold step
        rcases h2 q hqw with e | e <;> rw [e] <;> exact h1 r hr
      · by_cases e : r = q
        · subst e
          unfold step
          rcases h2 r hr with e | e <;> rw [e]
          · right
            simp [h1 r hr, hs.back]
          · exact Or.inr e
        · rw [step_phase_other w q r e]; exact h2 r hr
  obtain ⟨k1, k2⟩ := key sched2 (runX (before files) sched1) (fun r hr => hsched r (List.mem_append_right _ hr)) hfile
    fun r hr => Or.inl (hb r hr)
  rw [hrun]
  refine ⟨?_, k1 r hr⟩
  rcases k2 r hr with e | e
  · obtain ⟨out, ho⟩ := hd r hr
    rw [hrun, e] at ho
    cases ho
  · exact e

/-! ### Running a rank to its end -/

/-- The number of steps a rank has still to do. -/
def todo (ser : S → List ℕ) (x : S) : Phase S → ℕ
  | .start => (ser x).length + 3
  | .writing k => (ser x).length - k + 2
  | .reading => 1
  | .done _ => 0

theorem todo_step (w : World S) (r : ℕ) : todo ser x ((stepX w r).phase r) ≤ todo ser x (w.phase r) - 1 := by
  unfold step
  split
  · next e => rw [e]; simp [todo]
  · next k e =>
    rw [e]
    split
    · next b hb =>
      have : k < (ser x).length := (List.getElem?_eq_some_iff.1 hb).1
      simp only [Function.update_self, todo]
      omega
    · simp [todo]
  · next e => rw [e]; simp [todo]
  · next e => rw [e]; simp [todo]

theorem todo_run (n : ℕ) (w : World S) (r : ℕ) :
    todo ser x ((runX w (List.replicate n r)).phase r) ≤ todo ser x (w.phase r) - n := by
  induction n generalizing w with
  | zero => exact Nat.le_refl _
  | succ n ih =>
    have h1 := ih (stepX w r)
    have h2 := todo_step (ser := ser) (deser := deser) (fname := fname) (x := x) w r
    rw [List.replicate_succ]
    refine Nat.le_trans (show todo ser x ((runX w (r :: List.replicate n r)).phase r) ≤ _ from h1) ?_
    omega

theorem todo_le (p : Phase S) : todo ser x p ≤ (ser x).length + 3 := by
  cases p <;> simp only [todo] <;> omega

theorem done_of_todo {p : Phase S} (h : todo ser x p ≤ 0) : ∃ out, p = .done out := by
  cases p <;> simp only [todo] at h
  · omega
  · omega
  · omega
  · exact ⟨_, rfl⟩

theorem step_done (w : World S) (r r' : ℕ) (out : Except PyErr S) (h : w.phase r' = .done out) :
    (stepX w r).phase r' = .done out := by
  by_cases e : r' = r
  · subst e
    unfold step
    rw [h]
    exact h
  · rw [step_phase_other w r r' e, h]

theorem run_done (w : World S) (sched : List ℕ) (r : ℕ) (out : Except PyErr S) (h : w.phase r = .done out) :
    (runX w sched).phase r = .done out := by
  induction sched generalizing w with
  | nil => exact h
  | cons q sched ih => exact ih _ (step_done w q r out h)

theorem run_append (w : World S) (a b : List ℕ) : runX w (a ++ b) = runX (runX w a) b := by
  unfold run; rw [List.foldl_append]

theorem run_phase_other (w : World S) (sched : List ℕ) (r : ℕ) (h : r ∉ sched) : (runX w sched).phase r = w.phase r := by
  induction sched generalizing w with
  | nil => rfl
  | cons q sched ih =>
    rw [List.mem_cons, not_or] at h
    rw [show runX w (q :: sched) = runX (stepX w q) sched from rfl, ih _ h.2, step_phase_other w q r h.1]

/-- All ranks are finished one after another. -/
def finish (ser : S → List ℕ) (x : S) (ws : ℕ) : List ℕ :=
  (List.range ws).flatMap fun r => List.replicate ((ser x).length + 3) r

theorem finish_done (w : World S) (ws : ℕ) : ∀ r < ws, ∃ out, (runX w (finish ser x ws)).phase r = .done out := by
  induction ws with
  | zero => intro r hr; omega
  | succ n ih =>
    intro r hr
    have e : finish ser x (n + 1) = finish ser x n ++ List.replicate ((ser x).length + 3) n := by
      simp [finish, List.range_succ, List.flatMap_append]
    rw [e, run_append]
    rcases Nat.lt_succ_iff_lt_or_eq.1 hr with h | rfl
    · obtain ⟨out, ho⟩ := ih r h
      exact ⟨out, run_done _ _ _ _ ho⟩
    · refine done_of_todo (ser := ser) (x := x) ?_
      have h1 := todo_run (ser := ser) (deser := deser) (fname := fname) (x := x) ((ser x).length + 3)
        (runX w (finish ser x r)) r
      have h2 := todo_le (ser := ser) (x := x) ((runX w (finish ser x r)).phase r)
      omega

/-- **C100** (one after another), what holds: if the ranks save in turns, in any order and with any files, every one of
them gets back its state, and the files hold it. -/
theorem C100_turns_partial (hs : Spec.FileFormat ser deser) (files : ℕ → List ℕ) (order : List ℕ) :
    ∀ r ∈ order,
      (runX (before files) (order.flatMap fun r => List.replicate ((ser x).length + 3) r)).phase r = .done (.ok x) ∧
      (runX (before files) (order.flatMap fun r => List.replicate ((ser x).length + 3) r)).files (fname r) = ser x := by
  have key : ∀ (order : List ℕ) (w : World S),
      (∀ r, w.phase r = .start ∨ w.phase r = .done (.ok x) ∧ w.files (fname r) = ser x) →
      (∀ r, w.phase r = .done (.ok x) ∨ r ∈ order →
        (runX w (order.flatMap fun r => List.replicate ((ser x).length + 3) r)).phase r = .done (.ok x) ∧
        (runX w (order.flatMap fun r => List.replicate ((ser x).length + 3) r)).files (fname r) = ser x) := by
    intro order
    induction order with
    | nil =>
      intro w h r hr
      rcases hr with e | e
      · refine ⟨e, ?_⟩
        rcases h r with e' | e'
        · rw [e] at e'; cases e'
        · exact e'.2
      · cases e
    | cons q order ih =>
      intro w h r hr
      rw [List.flatMap_cons, run_append]
      have hq : (runX w (List.replicate ((ser x).length + 3) q)).phase q = .done (.ok x) ∧
          (∀ r, fname r = fname q →
            (runX w (List.replicate ((ser x).length + 3) q)).files (fname r) = ser x) ∧
          ∀ r, fname r ≠ fname q →
            (runX w (List.replicate ((ser x).length + 3) q)).files (fname r) = w.files (fname r) := by
        have hfo : ∀ (n : ℕ) (w : World S) (r : ℕ), fname r ≠ fname q →
            (runX w (List.replicate n q)).files (fname r) = w.files (fname r) := by
          intro n
          induction n with
          | zero => exact fun _ _ _ => rfl
          | succ n ihn =>
            intro w r hr
            rw [List.replicate_succ, show runX w (q :: List.replicate n q) = runX (stepX w q) (List.replicate n q) from rfl,
              ihn _ r hr, step_files_other w q _ hr]
        refine ⟨?_, ?_, fun r hr => hfo _ w r hr⟩
        all_goals rcases h q with e | ⟨e, ef⟩
        · obtain ⟨out, ho⟩ := done_of_todo (ser := ser) (x := x)
            (p := (runX w (List.replicate ((ser x).length + 3) q)).phase q) (by
              have h1 := todo_run (ser := ser) (deser := deser) (fname := fname) (x := x) ((ser x).length + 3) w q
              have h2 := todo_le (ser := ser) (x := x) (w.phase q)
              omega)
          have := C100_own_partial hs w q e (List.replicate ((ser x).length + 2) q)
            (fun r hr hne _ => absurd (List.eq_of_mem_replicate hr) hne) out ho
          rw [ho, this.1]
        · exact run_done _ _ _ _ e
        · intro r hr
          obtain ⟨out, ho⟩ := done_of_todo (ser := ser) (x := x)
            (p := (runX w (List.replicate ((ser x).length + 3) q)).phase q) (by
              have h1 := todo_run (ser := ser) (deser := deser) (fname := fname) (x := x) ((ser x).length + 3) w q
              have h2 := todo_le (ser := ser) (x := x) (w.phase q)
              omega)
          have := C100_own_partial hs w q e (List.replicate ((ser x).length + 2) q)
            (fun r hr hne _ => absurd (List.eq_of_mem_replicate hr) hne) out ho
          rw [hr]
          exact this.2
        · intro r hr
          have hid : ∀ (n : ℕ), runX w (List.replicate n q) = w := by
            intro n
            induction n with
            | zero => rfl
            | succ n ihn =>
              rw [List.replicate_succ, show runX w (q :: List.replicate n q) = runX (stepX w q) (List.replicate n q) from rfl]
              have : stepX w q = w := by unfold step; rw [e]
              rw [this, ihn]
          rw [hid, hr, ef]
      refine ih _ (fun r' => ?_) r ?_
      · by_cases e : r' = q
        · subst e
          exact Or.inr ⟨hq.1, hq.2.1 r' rfl⟩
        · have hp : (runX w (List.replicate ((ser x).length + 3) q)).phase r' = w.phase r' :=
            run_phase_other _ _ _ fun hm => e (List.eq_of_mem_replicate hm)
          rw [hp]
          rcases h r' with h' | h'
          · exact Or.inl h'
          · refine Or.inr ⟨h'.1, ?_⟩
            by_cases ef : fname r' = fname q
            · exact hq.2.1 r' ef
            · rw [hq.2.2 r' ef]; exact h'.2
      · rcases hr with e | e
        · exact Or.inl (run_done _ _ _ _ e)
        · rcases List.mem_cons.1 e with rfl | e
          · exact Or.inl hq.1
          · exact Or.inr e
  intro r hr
  exact key order (before files) (fun _ => Or.inl rfl) r (Or.inr hr)

theorem first_turn {r : ℕ} {sched : List ℕ} (hmem : r ∈ sched) : ∃ pre mid, sched = pre ++ r :: mid ∧ r ∉ pre := by
  induction sched with
  | nil => cases hmem
  | cons q l ih =>
    by_cases e : q = r
    · exact ⟨[], l, by rw [e]; rfl, by simp⟩
    · obtain ⟨p, m, h1, h2⟩ := ih ((List.mem_cons.1 hmem).resolve_left (Ne.symm e))
      exact ⟨q :: p, m, by rw [h1]; rfl, by simp [h2, Ne.symm e]⟩

/-- **C100** (own files), what holds: if every rank uses its own file name, saving works for all interleavings. -/
theorem C100_names_partial (hs : Spec.FileFormat ser deser) (ws : ℕ) (files : ℕ → List ℕ) (sched : List ℕ)
    (hsched : ∀ r ∈ sched, r < ws) (hn : ∀ r < ws, ∀ r' < ws, fname r = fname r' → r = r') :
    Spec.Saves ser deser fname ws x files sched := by
  intro hd r hr
  obtain ⟨out, ho⟩ := hd r hr
  have hmem : r ∈ sched := by
    by_contra hc
    rw [run_phase_other _ _ _ hc] at ho
    cases ho
  obtain ⟨pre, mid, rfl, hpre⟩ := first_turn hmem
  rw [run_append] at ho ⊢
  have hst : (runX (before files) pre).phase r = .start := run_phase_other _ _ _ hpre
  have := C100_own_partial hs (runX (before files) pre) r hst mid (fun q hq hne hf => absurd
    (hn q (hsched q (List.mem_append_right _ (List.mem_cons_of_mem _ hq))) r hr hf) hne) out ho
  rw [show runX (runX (before files) pre) (r :: mid) = runX (stepX (runX (before files) pre) r) mid from rfl] at ho ⊢
  exact ⟨by rw [ho, this.1], this.2⟩

/-- A rank that opens the file after another has closed it makes the reading of the other one fail. -/
theorem race (hs : Spec.FileFormat ser deser) (files : ℕ → List ℕ) (hf : fname 0 = fname 1) :
    ∃ e, (runX (before files) (List.replicate ((ser x).length + 2) 0 ++ [1, 0])).phase 0 = .done (.error e) := by
  have hw : ∀ n, n ≤ (ser x).length →
      (runX (before files) (List.replicate (n + 1) 0)).phase 0 = .writing n := by
    intro n
    induction n with
    | zero => intro _; rfl
    | succ n ih =>
      intro hn
      rw [List.replicate_succ', run_append]
      have h := ih (by omega)
      show (stepX (runX (before files) (List.replicate (n + 1) 0)) 0).phase 0 = _
      unfold step
      rw [h]
      obtain ⟨b, hb⟩ : ∃ b, (ser x)[n]? = some b := ⟨_, List.getElem?_eq_getElem (show n < (ser x).length by omega)⟩
      simp only [hb, Function.update_self]
  have h1 := hw (ser x).length (Nat.le_refl _)
  have h2 : (runX (before files) (List.replicate ((ser x).length + 2) 0)).phase 0 = .reading := by
    rw [List.replicate_succ', run_append]
    show (stepX (runX (before files) (List.replicate ((ser x).length + 1) 0)) 0).phase 0 = _
    unfold step
    rw [h1]
    have : (ser x)[(ser x).length]? = none := List.getElem?_eq_none (Nat.le_refl _)
    simp only [this, Function.update_self]
  have h3 : (runX (before files) (List.replicate ((ser x).length + 2) 0)).phase 1 = .start :=
    run_phase_other _ _ _ fun h => absurd (List.eq_of_mem_replicate h) (by decide)
  obtain ⟨e, he⟩ := hs.empty
  refine ⟨e, ?_⟩
  rw [run_append]
  generalize runX (before files) (List.replicate ((ser x).length + 2) 0) = w at h2 h3
  show (stepX (stepX w 1) 0).phase 0 = _
  have h4 : (stepX w 1).phase 0 = .reading := by rw [step_phase_other w 1 0 (by decide), h2]
  have h5 : (stepX w 1).files (fname 0) = [] := by
    unfold step
    rw [h3, hf]
    simp
  generalize stepX w 1 = w' at h4 h5
  unfold step
  rw [h4]
  simp [h5, he]

/-- **C100 is violated**: with two or more ranks, whatever the state and the format of the files, there is an interleaving
in which all ranks come to an end and `save` raises on one of them: it reads the file just when another rank has opened it
for writing. -/
theorem C100_violated (hs : Spec.FileFormat ser deser) (ws : ℕ) (hws : 2 ≤ ws) (files : ℕ → List ℕ) (name : ℕ) :
    ∃ sched : List ℕ, (∀ r ∈ sched, r < ws) ∧ ¬ Spec.Saves ser deser (fun _ => name) ws x files sched := by
  refine ⟨(List.replicate ((ser x).length + 2) 0 ++ [1, 0]) ++ finish ser x ws, ?_, ?_⟩
  · intro r hr
    simp only [List.mem_append, List.mem_replicate, List.mem_cons, List.not_mem_nil, or_false, finish, List.mem_flatMap,
      List.mem_range] at hr
    rcases hr with (⟨-, rfl⟩ | rfl | rfl) | ⟨q, hq, -, rfl⟩ <;> omega
  · intro h
    obtain ⟨e, he⟩ := race (x := x) (fname := fun _ => name) hs files rfl
    have h0 := (h fun r hr => by rw [run_append]; exact finish_done _ ws r hr) 0 (by omega)
    rw [run_append, run_done _ _ _ _ he] at h0
    cases h0.1

/-- The assumption on the format is met, for instance by a length in front of the data. -/
example : Spec.FileFormat (fun d : List ℕ => d.length :: d)
    (fun | [] => .error .runtimeError | n :: d => if n = d.length then .ok d else .error .runtimeError) where
  back := by intro d; simp
  empty := ⟨_, rfl⟩

/-- Two ranks that come together at the barrier meet the hypothesis of `C100_barrier_partial`, although the second one opens
the file when the first one has written half of it. -/
example : ∀ r < 2, (run (fun d : List ℕ => d) (fun d => .ok d) (fun _ => 7) (fun _ => [5, 6]) (before fun _ => [])
    [0, 0, 1, 1, 0, 1, 0, 1]).phase r = .reading := by
  intro r hr
  obtain rfl | rfl : r = 0 ∨ r = 1 := by omega
  · rfl
  · rfl

end AceTN.DistSave
