import Verif.Model.Mover
import Verif.Lemmas.Lattice

/-! Closed form of the renormalization loop of a boundary move. -/

set_option autoImplicit false

namespace AceTN
variable {T : Type}

/-- The value iteration `i` assigns to slot `sl` of its target, from the state `net`. -/
def newB (o : Ops T) (net : Net T) (P : ℕ → T × T) (s1 s2 : ℕ → Site) (jOf : ℕ → ℕ) (k i : ℕ)
    (sl : Slot) : T :=
  if sl = .C ((3 + k) % 4) then
    o.cj1 (net.B (s1 i) (.C ((3 + k) % 4))) (net.B (s1 i) (.E ((2 + k) % 4))) (P i).1
  else if sl = .C k then
    o.cj2 (net.B (s1 i) (.C k)) (net.B (s1 i) (.E k)) (P (jOf i)).2
  else if sl = .E ((3 + k) % 4) then
    o.ej (net.B (s1 i) (.E ((3 + k) % 4))) (o.permute k (net.A (s1 i))) (P i).2 (P (jOf i)).1
  else net.B (s2 i) sl

/-- Does a move in direction `k` assign this slot? -/
def hitSlot (k : ℕ) (sl : Slot) : Prop := sl = .C ((3 + k) % 4) ∨ sl = .C k ∨ sl = .E ((3 + k) % 4)

instance (k : ℕ) (sl : Slot) : Decidable (hitSlot k sl) := by unfold hitSlot; infer_instance

/-- All iterations of `idx` done simultaneously from `net`. -/
def simul (o : Ops T) (net : Net T) (P : ℕ → T × T) (s1 s2 : ℕ → Site) (jOf : ℕ → ℕ) (k : ℕ)
    (idx : List ℕ) : Net T :=
  { net with
    B := fun s sl => match idx.find? (fun i => s2 i = s) with
      | some i => newB o net P s1 s2 jOf k i sl
      | none => net.B s sl
    writes := fun s sl => match idx.find? (fun i => s2 i = s) with
      | some _ => if hitSlot k sl then net.writes s sl + 1 else net.writes s sl
      | none => net.writes s sl }

theorem Net.ext' {a b : Net T} (h1 : a.nx = b.nx) (h2 : a.ny = b.ny) (h3 : a.chi = b.chi)
    (h4 : a.A = b.A) (h5 : ∀ s sl, a.B s sl = b.B s sl) (h6 : ∀ s sl, a.writes s sl = b.writes s sl) :
    a = b := by
  cases a; cases b; simp_all; constructor <;> (funext s sl; simp_all)

theorem renormalizeBoundary_eq (o : Ops T) (net : Net T) (proj : ProjDict T) (P : ℕ → T × T)
    (s1 s2 : ℕ → Site) (jOf : ℕ → ℕ) (k i : ℕ)
    (hi : proj i = some (P i)) (hj : proj (jOf i) = some (P (jOf i))) :
    renormalizeBoundary o net proj (s1 i) (s2 i) i (jOf i) k
      = .ok (simul o net P s1 s2 jOf k [i]) := by
  simp only [renormalizeBoundary, ProjDict.item, hi, hj]
  simp only [bind, Except.bind, pure, Except.pure]
  congr 1
  have h1 : (3 + k) % 4 ≠ k := by omega
  have h2 : k ≠ (3 + k) % 4 := by omega
  apply Net.ext'
  · rfl
  · rfl
  · rfl
  · rfl
  · intro s sl
    simp only [simul, Net.setB, List.find?_cons, List.find?_nil, newB]
    by_cases hs : s = s2 i
    · subst hs
      simp only [true_and, decide_true, Slot.C.injEq, h2, and_false, if_false, reduceCtorEq]
      by_cases ha : sl = .C ((3 + k) % 4)
      · subst ha; simp [h1]
      · by_cases hb : sl = .C k
        · subst hb; simp [h2]
        · by_cases hc : sl = .E ((3 + k) % 4)
          · subst hc; simp
          · simp [ha, hb, hc]
    · have hs' : ¬ (s2 i = s) := fun h => hs h.symm
      simp [hs, hs']
  · intro s sl
    simp only [simul, Net.setB, List.find?_cons, List.find?_nil, hitSlot]
    by_cases hs : s = s2 i
    · subst hs
      simp only [true_and, decide_true]
      by_cases ha : sl = .C ((3 + k) % 4)
      · subst ha; simp [h1]
      · by_cases hb : sl = .C k
        · subst hb; simp [h2]
        · by_cases hc : sl = .E ((3 + k) % 4)
          · subst hc; simp
          · simp [ha, hb, hc]
    · have hs' : ¬ (s2 i = s) := fun h => hs h.symm
      simp [hs, hs']

theorem simul_B_of_ne (o : Ops T) (net : Net T) (P : ℕ → T × T) (s1 s2 : ℕ → Site) (jOf : ℕ → ℕ)
    (k : ℕ) (idx : List ℕ) (s : Site) (h : ∀ i ∈ idx, s2 i ≠ s) (sl : Slot) :
    (simul o net P s1 s2 jOf k idx).B s sl = net.B s sl := by
  have : idx.find? (fun i => decide (s2 i = s)) = none := by
    rw [List.find?_eq_none]; intro i hi; simpa using h i hi
  simp [simul, this]

theorem simul_writes_of_ne (o : Ops T) (net : Net T) (P : ℕ → T × T) (s1 s2 : ℕ → Site) (jOf : ℕ → ℕ)
    (k : ℕ) (idx : List ℕ) (s : Site) (h : ∀ i ∈ idx, s2 i ≠ s) (sl : Slot) :
    (simul o net P s1 s2 jOf k idx).writes s sl = net.writes s sl := by
  have : idx.find? (fun i => decide (s2 i = s)) = none := by
    rw [List.find?_eq_none]; intro i hi; simpa using h i hi
  simp [simul, this]

theorem find_target {s2 : ℕ → Site} {idx : List ℕ} (hinj : ∀ i ∈ idx, ∀ j ∈ idx, s2 i = s2 j → i = j)
    {i : ℕ} (hi : i ∈ idx) : idx.find? (fun j => decide (s2 j = s2 i)) = some i := by
  cases h : idx.find? (fun j => decide (s2 j = s2 i)) with
  | none => rw [List.find?_eq_none] at h; exact absurd (by simp) (h i hi)
  | some j =>
    have h1 := List.find?_some h
    have h2 := List.mem_of_find?_eq_some h
    rw [hinj j h2 i hi (by simpa using h1)]

theorem simul_B_of_mem (o : Ops T) (net : Net T) (P : ℕ → T × T) (s1 s2 : ℕ → Site) (jOf : ℕ → ℕ)
    (k : ℕ) (idx : List ℕ) (hinj : ∀ i ∈ idx, ∀ j ∈ idx, s2 i = s2 j → i = j) {i : ℕ} (hi : i ∈ idx)
    (sl : Slot) :
    (simul o net P s1 s2 jOf k idx).B (s2 i) sl = newB o net P s1 s2 jOf k i sl := by
  simp [simul, find_target hinj hi]

theorem simul_writes_of_mem (o : Ops T) (net : Net T) (P : ℕ → T × T) (s1 s2 : ℕ → Site) (jOf : ℕ → ℕ)
    (k : ℕ) (idx : List ℕ) (hinj : ∀ i ∈ idx, ∀ j ∈ idx, s2 i = s2 j → i = j) {i : ℕ} (hi : i ∈ idx)
    (sl : Slot) :
    (simul o net P s1 s2 jOf k idx).writes (s2 i) sl
      = if hitSlot k sl then net.writes (s2 i) sl + 1 else net.writes (s2 i) sl := by
  simp [simul, find_target hinj hi]

/-- The sequential loop equals the simultaneous update, provided the targets are distinct and an iteration's
source is nobody else's target. -/
theorem renormLoop_eq (o : Ops T) (proj : ProjDict T) (P : ℕ → T × T) (s1 s2 : ℕ → Site)
    (jOf : ℕ → ℕ) (k : ℕ) (idx : List ℕ) (hnd : idx.Nodup)
    (hinj : ∀ i ∈ idx, ∀ j ∈ idx, s2 i = s2 j → i = j)
    (hsrc : ∀ i ∈ idx, ∀ j ∈ idx, s2 i = s1 j → i = j)
    (hi : ∀ i ∈ idx, proj i = some (P i)) (hj : ∀ i ∈ idx, proj (jOf i) = some (P (jOf i)))
    (net : Net T) :
    renormLoop o proj s1 s2 jOf k idx net = .ok (simul o net P s1 s2 jOf k idx) := by
  induction idx generalizing net with
  | nil => simp [renormLoop, simul]
  | cons a as ih =>
    have hna : a ∉ as := (List.nodup_cons.1 hnd).1
    simp only [renormLoop]
    rw [renormalizeBoundary_eq o net proj P s1 s2 jOf k a (hi a (by simp)) (hj a (by simp))]
    simp only [bind, Except.bind]
    rw [ih (List.nodup_cons.1 hnd).2 (fun i h1 j h2 => hinj i (by simp [h1]) j (by simp [h2]))
      (fun i h1 j h2 => hsrc i (by simp [h1]) j (by simp [h2])) (fun i h => hi i (by simp [h]))
      (fun i h => hj i (by simp [h]))]
    congr 1
    have hne1 : ∀ i ∈ as, ∀ i' ∈ [a], s2 i' ≠ s1 i := by
      intro i h1 i' h2 h3
      rw [List.mem_singleton] at h2; subst h2
      exact hna (hsrc i' (by simp) i (by simp [h1]) h3 ▸ h1)
    have hne2 : ∀ i ∈ as, ∀ i' ∈ [a], s2 i' ≠ s2 i := by
      intro i h1 i' h2 h3
      rw [List.mem_singleton] at h2; subst h2
      exact hna (hinj i' (by simp) i (by simp [h1]) h3 ▸ h1)
    have hinj' : ∀ i ∈ as, ∀ j ∈ as, s2 i = s2 j → i = j :=
      fun i h1 j h2 => hinj i (by simp [h1]) j (by simp [h2])
    apply Net.ext'
    · rfl
    · rfl
    · rfl
    · rfl
    · intro s sl
      by_cases hs : ∃ i ∈ as, s2 i = s
      · obtain ⟨i, him, rfl⟩ := hs
        rw [simul_B_of_mem o _ P s1 s2 jOf k as hinj' him,
          simul_B_of_mem o net P s1 s2 jOf k (a :: as) hinj (by simp [him])]
        simp only [newB, simul_B_of_ne o net P s1 s2 jOf k [a] _ (hne1 i him),
          simul_B_of_ne o net P s1 s2 jOf k [a] _ (hne2 i him)]
        rfl
      · push Not at hs
        rw [simul_B_of_ne o _ P s1 s2 jOf k as s hs]
        by_cases ha : s2 a = s
        · subst ha
          rw [simul_B_of_mem o net P s1 s2 jOf k (a :: as) hinj (by simp),
            simul_B_of_mem o net P s1 s2 jOf k [a] (by simp) (by simp)]
        · rw [simul_B_of_ne o net P s1 s2 jOf k [a] s (by simpa using ha),
            simul_B_of_ne o net P s1 s2 jOf k (a :: as) s (by simpa using ⟨ha, hs⟩)]
    · intro s sl
      by_cases hs : ∃ i ∈ as, s2 i = s
      · obtain ⟨i, him, rfl⟩ := hs
        rw [simul_writes_of_mem o _ P s1 s2 jOf k as hinj' him,
          simul_writes_of_mem o net P s1 s2 jOf k (a :: as) hinj (by simp [him]),
          simul_writes_of_ne o net P s1 s2 jOf k [a] _ (hne2 i him)]
      · push Not at hs
        rw [simul_writes_of_ne o _ P s1 s2 jOf k as s hs]
        by_cases ha : s2 a = s
        · subst ha
          rw [simul_writes_of_mem o net P s1 s2 jOf k (a :: as) hinj (by simp),
            simul_writes_of_mem o net P s1 s2 jOf k [a] (by simp) (by simp)]
        · rw [simul_writes_of_ne o net P s1 s2 jOf k [a] s (by simpa using ha),
            simul_writes_of_ne o net P s1 s2 jOf k (a :: as) s (by simpa using ⟨ha, hs⟩)]

/-- The simultaneous update does not depend on the order of the index list. -/
theorem simul_perm (o : Ops T) (net : Net T) (P : ℕ → T × T) (s1 s2 : ℕ → Site) (jOf : ℕ → ℕ)
    (k : ℕ) {idx idx' : List ℕ} (hp : idx.Perm idx')
    (hinj : ∀ i ∈ idx, ∀ j ∈ idx, s2 i = s2 j → i = j) :
    simul o net P s1 s2 jOf k idx = simul o net P s1 s2 jOf k idx' := by
  have hinj' : ∀ i ∈ idx', ∀ j ∈ idx', s2 i = s2 j → i = j :=
    fun i h1 j h2 => hinj i (hp.mem_iff.2 h1) j (hp.mem_iff.2 h2)
  apply Net.ext'
  · rfl
  · rfl
  · rfl
  · rfl
  · intro s sl
    by_cases hs : ∃ i ∈ idx, s2 i = s
    · obtain ⟨i, him, rfl⟩ := hs
      rw [simul_B_of_mem o net P s1 s2 jOf k idx hinj him,
        simul_B_of_mem o net P s1 s2 jOf k idx' hinj' (hp.mem_iff.1 him)]
    · push Not at hs
      rw [simul_B_of_ne o _ P s1 s2 jOf k idx s hs,
        simul_B_of_ne o _ P s1 s2 jOf k idx' s (fun i h => hs i (hp.mem_iff.2 h))]
  · intro s sl
    by_cases hs : ∃ i ∈ idx, s2 i = s
    · obtain ⟨i, him, rfl⟩ := hs
      rw [simul_writes_of_mem o net P s1 s2 jOf k idx hinj him,
        simul_writes_of_mem o net P s1 s2 jOf k idx' hinj' (hp.mem_iff.1 him)]
    · push Not at hs
      rw [simul_writes_of_ne o _ P s1 s2 jOf k idx s hs,
        simul_writes_of_ne o _ P s1 s2 jOf k idx' s (fun i h => hs i (hp.mem_iff.2 h))]

/-- A missing projector is a `KeyError`. -/
theorem renormLoop_keyError (o : Ops T) (proj : ProjDict T) (s1 s2 : ℕ → Site) (jOf : ℕ → ℕ) (k : ℕ)
    (idx : List ℕ) (h : ∃ i ∈ idx, proj i = none) (net : Net T) :
    renormLoop o proj s1 s2 jOf k idx net = .error .keyError := by
  induction idx generalizing net with
  | nil => simp at h
  | cons a as ih =>
    simp only [renormLoop, renormalizeBoundary, ProjDict.item, bind, Except.bind, pure, Except.pure]
    cases ha : proj a with
    | none => rfl
    | some p =>
      cases hb : proj (jOf a) with
      | none => rfl
      | some q =>
        simp only
        apply ih
        obtain ⟨i, hi, hn⟩ := h
        rcases List.mem_cons.1 hi with rfl | hi
        · rw [ha] at hn; cases hn
        · exact ⟨i, hi, hn⟩

end AceTN
