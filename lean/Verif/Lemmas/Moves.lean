import Verif.Lemmas.Mover

/-! Closed forms of the four boundary moves, uniformly in the direction. -/

set_option autoImplicit false

namespace AceTN
variable {T : Type}

/-! ### closed forms of the four moves -/

theorem leftLoop_perm (o : Ops T) (proj : ProjDict T) (P : ℕ → T × T) (net : Net T) (x : ℕ)
    (hP : ∀ y < net.ny, proj y = some (P y)) (order : List ℕ)
    (ho : order.Perm (List.range net.ny)) :
    renormLoop o proj (fun yi => (x, yi)) (fun yi => ((x + 1) % net.nx, yi))
      (fun yi => (yi + 1) % net.ny) 0 order net
    = .ok (simul o net P (fun yi => (x, yi)) (fun yi => ((x + 1) % net.nx, yi))
      (fun yi => (yi + 1) % net.ny) 0 (List.range net.ny)) := by
  have hm : ∀ i ∈ order, i < net.ny := fun i hi => List.mem_range.1 (ho.mem_iff.1 hi)
  rw [renormLoop_eq o proj P _ _ _ 0 order (ho.nodup_iff.2 List.nodup_range)]
  · rw [simul_perm o net P _ _ _ 0 ho]
    intro i _ j _ h; exact (Prod.ext_iff.1 h).2
  · intro i _ j _ h; exact (Prod.ext_iff.1 h).2
  · intro i _ j _ h; exact (Prod.ext_iff.1 h).2
  · intro i hi; exact hP i (hm i hi)
  · intro i hi; exact hP _ (Nat.mod_lt _ (by have := hm i hi; omega))

theorem rightLoop_perm (o : Ops T) (proj : ProjDict T) (P : ℕ → T × T) (net : Net T) (x : ℕ)
    (hP : ∀ y < net.ny, proj y = some (P y)) (order : List ℕ)
    (ho : order.Perm (List.range net.ny)) :
    renormLoop o proj (fun yi => (x, yi)) (fun yi => ((x + net.nx - 1) % net.nx, yi))
      (fun yi => (yi + net.ny - 1) % net.ny) 2 order net
    = .ok (simul o net P (fun yi => (x, yi)) (fun yi => ((x + net.nx - 1) % net.nx, yi))
      (fun yi => (yi + net.ny - 1) % net.ny) 2 (List.range net.ny)) := by
  have hm : ∀ i ∈ order, i < net.ny := fun i hi => List.mem_range.1 (ho.mem_iff.1 hi)
  rw [renormLoop_eq o proj P _ _ _ 2 order (ho.nodup_iff.2 List.nodup_range)]
  · rw [simul_perm o net P _ _ _ 2 ho]
    intro i _ j _ h; exact (Prod.ext_iff.1 h).2
  · intro i _ j _ h; exact (Prod.ext_iff.1 h).2
  · intro i _ j _ h; exact (Prod.ext_iff.1 h).2
  · intro i hi; exact hP i (hm i hi)
  · intro i hi; exact hP _ (Nat.mod_lt _ (by have := hm i hi; omega))

theorem upLoop_perm (o : Ops T) (proj : ProjDict T) (P : ℕ → T × T) (net : Net T) (y : ℕ)
    (hP : ∀ x < net.nx, proj x = some (P x)) (order : List ℕ)
    (ho : order.Perm (List.range net.nx)) :
    renormLoop o proj (fun xi => (xi, y)) (fun xi => (xi, (y + net.ny - 1) % net.ny))
      (fun xi => (xi + 1) % net.nx) 1 order net
    = .ok (simul o net P (fun xi => (xi, y)) (fun xi => (xi, (y + net.ny - 1) % net.ny))
      (fun xi => (xi + 1) % net.nx) 1 (List.range net.nx)) := by
  have hm : ∀ i ∈ order, i < net.nx := fun i hi => List.mem_range.1 (ho.mem_iff.1 hi)
  rw [renormLoop_eq o proj P _ _ _ 1 order (ho.nodup_iff.2 List.nodup_range)]
  · rw [simul_perm o net P _ _ _ 1 ho]
    intro i _ j _ h; exact (Prod.ext_iff.1 h).1
  · intro i _ j _ h; exact (Prod.ext_iff.1 h).1
  · intro i _ j _ h; exact (Prod.ext_iff.1 h).1
  · intro i hi; exact hP i (hm i hi)
  · intro i hi; exact hP _ (Nat.mod_lt _ (by have := hm i hi; omega))

theorem downLoop_perm (o : Ops T) (proj : ProjDict T) (P : ℕ → T × T) (net : Net T) (y : ℕ)
    (hP : ∀ x < net.nx, proj x = some (P x)) (order : List ℕ)
    (ho : order.Perm (List.range net.nx)) :
    renormLoop o proj (fun xi => (xi, y)) (fun xi => (xi, (y + 1) % net.ny))
      (fun xi => (xi + net.nx - 1) % net.nx) 3 order net
    = .ok (simul o net P (fun xi => (xi, y)) (fun xi => (xi, (y + 1) % net.ny))
      (fun xi => (xi + net.nx - 1) % net.nx) 3 (List.range net.nx)) := by
  have hm : ∀ i ∈ order, i < net.nx := fun i hi => List.mem_range.1 (ho.mem_iff.1 hi)
  rw [renormLoop_eq o proj P _ _ _ 3 order (ho.nodup_iff.2 List.nodup_range)]
  · rw [simul_perm o net P _ _ _ 3 ho]
    intro i _ j _ h; exact (Prod.ext_iff.1 h).1
  · intro i _ j _ h; exact (Prod.ext_iff.1 h).1
  · intro i _ j _ h; exact (Prod.ext_iff.1 h).1
  · intro i hi; exact hP i (hm i hi)
  · intro i hi; exact hP _ (Nat.mod_lt _ (by have := hm i hi; omega))


/-! ### uniform description -/

/-- Direction index of a move. -/
def Move.k : Move → ℕ
  | .left _ => 0 | .up _ => 1 | .right _ => 2 | .down _ => 3

/-- Number of rows (columns) a move loops over. -/
def Move.n (nx ny : ℕ) : Move → ℕ
  | .left _ | .right _ => ny
  | .up _ | .down _ => nx

/-- Source site of iteration `i`. -/
def Move.src : Move → ℕ → Site
  | .left x, i | .right x, i => (x, i)
  | .up y, i | .down y, i => (i, y)

/-- Target site of iteration `i`. -/
def Move.tgt (nx ny : ℕ) : Move → ℕ → Site
  | .left x, i => ((x + 1) % nx, i)
  | .right x, i => ((x + nx - 1) % nx, i)
  | .up y, i => (i, (y + ny - 1) % ny)
  | .down y, i => (i, (y + 1) % ny)

/-- Index of the second projector of iteration `i`. -/
def Move.jOf (nx ny : ℕ) : Move → ℕ → ℕ
  | .left _, i => (i + 1) % ny
  | .right _, i => (i + ny - 1) % ny
  | .up _, i => (i + 1) % nx
  | .down _, i => (i + nx - 1) % nx

/-- Projectors of cut `i`. -/
def Move.proj (o : Ops T) (pk : ProjKind) (net : Net T) : Move → ℕ → T × T
  | .left x, i => calcLeft o pk net x i
  | .right x, i => calcRight o pk net x i
  | .up y, i => calcUp o pk net i y
  | .down y, i => calcDown o pk net i y

theorem Move.tgt_inj {nx ny : ℕ} (m : Move) {i j : ℕ} (h : m.tgt nx ny i = m.tgt nx ny j) : i = j := by
  cases m <;> simp_all [Move.tgt]

theorem Move.loop_eq (o : Ops T) (d : ProjDict T) (P : ℕ → T × T) (net : Net T) (m : Move)
    (hP : ∀ i < m.n net.nx net.ny, d i = some (P i)) (order : List ℕ)
    (ho : order.Perm (List.range (m.n net.nx net.ny))) :
    renormLoop o d m.src (m.tgt net.nx net.ny) (m.jOf net.nx net.ny) m.k order net
      = .ok (simul o net P m.src (m.tgt net.nx net.ny) (m.jOf net.nx net.ny) m.k
          (List.range (m.n net.nx net.ny))) := by
  cases m with
  | left x => exact leftLoop_perm o d P net x hP order ho
  | right x => exact rightLoop_perm o d P net x hP order ho
  | up y => exact upLoop_perm o d P net y hP order ho
  | down y => exact downLoop_perm o d P net y hP order ho

theorem Move.run_eq_loop (o : Ops T) (pk : ProjKind) (net : Net T) (m : Move) :
    m.run o pk net = renormLoop o (fillProj (m.n net.nx net.ny) (m.proj o pk net)) m.src
      (m.tgt net.nx net.ny) (m.jOf net.nx net.ny) m.k (List.range (m.n net.nx net.ny)) net := by
  cases m <;> rfl

/-- The network after move `m`, in closed form. -/
def Move.after (o : Ops T) (pk : ProjKind) (net : Net T) (m : Move) : Net T :=
  simul o net (m.proj o pk net) m.src (m.tgt net.nx net.ny) (m.jOf net.nx net.ny) m.k
    (List.range (m.n net.nx net.ny))

theorem Move.run_eq (o : Ops T) (pk : ProjKind) (net : Net T) (m : Move) :
    m.run o pk net = .ok (m.after o pk net) := by
  rw [Move.run_eq_loop, Move.loop_eq o _ (m.proj o pk net) net m _ _ (List.Perm.refl _)]
  · rfl
  · intro i hi; simp [fillProj, hi]

theorem Move.after_B_mem (o : Ops T) (pk : ProjKind) (net : Net T) (m : Move) {i : ℕ}
    (hi : i < m.n net.nx net.ny) (sl : Slot) :
    (m.after o pk net).B (m.tgt net.nx net.ny i) sl
      = newB o net (m.proj o pk net) m.src (m.tgt net.nx net.ny) (m.jOf net.nx net.ny) m.k i sl :=
  simul_B_of_mem o net _ _ _ _ _ _ (fun _ _ _ _ h => m.tgt_inj h) (List.mem_range.2 hi) sl

theorem Move.after_B_ne (o : Ops T) (pk : ProjKind) (net : Net T) (m : Move) {s : Site}
    (h : ∀ i < m.n net.nx net.ny, m.tgt net.nx net.ny i ≠ s) (sl : Slot) :
    (m.after o pk net).B s sl = net.B s sl :=
  simul_B_of_ne o net _ _ _ _ _ _ s (fun i hi => h i (List.mem_range.1 hi)) sl

theorem Move.after_writes_mem (o : Ops T) (pk : ProjKind) (net : Net T) (m : Move) {i : ℕ}
    (hi : i < m.n net.nx net.ny) (sl : Slot) :
    (m.after o pk net).writes (m.tgt net.nx net.ny i) sl
      = if hitSlot m.k sl then net.writes (m.tgt net.nx net.ny i) sl + 1
        else net.writes (m.tgt net.nx net.ny i) sl :=
  simul_writes_of_mem o net _ _ _ _ _ _ (fun _ _ _ _ h => m.tgt_inj h) (List.mem_range.2 hi) sl

theorem Move.after_writes_ne (o : Ops T) (pk : ProjKind) (net : Net T) (m : Move) {s : Site}
    (h : ∀ i < m.n net.nx net.ny, m.tgt net.nx net.ny i ≠ s) (sl : Slot) :
    (m.after o pk net).writes s sl = net.writes s sl :=
  simul_writes_of_ne o net _ _ _ _ _ _ s (fun i hi => h i (List.mem_range.1 hi)) sl

theorem Move.after_consts (o : Ops T) (pk : ProjKind) (net : Net T) (m : Move) :
    (m.after o pk net).nx = net.nx ∧ (m.after o pk net).ny = net.ny ∧
    (m.after o pk net).chi = net.chi ∧ (m.after o pk net).A = net.A := ⟨rfl, rfl, rfl, rfl⟩

/-- Does a move write to this slot of this site? -/
def Move.hits (nx ny : ℕ) (m : Move) (s : Site) (sl : Slot) : Prop :=
  (∃ i < m.n nx ny, m.tgt nx ny i = s) ∧ hitSlot m.k sl

open Classical in
theorem Move.after_writes (o : Ops T) (pk : ProjKind) (net : Net T) (m : Move) (s : Site) (sl : Slot) :
    (m.after o pk net).writes s sl = net.writes s sl + if m.hits net.nx net.ny s sl then 1 else 0 := by
  by_cases h : ∃ i < m.n net.nx net.ny, m.tgt net.nx net.ny i = s
  · obtain ⟨i, hi, rfl⟩ := h
    rw [m.after_writes_mem o pk net hi]
    have : (∃ j < m.n net.nx net.ny, m.tgt net.nx net.ny j = m.tgt net.nx net.ny i) := ⟨i, hi, rfl⟩
    simp only [Move.hits, this, true_and]
    split <;> rfl
  · have : ¬ m.hits net.nx net.ny s sl := fun hh => h hh.1
    rw [m.after_writes_ne o pk net (by push Not at h; exact h)]
    simp [this]

theorem Move.after_B_not_hits (o : Ops T) (pk : ProjKind) (net : Net T) (m : Move) (s : Site) (sl : Slot)
    (h : ¬ m.hits net.nx net.ny s sl) : (m.after o pk net).B s sl = net.B s sl := by
  by_cases h' : ∃ i < m.n net.nx net.ny, m.tgt net.nx net.ny i = s
  · have hs : ¬ hitSlot m.k sl := fun hh => h ⟨h', hh⟩
    obtain ⟨i, hi, rfl⟩ := h'
    rw [m.after_B_mem o pk net hi]
    simp only [hitSlot, not_or] at hs
    simp [newB, hs.1, hs.2.1, hs.2.2]
  · exact m.after_B_ne o pk net (by push Not at h'; exact h') sl

/-- A list of moves, in closed form. -/
def movesAfter (o : Ops T) (pk : ProjKind) (ms : List Move) (net : Net T) : Net T :=
  ms.foldl (fun net m => m.after o pk net) net

theorem runMoves_eq (o : Ops T) (pk : ProjKind) (ms : List Move) (net : Net T) :
    runMoves o pk ms net = .ok (movesAfter o pk ms net) := by
  induction ms generalizing net with
  | nil => rfl
  | cons m ms ih => simp only [runMoves, Move.run_eq, bind, Except.bind]; exact ih _

theorem movesAfter_consts (o : Ops T) (pk : ProjKind) (ms : List Move) (net : Net T) :
    (movesAfter o pk ms net).nx = net.nx ∧ (movesAfter o pk ms net).ny = net.ny ∧
    (movesAfter o pk ms net).chi = net.chi ∧ (movesAfter o pk ms net).A = net.A := by
  induction ms generalizing net with
  | nil => exact ⟨rfl, rfl, rfl, rfl⟩
  | cons m ms ih => exact ih (m.after o pk net)

open Classical in
theorem movesAfter_writes (o : Ops T) (pk : ProjKind) (ms : List Move) (net : Net T) (s : Site)
    (sl : Slot) :
    (movesAfter o pk ms net).writes s sl
      = net.writes s sl + ms.countP (fun m => m.hits net.nx net.ny s sl) := by
  induction ms generalizing net with
  | nil => rfl
  | cons m ms ih =>
    rw [show movesAfter o pk (m :: ms) net = movesAfter o pk ms (m.after o pk net) from rfl, ih,
      m.after_writes]
    simp only [(m.after_consts o pk net).1, (m.after_consts o pk net).2.1, List.countP_cons,
      decide_eq_true_eq]
    omega

theorem ctmrg_eq (o : Ops T) (pk : ProjKind) (n : ℕ) (net : Net T) :
    ∃ net', ctmrg o pk n net = .ok net' ∧ net'.nx = net.nx ∧ net'.ny = net.ny ∧ net'.chi = net.chi ∧
      net'.A = net.A ∧
      net' = (fun net => movesAfter o pk (sweepMoves net.nx net.ny) net)^[n] net := by
  induction n generalizing net with
  | zero => exact ⟨net, rfl, rfl, rfl, rfl, rfl, rfl⟩
  | succ n ih =>
    simp only [ctmrg, runMoves_eq, bind, Except.bind]
    obtain ⟨net', h, h1, h2, h3, h4, h5⟩ := ih (movesAfter o pk (sweepMoves net.nx net.ny) net)
    obtain ⟨c1, c2, c3, c4⟩ := movesAfter_consts o pk (sweepMoves net.nx net.ny) net
    exact ⟨net', h, h1.trans c1, h2.trans c2, h3.trans c3, h4.trans c4, by rw [h5]; rfl⟩

end AceTN
