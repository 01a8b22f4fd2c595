import Verif.Lemmas.ClusterRun

/-!
How far sweeps reach.
-/

set_option autoImplicit false

namespace AceTN

open Spec

/-- The moves of `n` sweeps. -/
def sweeps (nx ny n : ℕ) : List Move := (List.replicate n (sweepMoves nx ny)).flatten

section grow

variable {nx ny : ℕ}

theorem growMove_mono (m : Move) (r : Rect) : (growMove nx ny m r).x ≤ r.x ∧ r.x + r.w ≤ (growMove nx ny m r).x + (growMove nx ny m r).w ∧
    (growMove nx ny m r).y ≤ r.y ∧ r.y + r.h ≤ (growMove nx ny m r).y + (growMove nx ny m r).h := by
  cases m <;> unfold growMove <;> dsimp only <;> split_ifs <;> push_cast <;> omega

theorem growAll_mono (ms : List Move) (r : Rect) : (growAll nx ny ms r).x ≤ r.x ∧
    r.x + r.w ≤ (growAll nx ny ms r).x + (growAll nx ny ms r).w ∧
    (growAll nx ny ms r).y ≤ r.y ∧ r.y + r.h ≤ (growAll nx ny ms r).y + (growAll nx ny ms r).h := by
  induction ms with
  | nil => exact ⟨le_rfl, le_rfl, le_rfl, le_rfl⟩
  | cons m ms ih =>
    have := growMove_mono (nx := nx) (ny := ny) m (growAll nx ny ms r)
    show (growMove nx ny m (growAll nx ny ms r)).x ≤ _ ∧ _ ≤ (growMove nx ny m (growAll nx ny ms r)).x + (growMove nx ny m (growAll nx ny ms r)).w ∧
      (growMove nx ny m (growAll nx ny ms r)).y ≤ _ ∧ _ ≤ (growMove nx ny m (growAll nx ny ms r)).y + (growMove nx ny m (growAll nx ny ms r)).h
    omega

theorem growAll_left (ms : List Move) (r : Rect) (x : ℕ) (hx : (r.x - 1) % nx = x) (h : .left x ∈ ms) : (growAll nx ny ms r).x ≤ r.x - 1 := by
  induction ms with
  | nil => cases h
  | cons m ms ih =>
    have hm := (growMove_mono (nx := nx) (ny := ny) m (growAll nx ny ms r)).1
    have ha := (growAll_mono (nx := nx) (ny := ny) ms r).1
    show (growMove nx ny m (growAll nx ny ms r)).x ≤ _
    rcases List.mem_cons.1 h with h | h
    · subst h
      by_cases he : (growAll nx ny ms r).x = r.x
      · unfold growMove
        dsimp only
        rw [he, if_pos hx]
      · omega
    · have := ih h
      omega

theorem growAll_down (ms : List Move) (r : Rect) (y : ℕ) (hy : (r.y - 1) % ny = y) (h : .down y ∈ ms) : (growAll nx ny ms r).y ≤ r.y - 1 := by
  induction ms with
  | nil => cases h
  | cons m ms ih =>
    have hm := (growMove_mono (nx := nx) (ny := ny) m (growAll nx ny ms r)).2.2.1
    have ha := (growAll_mono (nx := nx) (ny := ny) ms r).2.2.1
    show (growMove nx ny m (growAll nx ny ms r)).y ≤ _
    rcases List.mem_cons.1 h with h | h
    · subst h
      by_cases he : (growAll nx ny ms r).y = r.y
      · unfold growMove
        dsimp only
        rw [he, if_pos hy]
      · omega
    · have := ih h
      omega

theorem growAll_right (ms : List Move) (r : Rect) (x : ℕ) (hx : (r.x + r.w) % nx = x) (h : .right x ∈ ms) :
    r.x + r.w + 1 ≤ (growAll nx ny ms r).x + (growAll nx ny ms r).w := by
  induction ms with
  | nil => cases h
  | cons m ms ih =>
    have hm := (growMove_mono (nx := nx) (ny := ny) m (growAll nx ny ms r)).2.1
    have ha := (growAll_mono (nx := nx) (ny := ny) ms r).2.1
    show _ ≤ (growMove nx ny m (growAll nx ny ms r)).x + (growMove nx ny m (growAll nx ny ms r)).w
    rcases List.mem_cons.1 h with h | h
    · subst h
      by_cases he : (growAll nx ny ms r).x + (growAll nx ny ms r).w = r.x + r.w
      · unfold growMove
        dsimp only
        rw [he, if_pos hx]
        push_cast
        omega
      · omega
    · have := ih h
      omega

theorem growAll_up (ms : List Move) (r : Rect) (y : ℕ) (hy : (r.y + r.h) % ny = y) (h : .up y ∈ ms) :
    r.y + r.h + 1 ≤ (growAll nx ny ms r).y + (growAll nx ny ms r).h := by
  induction ms with
  | nil => cases h
  | cons m ms ih =>
    have hm := (growMove_mono (nx := nx) (ny := ny) m (growAll nx ny ms r)).2.2.2
    have ha := (growAll_mono (nx := nx) (ny := ny) ms r).2.2.2
    show _ ≤ (growMove nx ny m (growAll nx ny ms r)).y + (growMove nx ny m (growAll nx ny ms r)).h
    rcases List.mem_cons.1 h with h | h
    · subst h
      by_cases he : (growAll nx ny ms r).y + (growAll nx ny ms r).h = r.y + r.h
      · unfold growMove
        dsimp only
        rw [he, if_pos hy]
        push_cast
        omega
      · omega
    · have := ih h
      omega

theorem mem_reverse_range {n a : ℕ} (h : a < n) : ∃ i < n, (n - i + 1) % n = a := by
  rcases Nat.lt_or_ge a 2 with h2 | h2
  · rcases Nat.eq_or_lt_of_le (Nat.succ_le_of_lt (Nat.pos_of_ne_zero (by omega : n ≠ 0))) with h1 | h1
    · subst h1
      obtain rfl : a = 0 := by omega
      exact ⟨0, h, rfl⟩
    · rcases Nat.eq_zero_or_pos a with rfl | ha
      · exact ⟨1, h1, by rw [show n - 1 + 1 = n by omega]; exact Nat.mod_self n⟩
      · obtain rfl : a = 1 := by omega
        refine ⟨0, by omega, ?_⟩
        rw [Nat.sub_zero, Nat.add_mod_left]
        exact Nat.mod_eq_of_lt h1
  · exact ⟨n + 1 - a, by omega, by rw [show n - (n + 1 - a) + 1 = a by omega]; exact Nat.mod_eq_of_lt h⟩

theorem sweepMoves_all (x : ℕ) : (x < nx → .left x ∈ sweepMoves nx ny ∧ .right x ∈ sweepMoves nx ny) ∧
    (x < ny → .up x ∈ sweepMoves nx ny ∧ .down x ∈ sweepMoves nx ny) := by
  unfold sweepMoves
  constructor
  · intro h
    obtain ⟨i, hi, he⟩ := mem_reverse_range h
    exact ⟨List.mem_append_left _ (List.mem_flatMap.2 ⟨x, List.mem_range.2 h, by simp⟩),
      List.mem_append_left _ (List.mem_flatMap.2 ⟨i, List.mem_range.2 hi, by simp [he]⟩)⟩
  · intro h
    obtain ⟨i, hi, he⟩ := mem_reverse_range h
    exact ⟨List.mem_append_right _ (List.mem_flatMap.2 ⟨i, List.mem_range.2 hi, by simp [he]⟩),
      List.mem_append_right _ (List.mem_flatMap.2 ⟨x, List.mem_range.2 h, by simp⟩)⟩

theorem sweepMoves_range (hx : 0 < nx) (hy : 0 < ny) (m : Move) (h : m ∈ sweepMoves nx ny) : InRange nx ny m := by
  unfold sweepMoves at h
  rcases List.mem_append.1 h with h | h
  · obtain ⟨i, hi, h⟩ := List.mem_flatMap.1 h
    have hi := List.mem_range.1 hi
    simp only [List.mem_cons, List.not_mem_nil, or_false] at h
    rcases h with rfl | rfl
    · exact hi
    · exact Nat.mod_lt _ hx
  · obtain ⟨i, hi, h⟩ := List.mem_flatMap.1 h
    have hi := List.mem_range.1 hi
    simp only [List.mem_cons, List.not_mem_nil, or_false] at h
    rcases h with rfl | rfl
    · exact Nat.mod_lt _ hy
    · exact hi

theorem sweeps_range (hx : 0 < nx) (hy : 0 < ny) (n : ℕ) (m : Move) (h : m ∈ sweeps nx ny n) : InRange nx ny m := by
  unfold sweeps at h
  obtain ⟨l, hl, h⟩ := List.mem_flatten.1 h
  rw [(List.mem_replicate.1 hl).2] at h
  exact sweepMoves_range hx hy m h

/-- One sweep adds at least one line on every side. -/
theorem growAll_sweep (hx : 0 < nx) (hy : 0 < ny) (r : Rect) :
    (growAll nx ny (sweepMoves nx ny) r).x ≤ r.x - 1 ∧
    r.x + r.w + 1 ≤ (growAll nx ny (sweepMoves nx ny) r).x + (growAll nx ny (sweepMoves nx ny) r).w ∧
    (growAll nx ny (sweepMoves nx ny) r).y ≤ r.y - 1 ∧
    r.y + r.h + 1 ≤ (growAll nx ny (sweepMoves nx ny) r).y + (growAll nx ny (sweepMoves nx ny) r).h := by
  have key : ∀ {n : ℕ} (_ : 0 < n) (a : ℤ), a % n = ((a % n).toNat : ℕ) ∧ (a % n).toNat < n := by
    intro n hn a
    have := Int.emod_nonneg a (b := (n : ℤ)) (by omega)
    have := Int.emod_lt_of_pos a (b := (n : ℤ)) (by omega)
    omega
  refine ⟨growAll_left _ _ _ (key hx _).1 ((sweepMoves_all _).1 (key hx _).2).1, growAll_right _ _ _ (key hx _).1 ((sweepMoves_all _).1 (key hx _).2).2,
    growAll_down _ _ _ (key hy _).1 ((sweepMoves_all _).2 (key hy _).2).2, growAll_up _ _ _ (key hy _).1 ((sweepMoves_all _).2 (key hy _).2).1⟩

theorem growAll_append (ms ms' : List Move) (r : Rect) : growAll nx ny (ms ++ ms') r = growAll nx ny ms (growAll nx ny ms' r) := by
  unfold growAll
  rw [List.foldr_append]

theorem growAll_sweeps (hx : 0 < nx) (hy : 0 < ny) (n : ℕ) (r : Rect) :
    (growAll nx ny (sweeps nx ny n) r).x ≤ r.x - n ∧
    r.x + r.w + n ≤ (growAll nx ny (sweeps nx ny n) r).x + (growAll nx ny (sweeps nx ny n) r).w ∧
    (growAll nx ny (sweeps nx ny n) r).y ≤ r.y - n ∧
    r.y + r.h + n ≤ (growAll nx ny (sweeps nx ny n) r).y + (growAll nx ny (sweeps nx ny n) r).h := by
  induction n with
  | zero => simpa [sweeps] using growAll_mono (nx := nx) (ny := ny) [] r
  | succ n ih =>
    have e : sweeps nx ny (n + 1) = sweepMoves nx ny ++ sweeps nx ny n := by
      unfold sweeps
      rw [List.replicate_succ, List.flatten_cons]
    rw [e, growAll_append]
    have := growAll_sweep hx hy (growAll nx ny (sweeps nx ny n) r)
    push_cast
    omega

/-- After `n` sweeps the boundary of a rectangle holds everything up to distance `n`. -/
theorem growAll_reach (hx : 0 < nx) (hy : 0 < ny) (n : ℕ) (r : Rect) (p q : ℤ × ℤ) (hp : r.Has p) (h1 : |q.1 - p.1| ≤ n)
    (h2 : |q.2 - p.2| ≤ n) : (growAll nx ny (sweeps nx ny n) r).Has q := by
  have := growAll_sweeps hx hy n r
  rw [abs_le] at h1 h2
  unfold Rect.Has at *
  omega

end grow

section draws

variable {𝕜 : Type} [RCLike 𝕜] {B P : Type} [Fintype B] [Fintype P] [DecidableEq B] (st : ProjSettings 𝕜) (pk : ProjKind)
  (ω : ℕ → Draws B 𝕜)

theorem runDrawn_append (ms ms' : List Move) (t : ℕ) (net : Net (Ten B P 𝕜)) :
    runDrawn st pk ω t (ms ++ ms') net = (runDrawn st pk ω t ms net).bind fun net' => runDrawn st pk ω (t + ms.length) ms' net' := by
  induction ms generalizing t net with
  | nil => rfl
  | cons m ms ih =>
    simp only [List.cons_append, runDrawn, Move.run_eq, bind, Except.bind, List.length_cons]
    rw [ih, show t + 1 + ms.length = t + (ms.length + 1) by omega]
    rfl

theorem runDrawn_consts (ms : List Move) (t : ℕ) (net net' : Net (Ten B P 𝕜)) (h : runDrawn st pk ω t ms net = .ok net') :
    net'.nx = net.nx ∧ net'.ny = net.ny := by
  induction ms generalizing t net with
  | nil =>
    simp only [runDrawn, Except.ok.injEq] at h
    rw [h]
    exact ⟨rfl, rfl⟩
  | cons m ms ih =>
    simp only [runDrawn, Move.run_eq, bind, Except.bind] at h
    obtain ⟨h1, h2⟩ := ih _ _ h
    obtain ⟨c1, c2, -⟩ := Move.after_consts (numOps st (ω t)) pk net m
    exact ⟨h1.trans c1, h2.trans c2⟩

theorem ctmrgDrawn_eq (n t : ℕ) (net : Net (Ten B P 𝕜)) :
    ctmrgDrawn st pk ω t n net = runDrawn st pk ω t (sweeps net.nx net.ny n) net := by
  induction n generalizing t net with
  | zero => rfl
  | succ n ih =>
    have e : sweeps net.nx net.ny (n + 1) = sweepMoves net.nx net.ny ++ sweeps net.nx net.ny n := by
      unfold sweeps
      rw [List.replicate_succ, List.flatten_cons]
    rw [e, runDrawn_append, ctmrgDrawn]
    show Except.bind _ _ = _
    cases h : runDrawn st pk ω t (sweepMoves net.nx net.ny) net with
    | error => rfl
    | ok net' =>
      obtain ⟨h1, h2⟩ := runDrawn_consts st pk ω _ _ _ _ h
      show ctmrgDrawn st pk ω _ n net' = runDrawn st pk ω _ (sweeps net.nx net.ny n) net'
      rw [ih, h1, h2]

end draws

end AceTN
