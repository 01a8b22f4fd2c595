import Verif.Lemmas.Moves

/-! Counting the moves of a sweep that hit a given boundary tensor. -/

set_option autoImplicit false

namespace AceTN

theorem countP_range_unique (n x0 : ℕ) (h0 : x0 < n) (p : ℕ → Bool) (hp : ∀ x < n, p x = true ↔ x = x0) :
    (List.range n).countP p = 1 := by
  have : (List.range n).countP p = (List.range n).count x0 := by
    rw [List.count]
    apply List.countP_congr
    intro x hx
    rw [hp x (List.mem_range.1 hx)]
    exact (beq_iff_eq).symm
  rw [this, List.count_eq_one_of_mem List.nodup_range (List.mem_range.2 h0)]

theorem countP_flatMap_pair {α : Type} (n : ℕ) (f g : ℕ → α) (p : α → Bool) :
    ((List.range n).flatMap fun i => [f i, g i]).countP p
      = (List.range n).countP (fun i => p (f i)) + (List.range n).countP (fun i => p (g i)) := by
  induction n with
  | zero => rfl
  | succ n ih =>
    rw [List.range_succ, List.flatMap_append, List.countP_append, ih, List.countP_append,
      List.countP_append]
    simp only [List.flatMap_cons, List.flatMap_nil, List.append_nil, List.countP_cons, List.countP_nil]
    omega

theorem countP_range_zero (n : ℕ) (p : ℕ → Bool) (hp : ∀ x < n, p x = false) :
    (List.range n).countP p = 0 := by
  rw [List.countP_eq_zero]; intro x hx; rw [hp x (List.mem_range.1 hx)]; simp

theorem sweep_countP (nx ny : ℕ) (p : Move → Bool) :
    (sweepMoves nx ny).countP p =
      (List.range nx).countP (fun x => p (.left x)) +
      (List.range nx).countP (fun x => p (.right ((nx - x + 1) % nx))) +
      ((List.range ny).countP (fun y => p (.up ((ny - y + 1) % ny))) +
       (List.range ny).countP (fun y => p (.down y))) := by
  rw [sweepMoves, List.countP_append, countP_flatMap_pair, countP_flatMap_pair]

theorem hits_left {nx ny x : ℕ} {s : Site} {sl : Slot} :
    (Move.left x).hits nx ny s sl ↔ s.1 = (x + 1) % nx ∧ s.2 < ny ∧ (sl = .C 3 ∨ sl = .C 0 ∨ sl = .E 3) := by
  simp only [Move.hits, Move.n, Move.tgt, hitSlot, Move.k]
  constructor
  · rintro ⟨⟨i, hi, rfl⟩, h⟩; exact ⟨rfl, hi, h⟩
  · rintro ⟨h1, h2, h⟩; exact ⟨⟨s.2, h2, by rw [← h1]⟩, h⟩

theorem hits_right {nx ny x : ℕ} {s : Site} {sl : Slot} :
    (Move.right x).hits nx ny s sl ↔
      s.1 = (x + nx - 1) % nx ∧ s.2 < ny ∧ (sl = .C 1 ∨ sl = .C 2 ∨ sl = .E 1) := by
  simp only [Move.hits, Move.n, Move.tgt, hitSlot, Move.k]
  constructor
  · rintro ⟨⟨i, hi, rfl⟩, h⟩; exact ⟨rfl, hi, h⟩
  · rintro ⟨h1, h2, h⟩; exact ⟨⟨s.2, h2, by rw [← h1]⟩, h⟩

theorem hits_up {nx ny y : ℕ} {s : Site} {sl : Slot} :
    (Move.up y).hits nx ny s sl ↔
      s.2 = (y + ny - 1) % ny ∧ s.1 < nx ∧ (sl = .C 0 ∨ sl = .C 1 ∨ sl = .E 0) := by
  simp only [Move.hits, Move.n, Move.tgt, hitSlot, Move.k]
  constructor
  · rintro ⟨⟨i, hi, rfl⟩, h⟩; exact ⟨rfl, hi, h⟩
  · rintro ⟨h1, h2, h⟩; exact ⟨⟨s.1, h2, by rw [← h1]⟩, h⟩

theorem hits_down {nx ny y : ℕ} {s : Site} {sl : Slot} :
    (Move.down y).hits nx ny s sl ↔
      s.2 = (y + 1) % ny ∧ s.1 < nx ∧ (sl = .C 2 ∨ sl = .C 3 ∨ sl = .E 2) := by
  simp only [Move.hits, Move.n, Move.tgt, hitSlot, Move.k]
  constructor
  · rintro ⟨⟨i, hi, rfl⟩, h⟩; exact ⟨rfl, hi, h⟩
  · rintro ⟨h1, h2, h⟩; exact ⟨⟨s.1, h2, by rw [← h1]⟩, h⟩

theorem right_arg (n x : ℕ) (hx : x < n) : ((n - x + 1) % n + n - 1) % n = (n - x) % n := by
  rcases Nat.eq_zero_or_pos x with rfl | h
  · rcases Nat.lt_or_ge 1 n with h1 | h1
    · have : (n - 0 + 1) % n = 1 := by
        rw [Nat.sub_zero, Nat.add_mod_left, Nat.mod_eq_of_lt h1]
      rw [this]; congr 1; omega
    · have : n = 1 := by omega
      subst this; simp
  · rcases Nat.lt_or_ge 1 x with h1 | h1
    · rw [Nat.mod_eq_of_lt (show n - x + 1 < n by omega)]
      rw [show n - x + 1 + n - 1 = n - x + n by omega, Nat.add_mod_right]
    · have : x = 1 := by omega
      subst this
      rw [show n - 1 + 1 = n by omega, Nat.mod_self]
      congr 1; omega

theorem rev_arg_iff (n a : ℕ) (ha : a < n) (x : ℕ) (hx : x < n) :
    a = ((n - x + 1) % n + n - 1) % n ↔ x = (n - a) % n := by
  rw [right_arg n x hx]
  have key : ∀ u v : ℕ, u < n → v < n → u = (n - v) % n → v = (n - u) % n := by
    intro u v hu hv h
    rcases Nat.eq_zero_or_pos v with rfl | h'
    · rw [Nat.sub_zero, Nat.mod_self] at h; subst h; simp
    · rw [Nat.mod_eq_of_lt (show n - v < n by omega)] at h
      rw [Nat.mod_eq_of_lt (show n - u < n by omega)]; omega
  exact ⟨key a x ha hx, key x a hx ha⟩

theorem fwd_arg_iff (n a : ℕ) (ha : a < n) (x : ℕ) (hx : x < n) :
    a = (x + 1) % n ↔ x = (a + n - 1) % n := by
  constructor
  · rintro rfl; rw [succ_pred_mod hx]
  · rintro rfl; rw [pred_succ_mod ha]

open Classical in
/-- In one sweep every edge tensor of every site is hit once and every corner tensor twice. -/
theorem sweep_hits (nx ny : ℕ) (s : Site) (h1 : s.1 < nx) (h2 : s.2 < ny) (k : ℕ) (hk : k < 4) :
    (sweepMoves nx ny).countP (fun m => m.hits nx ny s (.E k)) = 1 ∧
    (sweepMoves nx ny).countP (fun m => m.hits nx ny s (.C k)) = 2 := by
  have hl : ∀ sl : Slot, (List.range nx).countP (fun x => decide ((Move.left x).hits nx ny s sl))
      = if sl = .C 3 ∨ sl = .C 0 ∨ sl = .E 3 then 1 else 0 := by
    intro sl
    split
    · next h =>
      apply countP_range_unique nx ((s.1 + nx - 1) % nx) (Nat.mod_lt _ (by omega))
      intro x hx
      rw [decide_eq_true_eq, hits_left, ← fwd_arg_iff nx s.1 h1 x hx]
      simp [h, h2]
    · next h =>
      apply countP_range_zero; intro x hx; rw [decide_eq_false_iff_not, hits_left]; tauto
  have hr : ∀ sl : Slot,
      (List.range nx).countP (fun x => decide ((Move.right ((nx - x + 1) % nx)).hits nx ny s sl))
      = if sl = .C 1 ∨ sl = .C 2 ∨ sl = .E 1 then 1 else 0 := by
    intro sl
    split
    · next h =>
      apply countP_range_unique nx ((nx - s.1) % nx) (Nat.mod_lt _ (by omega))
      intro x hx
      rw [decide_eq_true_eq, hits_right, ← rev_arg_iff nx s.1 h1 x hx]
      simp [h, h2]
    · next h =>
      apply countP_range_zero; intro x hx; rw [decide_eq_false_iff_not, hits_right]; tauto
  have hu : ∀ sl : Slot,
      (List.range ny).countP (fun y => decide ((Move.up ((ny - y + 1) % ny)).hits nx ny s sl))
      = if sl = .C 0 ∨ sl = .C 1 ∨ sl = .E 0 then 1 else 0 := by
    intro sl
    split
    · next h =>
      apply countP_range_unique ny ((ny - s.2) % ny) (Nat.mod_lt _ (by omega))
      intro x hx
      rw [decide_eq_true_eq, hits_up, ← rev_arg_iff ny s.2 h2 x hx]
      simp [h, h1]
    · next h =>
      apply countP_range_zero; intro x hx; rw [decide_eq_false_iff_not, hits_up]; tauto
  have hd : ∀ sl : Slot, (List.range ny).countP (fun y => decide ((Move.down y).hits nx ny s sl))
      = if sl = .C 2 ∨ sl = .C 3 ∨ sl = .E 2 then 1 else 0 := by
    intro sl
    split
    · next h =>
      apply countP_range_unique ny ((s.2 + ny - 1) % ny) (Nat.mod_lt _ (by omega))
      intro x hx
      rw [decide_eq_true_eq, hits_down, ← fwd_arg_iff ny s.2 h2 x hx]
      simp [h, h1]
    · next h =>
      apply countP_range_zero; intro x hx; rw [decide_eq_false_iff_not, hits_down]; tauto
  constructor
  · rw [sweep_countP, hl, hr, hu, hd]
    have : k = 0 ∨ k = 1 ∨ k = 2 ∨ k = 3 := by omega
    rcases this with rfl | rfl | rfl | rfl <;> simp
  · rw [sweep_countP, hl, hr, hu, hd]
    have : k = 0 ∨ k = 1 ∨ k = 2 ∨ k = 3 := by omega
    rcases this with rfl | rfl | rfl | rfl <;> simp

end AceTN
