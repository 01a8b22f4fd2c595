import Verif.Model.Blocks

/-!
A block loop writes every entry.
-/

set_option autoImplicit false

namespace AceTN

variable {n : ℕ} {α : Type}

/-- Writing the matching block of `T` keeps entries that are right and makes the block right. -/
theorem write_slice (T old : Fin n → Fin n → α) (b c : Blk n) (i j : Fin n) :
    b.write c (b.slice fun i => c.slice (T i)) old i j =
      if (b.lo ≤ i.val ∧ i.val < b.hi) ∧ (c.lo ≤ j.val ∧ j.val < c.hi) then T i j else old i j := by
  unfold Blk.write
  split
  · next h =>
    simp only [Blk.slice]
    have e1 : ∀ h', (⟨b.lo + (i.val - b.lo), h'⟩ : Fin n) = i := fun h' => Fin.ext (by simp only; omega)
    have e2 : ∀ h', (⟨c.lo + (j.val - c.lo), h'⟩ : Fin n) = j := fun h' => Fin.ext (by simp only; omega)
    rw [e1, e2]
  · rfl

theorem foldl_write (T : Fin n → Fin n → α) (l : List (Blk n × Blk n)) (old : Fin n → Fin n → α) (i j : Fin n) :
    (l.foldl (fun acc p => p.1.write p.2 (p.1.slice fun i => p.2.slice (T i)) acc) old) i j =
      if ∃ p ∈ l, (p.1.lo ≤ i.val ∧ i.val < p.1.hi) ∧ (p.2.lo ≤ j.val ∧ j.val < p.2.hi) then T i j else old i j := by
  induction l generalizing old with
  | nil => simp
  | cons p l ih =>
    rw [List.foldl_cons, ih, write_slice]
    by_cases h1 : ∃ q ∈ l, (q.1.lo ≤ i.val ∧ i.val < q.1.hi) ∧ (q.2.lo ≤ j.val ∧ j.val < q.2.hi)
    · rw [if_pos h1, if_pos]
      obtain ⟨q, hq, h⟩ := h1
      exact ⟨q, List.mem_cons_of_mem _ hq, h⟩
    · rw [if_neg h1]
      by_cases h2 : (p.1.lo ≤ i.val ∧ i.val < p.1.hi) ∧ (p.2.lo ≤ j.val ∧ j.val < p.2.hi)
      · rw [if_pos h2, if_pos ⟨p, List.mem_cons_self, h2⟩]
      · rw [if_neg h2, if_neg]
        rintro ⟨q, hq, h⟩
        rcases List.mem_cons.1 hq with rfl | hq
        · exact h2 h
        · exact h1 ⟨q, hq, h⟩

theorem exists_block (BC : ℕ) (h : 0 < BC) (i : Fin n) : ∃ b ∈ blocks n BC, b.lo ≤ i.val ∧ i.val < b.hi := by
  refine ⟨⟨i.val / BC * BC, min n (i.val / BC * BC + BC), Nat.min_le_left _ _⟩, ?_, ?_, ?_⟩
  · unfold blocks
    refine List.mem_map.2 ⟨i.val / BC, ?_, rfl⟩
    rw [List.mem_range]
    have h1 := i.isLt
    have h2 : i.val / BC * BC ≤ i.val := Nat.div_mul_le_self _ _
    rw [Nat.lt_iff_add_one_le, Nat.le_div_iff_mul_le h, Nat.add_mul]
    omega
  · exact Nat.div_mul_le_self _ _
  · have h1 := i.isLt
    have h2 : i.val < i.val / BC * BC + BC := by
      have := Nat.div_add_mod i.val BC
      have := Nat.mod_lt i.val h
      rw [Nat.mul_comm (i.val / BC) BC]
      omega
    simp only
    omega

/-- The loop over all pairs of blocks produces `T`, whatever was in memory before. -/
theorem foldl_blocks (BC : ℕ) (h : 0 < BC) (T old : Fin n → Fin n → α) :
    (blockIndices n BC).foldl (fun acc p => p.1.write p.2 (p.1.slice fun i => p.2.slice (T i)) acc) old = T := by
  funext i j
  rw [foldl_write, if_pos]
  obtain ⟨b, hb, hb'⟩ := exists_block BC h i
  obtain ⟨c, hc, hc'⟩ := exists_block BC h j
  refine ⟨(b, c), ?_, hb', hc'⟩
  unfold blockIndices
  exact List.mem_flatMap.2 ⟨b, hb, List.mem_map.2 ⟨c, hc, rfl⟩⟩

end AceTN
