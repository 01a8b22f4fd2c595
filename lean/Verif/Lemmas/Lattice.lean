import Verif.Spec.Lattice
import Mathlib.Tactic.Ring
import Mathlib.Tactic.Linarith

set_option autoImplicit false

namespace AceTN
open Spec

theorem mem_buildSiteList {nx ny : ℕ} {s : Site} :
    s ∈ buildSiteList nx ny ↔ s.1 < nx ∧ s.2 < ny := by
  obtain ⟨x, y⟩ := s
  simp [buildSiteList]

theorem length_flatMap_range_map {α : Type*} (n m : ℕ) (f : ℕ → ℕ → α) :
    ((List.range n).flatMap fun i => (List.range m).map (f i)).length = n * m := by
  induction n with
  | zero => simp
  | succ n ih =>
    rw [List.range_succ, List.flatMap_append, List.length_append, ih]
    simp [Nat.succ_mul]

theorem nodup_flatMap_range_map {α : Type*} (n m : ℕ) (f : ℕ → ℕ → α)
    (hf : ∀ i j i' j', i < n → i' < n → j < m → j' < m → f i j = f i' j' → i = i' ∧ j = j') :
    ((List.range n).flatMap fun i => (List.range m).map (f i)).Nodup := by
  rw [List.nodup_flatMap]
  constructor
  · intro i hi
    rw [List.mem_range] at hi
    refine List.Nodup.map_on ?_ List.nodup_range
    intro a ha b hb hab
    rw [List.mem_range] at ha hb
    exact (hf i a i b hi hi ha hb hab).2
  · refine List.Pairwise.imp_of_mem ?_ List.nodup_range
    intro i i' hi hi' hne
    rw [List.mem_range] at hi hi'
    intro x hx hx'
    simp only [List.mem_map, List.mem_range] at hx hx'
    obtain ⟨j, hj, rfl⟩ := hx
    obtain ⟨j', hj', h⟩ := hx'
    exact hne (hf i' j' i j hi' hi hj' hj h).1.symm

theorem mem_horizontalBonds {nx ny : ℕ} {b : Bond} :
    b ∈ horizontalBonds nx ny ↔
      b.s1.1 < nx ∧ b.s1.2 < ny ∧ b.s2 = ((b.s1.1 + 1) % nx, b.s1.2) ∧ b.k = 2 := by
  obtain ⟨⟨x, y⟩, s2, k⟩ := b
  simp only [horizontalBonds, List.mem_flatMap, List.mem_map, List.mem_range, Bond.mk.injEq,
    Prod.mk.injEq]
  constructor
  · rintro ⟨i, hi, j, hj, ⟨rfl, rfl⟩, rfl, rfl⟩
    exact ⟨hi, hj, rfl, rfl⟩
  · rintro ⟨hi, hj, rfl, rfl⟩
    exact ⟨x, hi, y, hj, ⟨rfl, rfl⟩, rfl, rfl⟩

theorem mem_verticalBonds {nx ny : ℕ} {b : Bond} :
    b ∈ verticalBonds nx ny ↔
      b.s1.1 < nx ∧ b.s1.2 < ny ∧ b.s2 = (b.s1.1, (b.s1.2 + 1) % ny) ∧ b.k = 1 := by
  obtain ⟨⟨x, y⟩, s2, k⟩ := b
  simp only [verticalBonds, List.mem_flatMap, List.mem_map, List.mem_range, Bond.mk.injEq,
    Prod.mk.injEq]
  constructor
  · rintro ⟨j, hj, i, hi, ⟨rfl, rfl⟩, rfl, rfl⟩
    exact ⟨hi, hj, rfl, rfl⟩
  · rintro ⟨hi, hj, rfl, rfl⟩
    exact ⟨y, hj, x, hi, ⟨rfl, rfl⟩, rfl, rfl⟩

theorem nodup_horizontalBonds (nx ny : ℕ) : (horizontalBonds nx ny).Nodup := by
  refine nodup_flatMap_range_map nx ny _ ?_
  intro i j i' j' _ _ _ _ h
  simp only [Bond.mk.injEq, Prod.mk.injEq] at h
  exact h.1

theorem nodup_verticalBonds (nx ny : ℕ) : (verticalBonds nx ny).Nodup := by
  refine nodup_flatMap_range_map ny nx _ ?_
  intro i j i' j' _ _ _ _ h
  simp only [Bond.mk.injEq, Prod.mk.injEq] at h
  exact ⟨h.1.2, h.1.1⟩

theorem nodup_buildBondList (nx ny : ℕ) : (buildBondList nx ny).Nodup := by
  rw [buildBondList, List.nodup_append]
  refine ⟨nodup_horizontalBonds nx ny, nodup_verticalBonds nx ny, ?_⟩
  intro a ha b hb hab
  rw [mem_horizontalBonds] at ha
  rw [mem_verticalBonds] at hb
  have := ha.2.2.2
  rw [hab, hb.2.2.2] at this
  omega

theorem length_buildBondList (nx ny : ℕ) : (buildBondList nx ny).length = 2 * nx * ny := by
  rw [buildBondList, List.length_append, horizontalBonds, verticalBonds,
    length_flatMap_range_map, length_flatMap_range_map]
  ring

theorem nodup_buildSiteList (nx ny : ℕ) : (buildSiteList nx ny).Nodup := by
  refine nodup_flatMap_range_map nx ny _ ?_
  intro i j i' j' _ _ _ _ h
  simpa using h

theorem int_mod_toNat_succ (x n : ℕ) : (((x : ℤ) + 1) % n).toNat = (x + 1) % n := by
  have : ((x : ℤ) + 1) % n = (((x + 1) % n : ℕ) : ℤ) := by push_cast; rfl
  rw [this, Int.toNat_natCast]

theorem int_mod_toNat_pred (x n : ℕ) (hn : 0 < n) :
    (((x : ℤ) - 1) % n).toNat = (x + n - 1) % n := by
  have h1 : ((x : ℤ) - 1) % n = ((x : ℤ) - 1 + n) % n := by simp
  have h2 : ((x : ℤ) - 1 + n) = ((x + n - 1 : ℕ) : ℤ) := by
    rw [Nat.cast_sub (by omega)]; push_cast; ring
  have : ((x : ℤ) - 1) % n = (((x + n - 1) % n : ℕ) : ℤ) := by rw [h1, h2]; push_cast; rfl
  rw [this, Int.toNat_natCast]

theorem mem_buildBondList {nx ny : ℕ} {b : Bond} :
    b ∈ buildBondList nx ny ↔
      (b.s1.1 < nx ∧ b.s1.2 < ny) ∧
        ((b.k = 2 ∧ b.s2 = ((b.s1.1 + 1) % nx, b.s1.2)) ∨
          (b.k = 1 ∧ b.s2 = (b.s1.1, (b.s1.2 + 1) % ny))) := by
  rw [buildBondList, List.mem_append, mem_horizontalBonds, mem_verticalBonds]
  tauto

/-- `x ↦ (x+1) % n` is a bijection of `[0,n)`; here: the preimage is unique. -/
theorem succ_mod_inj {n x y : ℕ} (hx : x < n) (hy : y < n) (h : (x + 1) % n = (y + 1) % n) :
    x = y := by
  rcases Nat.lt_or_ge (x + 1) n with hx' | hx' <;> rcases Nat.lt_or_ge (y + 1) n with hy' | hy'
  · rw [Nat.mod_eq_of_lt hx', Nat.mod_eq_of_lt hy'] at h; omega
  · have : y + 1 = n := by omega
    rw [Nat.mod_eq_of_lt hx', this, Nat.mod_self] at h; omega
  · have : x + 1 = n := by omega
    rw [Nat.mod_eq_of_lt hy', this, Nat.mod_self] at h; omega
  · omega

theorem pred_succ_mod {n x : ℕ} (hx : x < n) : ((x + n - 1) % n + 1) % n = x := by
  rcases Nat.eq_zero_or_pos x with rfl | hpos
  · rw [Nat.zero_add, Nat.mod_eq_of_lt (show n - 1 < n by omega), Nat.sub_add_cancel (by omega),
      Nat.mod_self]
  · have : x + n - 1 = (x - 1) + n := by omega
    rw [this, Nat.add_mod_right, Nat.mod_eq_of_lt (show x - 1 < n by omega), Nat.sub_add_cancel hpos,
      Nat.mod_eq_of_lt hx]

theorem succ_pred_mod {n x : ℕ} (hx : x < n) : ((x + 1) % n + n - 1) % n = x := by
  rcases Nat.lt_or_ge (x + 1) n with h | h
  · rw [Nat.mod_eq_of_lt h]
    have : x + 1 + n - 1 = x + n := by omega
    rw [this, Nat.add_mod_right, Nat.mod_eq_of_lt hx]
  · have : x + 1 = n := by omega
    rw [this, Nat.mod_self, Nat.zero_add, Nat.mod_eq_of_lt (by omega)]; omega

end AceTN
