import Verif.Lemmas.Lattice

/-!
Properties C01, C02 and the lattice half of C03.
-/

set_option autoImplicit false

namespace AceTN
open Spec

/-- **C01.** `site_list` contains every coordinate of the cell exactly once, and nothing else. -/
theorem C01_site_list (nx ny : ℕ) :
    (buildSiteList nx ny).Nodup ∧
      (buildSiteList nx ny).length = nx * ny ∧
      ∀ s, s ∈ buildSiteList nx ny ↔ InCell nx ny s :=
  ⟨nodup_buildSiteList nx ny, length_flatMap_range_map nx ny _, fun _ => mem_buildSiteList⟩

/-- Non-vacuity: on a 2 × 3 cell the theorem describes these six sites. -/
example : buildSiteList 2 3 = [(0,0),(0,1),(0,2),(1,0),(1,1),(1,2)] := by decide

/-- **C02.** `bond_list` has `2·nx·ny` entries, none repeated, and its members are exactly the bonds
from a site of the cell to its right neighbour (`k = 2`) or to its upper neighbour (`k = 1`). -/
theorem C02_bond_list (nx ny : ℕ) :
    (buildBondList nx ny).length = 2 * nx * ny ∧
      (buildBondList nx ny).Nodup ∧
      ∀ b, b ∈ buildBondList nx ny ↔
        InCell nx ny b.s1 ∧ (b.k = 2 ∨ b.k = 1) ∧ b.s2 = neighbour nx ny b.s1 b.k := by
  refine ⟨length_buildBondList nx ny, nodup_buildBondList nx ny, ?_⟩
  intro b
  rw [mem_buildBondList]
  constructor
  · rintro ⟨h, ⟨hk, hs⟩ | ⟨hk, hs⟩⟩
    · refine ⟨h, Or.inl hk, ?_⟩
      rw [hk, hs, neighbour, int_mod_toNat_succ]
    · refine ⟨h, Or.inr hk, ?_⟩
      rw [hk, hs, neighbour, int_mod_toNat_succ]
  · rintro ⟨h, hk | hk, hs⟩
    · refine ⟨h, Or.inl ⟨hk, ?_⟩⟩
      rw [hs, hk, neighbour, int_mod_toNat_succ]
    · refine ⟨h, Or.inr ⟨hk, ?_⟩⟩
      rw [hs, hk, neighbour, int_mod_toNat_succ]

/-- **C02 (closure).** Both ends of every listed bond are sites of the cell. -/
theorem C02_bond_ends_in_cell (nx ny : ℕ) (b : Bond) (hb : b ∈ buildBondList nx ny) :
    b.s1 ∈ buildSiteList nx ny ∧ b.s2 ∈ buildSiteList nx ny := by
  rw [mem_buildBondList] at hb
  rw [mem_buildSiteList, mem_buildSiteList]
  obtain ⟨⟨hx, hy⟩, ⟨_, hs⟩ | ⟨_, hs⟩⟩ := hb <;> rw [hs] <;> refine ⟨⟨hx, hy⟩, ?_, ?_⟩
  · exact Nat.mod_lt _ (by omega)
  · exact hy
  · exact hx
  · exact Nat.mod_lt _ (by omega)

example : (⟨(1,0),(0,0),2⟩ : Bond) ∈ buildBondList 2 2 := by decide

/-- **C03 (sides).** Every direction of every site of the cell is an end of exactly one listed bond. -/
theorem C03_unique_bond_per_side (nx ny : ℕ) (s : Site) (hs : InCell nx ny s) (d : ℕ) (hd : d < 4) :
    ∃! b, b ∈ buildBondList nx ny ∧ HasEnd b s d := by
  obtain ⟨x, y⟩ := s
  obtain ⟨hx, hy⟩ := hs
  simp only at hx hy
  have hcases : d = 0 ∨ d = 1 ∨ d = 2 ∨ d = 3 := by omega
  rcases hcases with rfl | rfl | rfl | rfl
  · -- left: the horizontal bond that ends here
    refine ⟨⟨((x + nx - 1) % nx, y), (x, y), 2⟩, ⟨?_, Or.inr ⟨rfl, rfl⟩⟩, ?_⟩
    · rw [mem_buildBondList]
      exact ⟨⟨Nat.mod_lt _ (by omega), hy⟩, Or.inl ⟨rfl, by simp only [pred_succ_mod hx]⟩⟩
    · rintro ⟨⟨x', y'⟩, s2, k⟩ ⟨hb, hE⟩
      rw [mem_buildBondList] at hb
      simp only [HasEnd] at hb hE
      rcases hb with ⟨⟨hx', hy'⟩, ⟨rfl, rfl⟩ | ⟨rfl, rfl⟩⟩
      · rcases hE with ⟨_, h⟩ | ⟨h, _⟩
        · omega
        · simp only [Prod.mk.injEq] at h
          obtain ⟨h1, rfl⟩ := h
          have : x' = (x + nx - 1) % nx := by rw [← h1, succ_pred_mod hx']
          subst this
          simp [pred_succ_mod hx]
      · rcases hE with ⟨_, h⟩ | ⟨_, h⟩
        · omega
        · simp [opposite] at h
  · refine ⟨⟨(x, y), (x, (y + 1) % ny), 1⟩, ⟨?_, Or.inl ⟨rfl, rfl⟩⟩, ?_⟩
    · rw [mem_buildBondList]; exact ⟨⟨hx, hy⟩, Or.inr ⟨rfl, rfl⟩⟩
    · rintro ⟨⟨x', y'⟩, s2, k⟩ ⟨hb, hE⟩
      rw [mem_buildBondList] at hb
      simp only [HasEnd] at hb hE
      rcases hb with ⟨⟨hx', hy'⟩, ⟨rfl, rfl⟩ | ⟨rfl, rfl⟩⟩
      · rcases hE with ⟨_, h⟩ | ⟨_, h⟩
        · omega
        · simp [opposite] at h
      · rcases hE with ⟨h, _⟩ | ⟨_, h⟩
        · simp only [Prod.mk.injEq] at h
          obtain ⟨rfl, rfl⟩ := h
          rfl
        · simp [opposite] at h
  · refine ⟨⟨(x, y), ((x + 1) % nx, y), 2⟩, ⟨?_, Or.inl ⟨rfl, rfl⟩⟩, ?_⟩
    · rw [mem_buildBondList]; exact ⟨⟨hx, hy⟩, Or.inl ⟨rfl, rfl⟩⟩
    · rintro ⟨⟨x', y'⟩, s2, k⟩ ⟨hb, hE⟩
      rw [mem_buildBondList] at hb
      simp only [HasEnd] at hb hE
      rcases hb with ⟨⟨hx', hy'⟩, ⟨rfl, rfl⟩ | ⟨rfl, rfl⟩⟩
      · rcases hE with ⟨h, _⟩ | ⟨_, h⟩
        · simp only [Prod.mk.injEq] at h
          obtain ⟨rfl, rfl⟩ := h
          rfl
        · simp [opposite] at h
      · rcases hE with ⟨_, h⟩ | ⟨_, h⟩
        · omega
        · simp [opposite] at h
  · refine ⟨⟨(x, (y + ny - 1) % ny), (x, y), 1⟩, ⟨?_, Or.inr ⟨rfl, rfl⟩⟩, ?_⟩
    · rw [mem_buildBondList]
      exact ⟨⟨hx, Nat.mod_lt _ (by omega)⟩, Or.inr ⟨rfl, by simp only [pred_succ_mod hy]⟩⟩
    · rintro ⟨⟨x', y'⟩, s2, k⟩ ⟨hb, hE⟩
      rw [mem_buildBondList] at hb
      simp only [HasEnd] at hb hE
      rcases hb with ⟨⟨hx', hy'⟩, ⟨rfl, rfl⟩ | ⟨rfl, rfl⟩⟩
      · rcases hE with ⟨_, h⟩ | ⟨_, h⟩
        · omega
        · simp [opposite] at h
      · rcases hE with ⟨_, h⟩ | ⟨h, _⟩
        · omega
        · simp only [Prod.mk.injEq] at h
          obtain ⟨rfl, h1⟩ := h
          have : y' = (y + ny - 1) % ny := by rw [← h1, succ_pred_mod hy']
          subst this
          simp [pred_succ_mod hy]

/-- **C03 (neighbours).** A listed bond that leaves `s` in direction `d` connects `s` with its
neighbour in direction `d`: seen from the other end it leaves that neighbour in the opposite direction. -/
theorem C03_bond_reaches_neighbour (nx ny : ℕ) (s : Site) (d : ℕ) (b : Bond)
    (hb : b ∈ buildBondList nx ny) (hE : HasEnd b s d) :
    HasEnd b (neighbour nx ny s d) (opposite d) := by
  obtain ⟨⟨x', y'⟩, s2, k⟩ := b
  rw [mem_buildBondList] at hb
  simp only [HasEnd] at hb hE ⊢
  rcases hb with ⟨⟨hx', hy'⟩, ⟨rfl, rfl⟩ | ⟨rfl, rfl⟩⟩ <;> rcases hE with ⟨rfl, rfl⟩ | ⟨rfl, rfl⟩
  · right; simp [opposite, neighbour, int_mod_toNat_succ]
  · left
    simp only [opposite, neighbour, int_mod_toNat_pred _ _ (by omega : 0 < nx), succ_pred_mod hx',
      and_self]
  · right; simp [opposite, neighbour, int_mod_toNat_succ]
  · left
    simp only [opposite, neighbour, int_mod_toNat_pred _ _ (by omega : 0 < ny), succ_pred_mod hy',
      and_self]

/-- Non-vacuity: the right side of the corner site of a 3 × 2 cell is an end of a wrapping bond. -/
example : InCell 3 2 (2, 1) ∧ HasEnd ⟨(2,1),(0,1),2⟩ (2,1) 2 ∧ HasEnd ⟨(2,1),(0,1),2⟩ (0,1) 0 := by
  refine ⟨⟨by decide, by decide⟩, Or.inl ⟨rfl, rfl⟩, Or.inr ⟨rfl, rfl⟩⟩

end AceTN
