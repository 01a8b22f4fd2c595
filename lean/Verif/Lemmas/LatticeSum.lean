import Verif.Lemmas.Lattice
import Mathlib.Algebra.BigOperators.Group.Finset.Basic
import Mathlib.Algebra.BigOperators.Intervals
import Mathlib.Algebra.BigOperators.Fin
import Mathlib.Tactic.Abel

set_option autoImplicit false

namespace AceTN
open Spec Finset

variable {M : Type*} [AddCommMonoid M]

theorem sum_map_range (n : ℕ) (f : ℕ → M) : ((List.range n).map f).sum = ∑ i ∈ range n, f i := by
  rw [Finset.sum_range, ← List.sum_ofFn]
  congr 1
  apply List.ext_getElem <;> simp

theorem sum_flatMap_range {α : Type*} (n m : ℕ) (f : ℕ → ℕ → α) (g : α → M) :
    ((((List.range n).flatMap fun i => (List.range m).map (f i))).map g).sum
      = ∑ i ∈ range n, ∑ j ∈ range m, g (f i j) := by
  induction n with
  | zero => simp
  | succ n ih =>
    rw [List.range_succ, List.flatMap_append, List.map_append, List.sum_append, ih,
      Finset.sum_range_succ]
    simp only [List.flatMap_cons, List.flatMap_nil, List.append_nil, List.map_map]
    rw [sum_map_range]
    rfl

theorem sum_shift (n : ℕ) (f : ℕ → M) : ∑ i ∈ range n, f ((i + 1) % n) = ∑ i ∈ range n, f i := by
  refine Finset.sum_bij' (fun i _ => (i + 1) % n) (fun i _ => (i + n - 1) % n) ?_ ?_ ?_ ?_ ?_
  · intro i hi; rw [mem_range] at *; exact Nat.mod_lt _ (by omega)
  · intro i hi; rw [mem_range] at *; exact Nat.mod_lt _ (by omega)
  · intro i hi; rw [mem_range] at hi; exact succ_pred_mod hi
  · intro i hi; rw [mem_range] at hi; exact pred_succ_mod hi
  · intro i _; rfl

theorem sum_bonds (nx ny : ℕ) (g : Bond → M) :
    ((buildBondList nx ny).map g).sum
      = ∑ x ∈ range nx, ∑ y ∈ range ny, g ⟨(x, y), ((x + 1) % nx, y), 2⟩
        + ∑ x ∈ range nx, ∑ y ∈ range ny, g ⟨(x, y), (x, (y + 1) % ny), 1⟩ := by
  rw [buildBondList, List.map_append, List.sum_append, horizontalBonds, verticalBonds,
    sum_flatMap_range, sum_flatMap_range]
  congr 1
  rw [Finset.sum_comm]

theorem sum_sites (nx ny : ℕ) (g : Site → M) :
    ((buildSiteList nx ny).map g).sum = ∑ x ∈ range nx, ∑ y ∈ range ny, g (x, y) := by
  rw [buildSiteList, sum_flatMap_range]

/-- Summing over the two ends of every bond is summing over the four sides of every site. -/
theorem sum_bond_ends (nx ny : ℕ) (A : Site → Site → M) :
    ((buildBondList nx ny).map fun b => A b.s1 b.s2 + A b.s2 b.s1).sum
      = ((buildSiteList nx ny).map fun s =>
          ∑ d ∈ range 4, A s (neighbour nx ny s d)).sum := by
  rw [sum_bonds, sum_sites]
  have h0 : ∑ x ∈ range nx, ∑ y ∈ range ny, A ((x + 1) % nx, y) (x, y)
      = ∑ x ∈ range nx, ∑ y ∈ range ny, A (x, y) (neighbour nx ny (x, y) 0) := by
    rw [← sum_shift nx (fun x => ∑ y ∈ range ny, A (x, y) (neighbour nx ny (x, y) 0))]
    refine Finset.sum_congr rfl fun x hx => Finset.sum_congr rfl fun y hy => ?_
    rw [mem_range] at hx
    rw [neighbour, int_mod_toNat_pred _ _ (by omega), succ_pred_mod hx]
  have h3 : ∑ x ∈ range nx, ∑ y ∈ range ny, A (x, (y + 1) % ny) (x, y)
      = ∑ x ∈ range nx, ∑ y ∈ range ny, A (x, y) (neighbour nx ny (x, y) 3) := by
    refine Finset.sum_congr rfl fun x hx => ?_
    rw [← sum_shift ny (fun y => A (x, y) (neighbour nx ny (x, y) 3))]
    refine Finset.sum_congr rfl fun y hy => ?_
    rw [mem_range] at hy
    simp only [neighbour]
    rw [int_mod_toNat_pred _ _ (by omega), succ_pred_mod hy]
  have h2 : ∑ x ∈ range nx, ∑ y ∈ range ny, A (x, y) ((x + 1) % nx, y)
      = ∑ x ∈ range nx, ∑ y ∈ range ny, A (x, y) (neighbour nx ny (x, y) 2) := by
    refine Finset.sum_congr rfl fun x hx => Finset.sum_congr rfl fun y hy => ?_
    rw [neighbour, int_mod_toNat_succ]
  have h1 : ∑ x ∈ range nx, ∑ y ∈ range ny, A (x, y) (x, (y + 1) % ny)
      = ∑ x ∈ range nx, ∑ y ∈ range ny, A (x, y) (neighbour nx ny (x, y) 1) := by
    refine Finset.sum_congr rfl fun x hx => Finset.sum_congr rfl fun y hy => ?_
    rw [neighbour, int_mod_toNat_succ]
  simp only [Finset.sum_add_distrib, Finset.sum_range_succ, Finset.sum_range_zero, zero_add]
  rw [h0, h1, h2, h3]
  abel

end AceTN
