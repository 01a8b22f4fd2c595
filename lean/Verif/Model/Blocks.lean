import Mathlib.Data.Nat.Basic
import Mathlib.Tactic.Common

/-!
Slices `x[lo:hi]` and the block loops of `rdm.py` and `full_update.py`.
-/

set_option autoImplicit false

namespace AceTN

/-- A slice `lo:hi` of an axis of length `n`. -/
structure Blk (n : ℕ) where
  lo : ℕ
  hi : ℕ
  le : hi ≤ n

/-- Reading a slice of an axis. -/
def Blk.slice {n : ℕ} {α : Type} (b : Blk n) (f : Fin n → α) : Fin (b.hi - b.lo) → α :=
  fun i => f ⟨b.lo + i.val, by have := i.isLt; have := b.le; omega⟩

/-- `x[b, c] = new` (assignment to a slice of two axes). -/
def Blk.write {n : ℕ} {α : Type} (b c : Blk n) (new : Fin (b.hi - b.lo) → Fin (c.hi - c.lo) → α)
    (old : Fin n → Fin n → α) : Fin n → Fin n → α :=
  fun i j =>
    if h : (b.lo ≤ i.val ∧ i.val < b.hi) ∧ (c.lo ≤ j.val ∧ j.val < c.hi) then
      new ⟨i.val - b.lo, by omega⟩ ⟨j.val - c.lo, by omega⟩
    else old i j

/-- `(b, min(n, b+BC)) for b in range(0, n, BC)`: rdm.py 136-138, full_update.py 234-236. -/
def blocks (n BC : ℕ) : List (Blk n) :=
  (List.range ((n + BC - 1) / BC)).map fun i => ⟨i * BC, min n (i * BC + BC), Nat.min_le_left _ _⟩

/-- `block_indices`, rdm.py 137-138, full_update.py 235-236. -/
def blockIndices (n BC : ℕ) : List (Blk n × Blk n) :=
  (blocks n BC).flatMap fun b => (blocks n BC).map fun c => (b, c)

end AceTN
