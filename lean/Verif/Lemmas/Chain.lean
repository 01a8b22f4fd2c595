import Mathlib.Algebra.BigOperators.Fin
import Mathlib.Algebra.BigOperators.Ring.Finset
import Mathlib.Algebra.Field.Defs
import Mathlib.Data.Fintype.Pi
import Mathlib.Data.Fin.Tuple.Basic
import Mathlib.Logic.Equiv.Fin.Basic
import Mathlib.Tactic.Ring

/-!
Sums over all labellings of a chain of bonds, and the insertion of projectors into such a chain.
-/

set_option autoImplicit false

namespace AceTN

open Finset

variable {𝕜 α β : Type} [CommRing 𝕜] [Fintype α] [Fintype β]

/-- The chain with an open upper end: `e` is the tensor at the lower end, `g j` the one between bonds `j` and `j + 1`. -/
def chainSum (e : α → 𝕜) : (h : ℕ) → (Fin h → α → α → 𝕜) → α → 𝕜
  | 0, _, y => e y
  | h + 1, g, y => ∑ x, chainSum e h (fun j => g j.castSucc) x * g (Fin.last h) x y

/-- The recursion is the sum over all labels of the bonds. -/
theorem sum_labels (e : α → 𝕜) (h : ℕ) (g : Fin h → α → α → 𝕜) (k : α → 𝕜) :
    ∑ l : Fin (h + 1) → α, e (l 0) * (∏ j : Fin h, g j (l j.castSucc) (l j.succ)) * k (l (Fin.last h)) =
      ∑ y, chainSum e h g y * k y := by
  induction h generalizing k with
  | zero =>
    rw [← (Equiv.funUnique (Fin 1) α).symm.sum_comp]
    simp [chainSum]
  | succ h ih =>
    rw [← (Fin.snocEquiv fun _ : Fin (h + 2) => α).sum_comp, Fintype.sum_prod_type]
    simp only [chainSum, sum_mul]
    refine sum_congr rfl fun y _ => ?_
    have := ih (fun j => g j.castSucc) (fun x => g (Fin.last h) x y * k y)
    simp only [← mul_assoc] at this
    rw [← this]
    refine sum_congr rfl fun l _ => ?_
    rw [Fin.prod_univ_castSucc]
    have h0 : (Fin.snocEquiv (fun _ : Fin (h + 2) => α)) (y, l) 0 = l 0 := Fin.snoc_castSucc (α := fun _ => α) y l 0
    have h1 : ∀ j : Fin (h + 1), (Fin.snocEquiv (fun _ : Fin (h + 2) => α)) (y, l) j.castSucc = l j :=
      fun j => Fin.snoc_castSucc (α := fun _ => α) y l j
    have h2 : (Fin.snocEquiv (fun _ : Fin (h + 2) => α)) (y, l) (Fin.last _) = y := Fin.snoc_last (α := fun _ => α) y l
    simp only [h0, h1, h2, Fin.succ_last, Fin.succ_castSucc]
    ring

section insert

variable [DecidableEq α] (h : ℕ) (p1 p2 : Fin (h + 1) → α → β → 𝕜) (S : Fin (h + 1) → α → Prop) (c : Fin (h + 1) → 𝕜)

/-- The two projectors of every bond multiply to a multiple of the identity on the labels in use. -/
def Resolving : Prop :=
  ∀ j x y, S j x → S j y → ∑ z, p1 j x z * p2 j y z = if x = y then c j else 0

theorem resolve_at {h : ℕ} {p1 p2 : Fin (h + 1) → α → β → 𝕜} {S : Fin (h + 1) → α → Prop} {c : Fin (h + 1) → 𝕜}
    (hr : Resolving h p1 p2 S c) (j : Fin (h + 1)) (f k : α → 𝕜) (hf : ∀ x, ¬ S j x → f x = 0) (hk : ∀ x, ¬ S j x → k x = 0) :
    ∑ z, (∑ x, f x * p1 j x z) * (∑ y, p2 j y z * k y) = c j * ∑ x, f x * k x := by
  have h1 : ∀ x y, f x * k y * (∑ z, p1 j x z * p2 j y z) = if x = y then f x * k y * c j else 0 := by
    intro x y
    by_cases hx : S j x
    · by_cases hy : S j y
      · rw [hr j x y hx hy]
        split <;> simp
      · rw [hk y hy]
        simp
    · rw [hf x hx]
      simp
  have h2 : ∀ z, (∑ x, f x * p1 j x z) * (∑ y, p2 j y z * k y) = ∑ x, ∑ y, f x * k y * (p1 j x z * p2 j y z) := by
    intro z
    rw [sum_mul_sum]
    exact sum_congr rfl fun x _ => sum_congr rfl fun y _ => by ring
  simp only [h2]
  rw [sum_comm, mul_sum]
  refine sum_congr rfl fun x _ => ?_
  rw [sum_comm]
  simp only [← mul_sum, h1]
  simp
  ring

end insert

/-- Inserting projectors that resolve the identity in every bond of a chain multiplies it by a factor. -/
theorem chain_insert [DecidableEq α] (h : ℕ) (p1 p2 : Fin (h + 1) → α → β → 𝕜) (S : Fin (h + 1) → α → Prop)
    (c : Fin (h + 1) → 𝕜) (hr : Resolving h p1 p2 S c) (e : α → 𝕜) (he : ∀ x, ¬ S 0 x → e x = 0) (g : Fin h → α → α → 𝕜)
    (hg : ∀ j x y, ¬ S j.castSucc x → g j x y = 0) (hg' : ∀ j x y, ¬ S j.succ y → g j x y = 0) (z : β) :
    chainSum (fun z => ∑ x, e x * p1 0 x z) h (fun j z z' => ∑ x, ∑ y, p2 j.castSucc x z * g j x y * p1 j.succ y z') z =
      (∏ j : Fin h, c j.castSucc) * ∑ x, chainSum e h g x * p1 (Fin.last h) x z := by
  induction h generalizing z with
  | zero => simp [chainSum]
  | succ h ih =>
    have ih' := ih (fun j => p1 j.castSucc) (fun j => p2 j.castSucc) (fun j => S j.castSucc) (fun j => c j.castSucc)
      (fun j => hr j.castSucc) (by simpa using he) (fun j => g j.castSucc) (fun j => hg j.castSucc)
      (fun j x y => by simpa using hg' j.castSucc x y)
    simp only [chainSum]
    have hs : ∀ x, ¬ S (Fin.last h).castSucc x → chainSum e h (fun j => g j.castSucc) x = 0 := by
      intro x hx
      cases h with
      | zero => exact he x hx
      | succ h =>
        simp only [chainSum]
        refine sum_eq_zero fun y _ => ?_
        rw [hg' (Fin.last h).castSucc y x hx, mul_zero]
    have e1 : ∀ x z', (∑ x', ∑ y, p2 (Fin.last h).castSucc x' x * g (Fin.last h) x' y * p1 (Fin.last h).succ y z') =
        ∑ x', p2 (Fin.last h).castSucc x' x * ∑ y, g (Fin.last h) x' y * p1 (Fin.last h).succ y z' := by
      intro x z'
      simp only [mul_sum, mul_assoc]
    have step : ∀ x, chainSum (fun z => ∑ x, e x * p1 0 x z) h (fun j z z' =>
        ∑ x, ∑ y, p2 j.castSucc.castSucc x z * g j.castSucc x y * p1 j.castSucc.succ y z') x =
        (∏ j : Fin h, c j.castSucc.castSucc) * ∑ y, chainSum e h (fun j => g j.castSucc) y * p1 (Fin.last h).castSucc y x := by
      intro x
      have := ih' x
      simpa using this
    simp only [step, e1]
    simp only [mul_assoc, ← mul_sum]
    rw [resolve_at hr (Fin.last h).castSucc _ _ hs fun x hx => sum_eq_zero fun y _ => by rw [hg _ x y hx, zero_mul]]
    rw [Fin.prod_univ_castSucc]
    simp only [mul_assoc]
    congr 2
    simp only [mul_sum, sum_mul, mul_assoc]
    rw [sum_comm]
    rfl

/-- The same for the closed chain. -/
theorem chain_insert_closed [DecidableEq α] (h : ℕ) (p1 p2 : Fin (h + 1) → α → β → 𝕜) (S : Fin (h + 1) → α → Prop)
    (c : Fin (h + 1) → 𝕜) (hr : Resolving h p1 p2 S c) (e : α → 𝕜) (he : ∀ x, ¬ S 0 x → e x = 0) (g : Fin h → α → α → 𝕜)
    (hg : ∀ j x y, ¬ S j.castSucc x → g j x y = 0) (hg' : ∀ j x y, ¬ S j.succ y → g j x y = 0) (k : α → 𝕜)
    (hk : ∀ x, ¬ S (Fin.last h) x → k x = 0) :
    ∑ l : Fin (h + 1) → β, (∑ x, e x * p1 0 x (l 0)) *
      (∏ j : Fin h, ∑ x, ∑ y, p2 j.castSucc x (l j.castSucc) * g j x y * p1 j.succ y (l j.succ)) *
      (∑ x, p2 (Fin.last h) x (l (Fin.last h)) * k x) =
    (∏ j, c j) * ∑ l : Fin (h + 1) → α, e (l 0) * (∏ j : Fin h, g j (l j.castSucc) (l j.succ)) * k (l (Fin.last h)) := by
  rw [sum_labels e h g k, sum_labels (fun z => ∑ x, e x * p1 0 x z) h
    (fun j z z' => ∑ x, ∑ y, p2 j.castSucc x z * g j x y * p1 j.succ y z') (fun z => ∑ x, p2 (Fin.last h) x z * k x)]
  have hs : ∀ x, ¬ S (Fin.last h) x → chainSum e h g x = 0 := by
    intro x hx
    cases h with
    | zero => exact he x hx
    | succ h =>
      simp only [chainSum]
      refine sum_eq_zero fun y _ => ?_
      rw [hg' _ y x (by simpa using hx), mul_zero]
  rw [sum_congr rfl fun z _ => congrArg (· * _) (chain_insert h p1 p2 S c hr e he g hg hg' z)]
  simp only [mul_assoc, ← mul_sum]
  rw [resolve_at hr (Fin.last h) _ _ hs hk, Fin.prod_univ_castSucc]
  ring

end AceTN
