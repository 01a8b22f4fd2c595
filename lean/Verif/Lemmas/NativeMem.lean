import Verif.Model.NativeAls
import Verif.Props.Native

/-! Reading back what a contraction has written. -/

set_option autoImplicit false

namespace AceTN.Native

variable {𝕜 : Type} [RCLike 𝕜]

theorem mem_indices (shape idx : List ℕ) : idx ∈ indices shape ↔ List.Forall₂ (· < ·) idx shape := by
  induction shape generalizing idx with
  | nil => simp [indices]
  | cons n s ih =>
    cases idx with
    | nil => simp [indices]
    | cons i is =>
      simp only [indices, List.mem_flatMap, List.mem_range, List.mem_map, List.cons.injEq, List.forall₂_cons, ← ih]
      constructor
      · rintro ⟨j, hj, l, hl, rfl, rfl⟩
        exact ⟨hj, hl⟩
      · rintro ⟨h1, h2⟩
        exact ⟨i, h1, is, h2, rfl, rfl⟩

omit [RCLike 𝕜] in
theorem writeAll_at (shape : List ℕ) (f : List ℕ → 𝕜) (mem : ℕ → 𝕜) (idx : List ℕ)
    (h : List.Forall₂ (· < ·) idx shape) : writeAll shape f mem (offset idx (rowMajorStrides shape)) = f idx := by
  unfold writeAll
  cases hf : (indices shape).find? fun i => offset i (rowMajorStrides shape) = offset idx (rowMajorStrides shape) with
  | none =>
    rw [List.find?_eq_none] at hf
    have := hf idx ((mem_indices _ _).2 h)
    simp at this
  | some j =>
    have h1 := List.find?_some hf
    have h2 := List.mem_of_find?_eq_some hf
    simp only [decide_eq_true_eq] at h1
    have := C55_offset_injective shape j idx ((mem_indices _ _).1 h2) h h1
    simp [this]

theorem contract_get (p : Plan) (A B C : Buf 𝕜) (hC : C.shape = p.parsed.extentC) (idx : List ℕ)
    (h : List.Forall₂ (· < ·) idx p.parsed.extentC) : (contract p A B C).get idx = p.value A.mem B.mem idx := by
  unfold Buf.get contract
  simp only [hC]
  exact writeAll_at _ _ _ _ h

end AceTN.Native
