import Verif.Model.LinAlg

/-!
Singular values of a real matrix with at most one entry per row and column: the two largest ones and their vectors, for
every singular value decomposition.
-/

set_option autoImplicit false

namespace AceTN

open Matrix

variable {m n C : Type} [Fintype m] [Fintype n] {r : ℕ}

/-- The matrix has the entries `σ c` at `(e c, f c)` and no others. -/
structure Sparse (M : Matrix m n ℝ) (e : C → m) (f : C → n) (σ : C → ℝ) : Prop where
  inj1 : Function.Injective e
  inj2 : Function.Injective f
  entry : ∀ c, M (e c) (f c) = σ c
  zero : ∀ i j, M i j ≠ 0 → ∃ c, i = e c ∧ j = f c

variable {M : Matrix m n ℝ} {e : C → m} {f : C → n} {σ : C → ℝ} {U : Matrix m (Fin r) ℝ} {S : Fin r → ℝ}
  {Vh : Matrix (Fin r) n ℝ}

theorem svd_mul_right (h : IsSVD M U S Vh) (i : m) (a : Fin r) : ∑ j, M i j * Vh a j = U i a * S a := by
  have h1 : M * Vhᴴ = U * diagonal S := by
    have := h.mul
    rw [this]
    rw [Matrix.mul_assoc, h.right, Matrix.mul_one]
    rfl
  have h2 := congrFun (congrFun h1 i) a
  rw [mul_apply, mul_diagonal] at h2
  simpa using h2

theorem svd_mul_left (h : IsSVD M U S Vh) (a : Fin r) (j : n) : ∑ i, U i a * M i j = S a * Vh a j := by
  have h1 : Uᴴ * M = diagonal S * Vh := by
    have := h.mul
    rw [this, ← Matrix.mul_assoc, ← Matrix.mul_assoc, h.left, Matrix.one_mul]
    rfl
  have h2 := congrFun (congrFun h1 a) j
  rw [mul_apply, diagonal_mul] at h2
  simpa using h2

omit [Fintype m] in
theorem Sparse.row (hs : Sparse M e f σ) (c : C) (x : n → ℝ) : ∑ j, M (e c) j * x j = σ c * x (f c) := by
  rw [Finset.sum_eq_single (f c), hs.entry]
  · intro j _ hj
    by_contra hne
    obtain ⟨c', h1, h2⟩ := hs.zero (e c) j (left_ne_zero_of_mul hne)
    rw [hs.inj1 h1] at hj
    exact hj h2
  · simp

omit [Fintype n] in
theorem Sparse.col (hs : Sparse M e f σ) (c : C) (x : m → ℝ) : ∑ i, x i * M i (f c) = x (e c) * σ c := by
  rw [Finset.sum_eq_single (e c), hs.entry]
  · intro i _ hi
    by_contra hne
    obtain ⟨c', h1, h2⟩ := hs.zero i (f c) (right_ne_zero_of_mul hne)
    rw [hs.inj2 h2] at hi
    exact hi h1
  · simp

/-- The support of a left singular vector. -/
theorem Sparse.support (hs : Sparse M e f σ) (h : IsSVD M U S Vh) (a : Fin r) (ha : 0 < S a) (i : m) (hi : U i a ≠ 0) :
    ∃ c, i = e c ∧ |σ c| = S a := by
  have h1 := svd_mul_right h i a
  have hne : ∑ j, M i j * Vh a j ≠ 0 := by rw [h1]; exact mul_ne_zero hi ha.ne'
  obtain ⟨j, _, hj⟩ := Finset.exists_ne_zero_of_sum_ne_zero hne
  obtain ⟨c, rfl, rfl⟩ := hs.zero i j (left_ne_zero_of_mul hj)
  refine ⟨c, rfl, ?_⟩
  rw [hs.row] at h1
  have h2 := svd_mul_left h a (f c)
  rw [hs.col] at h2
  have h3 : (σ c ^ 2 - S a ^ 2) * U (e c) a = 0 := by linear_combination σ c * h2 + S a * h1
  rcases mul_eq_zero.1 h3 with h4 | h4
  · rw [← abs_of_pos ha]
    exact (sq_eq_sq_iff_abs_eq_abs _ _).1 (by linarith)
  · exact absurd h4 hi

theorem Sparse.support' (hs : Sparse M e f σ) (h : IsSVD M U S Vh) (a : Fin r) (ha : 0 < S a) (j : n) (hj : Vh a j ≠ 0) :
    ∃ c, j = f c ∧ |σ c| = S a := by
  have h1 := svd_mul_left h a j
  have hne : ∑ i, U i a * M i j ≠ 0 := by rw [h1]; exact mul_ne_zero ha.ne' hj
  obtain ⟨i, _, hi⟩ := Finset.exists_ne_zero_of_sum_ne_zero hne
  obtain ⟨c, rfl, rfl⟩ := hs.zero i j (right_ne_zero_of_mul hi)
  obtain ⟨c', h2, h3⟩ := hs.support h a ha (e c) (left_ne_zero_of_mul hi)
  exact ⟨c, rfl, by rw [hs.inj1 h2]; exact h3⟩

/-- Every entry is a singular value. -/
theorem Sparse.occurs (hs : Sparse M e f σ) (h : IsSVD M U S Vh) (c : C) (hc : σ c ≠ 0) :
    ∃ a, S a = |σ c| ∧ U (e c) a ≠ 0 := by
  have h1 : ∑ a, U (e c) a * S a * Vh a (f c) ≠ 0 := by
    have h2 := hs.entry c
    rw [h.mul, mul_apply] at h2
    simp only [mul_diagonal] at h2
    rw [show (∑ a, U (e c) a * S a * Vh a (f c)) = σ c from h2]
    exact hc
  obtain ⟨a, _, ha⟩ := Finset.exists_ne_zero_of_sum_ne_zero h1
  have hU : U (e c) a ≠ 0 := left_ne_zero_of_mul (left_ne_zero_of_mul ha)
  have hS : 0 < S a := lt_of_le_of_ne (h.nonneg a) (Ne.symm (right_ne_zero_of_mul (left_ne_zero_of_mul ha)))
  obtain ⟨c', h2, h3⟩ := hs.support h a hS _ hU
  rw [← hs.inj1 h2] at h3
  exact ⟨a, h3.symm, hU⟩

theorem svd_col_norm (h : IsSVD M U S Vh) (a : Fin r) : ∑ i, U i a ^ 2 = 1 := by
  have := congrFun (congrFun h.left a) a
  rw [mul_apply, one_apply_eq] at this
  rw [← this]
  refine Finset.sum_congr rfl fun i _ => ?_
  simp [sq]

theorem svd_row_norm (h : IsSVD M U S Vh) (a : Fin r) : ∑ j, Vh a j ^ 2 = 1 := by
  have := congrFun (congrFun h.right a) a
  rw [mul_apply, one_apply_eq] at this
  rw [← this]
  refine Finset.sum_congr rfl fun i _ => ?_
  simp [sq]

/-- A singular value that only one entry has: its vectors are unit vectors. -/
theorem Sparse.unit (hs : Sparse M e f σ) (h : IsSVD M U S Vh) (a : Fin r) (ha : 0 < S a) (c : C)
    (huniq : ∀ c', |σ c'| = S a → c' = c) [DecidableEq m] [DecidableEq n] :
    (∀ i, i ≠ e c → U i a = 0) ∧ (∀ j, j ≠ f c → Vh a j = 0) ∧ |U (e c) a| = 1 ∧ |Vh a (f c)| = 1 := by
  have h1 : ∀ i, i ≠ e c → U i a = 0 := by
    intro i hi
    by_contra hne
    obtain ⟨c', rfl, h2⟩ := hs.support h a ha i hne
    exact hi (by rw [huniq c' h2])
  have h2 : ∀ j, j ≠ f c → Vh a j = 0 := by
    intro i hi
    by_contra hne
    obtain ⟨c', rfl, h2⟩ := hs.support' h a ha i hne
    exact hi (by rw [huniq c' h2])
  refine ⟨h1, h2, ?_, ?_⟩
  · have := svd_col_norm h a
    rw [Finset.sum_eq_single (e c) (fun i _ hi => by rw [h1 i hi]; ring) (by simp)] at this
    simpa using (sq_eq_sq_iff_abs_eq_abs (U (e c) a) 1).1 (by simpa using this)
  · have := svd_row_norm h a
    rw [Finset.sum_eq_single (f c) (fun i _ hi => by rw [h2 i hi]; ring) (by simp)] at this
    simpa using (sq_eq_sq_iff_abs_eq_abs (Vh a (f c)) 1).1 (by simpa using this)

/-- The two largest entries, if they are larger than all the others and differ, are the first two singular values. -/
theorem Sparse.top (hs : Sparse M e f σ) (h : IsSVD M U S Vh) (c0 c1 : C) (h01 : |σ c1| < |σ c0|) (h1 : 0 < |σ c1|)
    (hrest : ∀ c, c ≠ c0 → c ≠ c1 → |σ c| < |σ c1|) (hr : 2 ≤ r) [DecidableEq m] [DecidableEq n] :
    S ⟨0, by omega⟩ = |σ c0| ∧ S ⟨1, by omega⟩ = |σ c1| ∧
      ((∀ i, i ≠ e c0 → U i ⟨0, by omega⟩ = 0) ∧ (∀ j, j ≠ f c0 → Vh ⟨0, by omega⟩ j = 0) ∧
        |U (e c0) ⟨0, by omega⟩| = 1 ∧ |Vh ⟨0, by omega⟩ (f c0)| = 1) ∧
      ((∀ i, i ≠ e c1 → U i ⟨1, by omega⟩ = 0) ∧ (∀ j, j ≠ f c1 → Vh ⟨1, by omega⟩ j = 0) ∧
        |U (e c1) ⟨1, by omega⟩| = 1 ∧ |Vh ⟨1, by omega⟩ (f c1)| = 1) := by
  have hle0 : ∀ c, |σ c| ≤ |σ c0| := by
    intro c
    by_cases hc : c = c0
    · rw [hc]
    by_cases hc' : c = c1
    · rw [hc']; exact h01.le
    · exact ((hrest c hc hc').trans h01).le
  have hne0 : σ c0 ≠ 0 := abs_pos.1 (h1.trans h01)
  have hne1 : σ c1 ≠ 0 := abs_pos.1 h1
  have hnz : ∀ a, ∃ i, U i a ≠ 0 := by
    intro a
    by_contra hall
    push Not at hall
    have := svd_col_norm h a
    simp [hall] at this
  obtain ⟨a0, ha0, hU0⟩ := hs.occurs h c0 hne0
  have hS0 : |σ c0| ≤ S ⟨0, by omega⟩ := by rw [← ha0]; exact h.sorted _ _ (Fin.mk_le_of_le_val (Nat.zero_le _))
  have hp0 : 0 < S ⟨0, by omega⟩ := lt_of_lt_of_le (h1.trans h01) hS0
  obtain ⟨i0, hi0⟩ := hnz ⟨0, by omega⟩
  obtain ⟨c, -, hc⟩ := hs.support h _ hp0 i0 hi0
  have hE0 : S ⟨0, by omega⟩ = |σ c0| := le_antisymm (hc ▸ hle0 c) hS0
  have hu0 := hs.unit h ⟨0, by omega⟩ hp0 c0 (fun c' hc' => by
    by_contra hcc
    rw [hE0] at hc'
    by_cases hc1 : c' = c1
    · rw [hc1] at hc'; exact h01.ne hc'
    · exact ((hrest c' hcc hc1).trans h01).ne hc')
  obtain ⟨a1, ha1, hU1⟩ := hs.occurs h c1 hne1
  have hcc : c1 ≠ c0 := fun hh => by rw [hh] at h01; exact lt_irrefl _ h01
  have ha1ne : a1 ≠ ⟨0, by omega⟩ := by
    rintro rfl
    exact hU1 (hu0.1 _ (fun hh => hcc (hs.inj1 hh)))
  have hS1 : |σ c1| ≤ S ⟨1, by omega⟩ := by
    rw [← ha1]
    refine h.sorted _ _ (Fin.mk_le_of_le_val ?_)
    rcases Nat.eq_zero_or_pos a1.val with h0 | h0
    · exact absurd (Fin.ext h0) ha1ne
    · exact h0
  have hp1 : 0 < S ⟨1, by omega⟩ := lt_of_lt_of_le h1 hS1
  obtain ⟨i1, hi1⟩ := hnz ⟨1, by omega⟩
  obtain ⟨c', hic', hc'⟩ := hs.support h _ hp1 i1 hi1
  have hnot0 : c' ≠ c0 := by
    rintro rfl
    rw [hic'] at hi1
    have horth := congrFun (congrFun h.left ⟨0, by omega⟩) ⟨1, by omega⟩
    rw [mul_apply, one_apply_ne (by simp),
      Finset.sum_eq_single (e c') (fun i _ hi => by simp [hu0.1 i hi]) (by simp)] at horth
    simp only [conjTranspose_apply, star_trivial, mul_eq_zero] at horth
    rcases horth with hz | hz
    · have := hu0.2.2.1
      rw [hz] at this
      simp at this
    · exact hi1 hz
  have hle1 : ∀ c, c ≠ c0 → |σ c| ≤ |σ c1| := by
    intro c hc
    by_cases h2 : c = c1
    · rw [h2]
    · exact (hrest c hc h2).le
  have hE1 : S ⟨1, by omega⟩ = |σ c1| := le_antisymm (hc' ▸ hle1 c' hnot0) hS1
  have hu1 := hs.unit h ⟨1, by omega⟩ hp1 c1 (fun c' hc' => by
    by_contra hne
    rw [hE1] at hc'
    by_cases h0 : c' = c0
    · rw [h0] at hc'; exact h01.ne' hc'
    · exact (hrest c' h0 hne).ne hc')
  exact ⟨hE0, hE1, hu0, hu1⟩

end AceTN
