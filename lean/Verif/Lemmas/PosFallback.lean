import Verif.Model.PosFallback
import Verif.Lemmas.Eigh
import Mathlib.Analysis.InnerProductSpace.PiL2

/-! Lemmas about the decomposition that replaces `eigh` when it raises. -/

set_option autoImplicit false

namespace AceTN.Full

open Matrix

variable {𝕜 : Type} [RCLike 𝕜] {n : Type} [Fintype n] [DecidableEq n]

/-- Positive square roots are unique. -/
theorem eigh_sq_unique {r s : ℕ} {A B : Matrix n n 𝕜} {w : Fin r → ℝ} {z : Matrix n (Fin r) 𝕜} {w' : Fin s → ℝ}
    {z' : Matrix n (Fin s) 𝕜} (hA : IsEigh A w z) (hB : IsEigh B w' z') (h0 : ∀ k, 0 ≤ w k) (h0' : ∀ k, 0 ≤ w' k)
    (h : A * A = B * B) : A = B := by
  set D := diagonal (fun i => (w i : 𝕜)) with hD
  set D' := diagonal (fun i => (w' i : 𝕜)) with hD'
  have hAA : zᴴ * (A * A) = D * (D * zᴴ) := by
    rw [hA.mul]
    calc zᴴ * (z * D * zᴴ * (z * D * zᴴ)) = (zᴴ * z) * D * (zᴴ * z) * D * zᴴ := by simp only [Matrix.mul_assoc]
      _ = _ := by rw [hA.left]; simp only [Matrix.mul_assoc, Matrix.one_mul]
  have hBB : B * B * z' = z' * D' * D' := by
    rw [hB.mul]
    calc z' * D' * z'ᴴ * (z' * D' * z'ᴴ) * z' = z' * D' * (z'ᴴ * z') * D' * (z'ᴴ * z') := by
          simp only [Matrix.mul_assoc]
      _ = _ := by rw [hB.left]; simp only [Matrix.mul_one]
  have hM : D * (D * (zᴴ * z')) = (zᴴ * z') * D' * D' := by
    have := congrArg (· * z') hAA
    simp only [Matrix.mul_assoc] at this
    rw [← this, Matrix.mul_assoc zᴴ, Matrix.mul_assoc zᴴ, ← hBB, ← h]
    simp only [Matrix.mul_assoc]
  have hM' : D * (zᴴ * z') = (zᴴ * z') * D' := by
    ext i j
    have e := congrFun (congrFun hM i) j
    rw [hD, hD'] at *
    rw [diagonal_mul, diagonal_mul, mul_diagonal, mul_diagonal] at e
    rw [diagonal_mul, mul_diagonal]
    by_cases hz : (zᴴ * z') i j = 0
    · rw [hz]; simp
    have e2 : ((w i : ℝ) : 𝕜) * (w i : ℝ) = ((w' j : ℝ) : 𝕜) * (w' j : ℝ) :=
      mul_right_cancel₀ hz (by rw [mul_assoc, e]; ring)
    have e3 : w i * w i = w' j * w' j := by exact_mod_cast e2
    have e4 : w i = w' j := by
      have := h0 i; have := h0' j
      nlinarith [sq_nonneg (w i - w' j)]
    rw [e4]; ring
  calc A = z * D * zᴴ := hA.mul
    _ = z * (D * (zᴴ * z')) * z'ᴴ := by
        rw [show z * (D * (zᴴ * z')) * z'ᴴ = z * D * zᴴ * (z' * z'ᴴ) by simp only [Matrix.mul_assoc], hB.right,
          Matrix.mul_one]
    _ = (z * zᴴ) * (z' * D' * z'ᴴ) := by rw [hM']; simp only [Matrix.mul_assoc]
    _ = B := by rw [hA.right, Matrix.one_mul, ← hB.mul]

/-- The flipped singular value decomposition is an eigendecomposition of a positive matrix `B` with `B² = A Aᴴ`. -/
theorem flippedSvd_ok (la : Lapack 𝕜) (A : Matrix n n 𝕜) :
    ∃ B : Matrix n n 𝕜, IsEigh B (flippedSvd la A).1 (flippedSvd la A).2 ∧ B * B = A * Aᴴ ∧
      ∀ k, 0 ≤ (flippedSvd la A).1 k := by
  have h := la.svd_ok A
  set w := (flippedSvd la A).1 with hw
  set z := (flippedSvd la A).2 with hz
  let e : Fin (Fintype.card n) ≃ Fin (min (Fintype.card n) (Fintype.card n)) :=
    Fin.revPerm.trans (finCongr (min_self _).symm)
  have hwe : w = (la.svd A).2.1 ∘ e := by
    funext k; rfl
  have hze : z = (la.svd A).1.submatrix id e := by
    ext i k; rfl
  have hleft : zᴴ * z = 1 := by
    rw [hze, conjTranspose_submatrix, ← submatrix_mul _ _ _ _ _ Function.bijective_id, h.left]
    exact submatrix_one_equiv e
  have hcard : Fintype.card (Fin (Fintype.card n)) = Fintype.card n := by simp
  have hright : z * zᴴ = 1 := by
    exact (mul_eq_one_comm_of_card_eq _ _ _ hcard).1 hleft
  have hD : diagonal (fun i => (w i : 𝕜)) = (diagonal (fun i => ((la.svd A).2.1 i : 𝕜))).submatrix e e := by
    rw [hwe, submatrix_diagonal_equiv]
    rfl
  refine ⟨z * diagonal (fun i => (w i : 𝕜)) * zᴴ, ⟨rfl, hleft, hright, ?_⟩, ?_, ?_⟩
  · intro i j hij
    rw [hwe]
    refine h.sorted _ _ ?_
    have hr : j.rev ≤ i.rev := Fin.rev_le_rev.2 hij
    exact hr
  · have e1 : A * Aᴴ = (la.svd A).1 * (diagonal (fun i => ((la.svd A).2.1 i : 𝕜)) *
        diagonal (fun i => ((la.svd A).2.1 i : 𝕜))) * (la.svd A).1ᴴ := by
      conv_lhs => rw [h.mul]
      rw [conjTranspose_mul, conjTranspose_mul, diagonal_conjTranspose]
      have : star (fun i => ((la.svd A).2.1 i : 𝕜)) = fun i => ((la.svd A).2.1 i : 𝕜) := by
        funext i; simp
      rw [this]
      calc _ = (la.svd A).1 * diagonal (fun i => ((la.svd A).2.1 i : 𝕜)) * ((la.svd A).2.2 * (la.svd A).2.2ᴴ) *
            diagonal (fun i => ((la.svd A).2.1 i : 𝕜)) * (la.svd A).1ᴴ := by simp only [Matrix.mul_assoc]
        _ = _ := by rw [h.right]; simp only [Matrix.mul_assoc, Matrix.one_mul]
    have e2 : z * diagonal (fun i => (w i : 𝕜)) * zᴴ * (z * diagonal (fun i => (w i : 𝕜)) * zᴴ) =
        z * (diagonal (fun i => (w i : 𝕜)) * diagonal (fun i => (w i : 𝕜))) * zᴴ := by
      calc _ = z * diagonal (fun i => (w i : 𝕜)) * (zᴴ * z) * diagonal (fun i => (w i : 𝕜)) * zᴴ := by
            simp only [Matrix.mul_assoc]
        _ = _ := by rw [hleft]; simp only [Matrix.mul_assoc, Matrix.one_mul]
    rw [e2, e1, hD, hze, conjTranspose_submatrix, submatrix_mul_equiv, submatrix_mul_equiv, submatrix_mul_equiv,
      submatrix_id_id]
  · intro k
    rw [hwe]; exact h.nonneg _

/-- `⟨v|M²|v⟩ = Σ w² |⟨z|v⟩|²` for a Hermitian `M`. -/
theorem IsEigh_sq {r : ℕ} {N : Matrix n n 𝕜} {w : Fin r → ℝ} {z : Matrix n (Fin r) 𝕜} (h : IsEigh N w z)
    (v : n → 𝕜) : Spec.qform (N * N) v = ((∑ k, w k ^ 2 * ‖(zᴴ *ᵥ v) k‖ ^ 2 : ℝ) : 𝕜) := by
  have e : N * N = z * diagonal (fun i => ((w i ^ 2 : ℝ) : 𝕜)) * zᴴ := by
    conv_lhs => rw [h.mul]
    calc _ = z * diagonal (fun i => (w i : 𝕜)) * (zᴴ * z) * diagonal (fun i => (w i : 𝕜)) * zᴴ := by
          simp only [Matrix.mul_assoc]
      _ = _ := by
          rw [h.left, Matrix.mul_one, Matrix.mul_assoc z, diagonal_mul_diagonal]
          congr 3
          funext i; push_cast; ring
  rw [qform_eq, e, ← mulVec_mulVec, ← mulVec_mulVec, dotProduct_mulVec]
  have e : star v ᵥ* z = star (zᴴ *ᵥ v) := by
    rw [star_mulVec, conjTranspose_conjTranspose]
  rw [e]
  simp only [dotProduct, mulVec_diagonal, Pi.star_apply]
  push_cast
  refine Finset.sum_congr rfl fun k _ => ?_
  rw [← RCLike.conj_mul, RCLike.star_def]; ring

/-- Eigenvalues of `B` bound from below by those of `B²`. -/
theorem eigh_of_sq_atLeast {r : ℕ} {B : Matrix n n 𝕜} {w : Fin r → ℝ} {z : Matrix n (Fin r) 𝕜} (h : IsEigh B w z)
    (c : ℝ) (h0 : ∀ k, 0 ≤ w k) (hc : Spec.AtLeast (B * B) (c ^ 2)) (k : Fin r) : c ≤ w k := by
  have e : zᴴ *ᵥ (z *ᵥ Pi.single k 1) = Pi.single k 1 := by
    rw [mulVec_mulVec, h.left, one_mulVec]
  have := hc (z *ᵥ Pi.single k 1)
  rw [IsEigh_sq h, RCLike.ofReal_re, ← normSq_eigh h, e] at this
  have e1 : Spec.normSq (Pi.single k 1 : Fin r → 𝕜) = 1 := by
    rw [Spec.normSq, Finset.sum_eq_single k]
    · simp
    · intro b _ hb; simp [hb]
    · simp
  have e2 : ∑ j, w j ^ 2 * ‖(Pi.single k 1 : Fin r → 𝕜) j‖ ^ 2 = w k ^ 2 := by
    rw [Finset.sum_eq_single k]
    · simp
    · intro b _ hb; simp [hb]
    · simp
  rw [e1, e2, mul_one] at this
  exact abs_le_of_sq_le_sq' this (h0 k) |>.2

omit [DecidableEq n] in
/-- A lower bound of `Re ⟨v|A|v⟩` bounds the singular values. -/
theorem sq_atLeast_of_atLeast {A : Matrix n n 𝕜} {c : ℝ} (h0 : 0 ≤ c) (h : Spec.AtLeast A c) :
    Spec.AtLeast (A * Aᴴ) (c ^ 2) := by
  intro v
  set x := Aᴴ *ᵥ v with hx
  have e1 : Spec.qform (A * Aᴴ) v = ((Spec.normSq x : ℝ) : 𝕜) := by
    rw [qform_eq, normSq_eq, ← mulVec_mulVec, dotProduct_mulVec, hx, star_mulVec, conjTranspose_conjTranspose]
  have e2 : Spec.qform A v = star x ⬝ᵥ v := by
    rw [qform_eq, dotProduct_mulVec, hx, star_mulVec, conjTranspose_conjTranspose]
  have e3 : Spec.normSq (fun i => x i - (c : 𝕜) * v i) =
      Spec.normSq x + c ^ 2 * Spec.normSq v - 2 * c * RCLike.re (star x ⬝ᵥ v) := by
    simp only [Spec.normSq, dotProduct, map_sum, Finset.mul_sum, ← Finset.sum_add_distrib, ← Finset.sum_sub_distrib]
    refine Finset.sum_congr rfl fun i _ => ?_
    rw [← RCLike.normSq_eq_def', ← RCLike.normSq_eq_def', ← RCLike.normSq_eq_def', RCLike.normSq_apply,
      RCLike.normSq_apply, RCLike.normSq_apply]
    simp only [Pi.star_apply, RCLike.star_def, map_sub, RCLike.mul_re, RCLike.mul_im, RCLike.conj_re, RCLike.conj_im,
      RCLike.ofReal_re, RCLike.ofReal_im]
    ring
  have e4 := normSq_nonneg (fun i => x i - (c : 𝕜) * v i)
  have e5 := h v
  rw [e2] at e5
  rw [e3] at e4
  rw [e1, RCLike.ofReal_re]
  nlinarith [mul_le_mul_of_nonneg_left e5 h0]

omit [DecidableEq n] in
/-- Every matrix has a lower bound. -/
theorem exists_atLeast (A : Matrix n n 𝕜) : ∃ c, Spec.AtLeast A c := by
  refine ⟨-∑ i, ∑ j, ‖A i j‖, fun v => ?_⟩
  have h1 : ∀ i, ‖v i‖ ^ 2 ≤ Spec.normSq v := fun i =>
    Finset.single_le_sum (f := fun i => ‖v i‖ ^ 2) (fun _ _ => by positivity) (Finset.mem_univ i)
  have h2 : ‖Spec.qform A v‖ ≤ (∑ i, ∑ j, ‖A i j‖) * Spec.normSq v := by
    rw [Finset.sum_mul]
    refine (norm_sum_le _ _).trans (Finset.sum_le_sum fun i _ => ?_)
    rw [Finset.sum_mul]
    refine (norm_sum_le _ _).trans (Finset.sum_le_sum fun j _ => ?_)
    rw [norm_mul, norm_mul, norm_star]
    have := h1 i; have := h1 j
    nlinarith [norm_nonneg (A i j), sq_nonneg (‖v i‖ - ‖v j‖), mul_le_mul_of_nonneg_left
      (show ‖v i‖ * ‖v j‖ ≤ Spec.normSq v by nlinarith [sq_nonneg (‖v i‖ - ‖v j‖)]) (norm_nonneg (A i j))]
  have h3 := RCLike.abs_re_le_norm (Spec.qform A v)
  have h4 := neg_abs_le (RCLike.re (Spec.qform A v))
  linarith

omit [DecidableEq n] in
theorem AtLeast_mono {A : Matrix n n 𝕜} {c d : ℝ} (h : Spec.AtLeast A c) (hd : d ≤ c) : Spec.AtLeast A d := fun v =>
  (mul_le_mul_of_nonneg_right hd (normSq_nonneg v)).trans (h v)

/-- The smallest of the returned values. -/
theorem eighOrSvd_ge (la : Lapack 𝕜) (b : Bool) (A : Matrix n n 𝕜) (c : ℝ) (h1 : Spec.AtLeast A c)
    (h2 : Spec.AtLeast (la.herm A) c) (k : Fin (Fintype.card n)) : c ≤ (eighOrSvd la b A).1 k := by
  cases b
  · exact eigh_of_atLeast (la.eigh_ok A) c h2 k
  · obtain ⟨B, hB, hsq, h0⟩ := flippedSvd_ok la A
    by_cases hc : 0 ≤ c
    · refine eigh_of_sq_atLeast hB c h0 ?_ k
      rw [hsq]; exact sq_atLeast_of_atLeast hc h1
    · exact (not_le.1 hc).le.trans (h0 k)

/-- What is returned: an eigendecomposition of the Hermitian matrix, or of the positive root of `A Aᴴ`. -/
theorem eighOrSvd_ok (la : Lapack 𝕜) (b : Bool) (A : Matrix n n 𝕜) :
    ∃ B : Matrix n n 𝕜, IsEigh B (eighOrSvd la b A).1 (eighOrSvd la b A).2 ∧
      ((b = false ∧ B = la.herm A) ∨ (b = true ∧ B * B = A * Aᴴ ∧ ∀ k, 0 ≤ (eighOrSvd la b A).1 k)) := by
  cases b
  · exact ⟨_, la.eigh_ok A, Or.inl ⟨rfl, rfl⟩⟩
  · obtain ⟨B, hB, hsq, h0⟩ := flippedSvd_ok la A
    exact ⟨B, hB, Or.inr ⟨rfl, hsq, h0⟩⟩

theorem isEigh_add {r : ℕ} {A : Matrix n n 𝕜} {w : Fin r → ℝ} {z : Matrix n (Fin r) 𝕜} (h : IsEigh A w z) (t : ℝ) :
    IsEigh (A + (t : 𝕜) • 1) (fun k => w k + t) z := by
  refine ⟨?_, h.left, h.right, fun i j hij => add_le_add_left (h.sorted i j hij) t⟩
  have e : diagonal (fun i => ((w i + t : ℝ) : 𝕜)) = diagonal (fun i => (w i : 𝕜)) + (t : 𝕜) • 1 := by
    ext i j
    by_cases hij : i = j
    · subst hij
      simp only [diagonal_apply_eq, Matrix.add_apply, Matrix.smul_apply, one_apply_eq, smul_eq_mul, mul_one]
      push_cast; rfl
    · simp [hij]
  rw [e, Matrix.mul_add, Matrix.add_mul, ← h.mul]
  simp [h.right]

section loop

variable [Nonempty n]

/-- What the loop returns. -/
theorem posLoopF_result (la : Lapack 𝕜) (cutoff : ℝ) (fuel : ℕ) (fails : ℕ → Bool) (A : Matrix n n 𝕜)
    (w : Fin (Fintype.card n) → ℝ) (z : Matrix n (Fin (Fintype.card n)) 𝕜)
    (h : posLoopF la cutoff fuel fails A = some (w, z)) :
    ∃ (t : ℝ) (B : Matrix n n 𝕜), 0 ≤ t ∧ IsEigh B w z ∧ (∀ k, cutoff ≤ w k) ∧
      (B = la.herm A + (t : 𝕜) • 1 ∨
        (B * B = (A + (t : 𝕜) • 1) * (A + (t : 𝕜) • 1)ᴴ ∧ (∀ k, 0 ≤ w k) ∧ ∃ k, fails k = true)) ∧
      (Spec.AtLeast A cutoff → Spec.AtLeast (la.herm A) cutoff → t = 0) := by
  induction fuel generalizing fails A with
  | zero => simp [posLoopF] at h
  | succ fuel ih =>
    simp only [posLoopF] at h
    split_ifs at h with hlt
    · obtain ⟨t, B, h1, h2, h3, h4, -⟩ := ih _ _ h
      set s := 2 * max cutoff |(eighOrSvd la (fails 0) A).1 ⟨0, Fintype.card_pos⟩| with hs
      have hs0 : 0 ≤ s := by
        have := (abs_nonneg _).trans (le_max_right cutoff |(eighOrSvd la (fails 0) A).1 ⟨0, Fintype.card_pos⟩|)
        linarith
      have e : ∀ X : Matrix n n 𝕜, X + (s : 𝕜) • 1 + (t : 𝕜) • 1 = X + ((s + t : ℝ) : 𝕜) • 1 := by
        intro X; push_cast; rw [add_smul, add_assoc]
      refine ⟨s + t, B, by linarith, h2, h3, ?_, fun g1 g2 => ?_⟩
      · rw [la.herm_add, e, e] at h4
        rcases h4 with h4 | ⟨h4, h5, k, hk⟩
        · exact Or.inl h4
        · exact Or.inr ⟨h4, h5, k + 1, hk⟩
      · exact absurd (eighOrSvd_ge la (fails 0) A cutoff g1 g2 _) (not_le.2 hlt)
    · have h' := Option.some.inj h
      obtain ⟨B, hB, hcase⟩ := eighOrSvd_ok la (fails 0) A
      rw [h'] at hB hcase
      refine ⟨0, B, le_refl _, hB, fun k => ?_, ?_, fun _ _ => rfl⟩
      · rw [h'] at hlt
        exact (not_lt.1 hlt).trans (hB.sorted _ _ (Fin.mk_le_of_le_val (Nat.zero_le _)))
      · rcases hcase with ⟨-, hcase⟩ | ⟨h1, h2, h3⟩
        · left; simpa using hcase
        · right; exact ⟨by simpa using h2, h3, 0, h1⟩

/-- Enough fuel for every matrix with positive cutoff. -/
theorem posLoopF_fuel (la : Lapack 𝕜) (cutoff : ℝ) (k : ℕ) (fuel : ℕ) (fails : ℕ → Bool) (A : Matrix n n 𝕜)
    (c : ℝ) (h1 : Spec.AtLeast A c) (h2 : Spec.AtLeast (la.herm A) c) (hk : cutoff ≤ c + 2 * k * cutoff) :
    (posLoopF la cutoff (k + 1 + fuel) fails A).isSome = true := by
  induction k generalizing fails A c with
  | zero =>
    rw [Nat.add_assoc, Nat.zero_add, Nat.add_comm]
    simp only [posLoopF]
    rw [if_neg (not_lt.2 (le_trans (by simpa using hk) (eighOrSvd_ge la (fails 0) A c h1 h2 _)))]
    rfl
  | succ k ih =>
    rw [show k + 1 + 1 + fuel = (k + 1 + fuel) + 1 by omega]
    simp only [posLoopF]
    split_ifs with hlt
    · refine ih _ _ _ (atLeast_add h1 _) ?_ ?_
      · rw [la.herm_add]; exact atLeast_add h2 _
      · have := le_max_left cutoff |(eighOrSvd la (fails 0) A).1 ⟨0, Fintype.card_pos⟩|
        push_cast at hk
        linarith
    · rfl

/-- Enough fuel for a Hermitian matrix: one more than the number of eigenvalues below the cutoff. -/
theorem posLoopF_hermitian (la : Lapack 𝕜) (cutoff : ℝ) (k : ℕ) (fuel : ℕ) (fails : ℕ → Bool) (A : Matrix n n 𝕜)
    {r : ℕ} (l : Fin r → ℝ) (z : Matrix n (Fin r) 𝕜) (hA : IsEigh A l z)
    (hk : (Finset.univ.filter fun i => l i < cutoff).card ≤ k) :
    (posLoopF la cutoff (k + 1 + fuel) fails A).isSome = true := by
  have hH := hA.isHermitian
  have hherm := la.herm_of A hH
  have hnone : ∀ (k' : ℕ) (b : ℕ → Bool) (A' : Matrix n n 𝕜) (l' : Fin r → ℝ), IsEigh A' l' z →
      (∀ i, cutoff ≤ l' i) → (posLoopF la cutoff (k' + 1 + fuel) b A').isSome = true := by
    intro k' b A' l' hA' hl'
    rw [show k' + 1 + fuel = (k' + fuel) + 1 by omega]
    simp only [posLoopF]
    have hat := atLeast_of_eigh hA' cutoff hl'
    rw [if_neg (not_lt.2 (eighOrSvd_ge la (b 0) A' cutoff hat (by rwa [la.herm_of A' hA'.isHermitian]) _))]
    rfl
  induction k generalizing fails A l with
  | zero =>
    refine hnone 0 fails A l hA fun i => ?_
    by_contra hi
    have : i ∈ Finset.univ.filter fun i => l i < cutoff := by simpa using hi
    rw [Finset.card_eq_zero.1 (Nat.le_zero.1 hk)] at this
    simp at this
  | succ k ih =>
    rw [show k + 1 + 1 + fuel = (k + 1 + fuel) + 1 by omega]
    simp only [posLoopF]
    split_ifs with hlt
    · set nw0 := (eighOrSvd la (fails 0) A).1 ⟨0, Fintype.card_pos⟩ with hnw0
      set s := 2 * max cutoff |nw0| with hs
      have hsc : 2 * cutoff ≤ s := by
        have := le_max_left cutoff |nw0|; linarith
      have hsn : 2 * |nw0| ≤ s := by
        have := le_max_right cutoff |nw0|; linarith
      have hs0 : 0 ≤ s := by have := abs_nonneg nw0; linarith
      have hA' := isEigh_add hA s
      cases hf : fails 0
      · -- `eigh` succeeded: the smallest eigenvalue is known
        refine hnone k _ _ _ hA' fun i => ?_
        have h0 : nw0 ≤ l i := by
          have hat : Spec.AtLeast A nw0 := by
            have := la.eigh_ok A
            rw [hherm] at this
            refine atLeast_of_eigh this _ fun j => ?_
            rw [hnw0, hf]
            exact this.sorted _ _ (Fin.mk_le_of_le_val (Nat.zero_le _))
          exact eigh_of_atLeast hA _ hat i
        have := neg_abs_le nw0
        have := abs_nonneg nw0
        rcases le_or_gt 0 cutoff with h | h
        · linarith
        · linarith
      · -- the singular value is that of an eigenvalue close to zero
        have hex : ∃ i, |l i| < cutoff := by
          by_contra hcon
          push Not at hcon
          have hc0 : 0 ≤ nw0 := by
            obtain ⟨B, -, -, h0⟩ := flippedSvd_ok la A
            rw [hnw0, hf]; exact h0 _
          have hcp : 0 < cutoff := hc0.trans_lt hlt
          refine absurd hlt (not_lt.2 ?_)
          obtain ⟨B, hB, hsq, h0⟩ := flippedSvd_ok la A
          rw [hnw0, hf]
          refine eigh_of_sq_atLeast hB cutoff h0 ?_ _
          rw [hsq, hH.eq]
          intro v
          rw [IsEigh_sq hA, RCLike.ofReal_re, ← normSq_eigh hA v, Spec.normSq, Finset.mul_sum]
          refine Finset.sum_le_sum fun j _ => mul_le_mul_of_nonneg_right ?_ (by positivity)
          rw [← sq_abs (l j)]
          exact pow_le_pow_left₀ hcp.le (hcon j) 2
        obtain ⟨i, hi⟩ := hex
        refine ih _ _ _ hA' ?_ hA'.isHermitian (la.herm_of _ hA'.isHermitian)
        refine Nat.le_of_lt_succ (lt_of_lt_of_le (Finset.card_lt_card ?_) hk)
        rw [Finset.ssubset_iff_of_subset]
        · refine ⟨i, ?_, ?_⟩
          · simpa using lt_of_le_of_lt (le_abs_self _) hi
          · have := neg_abs_le (l i)
            simp only [Finset.mem_filter, Finset.mem_univ, true_and, not_lt]
            linarith
        · intro j
          simp only [Finset.mem_filter, Finset.mem_univ, true_and]
          intro h; linarith
    · rfl

end loop

end AceTN.Full
