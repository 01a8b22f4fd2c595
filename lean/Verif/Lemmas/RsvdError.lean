import Verif.Lemmas.EckartYoung
import Mathlib.Algebra.Order.BigOperators.Group.Finset

/-!
How well the range of `(A Aᴴ)ᵖ A Ω` captures `A`.
-/

set_option autoImplicit false

namespace AceTN

open Matrix Spec

variable {𝕜 : Type} [RCLike 𝕜] {m n l : Type} [Fintype m] [Fintype n] [Fintype l] [DecidableEq m] {r : ℕ}

/-- Projecting on a range is at least as good as any matrix with that range. -/
theorem frobSq_proj_le {q : ℕ} (Q : Matrix m (Fin q) 𝕜) (hQ : Qᴴ * Q = 1) (A : Matrix m n 𝕜) (B : Matrix (Fin q) n 𝕜) :
    frobSq (A - Q * (Qᴴ * A)) ≤ frobSq (A - Q * B) := by
  rw [frobSq_pyth Q hQ (A - Q * B)]
  have : A - Q * B - Q * (Qᴴ * (A - Q * B)) = A - Q * (Qᴴ * A) := by
    rw [Matrix.mul_sub, Matrix.mul_sub, ← Matrix.mul_assoc Qᴴ Q, hQ, Matrix.one_mul]
    abel
  rw [this]
  linarith [frobSq_nonneg (Qᴴ * (A - Q * B))]

/-- Powers of `A Aᴴ` applied to `A`. -/
theorem svd_power {A : Matrix m n 𝕜} {U : Matrix m (Fin r) 𝕜} {S : Fin r → ℝ} {Vh : Matrix (Fin r) n 𝕜} (h : IsSVD A U S Vh) (p : ℕ) :
    (A * Aᴴ) ^ p * A = U * diagonal (fun i => ((S i ^ (2 * p + 1) : ℝ) : 𝕜)) * Vh := by
  induction p with
  | zero =>
    rw [pow_zero, Matrix.one_mul]
    simpa using h.mul
  | succ p ih =>
    have hd : (diagonal fun i => (S i : 𝕜))ᴴ = diagonal fun i => (S i : 𝕜) := by
      rw [diagonal_conjTranspose]
      congr 1
      funext i
      simp
    have hA : A * Aᴴ = U * diagonal (fun i => ((S i ^ 2 : ℝ) : 𝕜)) * Uᴴ := by
      conv_lhs => rw [h.mul]
      rw [conjTranspose_mul, conjTranspose_mul, hd]
      calc _ = U * diagonal (fun i => (S i : 𝕜)) * (Vh * Vhᴴ) * (diagonal (fun i => (S i : 𝕜)) * Uᴴ) := by simp only [Matrix.mul_assoc]
        _ = U * (diagonal (fun i => (S i : 𝕜)) * diagonal (fun i => (S i : 𝕜))) * Uᴴ := by
          rw [h.right, Matrix.mul_one]
          simp only [Matrix.mul_assoc]
        _ = _ := by
          rw [diagonal_mul_diagonal]
          simp [pow_two]
    rw [pow_succ', Matrix.mul_assoc, ih, hA]
    calc _ = U * diagonal (fun i => ((S i ^ 2 : ℝ) : 𝕜)) * (Uᴴ * U) * (diagonal (fun i => ((S i ^ (2 * p + 1) : ℝ) : 𝕜)) * Vh) := by
          simp only [Matrix.mul_assoc]
      _ = U * (diagonal (fun i => ((S i ^ 2 : ℝ) : 𝕜)) * diagonal (fun i => ((S i ^ (2 * p + 1) : ℝ) : 𝕜))) * Vh := by
          rw [h.left, Matrix.mul_one]
          simp only [Matrix.mul_assoc]
      _ = _ := by
          rw [diagonal_mul_diagonal]
          congr 3
          funext i
          rw [← RCLike.ofReal_mul]
          congr 1
          ring

/-- The error of the projection on the range of `(A Aᴴ)ᵖ A Ω`.  `G` is a right inverse of the sample of the `k` leading right
singular vectors. -/
theorem range_error {q k : ℕ} {A : Matrix m n 𝕜} {U : Matrix m (Fin r) 𝕜} {S : Fin r → ℝ} {Vh : Matrix (Fin r) n 𝕜}
    (h : IsSVD A U S Vh) (hk : k ≤ r) (hpos : ∀ j : Fin k, 0 < S (Fin.castLE hk j)) (Ω : Matrix n (Fin q) 𝕜) (G : Matrix (Fin q) (Fin k) 𝕜)
    (hG : Vh.submatrix (Fin.castLE hk) id * Ω * G = 1) (p : ℕ) (Q : Matrix m (Fin q) 𝕜) (hQ : Qᴴ * Q = 1) (R : Matrix (Fin q) (Fin q) 𝕜)
    (hR : (A * Aᴴ) ^ p * A * Ω = Q * R) :
    frobSq (A - Q * (Qᴴ * A)) ≤ (∑ i, if i.val < k then 0 else S i ^ 2) +
      ∑ i : Fin r, ∑ j : Fin k, if i.val < k then 0 else (S i / S (Fin.castLE hk j)) ^ (4 * p) * S i ^ 2 * ‖(Vh * Ω * G) i j‖ ^ 2 := by
  set c := Fin.castLE hk with hc
  set T := Vh * Ω * G with hT
  have htop : ∀ i j : Fin k, T (c i) j = if i = j then 1 else 0 := by
    intro i j
    rw [← one_apply, ← hG]
    rfl
  set D1 : Matrix (Fin k) (Fin k) 𝕜 := diagonal fun j => ((S (c j) ^ (2 * p))⁻¹ : ℝ) with hD1
  set X0 := G * D1 * Vh.submatrix c id with hX0
  refine (frobSq_proj_le Q hQ A (R * X0)).trans ?_
  have e1 : Q * (R * X0) = U * (diagonal (fun i => ((S i ^ (2 * p + 1) : ℝ) : 𝕜)) * T * D1 * (1 : Matrix (Fin r) (Fin r) 𝕜).submatrix c id) * Vh := by
    have e0 : Vh.submatrix c id = (1 : Matrix (Fin r) (Fin r) 𝕜).submatrix c id * Vh := by
      ext i j
      rw [mul_apply, Finset.sum_eq_single (c i)]
      · rw [submatrix_apply, submatrix_apply, id, id, one_apply_eq, one_mul]
      · intro b _ hb
        rw [submatrix_apply, id, one_apply_ne hb.symm, zero_mul]
      · exact fun h => absurd (Finset.mem_univ _) h
    rw [← Matrix.mul_assoc, ← hR, svd_power h, hX0, e0, hT]
    simp only [Matrix.mul_assoc]
  have e2 : A - Q * (R * X0) = U * (diagonal (fun i => (S i : 𝕜)) -
      diagonal (fun i => ((S i ^ (2 * p + 1) : ℝ) : 𝕜)) * T * D1 * (1 : Matrix (Fin r) (Fin r) 𝕜).submatrix c id) * Vh := by
    rw [e1, Matrix.mul_sub, Matrix.sub_mul, ← h.mul]
  rw [e2, frobSq_mul_coiso _ h.right, frobSq_iso_mul _ h.left]
  set E := diagonal (fun i => (S i : 𝕜)) -
      diagonal (fun i => ((S i ^ (2 * p + 1) : ℝ) : 𝕜)) * T * D1 * (1 : Matrix (Fin r) (Fin r) 𝕜).submatrix c id with hE
  have hEl : ∀ (i : Fin r) (j : Fin k), E i (c j) = if i.val < k then 0 else -(((S i ^ (2 * p + 1) * (S (c j) ^ (2 * p))⁻¹ : ℝ) : 𝕜) * T i j) := by
    intro i j
    have e : (diagonal (fun i => ((S i ^ (2 * p + 1) : ℝ) : 𝕜)) * T * D1 * (1 : Matrix (Fin r) (Fin r) 𝕜).submatrix c id) i (c j) =
        ((S i ^ (2 * p + 1) * (S (c j) ^ (2 * p))⁻¹ : ℝ) : 𝕜) * T i j := by
      rw [mul_apply, Finset.sum_eq_single j]
      · rw [hD1, mul_diagonal, diagonal_mul, submatrix_apply, id, one_apply_eq]
        push_cast
        ring
      · intro b _ hb
        rw [submatrix_apply, id, one_apply_ne (fun h => hb (Fin.castLE_injective _ h)), mul_zero]
      · exact fun h => absurd (Finset.mem_univ _) h
    rw [hE, Matrix.sub_apply, e]
    split_ifs with hi
    · obtain ⟨i', rfl⟩ : ∃ i' : Fin k, i = c i' := ⟨⟨i.val, hi⟩, rfl⟩
      rw [htop]
      by_cases hij : i' = j
      · subst hij
        rw [diagonal_apply_eq, if_pos rfl, mul_one, ← RCLike.ofReal_sub]
        have : S (c i') ^ (2 * p + 1) * (S (c i') ^ (2 * p))⁻¹ = S (c i') := by
          have := (hpos i').ne'
          field_simp
          rw [pow_succ]
        rw [this, sub_self, RCLike.ofReal_zero]
      · rw [diagonal_apply_ne _ (fun h => hij (Fin.castLE_injective _ h)), if_neg hij, mul_zero, sub_zero]
    · have : i ≠ c j := by
        rintro rfl
        exact hi j.isLt
      rw [diagonal_apply_ne _ this, zero_sub]
  have hEr : ∀ i j : Fin r, ¬ j.val < k → E i j = if i = j then (S i : 𝕜) else 0 := by
    intro i j hj
    have e : (diagonal (fun i => ((S i ^ (2 * p + 1) : ℝ) : 𝕜)) * T * D1 * (1 : Matrix (Fin r) (Fin r) 𝕜).submatrix c id) i j = 0 := by
      rw [mul_apply]
      refine Finset.sum_eq_zero fun b _ => ?_
      rw [submatrix_apply, id, one_apply_ne, mul_zero]
      rintro rfl
      exact hj b.isLt
    rw [hE, Matrix.sub_apply, e, sub_zero, diagonal_apply]
  have split : ∀ f : Fin r → ℝ, ∑ j, f j = (∑ j : Fin k, f (c j)) + ∑ j, if j.val < k then 0 else f j := by
    intro f
    have e : ∑ j : Fin k, f (c j) = ∑ j, if j.val < k then f j else 0 := by
      rw [← Finset.sum_filter]
      refine Finset.sum_bij (fun j _ => c j) (fun j _ => by simp [hc]) (fun a _ b _ h => Fin.castLE_injective _ h) ?_ (fun _ _ => rfl)
      intro b hb
      exact ⟨⟨b.val, (Finset.mem_filter.1 hb).2⟩, Finset.mem_univ _, rfl⟩
    rw [e, ← Finset.sum_add_distrib]
    refine Finset.sum_congr rfl fun j _ => ?_
    split <;> simp
  unfold frobSq
  have e3 : ∀ i : Fin r, ∑ j, ‖E i j‖ ^ 2 = (∑ j : Fin k, if i.val < k then 0 else (S i / S (c j)) ^ (4 * p) * S i ^ 2 * ‖T i j‖ ^ 2) +
      if i.val < k then 0 else S i ^ 2 := by
    intro i
    rw [split]
    congr 1
    · refine Finset.sum_congr rfl fun j _ => ?_
      rw [hEl]
      split_ifs with hi
      · simp
      · rw [norm_neg, norm_mul, RCLike.norm_ofReal, mul_pow, sq_abs]
        congr 1
        have := (hpos j).ne'
        rw [div_pow]
        field_simp
        ring
    · rw [Finset.sum_eq_single i]
      · split_ifs with hi
        · rfl
        · rw [hEr i i hi, if_pos rfl, RCLike.norm_ofReal, sq_abs]
      · intro j _ hj
        split_ifs with hj'
        · rfl
        · rw [hEr i j hj', if_neg hj.symm]
          simp
      · exact fun h => absurd (Finset.mem_univ _) h
  rw [Finset.sum_congr rfl fun i _ => e3 i, Finset.sum_add_distrib, add_comm]

end AceTN
