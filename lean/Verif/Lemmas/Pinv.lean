import Verif.Lemmas.Eigh
import Mathlib.LinearAlgebra.Matrix.NonsingularInverse
import Mathlib.LinearAlgebra.Matrix.ToLin
import Mathlib.LinearAlgebra.Dimension.StrongRankCondition
import Mathlib.LinearAlgebra.FiniteDimensional.Basic

/-!
The pseudo-inverse of a matrix that is bounded below.
-/

set_option autoImplicit false

namespace AceTN

open Matrix Spec

variable {𝕜 m n : Type} [RCLike 𝕜] [Fintype m] [Fintype n] [DecidableEq m] [DecidableEq n]

omit [DecidableEq m] [DecidableEq n] in
theorem card_le_of_bounded (A : Matrix m n 𝕜) (c : ℝ) (hc : 0 < c)
    (h : ∀ v, c * normSq v ≤ normSq (A *ᵥ v)) : Fintype.card n ≤ Fintype.card m := by
  have hinj : Function.Injective (Matrix.mulVecLin A) := by
    rw [← LinearMap.ker_eq_bot, LinearMap.ker_eq_bot']
    intro v hv
    have h1 := h v
    rw [mulVecLin_apply] at hv
    rw [hv] at h1
    have h2 : normSq (0 : m → 𝕜) = 0 := by simp [normSq]
    rw [h2] at h1
    have h3 : normSq v = 0 := le_antisymm (by nlinarith) (normSq_nonneg v)
    unfold normSq at h3
    rw [Finset.sum_eq_zero_iff_of_nonneg (fun _ _ => by positivity)] at h3
    funext i
    simpa using h3 i (Finset.mem_univ _)
  have := LinearMap.finrank_le_finrank_of_injective hinj
  simpa using this

omit [DecidableEq m] [DecidableEq n] in
theorem svd_bounded {r : ℕ} {A : Matrix m n 𝕜} {U : Matrix m (Fin r) 𝕜} {S : Fin r → ℝ}
    {Vh : Matrix (Fin r) n 𝕜} (hs : IsSVD A U S Vh) (c : ℝ) (h : ∀ v, c * normSq v ≤ normSq (A *ᵥ v)) (i : Fin r) :
    c ≤ S i ^ 2 := by
  have e1 : normSq (Vhᴴ *ᵥ Pi.single i 1) = 1 := by
    have : ((normSq (Vhᴴ *ᵥ Pi.single i (1 : 𝕜)) : ℝ) : 𝕜) = ((1 : ℝ) : 𝕜) := by
      rw [normSq_eq, star_mulVec, conjTranspose_conjTranspose, dotProduct_mulVec, vecMul_vecMul, hs.right, vecMul_one,
        ← normSq_eq]
      congr 1
      rw [normSq, Finset.sum_eq_single i]
      · simp
      · intro b _ hb; simp [hb]
      · simp
    exact_mod_cast this
  have e2 : normSq (A *ᵥ (Vhᴴ *ᵥ Pi.single i 1)) = S i ^ 2 := by
    have hA : A *ᵥ (Vhᴴ *ᵥ Pi.single i 1) = U *ᵥ Pi.single i (S i : 𝕜) := by
      rw [hs.mul, mulVec_mulVec, Matrix.mul_assoc, hs.right, Matrix.mul_one, ← mulVec_mulVec]
      congr 1
      funext j
      rw [mulVec_diagonal]
      by_cases hj : j = i
      · subst hj; simp
      · simp [hj]
    have : ((normSq (A *ᵥ (Vhᴴ *ᵥ Pi.single i (1 : 𝕜))) : ℝ) : 𝕜) = ((S i ^ 2 : ℝ) : 𝕜) := by
      rw [hA, normSq_eq, star_mulVec, dotProduct_mulVec, vecMul_vecMul, hs.left, vecMul_one, ← normSq_eq]
      congr 1
      rw [normSq, Finset.sum_eq_single i]
      · simp
      · intro b _ hb; simp [hb]
      · simp
    exact_mod_cast this
  have := h (Vhᴴ *ᵥ Pi.single i 1)
  rwa [e1, e2, mul_one] at this

/-- If all singular values exceed the threshold the pseudo-inverse is a left inverse. -/
theorem pinv_left_inverse (la : Lapack 𝕜) (A : Matrix m n 𝕜) (c atol : ℝ) (hc : 0 < c) (hatol : atol < Real.sqrt c)
    (h : ∀ v, c * normSq v ≤ normSq (A *ᵥ v)) : la.pinv atol A * A = 1 := by
  obtain ⟨U, S, Vh, hs, hp⟩ := la.pinv_ok atol A
  have hcard : min (Fintype.card m) (Fintype.card n) = Fintype.card n :=
    Nat.min_eq_right (card_le_of_bounded A c hc h)
  have hpos : ∀ i, Real.sqrt c ≤ S i := fun i => by
    rw [← Real.sqrt_sq (hs.nonneg i)]
    exact Real.sqrt_le_sqrt (svd_bounded hs c h i)
  have hV : Vhᴴ * Vh = 1 := by
    exact (Matrix.mul_eq_one_comm_of_equiv (Fintype.equivOfCardEq (by rw [Fintype.card_fin]; exact hcard.symm))).2
      hs.right
  have hd : (fun i => if atol < S i then ((S i : ℝ) : 𝕜)⁻¹ else 0) = fun i => ((S i : ℝ) : 𝕜)⁻¹ := by
    funext i
    rw [if_pos (lt_of_lt_of_le hatol (hpos i))]
  have hdd : diagonal (fun i => ((S i : ℝ) : 𝕜)⁻¹) * diagonal (fun i => (S i : 𝕜)) = 1 := by
    rw [diagonal_mul_diagonal, ← diagonal_one]
    congr 1
    funext i
    have : (S i : 𝕜) ≠ 0 := by
      exact_mod_cast (lt_of_lt_of_le (Real.sqrt_pos.2 hc) (hpos i)).ne'
    exact inv_mul_cancel₀ this
  rw [hp, hd]
  conv_lhs => rw [hs.mul]
  rw [Matrix.mul_assoc (Vhᴴ * _), ← Matrix.mul_assoc Uᴴ, ← Matrix.mul_assoc Uᴴ, hs.left, Matrix.one_mul,
    ← Matrix.mul_assoc, Matrix.mul_assoc Vhᴴ, hdd, Matrix.mul_one, hV]

end AceTN
