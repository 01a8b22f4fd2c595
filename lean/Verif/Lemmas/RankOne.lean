import Verif.Lemmas.EckartYoung
import Verif.Spec.Gauge

/-!
The best approximation of a real matrix by a product of a column and a row is unique if the largest singular value is simple.
-/

set_option autoImplicit false

namespace AceTN

open Matrix Spec

variable {m n : Type} [Fintype m] [Fintype n]

/-- The squared distance of a matrix from a product of a column and a row. -/
theorem frobSq_sub_outer (A : Matrix m n ℝ) (x : m → ℝ) (y : n → ℝ) :
    frobSq (A - vecMulVec x y) = frobSq A - 2 * ((x ᵥ* A) ⬝ᵥ y) + (x ⬝ᵥ x) * (y ⬝ᵥ y) := by
  have e1 : (x ᵥ* A) ⬝ᵥ y = ∑ i, ∑ j, x i * A i j * y j := by
    unfold vecMul dotProduct
    simp only [Finset.sum_mul]
    exact Finset.sum_comm
  have e2 : (x ⬝ᵥ x) * (y ⬝ᵥ y) = ∑ i, ∑ j, (x i * x i) * (y j * y j) := by
    unfold dotProduct
    rw [Finset.sum_mul_sum]
  rw [e1, e2, Finset.mul_sum]
  unfold frobSq
  rw [← Finset.sum_sub_distrib, ← Finset.sum_add_distrib]
  refine Finset.sum_congr rfl fun i _ => ?_
  rw [Finset.mul_sum, ← Finset.sum_sub_distrib, ← Finset.sum_add_distrib]
  refine Finset.sum_congr rfl fun j _ => ?_
  rw [Matrix.sub_apply, vecMulVec_apply, Real.norm_eq_abs, sq_abs, Real.norm_eq_abs, sq_abs]
  ring

theorem dot_self_nonneg {k : Type} [Fintype k] (x : k → ℝ) : 0 ≤ x ⬝ᵥ x := Finset.sum_nonneg fun _ _ => mul_self_nonneg _

theorem dot_self_zero {k : Type} [Fintype k] (x : k → ℝ) (h : x ⬝ᵥ x ≤ 0) : x = 0 := dotProduct_self_eq_zero.1 (le_antisymm h (dot_self_nonneg x))

theorem best_outer {r : ℕ} {A : Matrix m n ℝ} {U : Matrix m (Fin r) ℝ} {S : Fin r → ℝ} {Vh : Matrix (Fin r) n ℝ} (h : IsSVD A U S Vh)
    (i0 : Fin r) (hpos : 0 < S i0) (hgap : ∀ j, j ≠ i0 → S j < S i0) (x : m → ℝ) (y : n → ℝ)
    (hbest : ∀ x' y', frobSq (A - vecMulVec x y) ≤ frobSq (A - vecMulVec x' y')) :
    vecMulVec x y = S i0 • vecMulVec (fun i => U i i0) (Vh i0) := by
  have hU : Uᵀ * U = 1 := by simpa using h.left
  have hV : Vh * Vhᵀ = 1 := by simpa using h.right
  have hA : A = U * diagonal S * Vh := by simpa using h.mul
  have hw : ∀ x : m → ℝ, x ᵥ* A = (fun i => (x ᵥ* U) i * S i) ᵥ* Vh := by
    intro x
    rw [hA, ← vecMul_vecMul, ← vecMul_vecMul]
    congr 1
    funext i
    rw [vecMul_diagonal]
  have hVd : ∀ c d : Fin r → ℝ, (c ᵥ* Vh) ⬝ᵥ (d ᵥ* Vh) = c ⬝ᵥ d := by
    intro c d
    rw [← dotProduct_mulVec, ← mulVec_transpose Vh d, mulVec_mulVec, hV, one_mulVec]
  have hUd : ∀ c d : Fin r → ℝ, (U *ᵥ c) ⬝ᵥ (U *ᵥ d) = c ⬝ᵥ d := by
    intro c d
    rw [dotProduct_mulVec, ← vecMul_transpose, vecMul_vecMul, hU, vecMul_one]
  have hU0 : (fun i => U i i0) = U *ᵥ Pi.single i0 1 := by
    funext i
    simp
  have hV0 : Vh i0 = Pi.single i0 1 ᵥ* Vh := by
    funext j
    simp
  have hUU : ∀ c : Fin r → ℝ, (U *ᵥ c) ᵥ* U = c := by
    intro c
    rw [← vecMul_transpose, vecMul_vecMul, hU, vecMul_one]
  -- the optimum
  have hopt := hbest (S i0 • (fun i => U i i0)) (Vh i0)
  rw [frobSq_sub_outer, frobSq_sub_outer, hU0, ← mulVec_smul, hUd, hw (U *ᵥ _), hUU, hV0, hVd, hVd, hw x] at hopt
  have e1 : (fun i => (S i0 • (Pi.single i0 1 : Fin r → ℝ)) i * S i) ⬝ᵥ (Pi.single i0 1 : Fin r → ℝ) = S i0 ^ 2 := by
    simp [sq]
  have e2 : (S i0 • (Pi.single i0 1 : Fin r → ℝ)) ⬝ᵥ (S i0 • (Pi.single i0 1 : Fin r → ℝ)) = S i0 ^ 2 := by
    simp [sq]
  have e3 : (Pi.single i0 1 : Fin r → ℝ) ⬝ᵥ (Pi.single i0 1 : Fin r → ℝ) = 1 := by simp
  rw [e1, e2, e3] at hopt
  -- the coefficients
  set a : Fin r → ℝ := x ᵥ* U with ha
  set w : n → ℝ := (fun i => a i * S i) ᵥ* Vh with hwdef
  set N := x ⬝ᵥ x with hN
  have hN0 : 0 ≤ N := dot_self_nonneg x
  have hww : w ⬝ᵥ w = ∑ i, S i ^ 2 * a i ^ 2 := by
    rw [hwdef, hVd]
    exact Finset.sum_congr rfl fun i _ => by ring
  have hbess : (x - U *ᵥ a) ⬝ᵥ (x - U *ᵥ a) = N - a ⬝ᵥ a := by
    rw [sub_dotProduct, dotProduct_sub, dotProduct_sub, hUd, dotProduct_mulVec, dotProduct_comm (U *ᵥ a) x, dotProduct_mulVec, ← ha]
    ring
  have hle : w ⬝ᵥ w ≤ S i0 ^ 2 * (a ⬝ᵥ a) := by
    rw [hww, dotProduct, Finset.mul_sum]
    refine Finset.sum_le_sum fun i _ => ?_
    have : S i ^ 2 ≤ S i0 ^ 2 := by
      by_cases hi : i = i0
      · rw [hi]
      · exact pow_le_pow_left₀ (h.nonneg i) (hgap i hi).le 2
    nlinarith [sq_nonneg (a i)]
  have hsq : (N • y - w) ⬝ᵥ (N • y - w) = N * (N * (y ⬝ᵥ y) - 2 * (w ⬝ᵥ y)) + w ⬝ᵥ w := by
    rw [sub_dotProduct, dotProduct_sub, dotProduct_sub, smul_dotProduct, smul_dotProduct, dotProduct_smul, dotProduct_smul, dotProduct_comm y w]
    simp only [smul_eq_mul]
    ring
  have hb0 := dot_self_nonneg (x - U *ᵥ a)
  have hs0 := dot_self_nonneg (N • y - w)
  have hS2 : 0 < S i0 ^ 2 := by positivity
  have h1 : N * (N * (y ⬝ᵥ y) - 2 * (w ⬝ᵥ y)) ≤ N * (-S i0 ^ 2) := mul_le_mul_of_nonneg_left (by linarith) hN0
  have haN : a ⬝ᵥ a = N := by
    refine le_antisymm (by linarith) ?_
    by_contra hlt
    nlinarith
  have hx : x = U *ᵥ a := by
    have := dot_self_zero (x - U *ᵥ a) (by linarith)
    exact sub_eq_zero.1 this
  have hy : N • y = w := by
    have := dot_self_zero (N • y - w) (by rw [hsq]; rw [haN] at hle; linarith)
    exact sub_eq_zero.1 this
  have hNpos : 0 < N := by
    refine lt_of_le_of_ne hN0 fun hz => ?_
    have hx0 : x = 0 := dot_self_zero x (by rw [← hN, ← hz])
    have : w = 0 := by rw [← hy, ← hz, zero_smul]
    rw [this, zero_dotProduct, ← hz] at hopt
    linarith
  -- the other coefficients vanish
  have hz : ∀ i, i ≠ i0 → a i = 0 := by
    have hsum : ∑ i, (S i0 ^ 2 - S i ^ 2) * a i ^ 2 ≤ 0 := by
      have e : ∑ i, (S i0 ^ 2 - S i ^ 2) * a i ^ 2 = S i0 ^ 2 * (a ⬝ᵥ a) - w ⬝ᵥ w := by
        rw [hww, dotProduct, Finset.mul_sum, ← Finset.sum_sub_distrib]
        exact Finset.sum_congr rfl fun i _ => by ring
      rw [e, haN]
      rw [hsq] at hs0
      linarith
    have hnn : ∀ i ∈ Finset.univ, 0 ≤ (S i0 ^ 2 - S i ^ 2) * a i ^ 2 := by
      intro i _
      refine mul_nonneg ?_ (sq_nonneg _)
      by_cases hi : i = i0
      · rw [hi, sub_self]
      · exact sub_nonneg.2 (pow_le_pow_left₀ (h.nonneg i) (hgap i hi).le 2)
    have h0 := (Finset.sum_eq_zero_iff_of_nonneg hnn).1 (le_antisymm hsum (Finset.sum_nonneg hnn))
    intro i hi
    have h2 := h0 i (Finset.mem_univ _)
    have h3 : S i0 ^ 2 - S i ^ 2 ≠ 0 := (sub_pos.2 (pow_lt_pow_left₀ (hgap i hi) (h.nonneg i) two_ne_zero)).ne'
    exact pow_eq_zero_iff two_ne_zero |>.1 ((mul_eq_zero.1 h2).resolve_left h3)
  have haa : a = a i0 • Pi.single i0 1 := by
    funext i
    by_cases hi : i = i0
    · subst hi
      simp
    · rw [hz i hi, Pi.smul_apply, Pi.single_eq_of_ne hi, smul_zero]
  have hNa : N = a i0 ^ 2 := by
    rw [← haN, haa]
    simp [sq]
  have hw2 : w = (a i0 * S i0) • Vh i0 := by
    rw [hwdef, hV0, ← smul_vecMul]
    congr 1
    funext i
    by_cases hi : i = i0
    · subst hi
      simp
    · rw [hz i hi, Pi.smul_apply, Pi.single_eq_of_ne hi, smul_zero, zero_mul]
  have hx2 : x = a i0 • fun i => U i i0 := by
    rw [hx, hU0, ← mulVec_smul, ← haa]
  have hy2 : y = (N⁻¹ * (a i0 * S i0)) • Vh i0 := by
    rw [mul_smul, ← hw2, ← hy, smul_smul, inv_mul_cancel₀ hNpos.ne', one_smul]
  ext i j
  rw [vecMulVec_apply, Matrix.smul_apply, vecMulVec_apply, hx2, hy2, hNa]
  rw [hNa] at hNpos
  have : a i0 ≠ 0 := fun h => by rw [h] at hNpos; simp at hNpos
  simp only [Pi.smul_apply, smul_eq_mul]
  field_simp

end AceTN
