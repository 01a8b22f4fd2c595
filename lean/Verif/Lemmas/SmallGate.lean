import Verif.Lemmas.TrotterOrder
import Verif.Lemmas.QuasiOptimal
import Verif.Model.Gate
import Mathlib.Analysis.Matrix.Normed

/-!
Gates of small time steps are close to the identity.
-/

set_option autoImplicit false
set_option linter.unusedSectionVars false

namespace AceTN

open Spec

section expo

open NormedSpace Trot

variable {𝔸 : Type*} [NormedRing 𝔸] [NormedAlgebra ℝ 𝔸] [CompleteSpace 𝔸]

theorem norm_exp_sub_one (a : 𝔸) : ‖exp a - 1‖ ≤ Real.exp ‖a‖ - 1 := by
  have h := hasSum_exp (𝔸 := ℝ) ‖a‖
  rw [← Real.exp_eq_exp_ℝ] at h
  have h1 := (hasSum_nat_add_iff' 1).2 h
  have h2 := (hasSum_nat_add_iff' 1).2 (hasSum_exp a)
  simp only [Finset.range_one, Finset.sum_singleton, Nat.factorial_zero, Nat.cast_one, inv_one, one_smul, pow_zero] at h1 h2
  refine h2.norm_le_of_bounded h1 fun n => ?_
  rw [norm_smul, smul_eq_mul, Real.norm_of_nonneg (by positivity)]
  gcongr
  exact norm_pow_le' a n.succ_pos

theorem exp_sub_one_le (x : ℝ) : Real.exp x - 1 ≤ x * Real.exp x := by
  have h := Real.add_one_le_exp (-x)
  rw [Real.exp_neg] at h
  have hp := Real.exp_pos x
  have h2 : (-x + 1) * Real.exp x ≤ 1 := by
    calc (-x + 1) * Real.exp x ≤ (Real.exp x)⁻¹ * Real.exp x := by gcongr
      _ = 1 := inv_mul_cancel₀ hp.ne'
  linarith

end expo

variable {𝕜 : Type} [RCLike 𝕜] {P : Type} [Fintype P] [DecidableEq P] {B : Type} [Fintype B]

open scoped Matrix.Norms.Operator in
/-- The entries of the exponential of a small matrix are close to those of the identity. -/
theorem calculateGate_close {n : Type} [Fintype n] [DecidableEq n] (ham : Matrix n n 𝕜) :
    ∃ c : ℝ, 0 ≤ c ∧ ∀ τ : ℝ, |τ| ≤ 1 → ∀ i j, ‖calculateGate ham τ i j - (1 : Matrix n n 𝕜) i j‖ ≤ c * |τ| := by
  let _ : NormedAlgebra ℝ (Matrix n n 𝕜) := NormedAlgebra.restrictScalars ℝ 𝕜 _
  refine ⟨‖ham‖ * Real.exp ‖ham‖, by positivity, fun τ hτ i j => ?_⟩
  have h1 : ‖calculateGate ham τ i j - (1 : Matrix n n 𝕜) i j‖ ≤ ‖calculateGate ham τ - 1‖ := by
    rw [← Matrix.sub_apply, Matrix.linfty_opNorm_def, ← coe_nnnorm]
    refine NNReal.coe_le_coe.2 (le_trans ?_ (Finset.le_sup (f := fun i => ∑ j, ‖(calculateGate ham τ - 1) i j‖₊) (Finset.mem_univ i)))
    exact Finset.single_le_sum (f := fun j => ‖(calculateGate ham τ - 1) i j‖₊) (fun _ _ => zero_le) (Finset.mem_univ j)
  have h2 : ‖calculateGate ham τ - 1‖ ≤ Real.exp ‖(-(τ : 𝕜)) • ham‖ - 1 := norm_exp_sub_one _
  rw [norm_smul, norm_neg, RCLike.norm_ofReal] at h2
  refine h1.trans (h2.trans ((exp_sub_one_le _).trans ?_))
  have h3 : |τ| * ‖ham‖ ≤ ‖ham‖ := mul_le_of_le_one_left (norm_nonneg _) hτ
  calc |τ| * ‖ham‖ * Real.exp (|τ| * ‖ham‖) ≤ |τ| * ‖ham‖ * Real.exp ‖ham‖ := by gcongr
    _ = _ := by ring

theorem normSq8_inner (T : B → B → B → B → B → B → P → P → 𝕜) :
    normSq8 T = ∑ r, ∑ d, ∑ u, ∑ d', ∑ l', ∑ u', ∑ p, ∑ q, ‖T u r d l' u' d' p q‖ ^ 2 := by
  unfold normSq8
  refine Finset.sum_congr rfl fun r _ => Finset.sum_congr rfl fun d _ => Finset.sum_congr rfl fun u _ => ?_
  rw [Finset.sum_comm]
  refine Finset.sum_congr rfl fun d' _ => ?_
  rw [Finset.sum_comm]
  refine Finset.sum_congr rfl fun l' _ => ?_
  rw [Finset.sum_comm]

theorem normSq8_nonneg (T : B → B → B → B → B → B → P → P → 𝕜) : 0 ≤ normSq8 T := by
  unfold normSq8
  positivity

theorem normSq8_sub_le (S T U : B → B → B → B → B → B → P → P → 𝕜) :
    normSq8 (fun u r d l' u' d' p q => S u r d l' u' d' p q - U u r d l' u' d' p q) ≤
      2 * (normSq8 (fun u r d l' u' d' p q => S u r d l' u' d' p q - T u r d l' u' d' p q) +
        normSq8 (fun u r d l' u' d' p q => T u r d l' u' d' p q - U u r d l' u' d' p q)) := by
  unfold normSq8
  simp only [← Finset.sum_add_distrib, Finset.mul_sum]
  gcongr with r _ d _ u _ p _ d' _ l' _ u' _ q _
  have h := norm_add_le (S u r d l' u' d' p q - T u r d l' u' d' p q) (T u r d l' u' d' p q - U u r d l' u' d' p q)
  rw [sub_add_sub_cancel] at h
  nlinarith [norm_nonneg (S u r d l' u' d' p q - U u r d l' u' d' p q), sq_nonneg (‖S u r d l' u' d' p q - T u r d l' u' d' p q‖ - ‖T u r d l' u' d' p q - U u r d l' u' d' p q‖)]

/-- Gates with small entries make two-site tensors small. -/
theorem gated_le (g : P → P → P → P → 𝕜) (T : B → B → B → B → B → B → P → P → 𝕜) :
    normSq8 (gated g T) ≤ (∑ i : P × P, ∑ j : P × P, ‖g i.1 i.2 j.1 j.2‖ ^ 2) * normSq8 T := by
  rw [normSq8_inner, normSq8_inner]
  simp only [Finset.mul_sum (Finset.univ : Finset B)]
  gcongr with r _ d _ u _ d' _ l' _ u' _
  have h : ∀ p q, ‖gated g T u r d l' u' d' p q‖ ^ 2 ≤ (∑ i : P × P, ‖g i.1 i.2 p q‖ ^ 2) * ∑ i : P × P, ‖T u r d l' u' d' i.1 i.2‖ ^ 2 := by
    intro p q
    unfold gated
    rw [← Fintype.sum_prod_type' (f := fun p' q' => T u r d l' u' d' p' q' * g p' q' p q)]
    have h1 : ‖∑ i : P × P, T u r d l' u' d' i.1 i.2 * g i.1 i.2 p q‖ ≤ ∑ i : P × P, ‖g i.1 i.2 p q‖ * ‖T u r d l' u' d' i.1 i.2‖ :=
      (norm_sum_le _ _).trans (le_of_eq (Finset.sum_congr rfl fun i _ => by rw [norm_mul, mul_comm]))
    exact (pow_le_pow_left₀ (norm_nonneg _) h1 2).trans (Finset.sum_mul_sq_le_sq_mul_sq _ _ _)
  calc ∑ p, ∑ q, ‖gated g T u r d l' u' d' p q‖ ^ 2
      ≤ ∑ p, ∑ q, (∑ i : P × P, ‖g i.1 i.2 p q‖ ^ 2) * ∑ i : P × P, ‖T u r d l' u' d' i.1 i.2‖ ^ 2 := by
        gcongr with p _ q _
        exact h p q
    _ = _ := by
        simp only [← Finset.sum_mul]
        congr 1
        · rw [Finset.sum_comm (s := (Finset.univ : Finset (P × P))), Fintype.sum_prod_type]
        · rw [Fintype.sum_prod_type]

/-- Gates of small time steps change two-site tensors by little. -/
theorem twoSiteGate_close (m : ModelTerms P 𝕜) (b : Bond) : ∃ G : ℝ, 0 ≤ G ∧ ∀ τ : ℝ, |τ| ≤ 1 →
    ∀ T : B → B → B → B → B → B → P → P → 𝕜,
      normSq8 (fun u r d l' u' d' p q => gated (twoSiteGate m τ b) T u r d l' u' d' p q - T u r d l' u' d' p q) ≤ G * τ ^ 2 * normSq8 T := by
  obtain ⟨c, hc0, hc⟩ := calculateGate_close (bondHam m b)
  refine ⟨∑ _i : P × P, ∑ _j : P × P, c ^ 2, by positivity, fun τ hτ T => ?_⟩
  have e : (fun u r d l' u' d' p q => gated (twoSiteGate m τ b) T u r d l' u' d' p q - T u r d l' u' d' p q) =
      gated (fun p q r s => twoSiteGate m τ b p q r s - (1 : Matrix (P × P) (P × P) 𝕜) (p, q) (r, s)) T := by
    funext u r d l' u' d' p q
    unfold gated
    simp only [mul_sub, Finset.sum_sub_distrib]
    congr 1
    rw [← Fintype.sum_prod_type' (f := fun p' q' => T u r d l' u' d' p' q' * (1 : Matrix (P × P) (P × P) 𝕜) (p', q') (p, q)),
      Finset.sum_eq_single (p, q) (fun i _ hi => by rw [Prod.mk.eta, Matrix.one_apply_ne hi, mul_zero]) (by simp)]
    simp
  rw [e]
  refine (gated_le _ T).trans ?_
  gcongr ?_ * _
  · exact normSq8_nonneg T
  · rw [Finset.sum_mul]
    gcongr with i _
    rw [Finset.sum_mul]
    gcongr with j _
    rw [← sq_abs τ, ← mul_pow]
    exact pow_le_pow_left₀ (norm_nonneg _) (hc τ hτ i j) 2

end AceTN
