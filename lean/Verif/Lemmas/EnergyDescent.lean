import Verif.Props.GateExp
import Mathlib.Analysis.Matrix.Spectrum

/-!
Imaginary time evolution of a positive matrix lowers the expectation value of the Hamiltonian.
-/

set_option autoImplicit false

namespace AceTN

open Matrix
open scoped ComplexOrder

variable {𝕜 : Type*} [RCLike 𝕜] {n : Type*} [Fintype n] [DecidableEq n]

theorem exists_unitary_diag (H : Matrix n n 𝕜) (hH : H.IsHermitian) :
    ∃ (U : Matrix n n 𝕜) (l : n → ℝ), Uᴴ * U = 1 ∧ U * Uᴴ = 1 ∧ H = U * diagonal (fun i => (l i : 𝕜)) * Uᴴ := by
  refine ⟨(hH.eigenvectorUnitary : Matrix n n 𝕜), hH.eigenvalues, ?_, ?_, ?_⟩
  · exact Unitary.coe_star_mul_self hH.eigenvectorUnitary
  · exact Unitary.coe_mul_star_self hH.eigenvectorUnitary
  · have h := hH.spectral_theorem
    rw [Unitary.conjStarAlgAut_apply] at h
    exact h

theorem calculateGate_diag (U : Matrix n n 𝕜) (l : n → ℝ) (h1 : Uᴴ * U = 1) (t : ℝ) :
    calculateGate (U * diagonal (fun i => (l i : 𝕜)) * Uᴴ) t =
      U * diagonal (fun i => ((Real.exp (-t * l i) : ℝ) : 𝕜)) * Uᴴ := by
  have hinv : U⁻¹ = Uᴴ := Matrix.inv_eq_left_inv h1
  have hu : IsUnit U := (Matrix.isUnit_iff_isUnit_det U).2 (by
    have := congrArg Matrix.det h1
    rw [Matrix.det_mul, Matrix.det_one] at this
    exact IsUnit.of_mul_eq_one_right _ this)
  unfold calculateGate
  have e : (-(t : 𝕜)) • (U * diagonal (fun i => (l i : 𝕜)) * Uᴴ) =
      U * diagonal (fun i => ((-t * l i : ℝ) : 𝕜)) * U⁻¹ := by
    rw [hinv, ← Matrix.smul_mul, ← Matrix.mul_smul, ← Matrix.diagonal_smul]
    congr 3
    funext i
    simp
  rw [e, Matrix.exp_conj _ _ hu, Matrix.exp_diagonal, hinv]
  congr 3
  funext i
  rw [Pi.coe_exp, Real.exp_eq_exp_ℝ]
  exact (NormedSpace.algebraMap_exp_comm (𝔸 := 𝕜) (-t * l i)).symm

omit [DecidableEq n] in
theorem chebyshev_identity (w x e : n → ℝ) :
    ∑ i, ∑ j, w i * w j * ((x i - x j) * (e i - e j)) =
      2 * ((∑ i, w i * (x i * e i)) * (∑ i, w i) - (∑ i, w i * x i) * ∑ i, w i * e i) := by
  have h : ∀ f g : n → ℝ, (∑ i, f i) * (∑ j, g j) = ∑ i, ∑ j, f i * g j := fun f g => Finset.sum_mul_sum ..
  have e1 : (∑ i, w i * (x i * e i)) * (∑ i, w i) = ∑ i, ∑ j, w i * w j * (x j * e j) := by
    rw [mul_comm, h]
    exact Finset.sum_congr rfl fun i _ => Finset.sum_congr rfl fun j _ => by ring
  have e2 : (∑ i, w i * x i) * (∑ i, w i * e i) = ∑ i, ∑ j, w i * w j * (x j * e i) := by
    rw [mul_comm, h]
    exact Finset.sum_congr rfl fun i _ => Finset.sum_congr rfl fun j _ => by ring
  rw [two_mul]
  nth_rw 1 [e1, e2]
  rw [h, h, ← Finset.sum_sub_distrib, ← Finset.sum_sub_distrib, ← Finset.sum_add_distrib]
  refine Finset.sum_congr rfl fun i _ => ?_
  rw [← Finset.sum_sub_distrib, ← Finset.sum_sub_distrib, ← Finset.sum_add_distrib]
  exact Finset.sum_congr rfl fun j _ => by ring

omit [DecidableEq n] in
/-- Weighted Chebyshev. -/
theorem chebyshev_le (w x e : n → ℝ) (hw : ∀ i, 0 ≤ w i) (h : ∀ i j, (x i - x j) * (e i - e j) ≤ 0) :
    (∑ i, w i * (x i * e i)) * (∑ i, w i) ≤ (∑ i, w i * x i) * ∑ i, w i * e i := by
  have h1 := chebyshev_identity w x e
  have h2 : ∑ i, ∑ j, w i * w j * ((x i - x j) * (e i - e j)) ≤ 0 :=
    Finset.sum_nonpos fun i _ => Finset.sum_nonpos fun j _ =>
      mul_nonpos_of_nonneg_of_nonpos (mul_nonneg (hw i) (hw j)) (h i j)
  linarith

omit [DecidableEq n] in
/-- Weighted Chebyshev, strict: the weights see two different values. -/
theorem chebyshev_lt (w x e : n → ℝ) (hw : ∀ i, 0 ≤ w i) (h : ∀ i j, x i ≠ x j → (x i - x j) * (e i - e j) < 0)
    (hv : (∑ i, w i * x i) ^ 2 ≠ (∑ i, w i * x i ^ 2) * ∑ i, w i) :
    (∑ i, w i * (x i * e i)) * (∑ i, w i) < (∑ i, w i * x i) * ∑ i, w i * e i := by
  have hle : ∀ i j, (x i - x j) * (e i - e j) ≤ 0 := fun i j => by
    by_cases hx : x i = x j
    · rw [hx]; simp
    · exact (h i j hx).le
  refine lt_of_le_of_ne (chebyshev_le w x e hw hle) fun heq => hv ?_
  have h1 := chebyshev_identity w x e
  rw [heq, sub_self, mul_zero] at h1
  have hn : ∀ i j, w i * w j * ((x i - x j) * (e i - e j)) ≤ 0 := fun i j =>
    mul_nonpos_of_nonneg_of_nonpos (mul_nonneg (hw i) (hw j)) (hle i j)
  have h2 := (Finset.sum_eq_zero_iff_of_nonpos fun i _ => Finset.sum_nonpos fun j _ => hn i j).1 h1
  have h3 : ∀ i j, w i * w j * ((x i - x j) * (x i - x j)) = 0 := by
    intro i j
    have h4 := (Finset.sum_eq_zero_iff_of_nonpos fun j _ => hn i j).1 (h2 i (Finset.mem_univ _)) j (Finset.mem_univ _)
    by_cases hx : x i = x j
    · rw [hx]; simp
    · rcases mul_eq_zero.1 h4 with h5 | h5
      · rw [h5]; simp
      · exact absurd h5 (h i j hx).ne
  have h4 := chebyshev_identity w x x
  rw [Finset.sum_eq_zero fun i _ => Finset.sum_eq_zero fun j _ => h3 i j] at h4
  have e1 : ∑ i, w i * (x i * x i) = ∑ i, w i * x i ^ 2 := Finset.sum_congr rfl fun i _ => by ring
  rw [e1] at h4
  nlinarith

theorem re_trace_diag (R U : Matrix n n 𝕜) (f : n → ℝ) :
    RCLike.re (trace (R * (U * diagonal (fun i => (f i : 𝕜)) * Uᴴ))) =
      ∑ i, RCLike.re ((Uᴴ * R * U) i i) * f i := by
  have e : trace (R * (U * diagonal (fun i => (f i : 𝕜)) * Uᴴ)) =
      trace (Uᴴ * R * U * diagonal (fun i => (f i : 𝕜))) := by
    rw [← Matrix.mul_assoc, Matrix.trace_mul_comm, ← Matrix.mul_assoc, ← Matrix.mul_assoc]
  rw [e, trace, map_sum]
  refine Finset.sum_congr rfl fun i _ => ?_
  rw [diag_apply, mul_diagonal, mul_comm, RCLike.re_ofReal_mul, mul_comm]

theorem re_trace_conj (R U : Matrix n n 𝕜) (h2 : U * Uᴴ = 1) :
    RCLike.re (trace R) = ∑ i, RCLike.re ((Uᴴ * R * U) i i) := by
  rw [show trace R = trace (Uᴴ * R * U) by
    rw [Matrix.trace_mul_comm, ← Matrix.mul_assoc, h2, Matrix.one_mul], trace, map_sum]
  rfl

/-- The energy of a positive matrix does not increase under imaginary time evolution, and the norm stays positive;
it decreases if the energy has a variance. -/
theorem energy_descent (R H : Matrix n n 𝕜) (hR : R.PosSemidef) (hH : H.IsHermitian) (t : ℝ) (ht : 0 ≤ t)
    (hn : 0 < RCLike.re (trace R)) :
    let G := calculateGate H t
    0 < RCLike.re (trace (R * (G * G))) ∧
    RCLike.re (trace (R * (G * H * G))) / RCLike.re (trace (R * (G * G))) ≤
      RCLike.re (trace (R * H)) / RCLike.re (trace R) ∧
    (0 < t → RCLike.re (trace (R * H)) ^ 2 ≠ RCLike.re (trace (R * (H * H))) * RCLike.re (trace R) →
      RCLike.re (trace (R * (G * H * G))) / RCLike.re (trace (R * (G * G))) <
        RCLike.re (trace (R * H)) / RCLike.re (trace R)) := by
  intro G
  obtain ⟨U, l, h1, h2, hU⟩ := exists_unitary_diag H hH
  set w : n → ℝ := fun i => RCLike.re ((Uᴴ * R * U) i i) with hw
  have hw0 : ∀ i, 0 ≤ w i := fun i => by
    have h : (Uᴴ * R * U).PosSemidef := hR.conjTranspose_mul_mul_same U
    exact (RCLike.nonneg_iff.1 (h.diag_nonneg (i := i))).1
  have hG : G = U * diagonal (fun i => ((Real.exp (-t * l i) : ℝ) : 𝕜)) * Uᴴ := by
    simp only [G]; rw [hU]; exact calculateGate_diag U l h1 t
  have hmul : ∀ f g : n → ℝ, (U * diagonal (fun i => (f i : 𝕜)) * Uᴴ) * (U * diagonal (fun i => (g i : 𝕜)) * Uᴴ) =
      U * diagonal (fun i => ((f i * g i : ℝ) : 𝕜)) * Uᴴ := by
    intro f g
    calc _ = U * diagonal (fun i => (f i : 𝕜)) * (Uᴴ * U) * diagonal (fun i => (g i : 𝕜)) * Uᴴ := by
          simp only [Matrix.mul_assoc]
      _ = _ := by
          rw [h1, Matrix.mul_one, Matrix.mul_assoc U, diagonal_mul_diagonal]
          simp only [RCLike.ofReal_mul]
  set e : n → ℝ := fun i => Real.exp (-t * l i) * Real.exp (-t * l i) with he
  have hGG : RCLike.re (trace (R * (G * G))) = ∑ i, w i * e i := by
    rw [hG, hmul, re_trace_diag]
  have hGHG : RCLike.re (trace (R * (G * H * G))) = ∑ i, w i * (l i * e i) := by
    rw [hG, hU, hmul, hmul, re_trace_diag]
    exact Finset.sum_congr rfl fun i _ => by simp only [he, hw]; ring
  have hE : RCLike.re (trace (R * H)) = ∑ i, w i * l i := by rw [hU, re_trace_diag]
  have hE2 : RCLike.re (trace (R * (H * H))) = ∑ i, w i * l i ^ 2 := by
    rw [hU, hmul, re_trace_diag]
    exact Finset.sum_congr rfl fun i _ => by simp only [hw]; ring
  have hN : RCLike.re (trace R) = ∑ i, w i := re_trace_conj R U h2
  have hepos : ∀ i, 0 < e i := fun i => mul_pos (Real.exp_pos _) (Real.exp_pos _)
  have hpos : 0 < ∑ i, w i * e i := by
    rw [hN] at hn
    obtain ⟨i, _, hi⟩ := Finset.exists_ne_zero_of_sum_ne_zero hn.ne'
    exact Finset.sum_pos' (fun i _ => mul_nonneg (hw0 i) (hepos i).le)
      ⟨i, Finset.mem_univ _, mul_pos (lt_of_le_of_ne (hw0 i) (Ne.symm hi)) (hepos i)⟩
  have hanti : ∀ i j, 0 < t → l i < l j → e j < e i := fun i j ht hij => by
    have : Real.exp (-t * l j) < Real.exp (-t * l i) := Real.exp_lt_exp.2 (by nlinarith)
    exact mul_lt_mul'' this this (Real.exp_pos _).le (Real.exp_pos _).le
  have hlt : 0 < t → ∀ i j, l i ≠ l j → (l i - l j) * (e i - e j) < 0 := fun ht i j hij => by
    rcases lt_or_gt_of_ne hij with h | h
    · exact mul_neg_of_neg_of_pos (by linarith) (by linarith [hanti i j ht h])
    · exact mul_neg_of_pos_of_neg (by linarith) (by linarith [hanti j i ht h])
  have hle : ∀ i j, (l i - l j) * (e i - e j) ≤ 0 := fun i j => by
    rcases ht.eq_or_lt with h | h
    · simp [he, ← h]
    · by_cases hij : l i = l j
      · rw [hij]; simp
      · exact (hlt h i j hij).le
  rw [hGG, hGHG, hE, hE2, hN]
  rw [hN] at hn
  refine ⟨hpos, ?_, fun ht hv => ?_⟩
  · rw [div_le_div_iff₀ hpos hn]
    exact chebyshev_le w l e hw0 hle
  · rw [div_lt_div_iff₀ hpos hn]
    exact chebyshev_lt w l e hw0 (hlt ht) hv

end AceTN
