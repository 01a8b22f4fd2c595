import Verif.Lemmas.MeanTheory
import Verif.Lemmas.SmallGate
import Verif.Props.SimpleGauge
import Verif.Props.LatticeState
import Mathlib.Analysis.Complex.ExponentialBounds

/-!
Mean-field theory: a small time step leaves no choice.
-/

set_option autoImplicit false
set_option linter.unusedSectionVars false

namespace AceTN

open Spec Matrix

variable {P : Type} [Fintype P] [DecidableEq P] {nx ny : ℕ}

/-- What is close to a product has only one nearest product. -/
theorem oneNearest_of_close {T : P → P → ℝ} {f g : P → ℝ} (h : 2 * ∑ p, ∑ q, (T p q - f p * g q) ^ 2 < ∑ p, ∑ q, T p q ^ 2) : OneNearest T := by
  have hT : ∃ p q, T p q ≠ 0 := by
    by_contra hc
    push Not at hc
    have h0 : ∑ p, ∑ q, T p q ^ 2 = 0 := Finset.sum_eq_zero fun p _ => Finset.sum_eq_zero fun q _ => by rw [hc]; ring
    rw [h0] at h
    have : 0 ≤ ∑ p, ∑ q, (T p q - f p * g q) ^ 2 := Finset.sum_nonneg fun _ _ => Finset.sum_nonneg fun _ _ => sq_nonneg _
    linarith
  have : Nonempty P := hT.elim fun p _ => ⟨p⟩
  refine ⟨hT, fun x y x' y' hb hb' => ?_⟩
  let T6 : Fin 1 → Fin 1 → Fin 1 → Fin 1 → Fin 1 → Fin 1 → P → P → ℝ := fun _ _ _ _ _ _ p q => T p q
  have e : ∀ S : Fin 1 → Fin 1 → Fin 1 → Fin 1 → Fin 1 → Fin 1 → P → P → ℝ, normSq8 S = ∑ p, ∑ q, S 0 0 0 0 0 0 p q ^ 2 := by
    intro S
    unfold normSq8
    simp
  have t : ∀ (z1 z2 : ATensor (Fin 1) P ℝ) p q, twoSite z1 z2 0 0 0 0 0 0 p q = z1 0 0 0 0 p * z2 0 0 0 0 q := by
    intro z1 z2 p q
    unfold twoSite
    simp
  have key : ∀ u v : P → ℝ, BestProduct T u v → ∃ κ : ℝ, 0 < κ ∧ BestBond T6 (twoSite (fun _ _ _ _ => u) (fun _ _ _ _ => v)) κ := by
    rintro u v ⟨κ, hκ, hb⟩
    refine ⟨κ, hκ, hκ, fun c1 c2 => ?_⟩
    rw [e, e]
    simp only [t]
    exact hb _ _
  obtain ⟨κ, hκ, k1⟩ := key x y hb
  obtain ⟨κ', hκ', k2⟩ := key x' y' hb'
  have hne : T6 ≠ 0 := by
    intro h0
    obtain ⟨p, q, hpq⟩ := hT
    exact hpq (congrFun (congrFun (congrFun (congrFun (congrFun (congrFun (congrFun (congrFun h0 0) 0) 0) 0) 0) 0) p) q)
  have htie : NoTie 1 (twoMat T6) := by
    refine noTie_one _ (Matrix.of fun i _ => f i.2) (Matrix.of fun _ j => g j.2) ?_
    have hm : ∀ i j, (twoMat T6) i j = T i.2 j.2 := fun _ _ => rfl
    unfold frobSq
    simp only [Matrix.sub_apply, Matrix.mul_apply, Matrix.of_apply, hm, Finset.univ_unique, Finset.sum_singleton, Fintype.sum_prod_type, Real.norm_eq_abs,
      sq_abs]
    exact h
  obtain ⟨k3, -⟩ := best_one T6 hne htie _ _ _ _ κ κ' k1 k2
  refine ⟨κ'⁻¹ * κ, fun p q => ?_⟩
  have k4 := k3 0 0 0 0 0 0 p q
  rw [t, t] at k4
  rw [mul_assoc, k4, inv_mul_cancel_left₀ hκ'.ne']

open scoped Matrix.Norms.L2Operator

/-- The pair after a gate as a product of a matrix and a vector. -/
theorem pairAfter_mulVec (H : Matrix (P × P) (P × P) ℝ) (dtau : ℝ) (x y : P → ℝ) :
    (fun w : P × P => pairAfter (fun p q r s => calculateGate H dtau (p, q) (r, s)) x y w.1 w.2) =
      (calculateGate Hᵀ dtau).mulVec fun w : P × P => x w.1 * y w.2 := by
  have ht : calculateGate Hᵀ dtau = (calculateGate H dtau)ᵀ := by
    unfold calculateGate
    rw [← Matrix.transpose_smul, Matrix.exp_transpose]
  funext w
  rw [ht]
  unfold pairAfter
  simp only [Matrix.mulVec, dotProduct, Matrix.transpose_apply, Fintype.sum_prod_type]
  exact Finset.sum_congr rfl fun p _ => Finset.sum_congr rfl fun q _ => mul_comm _ _

theorem exp_third : Real.exp (1 / 3) ≤ 1.4 := by
  have h := Real.exp_one_lt_d9
  have h3 : Real.exp (1 / 3) ^ 3 = Real.exp 1 := by
    rw [← Real.exp_nat_mul]
    norm_num
  by_contra hc
  push Not at hc
  have : (1.4 : ℝ) ^ 3 < Real.exp (1 / 3) ^ 3 := pow_lt_pow_left₀ hc (by norm_num) (by norm_num)
  rw [h3] at this
  norm_num at this h
  linarith

/-- So a pair that is not zero has one nearest product after a small time step. -/
theorem oneNearest_small (H : Matrix (P × P) (P × P) ℝ) (dtau : ℝ) (hd : |dtau| * ‖H‖ ≤ 1 / 3) (x y : P → ℝ) (hx : x ≠ 0) (hy : y ≠ 0) :
    OneNearest (pairAfter (fun p q r s => calculateGate H dtau (p, q) (r, s)) x y) := by
  have : Nonempty P := (Function.ne_iff.1 hx).elim fun p _ => ⟨p⟩
  have hH : ‖Hᵀ‖ = ‖H‖ := by
    rw [← Matrix.conjTranspose_eq_transpose_of_trivial, Matrix.l2_opNorm_conjTranspose]
  set w : P × P → ℝ := fun w => x w.1 * y w.2 with hw
  set T := pairAfter (fun p q r s => calculateGate H dtau (p, q) (r, s)) x y with hT
  set G := calculateGate Hᵀ dtau with hG
  have hTw : (fun i : P × P => T i.1 i.2) = G.mulVec w := pairAfter_mulVec H dtau x y
  have n1 : ‖G - 1‖ ≤ 0.4 := by
    have h := norm_exp_sub_one ((-(dtau : ℝ)) • Hᵀ)
    rw [norm_smul, norm_neg, Real.norm_eq_abs, hH] at h
    have := Real.exp_le_exp.2 hd
    have h' := exp_third
    refine (h.trans ?_ : ‖G - 1‖ ≤ _)
    linarith
  have n2 : ‖calculateGate Hᵀ (-dtau)‖ ≤ 1.4 := by
    have h := Trot.norm_exp_le ((-((-dtau : ℝ) : ℝ)) • Hᵀ)
    rw [norm_smul, norm_neg, Real.norm_eq_abs, abs_neg, hH] at h
    exact (h.trans ((Real.exp_le_exp.2 hd).trans exp_third) : ‖calculateGate Hᵀ (-dtau)‖ ≤ _)
  have hinv : calculateGate Hᵀ (-dtau) * G = 1 := by
    rw [hG]
    unfold calculateGate
    rw [← Matrix.exp_add_of_commute _ _ (((Commute.refl Hᵀ).smul_left _).smul_right _), ← add_smul]
    simp
  have hback : (calculateGate Hᵀ (-dtau)).mulVec (G.mulVec w) = w := by
    rw [Matrix.mulVec_mulVec, hinv, Matrix.one_mulVec]
  have hw0 : w ≠ 0 := by
    intro h0
    obtain ⟨p, hp⟩ := Function.ne_iff.1 hx
    obtain ⟨q, hq⟩ := Function.ne_iff.1 hy
    exact mul_ne_zero hp hq (congrFun h0 (p, q))
  have s1 : stateNorm (G.mulVec w - w) ≤ 0.4 * stateNorm w := by
    have h := stateNorm_mulVec (G - 1) w
    rw [Matrix.sub_mulVec, Matrix.one_mulVec] at h
    exact h.trans (mul_le_mul_of_nonneg_right n1 (Real.sqrt_nonneg _))
  have s2 : stateNorm w ≤ 1.4 * stateNorm (G.mulVec w) := by
    have h := stateNorm_mulVec (calculateGate Hᵀ (-dtau)) (G.mulVec w)
    rw [hback] at h
    exact h.trans (mul_le_mul_of_nonneg_right n2 (Real.sqrt_nonneg _))
  have s3 : 0 < stateNorm w := by
    refine Real.sqrt_pos.2 ?_
    obtain ⟨i, hi⟩ := Function.ne_iff.1 hw0
    refine Finset.sum_pos' (fun _ _ => sq_nonneg _) ⟨i, Finset.mem_univ _, ?_⟩
    have : 0 < ‖w i‖ := norm_pos_iff.2 hi
    positivity
  have s4 : 0 < stateNorm (G.mulVec w) := by linarith
  have s5 : stateNorm (G.mulVec w - w) ≤ 0.56 * stateNorm (G.mulVec w) := by linarith
  have sq : ∀ v : P × P → ℝ, stateNorm v ^ 2 = ∑ p, ∑ q, v (p, q) ^ 2 := by
    intro v
    unfold stateNorm
    rw [Real.sq_sqrt (Finset.sum_nonneg fun _ _ => sq_nonneg _), Fintype.sum_prod_type]
    simp only [Real.norm_eq_abs, sq_abs]
  refine oneNearest_of_close (f := x) (g := y) ?_
  have q1 := sq (G.mulVec w - w)
  have q2 := sq (G.mulVec w)
  rw [← hTw] at q1 q2
  have q3 : ∑ p, ∑ q, (T p q - x p * y q) ^ 2 = stateNorm ((fun i : P × P => T i.1 i.2) - w) ^ 2 := q1.symm
  have q4 : ∑ p, ∑ q, T p q ^ 2 = stateNorm (fun i : P × P => T i.1 i.2) ^ 2 := q2.symm
  rw [q3, q4, hTw]
  have s0 : 0 ≤ stateNorm (G.mulVec w - w) := Real.sqrt_nonneg _
  nlinarith

theorem meanStep_ne {gate : P → P → P → P → ℝ} {b : Bond} {v v' : Site → P → ℝ} (hT : ∃ p q, pairAfter gate (v b.s1) (v b.s2) p q ≠ 0)
    (h : MeanStep nx ny gate b v v') (hv : ∀ s, InCell nx ny s → v s ≠ 0) : ∀ s, InCell nx ny s → v' s ≠ 0 := by
  obtain ⟨p, q, hpq⟩ := bestProduct_ne hT h.1
  intro s hs
  by_cases h1 : s = b.s1
  · subst h1
    exact fun h0 => left_ne_zero_of_mul hpq (congrFun h0 p)
  by_cases h2 : s = b.s2
  · subst h2
    exact fun h0 => right_ne_zero_of_mul hpq (congrFun h0 q)
  · rw [h.2 s hs h1 h2]
    exact hv s hs

/-- A run of small time steps. -/
theorem clearRun_small (m : ModelTerms P ℝ) (dtau : ℝ) (l : List Bond) (hl : ∀ b ∈ l, b ∈ buildBondList nx ny)
    (hd : ∀ b ∈ buildBondList nx ny, |dtau| * ‖bondHam m b‖ ≤ 1 / 3) (v : Site → P → ℝ) (hv : ∀ s, InCell nx ny s → v s ≠ 0) :
    NoChoiceRun nx ny (twoSiteGate m dtau) l v ∧ ∀ w, MeanRun nx ny (twoSiteGate m dtau) l v w → ∀ s, InCell nx ny s → w s ≠ 0 := by
  induction l generalizing v with
  | nil => exact ⟨trivial, fun w hw s hs => by rw [hw s hs]; exact hv s hs⟩
  | cons b l ih =>
    have hb := hl b (by simp)
    obtain ⟨c1, c2⟩ := C02_bond_ends_in_cell nx ny b hb
    rw [mem_buildSiteList] at c1 c2
    have h1 : OneNearest (pairAfter (twoSiteGate m dtau b) (v b.s1) (v b.s2)) :=
      oneNearest_small (bondHam m b) dtau (hd b hb) _ _ (hv _ c1) (hv _ c2)
    have h2 := fun w (hw : MeanStep nx ny (twoSiteGate m dtau b) b v w) =>
      ih (fun b hb => hl b (by simp [hb])) w (meanStep_ne h1.1 hw hv)
    exact ⟨⟨h1, fun w hw => (h2 w hw).1⟩, fun w ⟨u, hu, hw⟩ => (h2 u hu).2 w hw⟩

end AceTN
