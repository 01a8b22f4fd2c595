import Verif.Lemmas.PatchTrial
import Verif.Props.AlsOptimal

/-!
The cost of the solver, when the norm tensor consists of overlaps of trial states.
-/

set_option autoImplicit false
set_option linter.unusedSectionVars false
set_option linter.unusedSimpArgs false

namespace AceTN

open Spec Full Finset

variable {𝕜 : Type} [RCLike 𝕜] {B P N : Type} [Fintype B] [Fintype P] [Fintype N]

theorem trialAmp_slice {Q Q' P₀ : Type} (A : ℤ × ℤ → ATensor B P₀ 𝕜) (p p' : ℤ × ℤ) (T T' : ATensor B Q 𝕜) (S S' : ATensor B Q' 𝕜)
    (k k' : Q) (j j' : Q') (h : ∀ l u r d, T l u r d k = S l u r d j) (h' : ∀ l u r d, T' l u r d k' = S' l u r d j') (r : Rect)
    (e : PatchLegs B P₀ r.w r.h) : trialAmp A p p' T T' r e k k' = trialAmp A p p' S S' r e j j' := by
  have e1 : pairAt p p' T T' k k' = pairAt p p' S S' j j' := by
    funext q
    unfold pairAt
    simp only [h, h']
  unfold trialAmp
  rw [e1]

/-- The norm tensor between two pairs of reduced tensors. -/
def attach2 (n : N → N → N → N → 𝕜) (r1 r2 r1' r2' : N → B → P → 𝕜) (b1 b2 k1 k2 : P) : 𝕜 :=
  ∑ y, ∑ x, ∑ Y, ∑ X, n y x Y X * (∑ b, r1 y b k1 * r2 x b k2) * star (∑ b, r1' Y b b1 * r2' X b b2)

theorem cost_overlaps (n : N → N → N → N → 𝕜) (r1 r2 r1' r2' : N → B → P → 𝕜) (gate : P → P → P → P → 𝕜) :
    cost r1 r2 (gateReduced r1' r2' gate) n = RCLike.re (∑ p, ∑ q, attach2 n r1 r2 r1 r2 p q p q) -
      2 * RCLike.re (∑ p, ∑ q, ∑ k, ∑ k', attach2 n r1' r2' r1 r2 p q k k' * gate k k' p q) := by
  unfold cost
  have e1 : (∑ Y, ∑ X, ∑ p, ∑ q, (∑ y, ∑ x, n y x Y X * ∑ u, r1 y u p * r2 x u q) * star (∑ u, r1 Y u p * r2 X u q)) =
      ∑ p, ∑ q, attach2 n r1 r2 r1 r2 p q p q := by
    unfold attach2
    open SumTac in einsum_ring
  have e2 : (∑ Y, ∑ X, ∑ p, ∑ q, (∑ y, ∑ x, n y x Y X * gateReduced r1' r2' gate y x p q) * star (∑ u, r1 Y u p * r2 X u q)) =
      ∑ p, ∑ q, ∑ k, ∑ k', attach2 n r1' r2' r1 r2 p q k k' * gate k k' p q := by
    unfold attach2 gateReduced
    open SumTac in einsum_ring
  rw [← e1, ← e2]
  simp only [Pi.star_apply]

theorem re_overlap (a b : 𝕜) : RCLike.re (a * star a) - 2 * RCLike.re (b * star a) = ‖a - b‖ ^ 2 - ‖b‖ ^ 2 := by
  rw [← RCLike.normSq_eq_def', ← RCLike.normSq_eq_def', RCLike.normSq_apply, RCLike.normSq_apply, RCLike.star_def]
  simp only [RCLike.mul_re, RCLike.conj_re, RCLike.conj_im, map_sub]
  ring

/-- Distances from overlaps. -/
theorem dist_overlaps {ι : Type} [Fintype ι] (c : ℝ) (ψ φ : ι → P → P → 𝕜) :
    RCLike.re (∑ p, ∑ q, (c : 𝕜) * ∑ e, ψ e p q * star (ψ e p q)) -
      2 * RCLike.re (∑ p, ∑ q, (c : 𝕜) * ∑ e, φ e p q * star (ψ e p q)) =
      c * ((∑ e, ∑ p, ∑ q, ‖ψ e p q - φ e p q‖ ^ 2) - ∑ e, ∑ p, ∑ q, ‖φ e p q‖ ^ 2) := by
  have h : ∀ χ : ι → P → P → 𝕜, RCLike.re (∑ p, ∑ q, (c : 𝕜) * ∑ e, χ e p q * star (ψ e p q)) =
      c * ∑ e, ∑ p, ∑ q, RCLike.re (χ e p q * star (ψ e p q)) := by
    intro χ
    simp only [map_sum, RCLike.re_ofReal_mul, ← Finset.mul_sum]
    congr 1
    rw [Finset.sum_comm]
    conv_rhs => rw [Finset.sum_comm]; enter [2, p]; rw [Finset.sum_comm]
    rw [Finset.sum_comm]
  rw [h, h, ← Finset.sum_sub_distrib, mul_left_comm, ← mul_sub, Finset.mul_sum, ← Finset.sum_sub_distrib]
  congr 1
  refine Finset.sum_congr rfl fun e _ => ?_
  rw [Finset.mul_sum, ← Finset.sum_sub_distrib, ← Finset.sum_sub_distrib]
  refine Finset.sum_congr rfl fun p _ => ?_
  rw [Finset.mul_sum, ← Finset.sum_sub_distrib, ← Finset.sum_sub_distrib]
  exact Finset.sum_congr rfl fun q _ => re_overlap _ _

section abstract

variable {ι : Type} [Fintype ι] (n : N → N → N → N → 𝕜) (c : ℝ) (hc : 0 < c)
  (ψ : (N → B → P → 𝕜) → (N → B → P → 𝕜) → ι → P → P → 𝕜)
  (hO : ∀ t1 t2 t1' t2' b1 b2 k1 k2, attach2 n t1 t2 t1' t2' b1 b2 k1 k2 = c * ∑ e, ψ t1 t2 e k1 k2 * star (ψ t1' t2' e b1 b2))
include hO

/-- The cost is a distance of states. -/
theorem cost_state (t1 t2 t1' t2' : N → B → P → 𝕜) (gate : P → P → P → P → 𝕜) :
    cost t1 t2 (gateReduced t1' t2' gate) n =
      c * ((∑ e, ∑ p, ∑ q, ‖ψ t1 t2 e p q - ∑ k, ∑ k', ψ t1' t2' e k k' * gate k k' p q‖ ^ 2) -
        ∑ e, ∑ p, ∑ q, ‖∑ k, ∑ k', ψ t1' t2' e k k' * gate k k' p q‖ ^ 2) := by
  rw [cost_overlaps, ← dist_overlaps]
  have e : ∀ p q, ∑ k, ∑ k', attach2 n t1' t2' t1 t2 p q k k' * gate k k' p q =
      (c : 𝕜) * ∑ e, (∑ k, ∑ k', ψ t1' t2' e k k' * gate k k' p q) * star (ψ t1 t2 e p q) := by
    intro p q
    simp only [hO]
    generalize (c : 𝕜) = c'
    open SumTac in einsum_ring
  simp only [e]
  simp only [hO]

include hc in
/-- The state is determined by the product of the reduced tensors. -/
theorem state_prod (κ : 𝕜) (t1 t2 t1' t2' : N → B → P → 𝕜)
    (h : ∀ y x p q, pairProd t1 t2 y x p q = κ * pairProd t1' t2' y x p q) (e : ι) (p q : P) : ψ t1 t2 e p q = κ * ψ t1' t2' e p q := by
  have h' : ∀ y x p q, ∑ b, t1 y b p * t2 x b q = κ * ∑ b, t1' y b p * t2' x b q := h
  have a1 : attach2 n t1 t2 t1 t2 p q p q = κ * star κ * attach2 n t1' t2' t1' t2' p q p q := by
    unfold attach2
    simp only [h', SumTac.mul_star, Finset.mul_sum]
    refine Finset.sum_congr rfl fun _ _ => Finset.sum_congr rfl fun _ _ => Finset.sum_congr rfl fun _ _ => Finset.sum_congr rfl fun _ _ => ?_
    simp only [← Finset.mul_sum, SumTac.mul_star]
    ring
  have a2 : attach2 n t1 t2 t1' t2' p q p q = κ * attach2 n t1' t2' t1' t2' p q p q := by
    unfold attach2
    simp only [h', SumTac.mul_star, Finset.mul_sum]
    refine Finset.sum_congr rfl fun _ _ => Finset.sum_congr rfl fun _ _ => Finset.sum_congr rfl fun _ _ => Finset.sum_congr rfl fun _ _ => ?_
    simp only [← Finset.mul_sum, SumTac.mul_star]
    ring
  have a3 : attach2 n t1' t2' t1 t2 p q p q = star κ * attach2 n t1' t2' t1' t2' p q p q := by
    unfold attach2
    simp only [h', SumTac.mul_star, Finset.mul_sum]
    refine Finset.sum_congr rfl fun _ _ => Finset.sum_congr rfl fun _ _ => Finset.sum_congr rfl fun _ _ => Finset.sum_congr rfl fun _ _ => ?_
    simp only [← Finset.mul_sum, SumTac.mul_star]
    ring
  rw [hO, hO] at a1 a2 a3
  have hc' : (c : 𝕜) ≠ 0 := RCLike.ofReal_ne_zero.2 hc.ne'
  have h0 : ∑ e, (ψ t1 t2 e p q - κ * ψ t1' t2' e p q) * star (ψ t1 t2 e p q - κ * ψ t1' t2' e p q) = 0 := by
    have e1 : ∀ e, (ψ t1 t2 e p q - κ * ψ t1' t2' e p q) * star (ψ t1 t2 e p q - κ * ψ t1' t2' e p q) =
        ψ t1 t2 e p q * star (ψ t1 t2 e p q) - star κ * (ψ t1 t2 e p q * star (ψ t1' t2' e p q)) -
          κ * (ψ t1' t2' e p q * star (ψ t1 t2 e p q)) + κ * star κ * (ψ t1' t2' e p q * star (ψ t1' t2' e p q)) := by
      intro e
      rw [star_sub, SumTac.mul_star]
      ring
    simp only [e1, Finset.sum_add_distrib, Finset.sum_sub_distrib, ← Finset.mul_sum]
    apply mul_left_cancel₀ hc'
    linear_combination a1 - star κ * a2 - κ * a3
  have h1 : ∀ z : 𝕜, z * star z = ((‖z‖ ^ 2 : ℝ) : 𝕜) := fun z => by
    rw [RCLike.star_def, RCLike.mul_conj]
    norm_cast
  simp only [h1] at h0
  rw [← RCLike.ofReal_sum, RCLike.ofReal_eq_zero, Finset.sum_eq_zero_iff_of_nonneg fun _ _ => sq_nonneg _] at h0
  have h2 := pow_eq_zero_iff two_ne_zero |>.1 (h0 e (Finset.mem_univ _))
  exact sub_eq_zero.1 (norm_eq_zero.1 h2)

end abstract

/-- The cost is additive in the norm tensor; for a multiple of the identity it is the distance of the tensors. -/
theorem cost_shift [DecidableEq N] (n : N → N → N → N → 𝕜) (t : ℝ) (t1 t2 : N → B → P → 𝕜) (g : N → N → P → P → 𝕜) :
    cost t1 t2 g (fun y x Y X => n y x Y X + if y = Y ∧ x = X then (t : 𝕜) else 0) = cost t1 t2 g n +
      t * (normSq4 (pairProd t1 t2 - g) - normSq4 g) := by
  have h : ∀ (f : N → N → P → P → 𝕜), (∑ Y, ∑ X, ∑ p, ∑ q, (∑ y, ∑ x, (n y x Y X + if y = Y ∧ x = X then (t : 𝕜) else 0) * f y x p q) *
      star (pairProd t1 t2 Y X p q)) = (∑ Y, ∑ X, ∑ p, ∑ q, (∑ y, ∑ x, n y x Y X * f y x p q) * star (pairProd t1 t2 Y X p q)) +
        t * ∑ Y, ∑ X, ∑ p, ∑ q, f Y X p q * star (pairProd t1 t2 Y X p q) := by
    intro f
    have e1 : ∀ Y X p q, (∑ y, ∑ x, (n y x Y X + if y = Y ∧ x = X then (t : 𝕜) else 0) * f y x p q) =
        (∑ y, ∑ x, n y x Y X * f y x p q) + t * f Y X p q := by
      intro Y X p q
      simp only [add_mul, Finset.sum_add_distrib]
      congr 1
      rw [Finset.sum_eq_single Y, Finset.sum_eq_single X]
      · simp
      all_goals first | (intro z _ hz; simp [hz]) | simp
    simp only [e1]
    simp only [add_mul, Finset.sum_add_distrib, Finset.mul_sum, mul_assoc]
  unfold cost
  have h1 := h (pairProd t1 t2)
  have h2 := h g
  unfold pairProd at h1 h2
  simp only [Pi.star_apply]
  rw [h1, h2]
  simp only [map_add, RCLike.re_ofReal_mul, map_sum]
  have e : ∀ Y X p q, RCLike.re ((∑ u, t1 Y u p * t2 X u q) * star (∑ u, t1 Y u p * t2 X u q)) -
      2 * RCLike.re (g Y X p q * star (∑ u, t1 Y u p * t2 X u q)) = ‖(pairProd t1 t2 - g) Y X p q‖ ^ 2 - ‖g Y X p q‖ ^ 2 :=
    fun Y X p q => re_overlap _ _
  have e' : (∑ Y, ∑ X, ∑ p, ∑ q, RCLike.re ((∑ u, t1 Y u p * t2 X u q) * star (∑ u, t1 Y u p * t2 X u q))) -
      2 * (∑ Y, ∑ X, ∑ p, ∑ q, RCLike.re (g Y X p q * star (∑ u, t1 Y u p * t2 X u q))) = normSq4 (pairProd t1 t2 - g) - normSq4 g := by
    unfold normSq4
    simp only [Finset.mul_sum, ← Finset.sum_sub_distrib, e]
  rw [← e']
  ring

/-- A vector at least as near as all multiples of another one has at least its normalised overlap. -/
theorem best_overlap {E : Type} [NormedAddCommGroup E] [InnerProductSpace 𝕜 E] (v w φ : E) (h : ∀ z : 𝕜, ‖w - φ‖ ^ 2 ≤ ‖z • v - φ‖ ^ 2) :
    ‖inner 𝕜 v φ‖ ^ 2 * ‖w‖ ^ 2 ≤ ‖inner 𝕜 w φ‖ ^ 2 * ‖v‖ ^ 2 ∧ (inner 𝕜 v φ ≠ 0 → inner 𝕜 w φ ≠ 0) := by
  by_cases hv : v = 0
  · subst hv
    simp
  have hv' : 0 < ‖v‖ ^ 2 := by positivity
  have h1 := h (inner 𝕜 v φ / ((‖v‖ ^ 2 : ℝ) : 𝕜))
  rw [@norm_sub_sq 𝕜, @norm_sub_sq 𝕜] at h1
  have e1 : ‖(inner 𝕜 v φ / ((‖v‖ ^ 2 : ℝ) : 𝕜)) • v‖ ^ 2 = ‖inner 𝕜 v φ‖ ^ 2 / ‖v‖ ^ 2 := by
    rw [norm_smul, norm_div, RCLike.norm_ofReal, abs_of_pos hv']
    field_simp
  have e2 : RCLike.re (inner 𝕜 ((inner 𝕜 v φ / ((‖v‖ ^ 2 : ℝ) : 𝕜)) • v) φ) = ‖inner 𝕜 v φ‖ ^ 2 / ‖v‖ ^ 2 := by
    rw [inner_smul_left, map_div₀, RCLike.conj_ofReal, div_mul_eq_mul_div, RCLike.conj_mul, ← RCLike.ofReal_pow, ← RCLike.ofReal_div,
      RCLike.ofReal_re]
  rw [e1, e2] at h1
  have h2 : RCLike.re (inner 𝕜 w φ) ≤ ‖inner 𝕜 w φ‖ := RCLike.re_le_norm _
  set X := ‖inner 𝕜 v φ‖ ^ 2 / ‖v‖ ^ 2 with hX
  have hXv : X * ‖v‖ ^ 2 = ‖inner 𝕜 v φ‖ ^ 2 := div_mul_cancel₀ _ hv'.ne'
  have h3 : X ≤ 2 * ‖inner 𝕜 w φ‖ - ‖w‖ ^ 2 := by linarith
  constructor
  · rw [← hXv]
    have h4 : X * ‖w‖ ^ 2 ≤ ‖inner 𝕜 w φ‖ ^ 2 := by nlinarith [sq_nonneg (‖inner 𝕜 w φ‖ - ‖w‖ ^ 2), sq_nonneg ‖w‖]
    nlinarith
  · intro hne h0
    rw [h0, norm_zero] at h3
    have : 0 < X := div_pos (by positivity) hv'
    nlinarith [sq_nonneg ‖w‖]

end AceTN
