import Verif.Lemmas.MeanSession
import Mathlib.Tactic.LinearCombination
import Mathlib.Tactic.FieldSimp

/-!
Mean-field theory: runs are unique up to factors when the nearest products are.
-/

set_option autoImplicit false

namespace AceTN

open Spec

variable {P : Type} [Fintype P] {nx ny : ℕ}

/-- A nearest product of something that is not zero is not zero. -/
theorem bestProduct_ne [DecidableEq P] {T : P → P → ℝ} {x y : P → ℝ} (hT : ∃ p q, T p q ≠ 0) (h : BestProduct T x y) : ∃ p q, x p * y q ≠ 0 := by
  by_contra hc
  push Not at hc
  obtain ⟨p, q, hpq⟩ := hT
  obtain ⟨κ, -, h⟩ := h
  have h1 := h (fun p' => if p' = p then T p q else 0) (fun q' => if q' = q then 1 else 0)
  simp only [← Finset.sum_product'] at h1
  refine absurd h1 (not_le.2 (Finset.sum_lt_sum (fun i _ => ?_) ⟨(p, q), by simp, ?_⟩))
  · rw [hc]
    by_cases h1 : i.1 = p
    · by_cases h2 : i.2 = q
      · simp [h1, h2, sq_nonneg]
      · simp [h2]
    · simp [h1]
  · rw [hc]
    have : 0 < T p q ^ 2 := by positivity
    simpa using this

omit [Fintype P] in
/-- Products that agree up to a factor have factors that do. -/
theorem factors_agree {x y x' y' : P → ℝ} {c : ℝ} (h : ∀ p q, x' p * y' q = c * (x p * y q)) (h' : ∃ p q, x' p * y' q ≠ 0) :
    (∃ d : ℝ, d ≠ 0 ∧ x' = d • x) ∧ ∃ d : ℝ, d ≠ 0 ∧ y' = d • y := by
  obtain ⟨p₀, q₀, h0⟩ := h'
  have hx' : x' p₀ ≠ 0 := left_ne_zero_of_mul h0
  have hy' : y' q₀ ≠ 0 := right_ne_zero_of_mul h0
  have hr : c * (x p₀ * y q₀) ≠ 0 := by rw [← h]; exact h0
  have hc : c ≠ 0 := left_ne_zero_of_mul hr
  have hx : x p₀ ≠ 0 := left_ne_zero_of_mul (right_ne_zero_of_mul hr)
  have hy : y q₀ ≠ 0 := right_ne_zero_of_mul (right_ne_zero_of_mul hr)
  refine ⟨⟨c * y q₀ / y' q₀, by positivity, ?_⟩, c * x p₀ / x' p₀, by positivity, ?_⟩
  · funext p
    have := h p q₀
    simp only [Pi.smul_apply, smul_eq_mul]
    field_simp
    linear_combination this
  · funext q
    have := h p₀ q
    simp only [Pi.smul_apply, smul_eq_mul]
    field_simp
    linear_combination this

theorem pairAfter_smul (gate : P → P → P → P → ℝ) (x y : P → ℝ) (c d : ℝ) (p q : P) :
    pairAfter gate (c • x) (d • y) p q = c * d * pairAfter gate x y p q := by
  unfold pairAfter
  rw [Finset.mul_sum]
  refine Finset.sum_congr rfl fun p' _ => ?_
  rw [Finset.mul_sum]
  refine Finset.sum_congr rfl fun q' _ => ?_
  simp only [Pi.smul_apply, smul_eq_mul]
  ring

/-- A nearest product of a multiple. -/
theorem bestProduct_smul {T T' : P → P → ℝ} {c : ℝ} (hc : c ≠ 0) (hT : ∀ p q, T' p q = c * T p q) {x y : P → ℝ} (h : BestProduct T' x y) :
    BestProduct T (c⁻¹ • x) y := by
  obtain ⟨κ, hκ, h⟩ := h
  refine ⟨κ, hκ, fun f g => ?_⟩
  have h1 := mul_le_mul_of_nonneg_left (h (c • f) g) (sq_nonneg c⁻¹)
  simp only [Finset.mul_sum] at h1
  refine le_trans (le_of_eq ?_) (h1.trans (le_of_eq ?_))
  all_goals
    refine Finset.sum_congr rfl fun p _ => Finset.sum_congr rfl fun q _ => ?_
    rw [hT]
    simp only [Pi.smul_apply, smul_eq_mul]
    field_simp

/-- One step. -/
theorem meanStep_unique [DecidableEq P] {gate : P → P → P → P → ℝ} {b : Bond} {v v' w w' : Site → P → ℝ} (c1 : InCell nx ny b.s1) (c2 : InCell nx ny b.s2)
    (h : UpToFactors nx ny v v') (hT : OneNearest (pairAfter gate (v b.s1) (v b.s2))) (hw : MeanStep nx ny gate b v w)
    (hw' : MeanStep nx ny gate b v' w') : UpToFactors nx ny w w' := by
  obtain ⟨d1, hd1, e1⟩ := h _ c1
  obtain ⟨d2, hd2, e2⟩ := h _ c2
  obtain ⟨hb, hoff⟩ := hw
  obtain ⟨hb', hoff'⟩ := hw'
  rw [e1, e2] at hb'
  have hd : d1 * d2 ≠ 0 := mul_ne_zero hd1 hd2
  have hb'' := bestProduct_smul hd (fun p q => pairAfter_smul gate (v b.s1) (v b.s2) d1 d2 p q) hb'
  obtain ⟨c, hc⟩ := hT.2 _ _ _ _ hb hb''
  obtain ⟨⟨f1, hf1, g1⟩, g2⟩ := factors_agree hc (bestProduct_ne hT.1 hb'')
  intro s hs
  by_cases h1 : s = b.s1
  · subst h1
    refine ⟨d1 * d2 * f1, mul_ne_zero hd hf1, ?_⟩
    rw [mul_smul, ← g1, smul_smul, mul_inv_cancel₀ hd, one_smul]
  by_cases h2 : s = b.s2
  · subst h2
    exact g2
  · obtain ⟨c, hc, e⟩ := h s hs
    exact ⟨c, hc, by rw [hoff' s hs h1 h2, hoff s hs h1 h2, e]⟩

theorem meanRun_unique [DecidableEq P] {gates : Bond → P → P → P → P → ℝ} {l : List Bond} (hl : ∀ b ∈ l, b ∈ buildBondList nx ny) {v v' w w' : Site → P → ℝ}
    (h : UpToFactors nx ny v v') (hT : NoChoiceRun nx ny gates l v) (hw : MeanRun nx ny gates l v w) (hw' : MeanRun nx ny gates l v' w') :
    UpToFactors nx ny w w' := by
  induction l generalizing v v' with
  | nil =>
    intro s hs
    obtain ⟨c, hc, e⟩ := h s hs
    exact ⟨c, hc, by rw [hw' s hs, hw s hs, e]⟩
  | cons b l ih =>
    obtain ⟨u, hu, hw⟩ := hw
    obtain ⟨u', hu', hw'⟩ := hw'
    obtain ⟨c1, c2⟩ := C02_bond_ends_in_cell nx ny b (hl b (by simp))
    rw [mem_buildSiteList] at c1 c2
    exact ih (fun b hb => hl b (by simp [hb])) (meanStep_unique c1 c2 h hT.1 hu hu') (hT.2 u hu) hw hw'

/-- Only the vectors on the cell matter. -/
theorem meanRun_congr {gates : Bond → P → P → P → P → ℝ} {l : List Bond} (hl : ∀ b ∈ l, b ∈ buildBondList nx ny) {v v' w : Site → P → ℝ}
    (h : ∀ s, InCell nx ny s → v' s = v s) (hw : MeanRun nx ny gates l v w) : MeanRun nx ny gates l v' w := by
  cases l with
  | nil => exact fun s hs => (hw s hs).trans (h s hs).symm
  | cons b l =>
    obtain ⟨u, ⟨hb, hoff⟩, hw⟩ := hw
    obtain ⟨c1, c2⟩ := C02_bond_ends_in_cell nx ny b (hl b (by simp))
    rw [mem_buildSiteList] at c1 c2
    exact ⟨u, ⟨by rw [h _ c1, h _ c2]; exact hb, fun s hs h1 h2 => (hoff s hs h1 h2).trans (h s hs).symm⟩, hw⟩

/-- The list after a loop that does not raise. -/
theorem evolveLoop_list_of_none {S : Type} (upd : S → Bond → S × Option PyErr) (n : ℕ) (bl : List Bond) (s : S) (h : (evolveLoop upd n bl s).2.2 = none) :
    (evolveLoop upd n bl s).1 = listAfter n bl := by
  induction n generalizing bl s with
  | zero => simp [evolveLoop, listAfter]
  | succ n ih =>
    unfold evolveLoop at h ⊢
    cases hu : bondPass upd bl s with
    | mk s' e =>
      rw [hu] at h
      cases e with
      | some e => cases h
      | none => exact (ih bl.reverse s' h).trans (listAfter_succ n bl).symm

/-- A loop over the bonds all of whose updates are steps of mean-field theory. -/
theorem loop_meanRun {S : Type} (upd : S → Bond → S × Option PyErr) (vec : S → Site → P → ℝ) (gates : Bond → P → P → P → P → ℝ) (I : S → Prop)
    (step : ∀ s b, b ∈ buildBondList nx ny → I s → I (upd s b).1 ∧ (upd s b).2 = none ∧ MeanStep nx ny (gates b) b (vec s) (vec (upd s b).1))
    (n : ℕ) (bl : List Bond) (hl : ∀ b ∈ bl, b ∈ buildBondList nx ny) (s : S) (h : I s) :
    MeanRun nx ny gates (schedule n bl) (vec s) (vec (evolveLoop upd n bl s).2.1) ∧ (evolveLoop upd n bl s).1 = listAfter n bl := by
  have fold : ∀ (l : List Bond) (_ : ∀ b ∈ l, b ∈ buildBondList nx ny) (s : S), I s →
      MeanRun nx ny gates l (vec s) (vec (l.foldl (fun s b => (upd s b).1) s)) := by
    intro l
    induction l with
    | nil => exact fun _ s _ s' _ => rfl
    | cons b l ih =>
      intro hl s hs
      obtain ⟨h1, -, h3⟩ := step s b (hl b (by simp)) hs
      exact ⟨_, h3, ih (fun b hb => hl b (by simp [hb])) _ h1⟩
  have hn := evolveLoop_noraise (upd := upd) I (· ∈ buildBondList nx ny) (fun s b hb hs => ⟨(step s b hb hs).1, (step s b hb hs).2.1⟩) n bl hl s h
  refine ⟨?_, ?_⟩
  · rw [evolveLoop_ok_of_none upd n bl s hn]
    exact fold _ (fun b hb => hl b (mem_schedule hb)) s h
  · exact evolveLoop_list_of_none upd n bl s hn

/-- If the pair after the gate is a product, it is its only nearest product. -/
theorem oneNearest_product {T : P → P → ℝ} {f g : P → ℝ} (h : ∀ p q, T p q = f p * g q) (hT : ∃ p q, T p q ≠ 0) : OneNearest T := by
  have key : ∀ x y : P → ℝ, BestProduct T x y → ∃ κ : ℝ, 0 < κ ∧ ∀ p q, T p q = κ * (x p * y q) := by
    rintro x y ⟨κ, hκ, hb⟩
    refine ⟨κ, hκ, fun p q => ?_⟩
    have h1 := hb f g
    simp only [← h, sub_self, ne_eq, OfNat.ofNat_ne_zero, not_false_eq_true, zero_pow, Finset.sum_const_zero] at h1
    have h2 := le_antisymm h1 (Finset.sum_nonneg fun _ _ => Finset.sum_nonneg fun _ _ => sq_nonneg _)
    have h3 := (Finset.sum_eq_zero_iff_of_nonneg fun _ _ => Finset.sum_nonneg fun _ _ => sq_nonneg _).1 h2 p (Finset.mem_univ p)
    have h4 := (Finset.sum_eq_zero_iff_of_nonneg fun _ _ => sq_nonneg _).1 h3 q (Finset.mem_univ q)
    exact sub_eq_zero.1 (pow_eq_zero_iff (two_ne_zero)|>.1 h4)
  refine ⟨hT, fun x y x' y' h1 h2 => ?_⟩
  obtain ⟨κ, hκ, e⟩ := key x y h1
  obtain ⟨κ', hκ', e'⟩ := key x' y' h2
  refine ⟨κ'⁻¹ * κ, fun p q => ?_⟩
  rw [mul_assoc, ← e, e', inv_mul_cancel_left₀ hκ'.ne']

end AceTN
