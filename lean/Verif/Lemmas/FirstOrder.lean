import Verif.Lemmas.MeanTheory
import Verif.Spec.QForm
import Mathlib.Topology.Algebra.Order.Field
import Mathlib.Topology.Algebra.Ring.Real
import Mathlib.Topology.Algebra.Monoid

/-!
First order of mean-field theory in the time step.
-/

set_option autoImplicit false

namespace AceTN

open Spec Filter Topology

variable {P : Type} [Fintype P]

/-- Along the filter, `x τ` is `u + τ d + o(τ)` up to a factor. -/
def NearTo (l : Filter ℝ) (u d : P → ℝ) (x : ℝ → P → ℝ) : Prop :=
  ∃ e : ℝ → P → ℝ, (∀ p, Tendsto (fun τ => e τ p) l (𝓝 (d p))) ∧ ∀ᶠ τ in l, ∃ c : ℝ, c ≠ 0 ∧ ∀ p, x τ p = c * (u p + τ * e τ p)

theorem best_swap {T : P → P → ℝ} {x y : P → ℝ} (h : BestProduct T x y) : BestProduct (fun p q => T q p) y x := by
  obtain ⟨κ, hκ, h⟩ := h
  refine ⟨κ, hκ, fun f g => ?_⟩
  have := h g f
  rw [Finset.sum_comm] at this
  refine le_trans (le_of_eq ?_) (this.trans (le_of_eq ?_))
  · exact Finset.sum_congr rfl fun p _ => Finset.sum_congr rfl fun q _ => by rw [mul_comm (y p)]
  · rw [Finset.sum_comm]
    exact Finset.sum_congr rfl fun p _ => Finset.sum_congr rfl fun q _ => by rw [mul_comm (f p)]

/-- The factors of a nearest product fit together. -/
theorem bestProduct_normal {T : P → P → ℝ} {x y : P → ℝ} {κ : ℝ}
    (h : ∀ f g : P → ℝ, ∑ p, ∑ q, (T p q - κ * (x p * y q)) ^ 2 ≤ ∑ p, ∑ q, (T p q - f p * g q) ^ 2) (p : P) :
    ∑ q, T p q * y q = κ * (∑ q, y q ^ 2) * x p := by
  classical
  by_cases hy : ∑ q, y q ^ 2 = 0
  · have h0 : ∀ q, y q = 0 := fun q => by
      have := (Finset.sum_eq_zero_iff_of_nonneg fun q _ => sq_nonneg (y q)).1 hy q (Finset.mem_univ q)
      exact pow_eq_zero_iff (two_ne_zero) |>.1 this
    simp [h0]
  · have hpos : 0 < ∑ q, y q ^ 2 := lt_of_le_of_ne (Finset.sum_nonneg fun q _ => sq_nonneg _) (Ne.symm hy)
    set Y := ∑ q, y q ^ 2 with hY
    set a := (∑ q, T p q * y q) / Y with ha
    have h1 := h (fun p' => if p' = p then a else κ * x p') y
    have h2 : ∑ q, (T p q - κ * (x p * y q)) ^ 2 ≤ ∑ q, (T p q - a * y q) ^ 2 := by
      rw [← Finset.add_sum_erase _ _ (Finset.mem_univ p), ← Finset.add_sum_erase (f := fun p' => ∑ q, (T p' q - (if p' = p then a else κ * x p') * y q) ^ 2) _ (Finset.mem_univ p)] at h1
      have h3 : ∑ p' ∈ Finset.univ.erase p, ∑ q, (T p' q - (if p' = p then a else κ * x p') * y q) ^ 2 =
          ∑ p' ∈ Finset.univ.erase p, ∑ q, (T p' q - κ * (x p' * y q)) ^ 2 := by
        refine Finset.sum_congr rfl fun p' hp' => Finset.sum_congr rfl fun q _ => ?_
        rw [if_neg (Finset.ne_of_mem_erase hp')]
        ring
      rw [h3] at h1
      have h4 := le_of_add_le_add_right h1
      simpa only [if_true] using h4
    have e : ∀ c : ℝ, ∑ q, (T p q - c * y q) ^ 2 = ∑ q, T p q ^ 2 - 2 * c * (∑ q, T p q * y q) + c ^ 2 * Y := fun c => by
      rw [hY, Finset.mul_sum, Finset.mul_sum, ← Finset.sum_sub_distrib, ← Finset.sum_add_distrib]
      exact Finset.sum_congr rfl fun q _ => by ring
    have e1 : ∑ q, (T p q - κ * (x p * y q)) ^ 2 = ∑ q, (T p q - (κ * x p) * y q) ^ 2 := Finset.sum_congr rfl fun q _ => by ring
    rw [e1, e, e] at h2
    have hS : ∑ q, T p q * y q = a * Y := by rw [ha, div_mul_cancel₀ _ hy]
    rw [hS] at h2 ⊢
    have h4 : Y * (κ * x p - a) ^ 2 ≤ 0 := by nlinarith
    have h5 : (κ * x p - a) ^ 2 = 0 := le_antisymm (by nlinarith [sq_nonneg (κ * x p - a)]) (sq_nonneg _)
    have h6 : κ * x p - a = 0 := pow_eq_zero_iff two_ne_zero |>.1 h5
    have : a = κ * x p := by linarith
    rw [this]
    ring

/-- One factor of the nearest product, to first order. -/
theorem near_best {l : Filter ℝ} (hl : Tendsto (fun τ : ℝ => τ) l (𝓝 0)) {u v d f : P → ℝ} (hu : ∑ p, u p ^ 2 = 1) (hv : ∑ p, v p ^ 2 = 1)
    {e g : ℝ → P → ℝ} (he : ∀ p, Tendsto (fun τ => e τ p) l (𝓝 (d p))) (hg : ∀ p, Tendsto (fun τ => g τ p) l (𝓝 (f p)))
    {H : ℝ → P → P → ℝ} {H0 : P → P → ℝ} (hH : ∀ p q, Tendsto (fun τ => H τ p q) l (𝓝 (H0 p q)))
    {x y : ℝ → P → ℝ} (hb : ∀ᶠ τ in l, BestProduct (fun p q => (u p + τ * e τ p) * (v q + τ * g τ q) - τ * H τ p q) (x τ) (y τ)) :
    NearTo l u (fun p => d p - ∑ q, H0 p q * v q) x := by
  obtain ⟨κ, hκ⟩ := Filter.skolem.1 hb
  have lin : ∀ {a : P → ℝ} {k : ℝ → P → ℝ} {k0 : P → ℝ}, (∀ p, Tendsto (fun τ => k τ p) l (𝓝 (k0 p))) → ∀ p,
      Tendsto (fun τ => a p + τ * k τ p) l (𝓝 (a p)) := fun {a k k0} hk p => by
    have := tendsto_const_nhds (x := a p) |>.add (hl.mul (hk p))
    simpa using this
  have hT : ∀ p q, Tendsto (fun τ => (u p + τ * e τ p) * (v q + τ * g τ q) - τ * H τ p q) l (𝓝 (u p * v q)) := fun p q => by
    have := ((lin (a := u) he p).mul (lin (a := v) hg q)).sub (hl.mul (hH p q))
    simpa using this
  -- the nearest product is near
  have hS : Tendsto (fun τ => ∑ p, ∑ q, (((u p + τ * e τ p) * (v q + τ * g τ q) - τ * H τ p q) - u p * v q) ^ 2) l (𝓝 0) := by
    have := tendsto_finsetSum Finset.univ fun p _ => tendsto_finsetSum Finset.univ fun q _ => ((hT p q).sub (tendsto_const_nhds (x := u p * v q))).pow 2
    simpa using this
  have hZ : ∀ p q, Tendsto (fun τ => κ τ * (x τ p * y τ q)) l (𝓝 (u p * v q)) := fun p q => by
    have h1 : Tendsto (fun τ => ((u p + τ * e τ p) * (v q + τ * g τ q) - τ * H τ p q - κ τ * (x τ p * y τ q)) ^ 2) l (𝓝 0) := by
      refine squeeze_zero' (.of_forall fun τ => sq_nonneg _) ?_ hS
      filter_upwards [hκ] with τ hτ
      refine le_trans ?_ (hτ.2 u v)
      refine le_trans ?_ (Finset.single_le_sum (f := fun p => ∑ q, ((u p + τ * e τ p) * (v q + τ * g τ q) - τ * H τ p q - κ τ * (x τ p * y τ q)) ^ 2)
        (fun p _ => Finset.sum_nonneg fun q _ => sq_nonneg _) (Finset.mem_univ p))
      exact Finset.single_le_sum (f := fun q => ((u p + τ * e τ p) * (v q + τ * g τ q) - τ * H τ p q - κ τ * (x τ p * y τ q)) ^ 2)
        (fun q _ => sq_nonneg _) (Finset.mem_univ q)
    have h2 : Tendsto (fun τ => (u p + τ * e τ p) * (v q + τ * g τ q) - τ * H τ p q - κ τ * (x τ p * y τ q)) l (𝓝 0) := by
      have h3 := (Real.continuous_sqrt.tendsto 0).comp h1
      rw [Real.sqrt_zero] at h3
      refine (tendsto_zero_iff_abs_tendsto_zero _).2 (h3.congr fun τ => ?_)
      exact Real.sqrt_sq_eq_abs _
    have := (hT p q).sub h2
    simpa using this
  -- the other factor, normalised
  set ŷ : ℝ → P → ℝ := fun τ q => ∑ p, u p * (κ τ * (x τ p * y τ q)) with hŷ
  have hy : ∀ q, Tendsto (fun τ => ŷ τ q) l (𝓝 (v q)) := fun q => by
    have := tendsto_finsetSum Finset.univ fun p _ => (tendsto_const_nhds (x := u p)).mul (hZ p q)
    have e1 : ∑ p, u p * (u p * v q) = v q := by
      have : ∑ p, u p * (u p * v q) = (∑ p, u p ^ 2) * v q := by
        rw [Finset.sum_mul]
        exact Finset.sum_congr rfl fun p _ => by ring
      rw [this, hu, one_mul]
    rwa [e1] at this
  set β : ℝ → ℝ := fun τ => ∑ q, (v q + τ * g τ q) * ŷ τ q with hβ
  have hβ1 : Tendsto β l (𝓝 1) := by
    have := tendsto_finsetSum Finset.univ fun q _ => (lin (a := v) hg q).mul (hy q)
    have e1 : ∑ q, v q * v q = 1 := by rw [← hv]; exact Finset.sum_congr rfl fun q _ => (sq _).symm
    rwa [e1] at this
  refine ⟨fun τ p => e τ p - (β τ)⁻¹ * ∑ q, H τ p q * ŷ τ q, fun p => ?_, ?_⟩
  · have h1 := tendsto_finsetSum Finset.univ fun q _ => (hH p q).mul (hy q)
    have := (he p).sub ((hβ1.inv₀ one_ne_zero).mul h1)
    simpa using this
  · -- a component of `u` that is not zero
    obtain ⟨p0, hp0⟩ : ∃ p, u p ≠ 0 := by
      by_contra hc
      push Not at hc
      simp [hc] at hu
    have hlim : Tendsto (fun τ => β τ * (u p0 + τ * (e τ p0 - (β τ)⁻¹ * ∑ q, H τ p0 q * ŷ τ q))) l (𝓝 (u p0)) := by
      have h1 := tendsto_finsetSum Finset.univ fun q _ => (hH p0 q).mul (hy q)
      have := hβ1.mul ((tendsto_const_nhds (x := u p0)).add (hl.mul ((he p0).sub ((hβ1.inv₀ one_ne_zero).mul h1))))
      simpa using this
    filter_upwards [hκ, hβ1.eventually_ne one_ne_zero, hlim.eventually_ne hp0] with τ hτ hβτ h0
    set a := κ τ * (∑ p, u p * x τ p) with ha
    have hya : ∀ q, ŷ τ q = a * y τ q := fun q => by
      rw [hŷ, ha, Finset.mul_sum, Finset.sum_mul]
      exact Finset.sum_congr rfl fun p _ => by ring
    have key : ∀ p, β τ * (u p + τ * (e τ p - (β τ)⁻¹ * ∑ q, H τ p q * ŷ τ q)) = (a * (κ τ * ∑ q, y τ q ^ 2)) * x τ p := fun p => by
      have h1 := bestProduct_normal hτ.2 p
      have h2 : β τ * (u p + τ * (e τ p - (β τ)⁻¹ * ∑ q, H τ p q * ŷ τ q)) = (u p + τ * e τ p) * β τ - τ * ∑ q, H τ p q * ŷ τ q := by
        field_simp
        ring
      have h3 : (u p + τ * e τ p) * β τ - τ * ∑ q, H τ p q * ŷ τ q =
          ∑ q, ((u p + τ * e τ p) * (v q + τ * g τ q) - τ * H τ p q) * ŷ τ q := by
        rw [hβ, Finset.mul_sum, Finset.mul_sum, ← Finset.sum_sub_distrib]
        exact Finset.sum_congr rfl fun q _ => by ring
      rw [h2, h3, mul_assoc, ← h1, Finset.mul_sum]
      exact Finset.sum_congr rfl fun q _ => by rw [hya]; ring
    have hne : a * (κ τ * ∑ q, y τ q ^ 2) ≠ 0 := fun hz => h0 (by rw [key p0, hz, zero_mul])
    refine ⟨β τ / (a * (κ τ * ∑ q, y τ q ^ 2)), div_ne_zero hβτ hne, fun p => ?_⟩
    rw [div_mul_eq_mul_div, key p, mul_div_cancel_left₀ _ hne]

/-- A step of mean-field theory, to first order. -/
theorem near_step [DecidableEq P] {l : Filter ℝ} (hl : Tendsto (fun τ : ℝ => τ) l (𝓝 0)) {u v d f : P → ℝ} (hu : ∑ p, u p ^ 2 = 1) (hv : ∑ p, v p ^ 2 = 1)
    {x y x' y' : ℝ → P → ℝ} (hx : NearTo l u d x) (hy : NearTo l v f y) {gate : ℝ → P → P → P → P → ℝ} {h : P → P → P → P → ℝ}
    (hk : ∃ K : ℝ → P → P → P → P → ℝ, (∀ p' q' p q, Tendsto (fun τ => K τ p' q' p q) l (𝓝 (h p' q' p q))) ∧
      ∀ τ p' q' p q, gate τ p' q' p q = (if p' = p then 1 else 0) * (if q' = q then 1 else 0) - τ * K τ p' q' p q)
    (hb : ∀ᶠ τ in l, BestProduct (pairAfter (gate τ) (x τ) (y τ)) (x' τ) (y' τ)) :
    NearTo l u (fun p => d p - ∑ q, (∑ p', ∑ q', u p' * v q' * h p' q' p q) * v q) x' ∧
      NearTo l v (fun q => f q - ∑ p, (∑ p', ∑ q', u p' * v q' * h p' q' p q) * u p) y' := by
  obtain ⟨e, he, hx⟩ := hx
  obtain ⟨g, hg, hy⟩ := hy
  obtain ⟨K, hK, hk⟩ := hk
  have lin : ∀ {a : P → ℝ} {k : ℝ → P → ℝ} {k0 : P → ℝ}, (∀ p, Tendsto (fun τ => k τ p) l (𝓝 (k0 p))) → ∀ p,
      Tendsto (fun τ => a p + τ * k τ p) l (𝓝 (a p)) := fun {a k k0} hk p => by
    have := tendsto_const_nhds (x := a p) |>.add (hl.mul (hk p))
    simpa using this
  set H : ℝ → P → P → ℝ := fun τ p q => ∑ p', ∑ q', (u p' + τ * e τ p') * (v q' + τ * g τ q') * K τ p' q' p q with hHdef
  have hH : ∀ p q, Tendsto (fun τ => H τ p q) l (𝓝 (∑ p', ∑ q', u p' * v q' * h p' q' p q)) := fun p q =>
    tendsto_finsetSum _ fun p' _ => tendsto_finsetSum _ fun q' _ => ((lin (a := u) he p').mul (lin (a := v) hg q')).mul (hK p' q' p q)
  have hb' : ∀ᶠ τ in l, ∃ c : ℝ, c ≠ 0 ∧
      BestProduct (fun p q => (u p + τ * e τ p) * (v q + τ * g τ q) - τ * H τ p q) (c • x' τ) (y' τ) := by
    filter_upwards [hb, hx, hy] with τ hτ ⟨c1, hc1, h1⟩ ⟨c2, hc2, h2⟩
    refine ⟨(c1 * c2)⁻¹, inv_ne_zero (mul_ne_zero hc1 hc2), bestProduct_smul (mul_ne_zero hc1 hc2) (fun p q => ?_) hτ⟩
    unfold pairAfter
    have e1 : ∑ p', ∑ q', x τ p' * y τ q' * gate τ p' q' p q = ∑ p', ∑ q', (c1 * c2 * ((u p' + τ * e τ p') * (v q' + τ * g τ q') *
        ((if p' = p then 1 else 0) * (if q' = q then 1 else 0))) - c1 * c2 * τ * ((u p' + τ * e τ p') * (v q' + τ * g τ q') * K τ p' q' p q)) :=
      Finset.sum_congr rfl fun p' _ => Finset.sum_congr rfl fun q' _ => by rw [h1, h2, hk]; ring
    rw [e1]
    simp only [Finset.sum_sub_distrib, ← Finset.mul_sum]
    rw [mul_sub]
    refine congrArg₂ (· - ·) ?_ ?_
    · congr 1
      rw [Finset.sum_eq_single p, Finset.sum_eq_single q]
      · simp
      · intro q' _ hq; simp [hq]
      · simp
      · intro p' _ hp; simp [hp]
      · simp
    · rw [mul_assoc]
  obtain ⟨c, hc⟩ := Filter.skolem.1 hb'
  have n1 := near_best hl hu hv he hg hH (x := fun τ => c τ • x' τ) (y := y') (hc.mono fun τ h => h.2)
  have n2 := near_best hl hv hu hg he (H := fun τ q p => H τ p q) (H0 := fun q p => ∑ p', ∑ q', u p' * v q' * h p' q' p q) (fun q p => hH p q)
    (x := y') (y := fun τ => c τ • x' τ) (hc.mono fun τ h => by
      have := best_swap h.2
      refine cast (congrArg (fun T => BestProduct T _ _) ?_) this
      funext q p
      ring)
  refine ⟨?_, n2⟩
  obtain ⟨e', he', h'⟩ := n1
  refine ⟨e', he', ?_⟩
  filter_upwards [h', hc] with τ ⟨k, hk, h1⟩ h2
  refine ⟨(c τ)⁻¹ * k, mul_ne_zero (inv_ne_zero h2.1) hk, fun p => ?_⟩
  have := h1 p
  rw [Pi.smul_apply, smul_eq_mul] at this
  rw [mul_assoc, ← this, inv_mul_cancel_left₀ h2.1]

/-- The quotient of a quadratic form, to first order. -/
theorem ratio_slope {n : Type} [Fintype n] {l : Filter ℝ} (hl : Tendsto (fun τ : ℝ => τ) l (𝓝 0)) (hl0 : ∀ᶠ τ in l, τ ≠ 0) (M : Matrix n n ℝ)
    (hM : ∀ i j, M i j = M j i) {X Y0 : n → ℝ} (hX : ∑ i, X i ^ 2 = 1) {Y : ℝ → n → ℝ} (hY : ∀ i, Tendsto (fun τ => Y τ i) l (𝓝 (Y0 i))) :
    Tendsto (fun τ => (qform M (fun i => X i + τ * Y τ i) / normSq (fun i => X i + τ * Y τ i) - qform M X / normSq X) / τ) l
      (𝓝 (2 * ∑ i, Y0 i * ((∑ j, M i j * X j) - qform M X * X i))) := by
  have hq : ∀ Z : n → ℝ, qform M Z = ∑ i, ∑ j, Z i * M i j * Z j := fun Z => rfl
  have hn : ∀ Z : n → ℝ, normSq Z = ∑ i, Z i ^ 2 := fun Z => Finset.sum_congr rfl fun i _ => by rw [Real.norm_eq_abs, sq_abs]
  set E := qform M X with hE
  have hsymm : ∀ Z : n → ℝ, ∑ i, ∑ j, X i * M i j * Z j = ∑ i, Z i * ∑ j, M i j * X j := fun Z => by
    rw [Finset.sum_comm]
    refine Finset.sum_congr rfl fun i _ => ?_
    rw [Finset.mul_sum]
    exact Finset.sum_congr rfl fun j _ => by rw [hM]; ring
  have e1 : ∀ τ, qform M (fun i => X i + τ * Y τ i) = E + τ * (2 * ∑ i, Y τ i * ∑ j, M i j * X j) + τ ^ 2 * qform M (Y τ) := fun τ => by
    have h1 : qform M (fun i => X i + τ * Y τ i) = (∑ i, ∑ j, X i * M i j * X j) + τ * (∑ i, ∑ j, X i * M i j * Y τ j) +
        τ * (∑ i, Y τ i * ∑ j, M i j * X j) + τ ^ 2 * ∑ i, ∑ j, Y τ i * M i j * Y τ j := by
      rw [hq]
      simp only [Finset.mul_sum, ← Finset.sum_add_distrib]
      exact Finset.sum_congr rfl fun i _ => Finset.sum_congr rfl fun j _ => by ring
    rw [h1, hsymm (Y τ), hE, hq, hq]
    ring
  have e2 : ∀ τ, normSq (fun i => X i + τ * Y τ i) = 1 + τ * (2 * ∑ i, Y τ i * X i) + τ ^ 2 * normSq (Y τ) := fun τ => by
    rw [hn, hn, ← hX]
    simp only [Finset.mul_sum, ← Finset.sum_add_distrib]
    exact Finset.sum_congr rfl fun i _ => by ring
  have hN : normSq X = 1 := (hn X).trans hX
  have t1 : Tendsto (fun τ => qform M (Y τ)) l (𝓝 (qform M Y0)) := by
    simp only [hq]
    exact tendsto_finsetSum _ fun i _ => tendsto_finsetSum _ fun j _ => ((hY i).mul tendsto_const_nhds).mul (hY j)
  have t2 : Tendsto (fun τ => normSq (Y τ)) l (𝓝 (normSq Y0)) := by
    simp only [hn]
    exact tendsto_finsetSum _ fun i _ => (hY i).pow 2
  have t3 : Tendsto (fun τ => ∑ i, Y τ i * X i) l (𝓝 (∑ i, Y0 i * X i)) := tendsto_finsetSum _ fun i _ => (hY i).mul tendsto_const_nhds
  have t4 : Tendsto (fun τ => ∑ i, Y τ i * ∑ j, M i j * X j) l (𝓝 (∑ i, Y0 i * ∑ j, M i j * X j)) :=
    tendsto_finsetSum _ fun i _ => (hY i).mul tendsto_const_nhds
  have t5 : Tendsto (fun τ => 1 + τ * (2 * ∑ i, Y τ i * X i) + τ ^ 2 * normSq (Y τ)) l (𝓝 1) := by
    have := ((tendsto_const_nhds (x := (1 : ℝ))).add (hl.mul (t3.const_mul 2))).add ((hl.pow 2).mul t2)
    simpa using this
  have hA : ∀ A : n → ℝ, 2 * ∑ i, Y0 i * A i - E * (2 * ∑ i, Y0 i * X i) = 2 * ∑ i, Y0 i * (A i - E * X i) := fun A => by
    simp only [Finset.mul_sum, ← Finset.sum_sub_distrib]
    exact Finset.sum_congr rfl fun i _ => by ring
  have t6 : Tendsto (fun τ => ((2 * ∑ i, Y τ i * ∑ j, M i j * X j) + τ * qform M (Y τ) - E * ((2 * ∑ i, Y τ i * X i) + τ * normSq (Y τ))) /
      (1 + τ * (2 * ∑ i, Y τ i * X i) + τ ^ 2 * normSq (Y τ))) l (𝓝 (2 * ∑ i, Y0 i * ((∑ j, M i j * X j) - E * X i))) := by
    have := (((t4.const_mul 2).add (hl.mul t1)).sub (((t3.const_mul 2).add (hl.mul t2)).const_mul E)).div t5 one_ne_zero
    refine this.trans (le_of_eq (congrArg 𝓝 ?_))
    rw [zero_mul, zero_mul, add_zero, add_zero, div_one]
    exact hA fun i => ∑ j, M i j * X j
  refine t6.congr' ?_
  filter_upwards [hl0, t5.eventually_ne one_ne_zero] with τ h0 h5
  rw [e1, e2, hN, div_one]
  generalize (∑ i, Y τ i * ∑ j, M i j * X j) = a at *
  generalize qform M (Y τ) = b at *
  generalize (∑ i, Y τ i * X i) = c at *
  generalize normSq (Y τ) = k at *
  clear_value E
  rw [div_sub' h5, div_div, div_eq_div_iff h5 (mul_ne_zero h5 h0)]
  ring

end AceTN
