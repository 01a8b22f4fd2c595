import Verif.Spec.GroundState
import Verif.Lemmas.EnergyDescent
import Mathlib.Analysis.InnerProductSpace.PiL2
import Mathlib.Topology.Instances.Matrix

/-!
Evolution in imaginary time projects on the lowest energy.
-/

set_option autoImplicit false

namespace AceTN

open Matrix Spec Filter Topology

variable {𝕜 : Type} [RCLike 𝕜] {ι : Type} [Fintype ι]

theorem stateNorm_eq (ψ : ι → 𝕜) : stateNorm ψ = ‖WithLp.toLp 2 ψ‖ := (EuclideanSpace.norm_eq _).symm

theorem overlap_self (ψ : ι → 𝕜) : overlap ψ ψ = ((stateNorm ψ ^ 2 : ℝ) : 𝕜) := by
  unfold overlap stateNorm
  rw [Real.sq_sqrt (Finset.sum_nonneg fun _ _ => by positivity), RCLike.ofReal_sum]
  refine Finset.sum_congr rfl fun p _ => ?_
  rw [RCLike.star_def, RCLike.conj_mul, RCLike.ofReal_pow]

theorem overlap_smul_right (φ ψ : ι → 𝕜) (c : 𝕜) : overlap φ (c • ψ) = c * overlap φ ψ := by
  unfold overlap
  rw [Finset.mul_sum]
  exact Finset.sum_congr rfl fun p _ => by simp only [Pi.smul_apply, smul_eq_mul]; ring

theorem overlap_smul_left (φ ψ : ι → 𝕜) (c : ℝ) : overlap ((c : 𝕜) • φ) ψ = c * overlap φ ψ := by
  unfold overlap
  rw [Finset.mul_sum]
  refine Finset.sum_congr rfl fun p _ => ?_
  simp only [Pi.smul_apply, smul_eq_mul, star_mul', RCLike.star_def, RCLike.conj_ofReal]
  ring

theorem overlap_mulVec (M : Matrix ι ι 𝕜) (hM : Mᴴ = M) (φ ψ : ι → 𝕜) : overlap φ (M.mulVec ψ) = overlap (M.mulVec φ) ψ := by
  have hM' : ∀ p q, star (M p q) = M q p := fun p q => by
    rw [← Matrix.conjTranspose_apply, hM]
  simp only [overlap, mulVec, dotProduct, Finset.mul_sum, star_sum, Finset.sum_mul, star_mul', hM']
  rw [Finset.sum_comm]
  exact Finset.sum_congr rfl fun p _ => Finset.sum_congr rfl fun q _ => by ring

theorem stateNorm_nonneg (ψ : ι → 𝕜) : 0 ≤ stateNorm ψ := Real.sqrt_nonneg _

theorem stateNorm_pos {ψ : ι → 𝕜} (h : ψ ≠ 0) : 0 < stateNorm ψ := by
  rw [stateNorm_eq, norm_pos_iff]
  exact fun h' => h (by simpa using congrArg WithLp.ofLp h')

theorem stateNorm_smul (c : 𝕜) (ψ : ι → 𝕜) : stateNorm (c • ψ) = ‖c‖ * stateNorm ψ := by
  rw [stateNorm_eq, stateNorm_eq, WithLp.toLp_smul, norm_smul]

theorem energyOf_smul (H : Matrix ι ι 𝕜) (ψ : ι → 𝕜) {c : ℝ} (hc : 0 < c) : energyOf H ((c : 𝕜) • ψ) = energyOf H ψ := by
  unfold energyOf
  rw [mulVec_smul, overlap_smul_right, overlap_smul_left, stateNorm_smul, RCLike.norm_ofReal, abs_of_pos hc, RCLike.re_ofReal_mul,
    RCLike.re_ofReal_mul, mul_pow]
  have : c ≠ 0 := hc.ne'
  rw [← mul_assoc, ← pow_two, mul_div_mul_left _ _ (pow_ne_zero 2 this)]

variable [DecidableEq ι]

/-- `exp(-t (H - E))` converges to the projector on the states of the lowest energy `E`. -/
theorem exists_ground_projector (H : Matrix ι ι 𝕜) (hH : H.IsHermitian) (E : ℝ) (hE : IsGroundEnergy H E) :
    ∃ Q : Matrix ι ι 𝕜, Qᴴ = Q ∧ H * Q = (E : 𝕜) • Q ∧ (∀ v, H.mulVec v = (E : 𝕜) • v → Q.mulVec v = v) ∧
      Tendsto (fun t : ℝ => ((Real.exp (t * E) : ℝ) : 𝕜) • calculateGate H t) atTop (𝓝 Q) := by
  obtain ⟨U, l, h1, h2, rfl⟩ := exists_unitary_diag H hH
  have hl : ∀ i, E ≤ l i := by
    intro i
    have hcol : (U * diagonal (fun i => (l i : 𝕜)) * Uᴴ).mulVec (fun p => U p i) = (l i : 𝕜) • fun p => U p i := by
      have : (fun p => U p i) = U.mulVec (Pi.single i 1) := by ext p; simp
      rw [this, mulVec_mulVec, Matrix.mul_assoc, h1, Matrix.mul_one, ← mulVec_mulVec]
      rw [← mulVec_smul]
      congr 1
      ext j
      by_cases hj : j = i
      · subst hj; simp [mulVec_diagonal]
      · simp [mulVec_diagonal, hj]
    have hn : overlap (fun p => U p i) (fun p => U p i) = 1 := by
      have := congrFun (congrFun h1 i) i
      rw [Matrix.mul_apply, Matrix.one_apply_eq] at this
      exact this
    have hn' : stateNorm (fun p => U p i) ^ 2 = 1 := by
      have := overlap_self (fun p => U p i)
      rw [hn] at this
      exact_mod_cast this.symm
    have hne : (fun p => U p i) ≠ 0 := by
      intro h
      rw [h] at hn
      simp [overlap] at hn
    have := hE _ hne
    unfold energyOf at this
    rw [hcol, overlap_smul_right, hn, mul_one, RCLike.ofReal_re, hn', div_one] at this
    exact this
  have hgate : ∀ t : ℝ, ((Real.exp (t * E) : ℝ) : 𝕜) • calculateGate (U * diagonal (fun i => (l i : 𝕜)) * Uᴴ) t =
      U * diagonal (fun i => ((Real.exp (-t * (l i - E)) : ℝ) : 𝕜)) * Uᴴ := by
    intro t
    rw [calculateGate_diag U l h1, ← Matrix.smul_mul, ← Matrix.mul_smul, ← Matrix.diagonal_smul]
    congr 3
    funext i
    rw [Pi.smul_apply, smul_eq_mul, ← RCLike.ofReal_mul, ← Real.exp_add]
    congr 2
    ring
  have hlim : Tendsto (fun t : ℝ => ((Real.exp (t * E) : ℝ) : 𝕜) • calculateGate (U * diagonal (fun i => (l i : 𝕜)) * Uᴴ) t) atTop
      (𝓝 (U * diagonal (fun i => if l i = E then (1 : 𝕜) else 0) * Uᴴ)) := by
    simp only [hgate]
    have hd : Tendsto (fun t : ℝ => fun i => ((Real.exp (-t * (l i - E)) : ℝ) : 𝕜)) atTop (𝓝 fun i => if l i = E then (1 : 𝕜) else 0) := by
      rw [tendsto_pi_nhds]
      intro i
      by_cases hi : l i = E
      · simp [hi]
      · rw [if_neg hi]
        have hpos : 0 < l i - E := sub_pos.2 (lt_of_le_of_ne (hl i) (Ne.symm hi))
        have : Tendsto (fun t : ℝ => Real.exp (-t * (l i - E))) atTop (𝓝 0) := by
          refine Real.tendsto_exp_atBot.comp ?_
          have := (tendsto_id.atTop_mul_const hpos : Tendsto (fun t : ℝ => t * (l i - E)) atTop atTop)
          simp only [neg_mul]
          exact tendsto_neg_atTop_atBot.comp this
        have h' := (RCLike.continuous_ofReal (K := 𝕜)).tendsto 0 |>.comp this
        rwa [RCLike.ofReal_zero] at h'
    have hc : Continuous fun d : ι → 𝕜 => U * diagonal d * Uᴴ :=
      (continuous_const.matrix_mul (continuous_id.matrix_diagonal)).matrix_mul continuous_const
    exact (hc.tendsto _).comp hd
  refine ⟨_, ?_, ?_, ?_, hlim⟩
  · rw [conjTranspose_mul, conjTranspose_mul, conjTranspose_conjTranspose, diagonal_conjTranspose, Matrix.mul_assoc]
    congr 3
    funext i
    simp only [Pi.star_apply]
    split_ifs <;> simp
  · have : U * diagonal (fun i => (l i : 𝕜)) * Uᴴ * (U * diagonal (fun i => if l i = E then (1 : 𝕜) else 0) * Uᴴ) =
        U * (diagonal (fun i => (l i : 𝕜)) * diagonal (fun i => if l i = E then (1 : 𝕜) else 0)) * Uᴴ := by
      simp only [Matrix.mul_assoc]
      rw [← Matrix.mul_assoc Uᴴ U, h1, Matrix.one_mul]
    rw [this, diagonal_mul_diagonal, ← Matrix.smul_mul, ← Matrix.mul_smul, ← Matrix.diagonal_smul]
    congr 3
    funext i
    simp only [Pi.smul_apply, smul_eq_mul]
    split_ifs with h
    · rw [h]
    · simp
  · intro v hv
    have hfix : ∀ t : ℝ, (((Real.exp (t * E) : ℝ) : 𝕜) • calculateGate (U * diagonal (fun i => (l i : 𝕜)) * Uᴴ) t).mulVec v = v := by
      intro t
      rw [hgate t]
      have hw : ∀ i, (l i : 𝕜) * Uᴴ.mulVec v i = E * Uᴴ.mulVec v i := by
        intro i
        have := congrArg (fun w => Uᴴ.mulVec w i) hv
        simp only [mulVec_mulVec, mulVec_smul, Pi.smul_apply, smul_eq_mul] at this
        rw [← this, ← Matrix.mul_assoc, ← Matrix.mul_assoc, h1, Matrix.one_mul, ← mulVec_mulVec, mulVec_diagonal]
      have : (diagonal (fun i => ((Real.exp (-t * (l i - E)) : ℝ) : 𝕜))).mulVec (Uᴴ.mulVec v) = Uᴴ.mulVec v := by
        ext i
        rw [mulVec_diagonal]
        by_cases h0 : Uᴴ.mulVec v i = 0
        · rw [h0, mul_zero]
        · have := RCLike.ofReal_injective (mul_right_cancel₀ h0 (hw i))
          rw [this]
          simp
      rw [Matrix.mul_assoc, ← mulVec_mulVec, ← mulVec_mulVec, this, mulVec_mulVec, h2, one_mulVec]
    have hc : Continuous fun M : Matrix ι ι 𝕜 => M.mulVec v := continuous_id.matrix_mulVec continuous_const
    have h3 := (hc.tendsto _).comp hlim
    refine tendsto_nhds_unique h3 ?_
    refine tendsto_const_nhds.congr fun t => ?_
    exact (hfix t).symm

omit [DecidableEq ι] in
theorem continuous_stateNorm : Continuous (stateNorm : (ι → 𝕜) → ℝ) := by
  unfold stateNorm
  fun_prop

omit [DecidableEq ι] in
theorem norm_le_stateNorm (ψ : ι → 𝕜) : ‖ψ‖ ≤ stateNorm ψ := by
  refine (pi_norm_le_iff_of_nonneg (stateNorm_nonneg ψ)).2 fun i => ?_
  refine Real.le_sqrt_of_sq_le ?_
  exact Finset.single_le_sum (f := fun p => ‖ψ p‖ ^ 2) (fun _ _ => by positivity) (Finset.mem_univ i)

omit [DecidableEq ι] in
theorem stateNorm_add_le (φ ψ : ι → 𝕜) : stateNorm (φ + ψ) ≤ stateNorm φ + stateNorm ψ := by
  rw [stateNorm_eq, stateNorm_eq, stateNorm_eq, WithLp.toLp_add]
  exact norm_add_le _ _

omit [DecidableEq ι] in
theorem continuousAt_energyOf (H : Matrix ι ι 𝕜) (g : ι → 𝕜) (hg : g ≠ 0) : ContinuousAt (energyOf H) g := by
  unfold energyOf
  refine ContinuousAt.div ?_ ((continuous_stateNorm.pow 2).continuousAt) (pow_ne_zero 2 (stateNorm_pos hg).ne')
  refine Continuous.continuousAt ?_
  have : Continuous fun ψ : ι → 𝕜 => H.mulVec ψ := continuous_const.matrix_mulVec continuous_id
  unfold overlap
  refine RCLike.continuous_re.comp (continuous_finsetSum _ fun p _ => ?_)
  exact ((continuous_apply p).star).mul ((continuous_apply p).comp this)

/-- A state that is close to the evolved state is, normalised, close to a ground state. -/
theorem ground_reached (H : Matrix ι ι 𝕜) (hH : H.IsHermitian) (E : ℝ) (hE : IsGroundEnergy H E) (ψ v : ι → 𝕜)
    (hv : H.mulVec v = (E : 𝕜) • v) (hov : overlap v ψ ≠ 0) :
    ∃ g : ι → 𝕜, H.mulVec g = (E : 𝕜) • g ∧ stateNorm g = 1 ∧ ∀ η : ℝ, 0 < η → ∃ T₀ : ℝ, ∀ T, T₀ ≤ T → ∃ ε : ℝ, 0 < ε ∧
      ∀ (φ : ι → 𝕜) (κ : ℝ), 0 < κ → stateNorm ((κ : 𝕜) • φ - (calculateGate H T).mulVec ψ) ≤ ε * stateNorm ψ →
        φ ≠ 0 ∧ stateNorm ((((stateNorm φ)⁻¹ : ℝ) : 𝕜) • φ - g) ≤ η ∧ energyOf H φ ≤ E + η := by
  obtain ⟨Q, hQ1, hQ2, hQ3, hQ4⟩ := exists_ground_projector H hH E hE
  let g' := Q.mulVec ψ
  have hg' : g' ≠ 0 := by
    intro h0
    apply hov
    rw [← hQ3 v hv, ← overlap_mulVec Q hQ1]
    show overlap v g' = 0
    rw [h0]
    simp [overlap]
  have hpos := stateNorm_pos hg'
  have hHg : H.mulVec g' = (E : 𝕜) • g' := by
    show H.mulVec (Q.mulVec ψ) = (E : 𝕜) • Q.mulVec ψ
    rw [mulVec_mulVec, hQ2, smul_mulVec]
  have hEg : energyOf H g' = E := by
    unfold energyOf
    rw [hHg, overlap_smul_right, RCLike.re_ofReal_mul, overlap_self, RCLike.ofReal_re, mul_div_assoc,
      div_self (pow_ne_zero 2 hpos.ne'), mul_one]
  let unit : (ι → 𝕜) → ι → 𝕜 := fun x => (((stateNorm x)⁻¹ : ℝ) : 𝕜) • x
  have hinv : ContinuousAt (fun x : ι → 𝕜 => (stateNorm x)⁻¹) g' := continuous_stateNorm.continuousAt.inv₀ hpos.ne'
  have hinv' : ContinuousAt (fun x : ι → 𝕜 => (((stateNorm x)⁻¹ : ℝ) : 𝕜)) g' :=
    (RCLike.continuous_ofReal (K := 𝕜)).continuousAt.comp hinv
  have hunit : ContinuousAt unit g' := hinv'.smul continuousAt_id
  have hlim : Tendsto (fun t : ℝ => (((Real.exp (t * E) : ℝ) : 𝕜) • calculateGate H t).mulVec ψ) atTop (𝓝 g') :=
    ((continuous_id.matrix_mulVec continuous_const : Continuous fun M : Matrix ι ι 𝕜 => M.mulVec ψ).tendsto Q).comp hQ4
  refine ⟨unit g', ?_, ?_, fun η hη => ?_⟩
  · show H.mulVec ((((stateNorm g')⁻¹ : ℝ) : 𝕜) • g') = _
    rw [mulVec_smul, hHg, smul_comm]
  · show stateNorm ((((stateNorm g')⁻¹ : ℝ) : 𝕜) • g') = 1
    rw [stateNorm_smul, RCLike.norm_ofReal, abs_of_pos (inv_pos.2 hpos), inv_mul_cancel₀ hpos.ne']
  have ev : ∀ᶠ x in 𝓝 g', x ≠ 0 ∧ stateNorm (unit x - unit g') < η ∧ energyOf H x < E + η := by
    refine (continuousAt_id.eventually_ne hg').and (Filter.Eventually.and ?_ ?_)
    · have hc : ContinuousAt (fun x => stateNorm (unit x - unit g')) g' :=
        continuous_stateNorm.continuousAt.comp (hunit.sub continuousAt_const)
      refine hc.eventually_lt continuousAt_const ?_
      rw [sub_self]
      simpa [stateNorm] using hη
    · refine (continuousAt_energyOf H g' hg').eventually_lt continuousAt_const ?_
      rw [hEg]
      linarith
  obtain ⟨r, hr, hball⟩ := Metric.eventually_nhds_iff.1 ev
  have hev2 : ∀ᶠ t : ℝ in atTop, stateNorm ((((Real.exp (t * E) : ℝ) : 𝕜) • calculateGate H t).mulVec ψ - g') < r / 2 := by
    have hc := (continuous_stateNorm (𝕜 := 𝕜) (ι := ι)).tendsto (g' - g') |>.comp (hlim.sub_const g')
    refine hc.eventually_lt_const ?_
    rw [sub_self]
    simpa [stateNorm] using hr
  obtain ⟨T₀, hT₀⟩ := eventually_atTop.1 hev2
  refine ⟨T₀, fun T hT => ⟨r / 2 / (Real.exp (T * E) * (stateNorm ψ + 1)), ?_, fun φ κ hκ hφ => ?_⟩⟩
  · have := stateNorm_nonneg ψ
    positivity
  have he := Real.exp_pos (T * E)
  have hc : 0 < Real.exp (T * E) * κ := mul_pos he hκ
  have hx : stateNorm (((Real.exp (T * E) * κ : ℝ) : 𝕜) • φ - g') < r := by
    have e : ((Real.exp (T * E) * κ : ℝ) : 𝕜) • φ - g' =
        ((Real.exp (T * E) : ℝ) : 𝕜) • ((κ : 𝕜) • φ - (calculateGate H T).mulVec ψ) +
          ((((Real.exp (T * E) : ℝ) : 𝕜) • calculateGate H T).mulVec ψ - g') := by
      rw [smul_sub, smul_smul, ← RCLike.ofReal_mul, smul_mulVec]
      abel
    rw [e]
    refine (stateNorm_add_le _ _).trans_lt ?_
    rw [stateNorm_smul, RCLike.norm_ofReal, abs_of_pos he]
    have h1 : Real.exp (T * E) * stateNorm ((κ : 𝕜) • φ - (calculateGate H T).mulVec ψ) ≤ r / 2 := by
      refine (mul_le_mul_of_nonneg_left hφ he.le).trans ?_
      have hn := stateNorm_nonneg ψ
      have : Real.exp (T * E) * (r / 2 / (Real.exp (T * E) * (stateNorm ψ + 1)) * stateNorm ψ) =
          r / 2 * (stateNorm ψ / (stateNorm ψ + 1)) := by
        field_simp
      rw [this]
      refine mul_le_of_le_one_right (by positivity) ?_
      rw [div_le_one (by linarith)]
      linarith
    linarith [hT₀ T hT]
  obtain ⟨b1, b2, b3⟩ := hball (by rw [dist_eq_norm]; exact (norm_le_stateNorm _).trans_lt hx)
  have hφ0 : φ ≠ 0 := fun h => b1 (by rw [h, smul_zero])
  have hu : unit (((Real.exp (T * E) * κ : ℝ) : 𝕜) • φ) = unit φ := by
    show (((stateNorm (((Real.exp (T * E) * κ : ℝ) : 𝕜) • φ))⁻¹ : ℝ) : 𝕜) • (((Real.exp (T * E) * κ : ℝ) : 𝕜) • φ) = _
    rw [stateNorm_smul, RCLike.norm_ofReal, abs_of_pos hc, smul_smul, ← RCLike.ofReal_mul, mul_inv, mul_right_comm,
      inv_mul_cancel₀ hc.ne', one_mul]
  rw [hu] at b2
  rw [energyOf_smul H φ hc] at b3
  exact ⟨hφ0, b2.le, b3.le⟩

end AceTN
