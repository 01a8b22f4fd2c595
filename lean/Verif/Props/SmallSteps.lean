import Verif.Props.LatticeError

/-!
# C98: small time steps change the state by little

A bond update with a short time step and a small regularisation returns, and the state after it is close to the state before.
-/

set_option autoImplicit false

namespace AceTN
open Spec Trot Full
open scoped Matrix.Norms.L2Operator

/-- Updates with short time steps: for every bond with its environment there are a time step and a factor such that with shorter time steps and
regularisation `ε` up to one (a small one or none for the pseudo-inverse, some for Cholesky) the update returns site tensors whose two-site tensor differs, up
to a positive factor, from the one before by at most the factor times `dtau ^ 2 + ε` in the squared norm. -/
def Spec.SmallSteps (𝕜 : Type) [RCLike 𝕜] : Prop :=
  ∀ (P X F : Type) [Fintype P] [DecidableEq P] [Nonempty P] [Fintype X] (bD : ℕ) [NeZero bD] (la : Lapack 𝕜) (cfg : Settings F)
    (ipeps : NetT (Fin bD) P X 𝕜) (s1 s2 : Site) (k : ℤ) (a1 a2 : ATensor (Fin bD) P 𝕜) (m : ModelTerms P 𝕜) (b : Bond),
    0 < cfg.als_niter → 0 < cfg.positive_approx_cutoff →
    (cfg.use_gauge_fix = true → cfg.gauge_fix_atol < Real.sqrt (cfg.positive_approx_cutoff * nD (Fin bD) P)) → twoSite a1 a2 ≠ 0 →
    ∃ τ₀ C : ℝ, 0 < τ₀ ∧ ∀ (fo : Als.FloatOps F) (rep : ℝ → F) (tol : F) (ε τ : ℝ), |τ| ≤ τ₀ → ε ≤ 1 →
      (0 ≤ ε ∧ ε ≤ τ₀ ∧ cfg.als_method = .pinv ∨ 0 < ε ∧ cfg.als_method = .cholesky) →
      ∃ b1 b2, fullTensorUpdate la fo rep { cfg with als_tol := tol, als_epsilon := ε } ipeps s1 s2 k (twoSiteGate m τ b) a1 a2 =
          some (.ok (b1, b2)) ∧
        ∃ κ : ℝ, 0 < κ ∧ normSq8 (fun u r d l' u' d' p q => (κ : 𝕜) * twoSite b1 b2 u r d l' u' d' p q -
          twoSite a1 a2 u r d l' u' d' p q) ≤ C * (τ ^ 2 + ε)

section gate

variable {𝕜 : Type} [RCLike 𝕜] {B P : Type} [Fintype B] [Fintype P] [DecidableEq P]

/-- The gate of a short time step keeps most of the norm and does not increase it much. -/
theorem gated_small (m : ModelTerms P 𝕜) (b : Bond) : ∃ G : ℝ, 0 ≤ G ∧ ∀ τ : ℝ, |τ| ≤ 1 → ∀ T : B → B → B → B → B → B → P → P → 𝕜,
    normSq8 (fun u r d l' u' d' p q => T u r d l' u' d' p q - gated (twoSiteGate m τ b) T u r d l' u' d' p q) ≤ G * τ ^ 2 * normSq8 T ∧
    normSq8 (gated (twoSiteGate m τ b) T) ≤ 2 * (G + 1) * normSq8 T ∧
    normSq8 T ≤ 2 * (G * τ ^ 2 * normSq8 T + normSq8 (gated (twoSiteGate m τ b) T)) := by
  obtain ⟨G, hG0, hG⟩ := twoSiteGate_close (B := B) m b
  have hz : ∀ T : B → B → B → B → B → B → P → P → 𝕜, normSq8 (fun u r d l' u' d' p q => T u r d l' u' d' p q -
      (0 : B → B → B → B → B → B → P → P → 𝕜) u r d l' u' d' p q) = normSq8 T := fun T =>
    normSq8_congr_norm fun u r d l' u' d' p q => by simp
  refine ⟨G, hG0, fun τ hτ T => ?_⟩
  have h1 := hG τ hτ T
  have h2 : normSq8 (fun u r d l' u' d' p q => T u r d l' u' d' p q - gated (twoSiteGate m τ b) T u r d l' u' d' p q) ≤
      G * τ ^ 2 * normSq8 T := by
    refine le_trans (le_of_eq (normSq8_congr_norm fun u r d l' u' d' p q => ?_)) h1
    rw [norm_sub_rev]
  have hτ2 : τ ^ 2 ≤ 1 := by
    rw [← sq_abs]
    exact pow_le_one₀ (abs_nonneg _) hτ
  have hT := normSq8_nonneg T
  refine ⟨h2, ?_, ?_⟩
  · have h3 := normSq8_sub_le (gated (twoSiteGate m τ b) T) T 0
    rw [hz, hz] at h3
    have : G * τ ^ 2 * normSq8 T ≤ G * normSq8 T := mul_le_mul_of_nonneg_right (mul_le_of_le_one_right hG0 hτ2) hT
    linarith
  · have h3 := normSq8_sub_le T (gated (twoSiteGate m τ b) T) 0
    rw [hz, hz] at h3
    linarith

end gate

section real

variable {F P : Type} [Fintype P] [DecidableEq P] [Nonempty P] {bD : ℕ} [NeZero bD]

theorem recomposed_small (la : Lapack ℝ) (cfg : Settings F) (hni : 0 < cfg.als_niter) (hcut : 0 < cfg.positive_approx_cutoff)
    (hatol : cfg.use_gauge_fix = true → cfg.gauge_fix_atol < Real.sqrt (cfg.positive_approx_cutoff * nD (Fin bD) P))
    (n12 : Fin (nD (Fin bD) P) → Fin (nD (Fin bD) P) → Fin (nD (Fin bD) P) → Fin (nD (Fin bD) P) → ℝ) (a1 a2 : ATensor (Fin bD) P ℝ)
    (h0 : twoSite a1 a2 ≠ 0) (m : ModelTerms P ℝ) (b : Bond) :
    ∃ τ₀ C : ℝ, 0 < τ₀ ∧ τ₀ ≤ 1 ∧ 0 ≤ C ∧ ∀ (fo : Als.FloatOps F) (rep : ℝ → F) (tol : F) (ε τ : ℝ), |τ| ≤ τ₀ → ε ≤ 1 →
      (0 ≤ ε ∧ ε ≤ τ₀ ∧ cfg.als_method = .pinv ∨ 0 < ε ∧ cfg.als_method = .cholesky) →
      ∃ b1 b2, recomposed la a1 a2 (updateReduced la fo rep { cfg with als_tol := tol, als_epsilon := ε } bD_le (decompose la a1 a2).a1r
          (decompose la a1 a2).a2r n12 (twoSiteGate m τ b)) = some (.ok (b1, b2)) ∧ twoSite b1 b2 ≠ 0 ∧
        ∃ κ : ℝ, 0 < κ ∧ normSq8 (fun u r d l' u' d' p q => κ * twoSite b1 b2 u r d l' u' d' p q -
          twoSite a1 a2 u r d l' u' d' p q) ≤ C * (τ ^ 2 + ε) := by
  obtain ⟨K, hK0, hK⟩ := recomposed_quasi la cfg hni hcut hatol n12 a1 a2
  obtain ⟨δ, hδ, hret⟩ := recomposed_returns la cfg hni hcut hatol n12 a1 a2
  obtain ⟨G, hG0, hG⟩ := gated_small (B := Fin bD) m b
  set T := twoSite a1 a2 with hT
  set ν := normSq8 T with hν
  have hν0 : 0 < ν := by
    refine lt_of_le_of_ne (normSq8_nonneg _) fun h => h0 ?_
    exact normSq8_eq_zero T (le_of_eq h.symm)
  set q := δ / (4 * (1 + δ) * (G + 1)) with hq
  have hq0 : 0 < q := by positivity
  refine ⟨min (min 1 δ) (Real.sqrt q), 2 * (K * (G * ν + 2 * (G + 1) * ν) + G * ν), lt_min (lt_min one_pos hδ) (Real.sqrt_pos.2 hq0),
    (min_le_left _ _).trans (min_le_left _ _), by positivity,
    fun fo rep tol ε τ hτ he1 hor => ?_⟩
  have hτ1 : |τ| ≤ 1 := hτ.trans ((min_le_left _ _).trans (min_le_left _ _))
  have hτq : τ ^ 2 ≤ q := by
    rw [← sq_abs, ← Real.sq_sqrt hq0.le]
    exact pow_le_pow_left₀ (abs_nonneg _) (hτ.trans (min_le_right _ _)) 2
  have he0 : 0 ≤ ε := by rcases hor with h | h <;> [exact h.1; exact h.1.le]
  obtain ⟨g1, g2, g3⟩ := hG τ hτ1 T
  have hsmall : normSq8 (fun u r d l' u' d' p q => T u r d l' u' d' p q - gated (twoSiteGate m τ b) T u r d l' u' d' p q) <
      δ * normSq8 (gated (twoSiteGate m τ b) T) := by
    have hqe : q * (4 * (1 + δ) * (G + 1)) = δ := div_mul_cancel₀ _ (by positivity)
    have h1 : G * τ ^ 2 * (4 * (1 + δ)) ≤ δ := by
      calc G * τ ^ 2 * (4 * (1 + δ)) ≤ (G + 1) * q * (4 * (1 + δ)) := by gcongr; linarith
        _ = δ := by linarith
    have h2 : G * τ ^ 2 * (4 * (1 + δ)) * ν ≤ δ * ν := mul_le_mul_of_nonneg_right h1 hν0.le
    have h3 : δ * ν ≤ δ * (2 * (G * τ ^ 2 * ν + normSq8 (gated (twoSiteGate m τ b) T))) := mul_le_mul_of_nonneg_left g3 hδ.le
    have h4 : 0 < δ * ν := mul_pos hδ hν0
    nlinarith
  obtain ⟨b1, b2, hu, hb0⟩ := hret fo rep tol ε (twoSiteGate m τ b) a1 a2
    (hor.imp_left fun h => ⟨h.1, h.2.1.trans ((min_le_left _ _).trans (min_le_right _ _)), h.2.2⟩) hsmall
  refine ⟨b1, b2, hu, hb0, ?_⟩
  obtain ⟨κ, hκ, hall⟩ := hK fo rep tol ε (twoSiteGate m τ b) he0 (gated_ne_zero_of m τ b _ h0) b1 b2 hu
  refine ⟨κ, hκ, ?_⟩
  have h1 := hall a1 a2
  have h2 := normSq8_sub_le (fun u r d l' u' d' p q => κ * twoSite b1 b2 u r d l' u' d' p q) (gated (twoSiteGate m τ b) T) T
  have h3 : normSq8 (fun u r d l' u' d' p q => gated (twoSiteGate m τ b) T u r d l' u' d' p q - T u r d l' u' d' p q) ≤ G * τ ^ 2 * ν := by
    refine le_trans (le_of_eq (normSq8_congr_norm fun u r d l' u' d' p q => ?_)) g1
    rw [norm_sub_rev]
  refine h2.trans ?_
  have h4 : K * (normSq8 (fun u r d l' u' d' p q => T u r d l' u' d' p q - gated (twoSiteGate m τ b) T u r d l' u' d' p q) +
      ε * normSq8 (gated (twoSiteGate m τ b) T)) ≤ K * (G * τ ^ 2 * ν + ε * (2 * (G + 1) * ν)) := by gcongr
  have h5 : K * (G * τ ^ 2 * ν + ε * (2 * (G + 1) * ν)) ≤ K * (G * ν + 2 * (G + 1) * ν) * (τ ^ 2 + ε) := by
    rw [mul_assoc K]
    refine mul_le_mul_of_nonneg_left ?_ hK0
    have a : 0 ≤ G * ν * ε := by positivity
    have b : 0 ≤ 2 * (G + 1) * ν * τ ^ 2 := by positivity
    nlinarith
  have h6 : G * τ ^ 2 * ν ≤ G * ν * (τ ^ 2 + ε) := by
    have : 0 ≤ G * ν * ε := by positivity
    nlinarith
  linarith

/-- **C98 (one bond, partial).** Real dtypes. Missing: complex ones (`C98_violated`). -/
theorem C98_bond_partial : Spec.SmallSteps ℝ := by
  intro P X F _ _ _ _ bD _ la cfg ipeps s1 s2 k a1 a2 m b hni hcut hatol h0
  obtain ⟨τ₀, C, h1, -, -, h⟩ := recomposed_small la cfg hni hcut hatol
    (buildNormTensor ipeps s1 s2 k (decompose la a1 a2).a1q (decompose la a1 a2).a2q) a1 a2 h0 m b
  refine ⟨τ₀, C, h1, fun fo rep tol ε τ hτ he hor => ?_⟩
  obtain ⟨b1, b2, hu, -, κ, hκ, hd⟩ := h fo rep tol ε τ hτ he hor
  exact ⟨b1, b2, hu, κ, hκ, hd⟩

end real

/-- **C98** is violated for complex dtypes: the update with no time step at all returns zero for the tensors of `C39_violated_complex`. -/
theorem C98_violated : ¬ Spec.SmallSteps ℂ := by
  intro h
  obtain ⟨la⟩ := nonempty_lapack (𝕜 := ℂ)
  let fo : Als.FloatOps Unit := ⟨fun _ _ => (), fun _ => (), fun _ _ => (), fun _ _ => false⟩
  let cfg : Settings Unit := ⟨true, 1e-12, 1e-12, 1, (), .pinv, 0⟩
  let ipeps : NetT (Fin 1) (Fin 2) (Fin 1) ℂ := fun _ => ⟨upSite, fun _ _ _ => 1, fun _ _ _ _ _ => 1⟩
  let m : ModelTerms (Fin 2) ℂ := ⟨fun _ => 0, fun _ => none⟩
  have hne : twoSite upSite ySite ≠ 0 := by
    intro h0
    have := congrFun (congrFun (congrFun (congrFun (congrFun (congrFun (congrFun (congrFun h0 0) 0) 0) 0) 0) 0) 0) 0
    simp [twoSite, upSite, ySite] at this
  have hg : twoSiteGate m 0 ⟨(0, 0), (1, 0), 2⟩ = idGate := by
    funext p q r s
    unfold twoSiteGate
    rw [calculateGate_zero]
    simp [idGate, Matrix.one_apply, Prod.ext_iff]
  obtain ⟨τ₀, C, h1, h⟩ := h (Fin 2) (Fin 1) Unit 1 la cfg ipeps (0, 0) (1, 0) 2 upSite ySite m ⟨(0, 0), (1, 0), 2⟩ (by decide)
    (by norm_num [cfg]) (fun _ => by
      rw [Real.lt_sqrt (by norm_num [cfg])]
      norm_num [cfg, nD]) hne
  obtain ⟨b1, b2, hb, κ, hκ, hd⟩ := h fo (fun _ => ()) () 0 0 (by rw [abs_zero]; exact h1.le) zero_le_one (.inl ⟨le_rfl, h1.le, rfl⟩)
  rw [hg] at hb
  obtain ⟨-, hz⟩ := C39_violated_complex la fo (fun _ => ()) cfg (by decide) ipeps (0, 0) (1, 0) 2
  obtain ⟨z1, z2⟩ := hz b1 b2 hb
  rw [z1, z2] at hd
  unfold normSq8 at hd
  simp only [Finset.univ_unique, Finset.sum_singleton, Fin.default_eq_zero, Fin.sum_univ_two, twoSite, upSite, ySite] at hd
  norm_num at hd

section lattice

variable {nx ny N : ℕ} {𝕜 : Type} [RCLike 𝕜]

/-- Local closeness of the tensors of a bond is closeness of the states of the lattice. -/
theorem state_close {B X P : Type} [Fintype B] [Nonempty B] [Fintype P] [DecidableEq P] (hx : 2 ≤ nx) (hy : 2 ≤ ny)
    (σ : Bond → Equiv.Perm (Fin N)) (net : NetT B P X 𝕜) (b : Bond) (hb : b ∈ buildBondList nx ny) (H : ℝ) :
    ∃ D : ℝ, 0 ≤ D ∧ ∀ (net' : NetT B P X 𝕜) (κ : ℝ), 0 < κ → (∀ s, s ≠ b.s1 → s ≠ b.s2 → (net' s).A = (net s).A) →
      normSq8 (fun u r d l' u' d' p q => (κ : 𝕜) * bondTensor net' b u r d l' u' d' p q - bondTensor net b u r d l' u' d' p q) ≤ H →
      rayDist (latticeState (nx := nx) (ny := ny) σ (siteTensors net')) (latticeState σ (siteTensors net)) ≤
        D * Real.sqrt (normSq8 fun u r d l' u' d' p q => (κ : 𝕜) * bondTensor net' b u r d l' u' d' p q -
          bondTensor net b u r d l' u' d' p q) := by
  let m : ModelTerms P 𝕜 := ⟨fun _ => 0, fun _ => none⟩
  obtain ⟨D, hD0, hD⟩ := C97_local hx hy σ net b hb (∑ p, ∑ q, ∑ r, ∑ s, ‖twoSiteGate m 0 b p q r s‖ ^ 2) H
  have hg : gated (twoSiteGate m 0 b) (bondTensor net b) = bondTensor net b := by
    funext u r d l' u' d' p q
    unfold gated twoSiteGate
    rw [calculateGate_zero]
    simp [Matrix.one_apply, Prod.ext_iff, ite_and]
  have he : ((coveringOps hx hy σ).everywhere b (gateMatrix (twoSiteGate m 0 b)).transpose).mulVec (latticeState σ (siteTensors net)) =
      latticeState (nx := nx) (ny := ny) σ (siteTensors net) := by
    rw [everywhere_gate _ m 0 b hb, RCLike.ofReal_zero, neg_zero, zero_smul, NormedSpace.exp_zero, Matrix.one_mulVec]
  refine ⟨D, hD0, fun net' κ hκ hoff hH => ?_⟩
  have h := hD (twoSiteGate m 0 b) net' κ hκ le_rfl hoff
  rw [hg, he] at h
  exact h hH

theorem sqrt_step {C τ ε : ℝ} (hC : 0 ≤ C) (he : 0 ≤ ε) : Real.sqrt (C * (τ ^ 2 + ε)) ≤ Real.sqrt C * (|τ| + Real.sqrt ε) := by
  rw [Real.sqrt_mul hC]
  refine mul_le_mul_of_nonneg_left ?_ (Real.sqrt_nonneg _)
  rw [← Real.sqrt_sq_eq_abs]
  refine Real.sqrt_le_iff.2 ⟨by positivity, ?_⟩
  have h1 := Real.sq_sqrt (sq_nonneg τ)
  have h2 := Real.sq_sqrt he
  have h3 := mul_nonneg (Real.sqrt_nonneg (τ ^ 2)) (Real.sqrt_nonneg ε)
  nlinarith

/-- **C98 (full update in a run, partial).** Real dtypes: for every network whose tensors fit and every bond with a two-site tensor that is not
zero there are a time step and a factor such that full updates with shorter time steps and regularisation `ε` up to one, whatever the moves
after it do, do not raise, leave a two-site tensor that is not zero, and change the state of every lattice covering the cell, up to a positive
factor, by at most the factor times `|dtau| + √ε`. -/
theorem C98_full_partial {F : Type} {bD pD : ℕ} [NeZero bD] [NeZero pD] (hx : 2 ≤ nx) (hy : 2 ≤ ny) (σ : Bond → Equiv.Perm (Fin N))
    (la : Lapack ℝ) (cfg : Settings F) (hni : 0 < cfg.als_niter) (hcut : 0 < cfg.positive_approx_cutoff)
    (hatol : cfg.use_gauge_fix = true → cfg.gauge_fix_atol < Real.sqrt (cfg.positive_approx_cutoff * nD (Fin bD) (Fin pD)))
    (m : ModelTerms (Fin pD) ℝ) (s : Net (Ten (Fin bD) (Fin pD) ℝ) × ℕ) (h : FitNet nx ny s.1) (b : Bond) (hb : b ∈ buildBondList nx ny)
    (h0 : bondTensor (bare s.1) b ≠ 0) :
    ∃ τ₀ C : ℝ, 0 < τ₀ ∧ ∀ (st : ProjSettings ℝ) (pk : ProjKind) (ω : ℕ → Draws (Fin bD) ℝ) (fo : Als.FloatOps F) (rep : ℝ → F) (tol : F)
      (ε τ : ℝ), |τ| ≤ τ₀ → ε ≤ 1 → (0 ≤ ε ∧ ε ≤ τ₀ ∧ cfg.als_method = .pinv ∨ 0 < ε ∧ cfg.als_method = .cholesky) →
      let r := fullBondStep st pk ω la fo rep { cfg with als_tol := tol, als_epsilon := ε } none (twoSiteGate m τ) s b
      r.2 = none ∧ bondTensor (bare r.1.1) b ≠ 0 ∧
        rayDist (latticeState (nx := nx) (ny := ny) σ (siteTensors (bare r.1.1))) (latticeState σ (siteTensors (bare s.1))) ≤
          C * (|τ| + Real.sqrt ε) := by
  obtain ⟨a1, a2, n12, hT, hstep⟩ := fullBondStep_recomposed hx hy la s h hb
  obtain ⟨τ₀, C, hτ₀, hτ1, hC0, hsm⟩ := recomposed_small la cfg hni hcut hatol n12 a1 a2 (hT ▸ h0) m b
  obtain ⟨D, hD0, hD⟩ := state_close hx hy σ (bare s.1) b hb (C * (1 + 1))
  refine ⟨τ₀, D * Real.sqrt C, hτ₀, fun st pk ω fo rep tol ε τ hτ he1 hor => ?_⟩
  intro r
  have he0 : 0 ≤ ε := by rcases hor with h | h <;> [exact h.1; exact h.1.le]
  obtain ⟨x1, x2, hu, hx0, κ, hκ, hd⟩ := hsm fo rep tol ε τ hτ he1 hor
  obtain ⟨hok, hoff, hnew⟩ := (hstep F st pk ω fo rep { cfg with als_tol := tol, als_epsilon := ε } (twoSiteGate m τ)).2 x1 x2 hu
  refine ⟨hok, by rw [hnew]; exact hx0, ?_⟩
  rw [← hnew, ← hT] at hd
  have hτ2 : τ ^ 2 ≤ 1 := by
    rw [← sq_abs]
    exact pow_le_one₀ (abs_nonneg _) (hτ.trans hτ1)
  refine (hD (bare r.1.1) κ hκ hoff (hd.trans (mul_le_mul_of_nonneg_left (add_le_add hτ2 he1) hC0))).trans ?_
  rw [mul_assoc]
  exact mul_le_mul_of_nonneg_left ((Real.sqrt_le_sqrt hd).trans (sqrt_step hC0 he0)) hD0

/-- **C98 (simple update, partial).** Real and complex dtypes: if the weights around a bond can be divided out (C40) and its two-site tensor is
not zero, simple updates with every time step up to one return and change the state of every lattice covering the cell, up to a positive factor,
by at most a factor times the time step.  Missing: weights that cannot be divided out (`C41_violated`). -/
theorem C98_simple_partial {P X : Type} [Fintype P] [DecidableEq P] [Nonempty P] {bD : ℕ} [NeZero bD] (hx : 2 ≤ nx) (hy : 2 ≤ ny)
    (σ : Bond → Equiv.Perm (Fin N)) (la : Lapack 𝕜) (st : NetT (Fin bD) P X 𝕜 × LambdaTensors (Simple.Weight bD)) (b : Bond)
    (hb : b ∈ buildBondList nx ny) (W1 W2 : ℕ → Simple.Weight bD) (hW1 : Weights st.2 b.s1 W1) (hW2 : Weights st.2 b.s2 W2)
    (hs1 : Strippable W1 b.k) (hs2 : Strippable W2 ((b.k + 2) % 4)) (m : ModelTerms P 𝕜) (h0 : bondTensor st.1 b ≠ 0) :
    ∃ C : ℝ, ∀ τ : ℝ, |τ| ≤ 1 → (Simple.bondStep la (fun _ => none) (twoSiteGate m τ) st b).2 = none ∧
      rayDist (latticeState (nx := nx) (ny := ny) σ (siteTensors (Simple.bondStep la (fun _ => none) (twoSiteGate m τ) st b).1.1))
        (latticeState σ (siteTensors st.1)) ≤ C * |τ| := by
  obtain ⟨K, hK0, hK⟩ := simple_quasi la st b (by have := ((C02_bond_list nx ny).2.2 b).1 hb; omega)
    (bond_ends_distinct nx ny hx hy b hb) W1 W2 hW1 hW2 hs1 hs2
  obtain ⟨G, hG0, hG⟩ := gated_small (B := Fin bD) m b
  set T := bondTensor st.1 b with hT
  set ν := normSq8 T with hν
  have hν0 : 0 ≤ ν := normSq8_nonneg _
  obtain ⟨D, hD0, hD⟩ := state_close hx hy σ st.1 b hb (2 * (K * (G * ν) + G * ν) * 1)
  refine ⟨D * Real.sqrt (2 * (K * (G * ν) + G * ν)), fun τ hτ => ?_⟩
  obtain ⟨hok, hoff, κ, hκ, hall⟩ := hK (twoSiteGate m τ) (gated_ne_zero_of m τ b _ h0)
  refine ⟨hok, ?_⟩
  obtain ⟨g1, -, -⟩ := hG τ hτ T
  have h3 : normSq8 (fun u r d l' u' d' p q => gated (twoSiteGate m τ b) T u r d l' u' d' p q - T u r d l' u' d' p q) ≤ G * τ ^ 2 * ν := by
    refine le_trans (le_of_eq (normSq8_congr_norm fun u r d l' u' d' p q => ?_)) g1
    rw [norm_sub_rev]
  have h1 := hall (bondPermute b.k (st.1 b.s1).A) (bondPermute b.k (st.1 b.s2).A)
  have h2 := normSq8_sub_le (fun u r d l' u' d' p q => (κ : 𝕜) * bondTensor (Simple.bondStep la (fun _ => none) (twoSiteGate m τ) st b).1.1 b
    u r d l' u' d' p q) (gated (twoSiteGate m τ b) T) T
  have hd : normSq8 (fun u r d l' u' d' p q => (κ : 𝕜) * bondTensor (Simple.bondStep la (fun _ => none) (twoSiteGate m τ) st b).1.1 b
      u r d l' u' d' p q - T u r d l' u' d' p q) ≤ 2 * (K * (G * ν) + G * ν) * (τ ^ 2 + 0) := by
    have h4 : K * normSq8 (fun u r d l' u' d' p q => T u r d l' u' d' p q - gated (twoSiteGate m τ b) T u r d l' u' d' p q) ≤
        K * (G * τ ^ 2 * ν) := mul_le_mul_of_nonneg_left g1 hK0
    have h5 := h1.trans h4
    nlinarith
  have hτ2 : τ ^ 2 ≤ 1 := by
    rw [← sq_abs]
    exact pow_le_one₀ (abs_nonneg _) hτ
  have hC0 : 0 ≤ 2 * (K * (G * ν) + G * ν) := by positivity
  refine (hD _ κ hκ hoff (hd.trans (mul_le_mul_of_nonneg_left (by linarith) hC0))).trans ?_
  rw [mul_assoc]
  refine mul_le_mul_of_nonneg_left ((Real.sqrt_le_sqrt hd).trans ((sqrt_step hC0 le_rfl).trans (le_of_eq ?_))) hD0
  rw [Real.sqrt_zero, add_zero]

end lattice

/-! ### The hypotheses are met -/

section example_

open Simple

variable {nx ny N : ℕ}

/-- Full updates of the state `|00…0⟩ + |11…1⟩` with the default settings, for every model: with a short time step they return. -/
example (hx : 2 ≤ nx) (hy : 2 ≤ ny) (σ : Bond → Equiv.Perm (Fin N)) (la : Lapack ℝ) (m : ModelTerms (Fin 2) ℝ) (b : Bond)
    (hb : b ∈ buildBondList nx ny) (chi : ℕ) : ∃ τ₀ C : ℝ, 0 < τ₀ ∧ ∀ (st : ProjSettings ℝ) (pk : ProjKind) (ω : ℕ → Draws (Fin 2) ℝ)
      (fo : Als.FloatOps ℝ) (dtau : ℝ), |dtau| ≤ τ₀ →
      let r := fullBondStep st pk ω la fo id ⟨true, 1e-12, 1e-12, 100, 1e-15, .cholesky, 1e-12⟩ none (twoSiteGate m dtau)
        (freshNet nx ny chi fun s => (ghzNet s).A, 0) b
      r.2 = none ∧ rayDist (latticeState (nx := nx) (ny := ny) σ (siteTensors (bare r.1.1))) (latticeState σ (siteTensors ghzNet)) ≤
        C * (|dtau| + Real.sqrt 1e-12) := by
  have hfit := fitNet_fresh (nx := nx) (ny := ny) (by omega) (by omega) chi fun s => (ghzNet s).A
  obtain ⟨τ₀, C, h1, h⟩ := C98_full_partial hx hy σ la ⟨true, 1e-12, 1e-12, 100, (1e-15 : ℝ), .cholesky, 1e-12⟩ (by norm_num) (by norm_num)
    (fun _ => by rw [Real.lt_sqrt (by norm_num)]; norm_num [nD]) m (freshNet nx ny chi fun s => (ghzNet s).A, 0) hfit b hb
    (ghz_bond hx hy b hb)
  refine ⟨τ₀, C, h1, fun st pk ω fo dtau hd => ?_⟩
  obtain ⟨e1, -, e2⟩ := h st pk ω fo id 1e-15 1e-12 dtau hd (by norm_num) (.inr ⟨by norm_num, rfl⟩)
  exact ⟨e1, e2⟩

/-- Simple updates of it with the initial weights. -/
example (hx : 2 ≤ nx) (hy : 2 ≤ ny) (σ : Bond → Equiv.Perm (Fin N)) (la : Lapack ℝ) (m : ModelTerms (Fin 2) ℝ) (b : Bond)
    (hb : b ∈ buildBondList nx ny) : ∃ C : ℝ, ∀ dtau : ℝ, |dtau| ≤ 1 →
      rayDist (latticeState (nx := nx) (ny := ny) σ (siteTensors (Simple.bondStep la (fun _ => none) (twoSiteGate m dtau)
        (ghzNet, LambdaTensors.init (buildBondList nx ny) (ones 2 false)) b).1.1)) (latticeState σ (siteTensors ghzNet)) ≤ C * |dtau| := by
  obtain ⟨c1, c2⟩ := C02_bond_ends_in_cell _ _ b hb
  rw [mem_buildSiteList] at c1 c2
  obtain ⟨C, h⟩ := C98_simple_partial hx hy σ la (ghzNet, LambdaTensors.init (buildBondList nx ny) (ones 2 false)) b hb _ _
    (ones_weights _ c1) (ones_weights _ c2) (ones_strippable _) (ones_strippable _) m (ghz_bond hx hy b hb)
  exact ⟨C, fun dtau hd => (h dtau hd).2⟩

end example_

end AceTN
