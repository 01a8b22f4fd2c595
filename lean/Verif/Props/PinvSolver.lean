import Verif.Props.QuasiOptimal
import Verif.Lemmas.SmallGate

/-!
C35 and C95 for the pseudo-inverse that drops small eigenvalues.
-/

set_option autoImplicit false

namespace AceTN

open Spec Full Matrix

section half

variable {𝕜 : Type} [RCLike 𝕜] {N P B : Type} [Fintype N] [Fintype P] [Fintype B] [DecidableEq N] [DecidableEq P] [DecidableEq B]
  [Nonempty N] [Nonempty B]

/-- **C35** (pseudo-inverse, first tensor).  Full statement: `Spec.HalfStepOptimal`.  Whatever eigenvalues the pseudo-inverse drops, the cost of
the tensor that the half-step returns exceeds the least cost by at most `als_epsilon` times the strength of the system times the squared size of
any minimiser, up to twice the dimension of the system. -/
theorem C35_first_pinv_partial (la : Lapack 𝕜) (ε : ℝ) (he : 0 ≤ ε) (n : N → N → N → N → 𝕜) (hN : (normMat n).IsHermitian)
    (hp : AtLeast (normMat n) 0) (g : N → N → P → P → 𝕜) (a a2 r : N → B → P → 𝕜) (hr : Spec.MinimisesFirst g n r a2)
    (h : solveAr la ε .pinv (buildR1 n a2) (buildS1 (n12gOf n g) a2) = .ok a) :
    cost a a2 g n ≤ cost r a2 g n +
      2 * Fintype.card (N × B) * (ε * (absMax (asSq (buildR1 n a2)) * ∑ p, ∑ i : N × B, ‖r i.1 i.2 p‖ ^ 2)) := by
  have h1 := first_near la ε he .pinv n hN hp g _ a a2 hr h r
  rw [sub_self, zero_add] at h1
  have h2 : 0 ≤ ε * (absMax (asSq (buildR1 n a2)) * size3 a) := mul_nonneg he (mul_nonneg (absMax_nonneg _) (size3_nonneg a))
  unfold size3 at h1 h2
  linarith

/-- **C35** (pseudo-inverse, second tensor). -/
theorem C35_second_pinv_partial (la : Lapack 𝕜) (ε : ℝ) (he : 0 ≤ ε) (n : N → N → N → N → 𝕜) (hN : (normMat n).IsHermitian)
    (hp : AtLeast (normMat n) 0) (g : N → N → P → P → 𝕜) (a1 a r : N → B → P → 𝕜) (hr : Spec.MinimisesSecond g n a1 r)
    (h : solveAr la ε .pinv (buildR2 n a1) (buildS2 (n12gOf n g) a1) = .ok a) :
    cost a1 a g n ≤ cost a1 r g n +
      2 * Fintype.card (N × B) * (ε * (absMax (asSq (buildR2 n a1)) * ∑ p, ∑ i : N × B, ‖r i.1 i.2 p‖ ^ 2)) := by
  have h1 := second_near la ε he .pinv n hN hp g _ a1 a hr h r
  rw [sub_self, zero_add] at h1
  have h2 : 0 ≤ ε * (absMax (asSq (buildR2 n a1)) * size3 a) := mul_nonneg he (mul_nonneg (absMax_nonneg _) (size3_nonneg a))
  unfold size3 at h1 h2
  linarith

end half

/-- **C95 (pseudo-inverse).** As for the Cholesky method: for every real bond, whatever its boundary tensors, if the gate-applied two-site tensor
fits into the bond dimension and does not vanish, there are a number `K` and a positive number `δ` such that for every `als_epsilon` from zero
up to `δ` the full update with the pseudo-inverse returns site tensors, not zero, whose contraction is, up to a positive factor, the
gate-applied two-site tensor with a squared error of at most `K * als_epsilon`. -/
theorem C95_pinv {F P X : Type} [Fintype P] [DecidableEq P] [Nonempty P] [Fintype X] {bD : ℕ} [NeZero bD] (la : Lapack ℝ)
    (cfg : Settings F) (ipeps : NetT (Fin bD) P X ℝ) (s1 s2 : Site) (k : ℤ)
    (gate : P → P → P → P → ℝ) (a1 a2 : ATensor (Fin bD) P ℝ) (hm : cfg.als_method = .pinv)
    (hni : 0 < cfg.als_niter) (hcut : 0 < cfg.positive_approx_cutoff)
    (hatol : cfg.use_gauge_fix = true → cfg.gauge_fix_atol < Real.sqrt (cfg.positive_approx_cutoff * nD (Fin bD) P))
    (hfits : Fits (gated gate (twoSite a1 a2))) (hne : gated gate (twoSite a1 a2) ≠ 0) :
    ∃ K δ : ℝ, 0 < δ ∧ ∀ (fo : Als.FloatOps F) (rep : ℝ → F) (tol : F) (ε : ℝ), 0 ≤ ε → ε ≤ δ → ∃ b1 b2,
      fullTensorUpdate la fo rep { cfg with als_tol := tol, als_epsilon := ε } ipeps s1 s2 k gate a1 a2 = some (.ok (b1, b2)) ∧
      twoSite b1 b2 ≠ 0 ∧
      ∃ κ : ℝ, 0 < κ ∧ normSq8 (fun u r d l' u' d' p q =>
        κ * twoSite b1 b2 u r d l' u' d' p q - gated gate (twoSite a1 a2) u r d l' u' d' p q) ≤ K * ε := by
  obtain ⟨c1, c2, hfit⟩ := hfits
  obtain ⟨δ, hδ, hret⟩ := C96_returns la cfg ipeps s1 s2 k a1 a2 hni hcut hatol
  obtain ⟨K, hK⟩ := C96_real_partial P X F bD la cfg ipeps s1 s2 k a1 a2 hni hcut hatol
  have hz : normSq8 (fun u r d l' u' d' p q => twoSite c1 c2 u r d l' u' d' p q - gated gate (twoSite a1 a2) u r d l' u' d' p q) = 0 := by
    rw [hfit]
    simp [normSq8]
  have hpos : 0 < normSq8 (gated gate (twoSite a1 a2)) :=
    lt_of_le_of_ne (normSq8_nonneg _) fun h => hne (normSq8_eq_zero _ (le_of_eq h.symm))
  refine ⟨K * normSq8 (gated gate (twoSite a1 a2)), δ, hδ, fun fo rep tol ε he he1 => ?_⟩
  obtain ⟨b1, b2, hu, hb⟩ := hret fo rep tol ε gate c1 c2 (.inl ⟨he, he1, hm⟩) (by rw [hz]; exact mul_pos hδ hpos)
  obtain ⟨κ, hκ, hall⟩ := hK fo rep tol ε gate he hne b1 b2 hu
  refine ⟨b1, b2, hu, hb, κ, hκ, ?_⟩
  have h1 := hall c1 c2
  rw [hz, zero_add] at h1
  exact h1.trans (le_of_eq (by ring))

/-- The hypotheses of `C95_pinv` are met by the identity gate and every pair with a two-site tensor that is not zero, with the default settings
but for the solver. -/
example {P X : Type} [Fintype P] [DecidableEq P] [Nonempty P] [Fintype X] {bD : ℕ} [NeZero bD] (la : Lapack ℝ)
    (ipeps : NetT (Fin bD) P X ℝ) (s1 s2 : Site) (k : ℤ) (a1 a2 : ATensor (Fin bD) P ℝ) (hne : twoSite a1 a2 ≠ 0) :
    ∃ K δ : ℝ, 0 < δ ∧ ∀ (fo : Als.FloatOps ℝ) (rep : ℝ → ℝ) (tol ε : ℝ), 0 ≤ ε → ε ≤ δ → ∃ b1 b2,
      fullTensorUpdate la fo rep ⟨false, 1e-12, 1e-12, 100, tol, .pinv, ε⟩ ipeps s1 s2 k (fun p q r s => if p = r ∧ q = s then 1 else 0) a1 a2 =
        some (.ok (b1, b2)) ∧ ∃ κ : ℝ, 0 < κ ∧ normSq8 (fun u r d l' u' d' p q =>
        κ * twoSite b1 b2 u r d l' u' d' p q - twoSite a1 a2 u r d l' u' d' p q) ≤ K * ε := by
  obtain ⟨hid, -⟩ := C39_identity_gate a1 a2 (fun p q r s => if p = r ∧ q = s then 1 else 0) fun _ _ _ _ => rfl
  obtain ⟨K, δ, hδ, h⟩ := C95_pinv la ⟨false, 1e-12, 1e-12, 100, (0 : ℝ), .pinv, 0⟩ ipeps s1 s2 k
    (fun p q r s => if p = r ∧ q = s then 1 else 0) a1 a2 rfl (by norm_num) (by norm_num) (by simp) (by rw [hid]; exact ⟨a1, a2, rfl⟩)
    (by rw [hid]; exact hne)
  refine ⟨K, δ, hδ, fun fo rep tol ε he he1 => ?_⟩
  obtain ⟨b1, b2, hu, -, κ, hκ, hd⟩ := h fo rep tol ε he he1
  rw [hid] at hd
  exact ⟨b1, b2, hu, κ, hκ, hd⟩

/-- The hypotheses of `C35_first_pinv_partial` are met: some tensor minimises (the one that the pseudo-inverse without a cutoff gives). -/
example {N P B : Type} [Fintype N] [Fintype P] [Fintype B] [DecidableEq N] [DecidableEq P] [DecidableEq B] (la : Lapack ℝ)
    (n : N → N → N → N → ℝ) (hN : (normMat n).IsHermitian) (hp : AtLeast (normMat n) 0) (g : N → N → P → P → ℝ) (a2 : N → B → P → ℝ) (ε : ℝ) :
    ∃ r a, Spec.MinimisesFirst g n r a2 ∧ solveAr la ε .pinv (buildR1 n a2) (buildS1 (n12gOf n g) a2) = .ok a :=
  ⟨_, _, C35_first_partial la 0 .pinv n hN hp g _ a2 (.inl rfl) rfl, rfl⟩

end AceTN
