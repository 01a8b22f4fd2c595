import Verif.Lemmas.SolveBest

/-!
When the solver with the Cholesky method returns.
-/

set_option autoImplicit false
set_option linter.unusedSectionVars false

namespace AceTN

open Spec Full Matrix

section quad

variable {n p 𝕜 : Type} [RCLike 𝕜] [Fintype n] [Fintype p]

theorem colForm_smul (R : Matrix n n 𝕜) (A : Matrix n p 𝕜) (τ : ℝ) : colForm R ((τ : 𝕜) • A) = τ ^ 2 * colForm R A := by
  unfold colForm qform
  rw [Finset.mul_sum]
  refine Finset.sum_congr rfl fun k _ => ?_
  rw [← RCLike.re_ofReal_mul, Finset.mul_sum]
  congr 1
  refine Finset.sum_congr rfl fun i _ => ?_
  rw [Finset.mul_sum]
  refine Finset.sum_congr rfl fun j _ => ?_
  simp only [Matrix.smul_apply, smul_eq_mul, star_mul', RCLike.star_def, RCLike.conj_ofReal]
  push_cast
  ring

/-- A quadratic function with a linear term takes negative values. -/
theorem quad_neg (R : Matrix n n 𝕜) (S : Matrix n p 𝕜) (hS : S ≠ 0) : ∃ A, quad R S A < 0 := by
  have hs : 0 < ∑ k, ∑ i, ‖S i k‖ ^ 2 := by
    refine lt_of_le_of_ne (Finset.sum_nonneg fun _ _ => Finset.sum_nonneg fun _ _ => by positivity) fun h => hS ?_
    ext i k
    have h1 := (Finset.sum_eq_zero_iff_of_nonneg fun _ _ => Finset.sum_nonneg fun _ _ => by positivity).1 h.symm k (Finset.mem_univ _)
    have h2 := (Finset.sum_eq_zero_iff_of_nonneg fun _ _ => by positivity).1 h1 i (Finset.mem_univ _)
    simpa using h2
  set s := ∑ k, ∑ i, ‖S i k‖ ^ 2 with hsdef
  set c := |colForm R S| + 1 with hc
  have hc0 : 0 < c := by positivity
  refine ⟨((s / c : ℝ) : 𝕜) • S, ?_⟩
  rw [quad_eq, colForm_smul]
  have e : RCLike.re (∑ k, ∑ i, star ((((s / c : ℝ) : 𝕜) • S) i k) * S i k) = s / c * s := by
    rw [← RCLike.ofReal_re (K := 𝕜) (s / c * s)]
    congr 1
    rw [RCLike.ofReal_mul, hsdef]
    rw [RCLike.ofReal_sum, Finset.mul_sum]
    refine Finset.sum_congr rfl fun k _ => ?_
    rw [RCLike.ofReal_sum, Finset.mul_sum]
    refine Finset.sum_congr rfl fun i _ => ?_
    rw [Matrix.smul_apply, smul_eq_mul, star_mul', RCLike.star_def, RCLike.conj_ofReal, mul_assoc, RCLike.conj_mul]
    push_cast
    rfl
  rw [e]
  have h1 : colForm R S ≤ c := (le_abs_self _).trans (by linarith)
  have h2 : (s / c) ^ 2 * colForm R S ≤ (s / c) ^ 2 * c := mul_le_mul_of_nonneg_left h1 (sq_nonneg _)
  have h3 : (s / c) ^ 2 * c = s / c * s := by field_simp
  have h4 : 0 < s / c * s := by positivity
  linarith

end quad

section solve

variable {𝕜 F : Type} [RCLike 𝕜] {N P B : Type} [Fintype N] [Fintype P] [Fintype B] [DecidableEq N] [DecidableEq P] [DecidableEq B]

theorem asMat_ne (S : N → B → P → 𝕜) (h : S ≠ 0) : asMat S ≠ 0 := by
  intro h0
  apply h
  funext y u p
  exact congrFun (congrFun h0 (y, u)) p

/-- The first half-step has something to do if some first tensor is better than zero. -/
theorem s1_ne_iff (n : N → N → N → N → 𝕜) (hp : AtLeast (normMat n) 0) (g : N → N → P → P → 𝕜) (a : N → B → P → 𝕜) :
    buildS1 (n12gOf n g) a ≠ 0 ↔ ∃ r, cost r a g n < 0 := by
  constructor
  · intro h
    obtain ⟨A, hA⟩ := quad_neg (asSq (buildR1 n a)) _ (asMat_ne _ h)
    refine ⟨fun y u p => A (y, u) p, ?_⟩
    rw [cost_first]
    exact hA
  · rintro ⟨r, hr⟩ h
    rw [cost_first, quad_eq, h] at hr
    have := colForm_nonneg _ (r1_psd n hp a) (asMat r)
    have e : ∀ X : ℝ, RCLike.re (∑ k, ∑ i, star (asMat r i k) * asMat (0 : N → B → P → 𝕜) i k) = 0 := fun _ => by
      simp [asMat]
    rw [e 0] at hr
    linarith

theorem solveFirst (la : Lapack 𝕜) (ε : ℝ) (he : 0 < ε) (n : N → N → N → N → 𝕜) (hN : (normMat n).IsHermitian)
    (hp : AtLeast (normMat n) 0) (g : N → N → P → P → 𝕜) (a r : N → B → P → 𝕜) (h : cost r a g n < 0) :
    ∃ a1, solveAr la ε .cholesky (buildR1 n a) (buildS1 (n12gOf n g) a) = .ok a1 ∧ cost a1 a g n < 0 := by
  have hS := (s1_ne_iff n hp g a).2 ⟨r, h⟩
  have hR : buildR1 n a ≠ 0 := by
    intro h0
    apply hS
    funext y u k
    have := s1_range n hN hp g a (Pi.single (y, u) 1) (by
      rw [h0]
      have : asSq (0 : N → B → N → B → 𝕜) = 0 := rfl
      rw [this, zero_mulVec]) k
    rw [Finset.sum_eq_single (y, u) (fun i _ hi => by rw [Pi.single_eq_of_ne hi, star_zero, zero_mul]) (by simp)] at this
    simpa [asMat] using this
  obtain ⟨a1, h1⟩ := solveAr_succeeds la ε he _ (r1_herm n hN a) (r1_psd n hp a) hR (buildS1 (n12gOf n g) a)
  refine ⟨a1, h1, ?_⟩
  obtain ⟨A, hA⟩ := quad_neg (asSq (buildR1 n a) + ((ε * absMax (asSq (buildR1 n a)) : ℝ) : 𝕜) • 1) _ (asMat_ne _ hS)
  have h2 := C35_first_regularised_partial la ε he.le n hN hp g a1 a h1 (fun y u p => A (y, u) p)
  rw [quad_add] at hA
  have e : asMat (fun y u p => A (y, u) p) = A := rfl
  rw [cost_first n g (fun y u p => A (y, u) p), e] at h2
  have h3 : 0 ≤ ε * absMax (asSq (buildR1 n a)) * ∑ k, ∑ i : N × B, ‖a1 i.1 i.2 k‖ ^ 2 :=
    mul_nonneg (mul_nonneg he.le (absMax_nonneg _)) (Finset.sum_nonneg fun _ _ => Finset.sum_nonneg fun _ _ => by positivity)
  linarith

theorem s2_ne (n : N → N → N → N → 𝕜) (hp : AtLeast (normMat n) 0) (g : N → N → P → P → 𝕜) (a r : N → B → P → 𝕜)
    (h : cost a r g n < 0) : buildS2 (n12gOf n g) a ≠ 0 := by
  intro h0
  rw [cost_second, quad_eq, h0] at h
  have := colForm_nonneg _ (r2_psd n hp a) (asMat r)
  have e : ∀ X : ℝ, RCLike.re (∑ k, ∑ i, star (asMat r i k) * asMat (0 : N → B → P → 𝕜) i k) = 0 := fun _ => by
    simp [asMat]
  rw [e 0] at h
  linarith

theorem solveSecond (la : Lapack 𝕜) (ε : ℝ) (he : 0 < ε) (n : N → N → N → N → 𝕜) (hN : (normMat n).IsHermitian)
    (hp : AtLeast (normMat n) 0) (g : N → N → P → P → 𝕜) (a r : N → B → P → 𝕜) (h : cost a r g n < 0) :
    ∃ a2, solveAr la ε .cholesky (buildR2 n a) (buildS2 (n12gOf n g) a) = .ok a2 ∧ cost a a2 g n < 0 := by
  have hS := s2_ne n hp g a r h
  have hR : buildR2 n a ≠ 0 := by
    intro h0
    apply hS
    funext y u k
    have := s2_range n hN hp g a (Pi.single (y, u) 1) (by
      rw [h0]
      have : asSq (0 : N → B → N → B → 𝕜) = 0 := rfl
      rw [this, zero_mulVec]) k
    rw [Finset.sum_eq_single (y, u) (fun i _ hi => by rw [Pi.single_eq_of_ne hi, star_zero, zero_mul]) (by simp)] at this
    simpa [asMat] using this
  obtain ⟨a2, h1⟩ := solveAr_succeeds la ε he _ (r2_herm n hN a) (r2_psd n hp a) hR (buildS2 (n12gOf n g) a)
  refine ⟨a2, h1, ?_⟩
  obtain ⟨A, hA⟩ := quad_neg (asSq (buildR2 n a) + ((ε * absMax (asSq (buildR2 n a)) : ℝ) : 𝕜) • 1) _ (asMat_ne _ hS)
  have h2 := C35_second_regularised_partial la ε he.le n hN hp g a a2 h1 (fun y u p => A (y, u) p)
  rw [quad_add] at hA
  have e : asMat (fun y u p => A (y, u) p) = A := rfl
  rw [cost_second n g a (fun y u p => A (y, u) p), e] at h2
  have h3 : 0 ≤ ε * absMax (asSq (buildR2 n a)) * ∑ k, ∑ i : N × B, ‖a2 i.1 i.2 k‖ ^ 2 :=
    mul_nonneg (mul_nonneg he.le (absMax_nonneg _)) (Finset.sum_nonneg fun _ _ => Finset.sum_nonneg fun _ _ => by positivity)
  linarith

/-- A pass that has something to do returns, and the next one has something to do. -/
theorem pass_returns (la : Lapack 𝕜) (ε : ℝ) (he : 0 < ε) (n : N → N → N → N → 𝕜) (hN : (normMat n).IsHermitian)
    (hp : AtLeast (normMat n) 0) (g : N → N → P → P → 𝕜) (q : (N → B → P → 𝕜) × (N → B → P → 𝕜)) (h : ∃ r, cost r q.2 g n < 0) :
    ∃ q', alsPass la ε n (n12gOf n g) .cholesky q = .ok q' ∧ cost q'.1 q'.2 g n < 0 := by
  obtain ⟨r, hr⟩ := h
  obtain ⟨a1, h1, c1⟩ := solveFirst la ε he n hN hp g q.2 r hr
  obtain ⟨a2, h2, c2⟩ := solveSecond la ε he n hN hp g a1 q.2 c1
  refine ⟨(a1, a2), ?_, c2⟩
  unfold alsPass
  rw [h1]
  change (solveAr la ε .cholesky (buildR2 n a1) (buildS2 (n12gOf n g) a1)).bind _ = _
  rw [h2]
  rfl

theorem torchLoop_returns {Q F : Type} (fo : Als.FloatOps F) (half : Q → Except PyErr Q) (rep : Q → F) (tol : F) (I J : Q → Prop)
    (hI : ∀ q, I q → ∃ q', half q = .ok q' ∧ J q') (hJ : ∀ q, J q → I q) (fuel i : ℕ) (q : Q) (d : F) (h : I q) :
    ∃ q', Als.torchLoop fo half rep tol (fuel + 1) i q d = .ok q' ∧ J q' := by
  induction fuel generalizing i q d with
  | zero =>
    obtain ⟨q', h1, h2⟩ := hI q h
    refine ⟨q', ?_, h2⟩
    rw [Als.torchLoop, h1]
    simp only [bind, Except.bind]
    split <;> rfl
  | succ k ih =>
    obtain ⟨q', h1, h2⟩ := hI q h
    obtain ⟨q'', h3, h4⟩ := ih (i + 1) q' (rep q') (hJ q' h2)
    rw [Als.torchLoop, h1]
    simp only [bind, Except.bind]
    split
    · exact ⟨q', rfl, h2⟩
    · exact ⟨q'', h3, h4⟩

/-- The solver with the Cholesky method returns exactly if some pair with the second tensor it starts from is better than zero;
otherwise it raises. -/
theorem alsSolve_cholesky [Nonempty N] {bD : ℕ} [NeZero bD] (la : Lapack 𝕜) (fo : Als.FloatOps F) (rep : ℝ → F) (cfg : Settings F)
    (he : 0 < cfg.als_epsilon) (hm : cfg.als_method = .cholesky) (hni : 0 < cfg.als_niter)
    (hb : bD ≤ min (Fintype.card (N × P)) (Fintype.card (N × P)))
    (n : N → N → N → N → 𝕜) (hN : (normMat n).IsHermitian) (hp : AtLeast (normMat n) 0) (g : N → N → P → P → 𝕜) :
    ((∃ r, cost r (initReduced la hb g).2 g n < 0) → ∃ p, alsSolve la fo rep cfg hb n g = .ok p ∧ cost p.1 p.2 g n < 0) ∧
    ((∀ r, 0 ≤ cost r (initReduced la hb g).2 g n) → alsSolve la fo rep cfg hb n g = .error .runtimeError) := by
  obtain ⟨k, hk⟩ := Nat.exists_eq_succ_of_ne_zero hni.ne'
  constructor
  · intro h
    unfold alsSolve Als.solveTorch
    rw [hk, hm]
    exact torchLoop_returns fo _ _ cfg.als_tol (fun q : (N → Fin bD → P → 𝕜) × (N → Fin bD → P → 𝕜) => ∃ r, cost r q.2 g n < 0)
      (fun q => cost q.1 q.2 g n < 0) (fun q hq => pass_returns la _ he n hN hp g q hq) (fun q hq => ⟨_, hq⟩) k 0 _ _ h
  · intro h
    unfold alsSolve Als.solveTorch
    rw [hk, hm, Als.torchLoop, pass_raises la _ n _ _ (by
      by_contra h0
      obtain ⟨r, hr⟩ := (s1_ne_iff n hp g _).1 h0
      exact absurd (h r) (not_le.2 hr))]
    rfl

/-- The reduced update with the Cholesky method. -/
theorem updateReduced_cholesky [Nonempty N] {bD : ℕ} [NeZero bD] (la : Lapack 𝕜) (fo : Als.FloatOps F) (rep : ℝ → F) (cfg : Settings F)
    (hb : bD ≤ Fintype.card (N × P)) (he : 0 < cfg.als_epsilon) (hm : cfg.als_method = .cholesky) (hni : 0 < cfg.als_niter)
    (hcut : 0 < cfg.positive_approx_cutoff)
    (hatol : cfg.use_gauge_fix = true → cfg.gauge_fix_atol < Real.sqrt (cfg.positive_approx_cutoff * Fintype.card N))
    (a1r a2r : N → Fin bD → P → 𝕜) (n : N → N → N → N → 𝕜) (gate : P → P → P → P → 𝕜) :
    ∃ nz, positiveApprox la 2 cfg.positive_approx_cutoff n = some nz ∧
      ((∃ r, cost r (startPair la cfg hb nz (gateReduced a1r a2r gate)).2 (gateReduced a1r a2r gate) (squareNorm nz) < 0) →
        ∃ f, updateReduced la fo rep cfg hb a1r a2r n gate = some (.ok f) ∧ pairProd f.1 f.2 ≠ 0) ∧
      ((∀ r, 0 ≤ cost r (startPair la cfg hb nz (gateReduced a1r a2r gate)).2 (gateReduced a1r a2r gate) (squareNorm nz)) →
        updateReduced la fo rep cfg hb a1r a2r n gate = some (.error .runtimeError)) := by
  unfold updateReduced
  obtain ⟨nz, hnz⟩ := Option.isSome_iff_exists.1 (C33_terminates la cfg.positive_approx_cutoff 0 n)
  have hnz : positiveApprox la 2 cfg.positive_approx_cutoff n = some nz := hnz
  refine ⟨nz, hnz, ?_⟩
  generalize gateReduced a1r a2r gate = g
  rw [hnz]
  have hprod : ∀ p : (N → Fin bD → P → 𝕜) × (N → Fin bD → P → 𝕜), cost p.1 p.2 g (squareNorm nz) < 0 →
      pairProd (finalizeCore la (hb_fin hb) p.1 p.2).1 (finalizeCore la (hb_fin hb) p.1 p.2).2 ≠ 0 := by
    intro p hp h0
    obtain ⟨κ, hκ, e⟩ := finalize_scale la (hb_fin hb) p.1 p.2
    have h1 : pairProd p.1 p.2 = 0 := by
      funext y x q q'
      have := e y x q q'
      rw [h0] at this
      exact (mul_eq_zero.1 this.symm).resolve_left (RCLike.ofReal_ne_zero.2 hκ.ne')
    have h2 : cost p.1 p.2 g (squareNorm nz) = 0 := by
      have h3 : (einsum% "yup,xuq->yxpq" p.1 p.2) = (0 : N → N → P → P → 𝕜) := h1
      unfold cost
      dsimp only at h3 ⊢
      rw [h3]
      simp
    linarith
  dsimp only [Option.map]
  by_cases hgf : cfg.use_gauge_fix = true
  · simp only [if_pos hgf]
    obtain ⟨_, -, -, -, hp, -⟩ := C33_result la _ hcut.le 0 n nz hnz
    obtain ⟨c1, c2, -⟩ := C34_gauge_fix (B := Fin bD) la _ _ hcut (hatol hgf) 0 n nz hnz g
    unfold startPair
    rw [if_pos hgf]
    have hN := gaugeFix_n12 la cfg.gauge_fix_atol nz g
    have hne : Nonempty (Fin (wD N (Fin (Fintype.card (N × N))))) := by
      have : 0 < wD N (Fin (Fintype.card (N × N))) := by
        refine lt_min ?_ Fintype.card_pos
        rw [Fintype.card_prod, Fintype.card_fin, Fintype.card_prod]
        have := Fintype.card_pos (α := N)
        positivity
      exact ⟨⟨0, this⟩⟩
    obtain ⟨b1, b2⟩ := alsSolve_cholesky la fo rep cfg he hm hni (hb_init (hb_gauge hb)) (gaugeFix la cfg.gauge_fix_atol nz g).n12
      (by rw [hN]; exact squareNorm_herm _) (by rw [hN]; exact squareNorm_psd _) (gaugeFix la cfg.gauge_fix_atol nz g).a12g
    constructor
    · rintro ⟨r, hr⟩
      obtain ⟨b, hb', -⟩ := c2 (r, 0)
      have e := c1 (b.1, (initReduced la (hb_init (hb_gauge hb)) (gaugeFix la cfg.gauge_fix_atol nz g).a12g).2)
      have e1 : (undoGauge (gaugeFix la cfg.gauge_fix_atol nz g).nzyr_inv (gaugeFix la cfg.gauge_fix_atol nz g).nzxr_inv
          (b.1, (initReduced la (hb_init (hb_gauge hb)) (gaugeFix la cfg.gauge_fix_atol nz g).a12g).2)).1 = r :=
        congrArg Prod.fst hb'
      rw [e1] at e
      obtain ⟨q, hq, hqc⟩ := b1 ⟨b.1, e.trans_lt hr⟩
      rw [hq]
      refine ⟨_, rfl, hprod (undoGauge (gaugeFix la cfg.gauge_fix_atol nz g).nzyr_inv (gaugeFix la cfg.gauge_fix_atol nz g).nzxr_inv q) ?_⟩
      rw [← c1]
      exact hqc
    · intro h
      rw [b2 fun r => ?_]
      · rfl
      · have e := c1 (r, (initReduced la (hb_init (hb_gauge hb)) (gaugeFix la cfg.gauge_fix_atol nz g).a12g).2)
        exact (h _).trans e.ge
  · simp only [if_neg hgf]
    unfold startPair
    rw [if_neg hgf]
    obtain ⟨b1, b2⟩ := alsSolve_cholesky la fo rep cfg he hm hni (hb_init hb) (squareNorm nz) (squareNorm_herm nz) (squareNorm_psd nz) g
    constructor
    · intro h
      obtain ⟨q, hq, hqc⟩ := b1 h
      rw [hq]
      exact ⟨_, rfl, hprod q hqc⟩
    · intro h
      rw [b2 h]
      rfl

end solve

end AceTN
