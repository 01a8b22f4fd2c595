import Verif.Lemmas.PinvError
import Verif.Lemmas.SimpleSplit
import Verif.Props.CholeskyReturns

/-!
C95: how far full updates with the default solver are from exact ones.
-/

set_option autoImplicit false

namespace AceTN

open Spec Full Matrix

section reduced

variable {𝕜 F N P : Type} [RCLike 𝕜] [Fintype N] [Fintype P] [DecidableEq N] [DecidableEq P] [Nonempty N] {bD : ℕ} [NeZero bD]

omit [DecidableEq N] [DecidableEq P] [Nonempty N] [NeZero bD] in
/-- The least cost, and what a cost near it means. -/
theorem cost_least {Z : Type} [Fintype Z] (nz : N → N → Z → 𝕜) (g : N → N → P → P → 𝕜) :
    ∃ c0, (∀ b1 b2 : N → Fin bD → P → 𝕜, c0 ≤ cost b1 b2 g (squareNorm nz)) ∧
      (∀ b1 b2 : N → Fin bD → P → 𝕜, pairProd b1 b2 = g → cost b1 b2 g (squareNorm nz) = c0) ∧
      ∀ (c : ℝ), AtLeast (normMat (squareNorm nz)) c → ∀ b1 b2 : N → Fin bD → P → 𝕜,
        c * normSq4 (fun y x p q => pairProd b1 b2 y x p q - g y x p q) ≤ cost b1 b2 g (squareNorm nz) - c0 := by
  refine ⟨-∑ z, ∑ p, ∑ q, ‖∑ y, ∑ x, nz y x z * g y x p q‖ ^ 2, fun b1 b2 => ?_, fun b1 b2 h => ?_, fun c hc b1 b2 => ?_⟩
  · rw [C35_cost_is_distance]
    have : 0 ≤ ∑ z, ∑ p, ∑ q, ‖∑ y, ∑ x, nz y x z * ((∑ u, b1 y u p * b2 x u q) - g y x p q)‖ ^ 2 :=
      Finset.sum_nonneg fun _ _ => Finset.sum_nonneg fun _ _ => Finset.sum_nonneg fun _ _ => by positivity
    linarith
  · rw [C35_cost_is_distance]
    have e : ∀ y x p q, ∑ u, b1 y u p * b2 x u q = g y x p q := fun y x p q =>
      congrFun (congrFun (congrFun (congrFun h y) x) p) q
    simp [e]
  · rw [C35_cost_is_distance, sub_neg_eq_add, sub_add_cancel]
    have h1 : ∀ p q, c * ∑ i : N × N, ‖pairProd b1 b2 i.1 i.2 p q - g i.1 i.2 p q‖ ^ 2 ≤
        ∑ z, ‖∑ y, ∑ x, nz y x z * ((∑ u, b1 y u p * b2 x u q) - g y x p q)‖ ^ 2 := fun p q =>
      root_key nz c hc fun i => pairProd b1 b2 i.1 i.2 p q - g i.1 i.2 p q
    have h2 := Finset.sum_le_sum fun p (_ : p ∈ (Finset.univ : Finset P)) =>
      Finset.sum_le_sum fun q (_ : q ∈ (Finset.univ : Finset P)) => h1 p q
    refine le_trans (le_of_eq ?_) (h2.trans (le_of_eq ?_))
    · simp only [← Finset.mul_sum]
      congr 1
      unfold normSq4
      simp only [Fintype.sum_prod_type]
      calc _ = ∑ y, ∑ p, ∑ x, ∑ q, ‖pairProd b1 b2 y x p q - g y x p q‖ ^ 2 := Finset.sum_congr rfl fun _ _ => Finset.sum_comm
        _ = ∑ p, ∑ y, ∑ x, ∑ q, ‖pairProd b1 b2 y x p q - g y x p q‖ ^ 2 := Finset.sum_comm
        _ = ∑ p, ∑ y, ∑ q, ∑ x, ‖pairProd b1 b2 y x p q - g y x p q‖ ^ 2 :=
          Finset.sum_congr rfl fun _ _ => Finset.sum_congr rfl fun _ _ => Finset.sum_comm
        _ = _ := Finset.sum_congr rfl fun _ _ => Finset.sum_comm
    · calc _ = ∑ p, ∑ z, ∑ q, ‖∑ y, ∑ x, nz y x z * ((∑ u, b1 y u p * b2 x u q) - g y x p q)‖ ^ 2 :=
            Finset.sum_congr rfl fun _ _ => Finset.sum_comm
        _ = _ := Finset.sum_comm

omit [Fintype N] [DecidableEq N] [DecidableEq P] [Nonempty N] [Fintype P] [NeZero bD] in
/-- The first factor that completes the second one of a proportional pair. -/
theorem proportional_reaches (g : N → N → P → P → 𝕜) (p : (N → Fin bD → P → 𝕜) × (N → Fin bD → P → 𝕜)) (h : Proportional g p) :
    ∃ r, pairProd r p.2 = g := by
  obtain ⟨c, hc, e⟩ := h
  have hc' : (c : 𝕜) ≠ 0 := RCLike.ofReal_ne_zero.2 hc.ne'
  refine ⟨fun y u q => (c : 𝕜)⁻¹ * p.1 y u q, ?_⟩
  funext y x q q'
  have := e y x q q'
  unfold pairProd at this ⊢
  simp only [mul_assoc, ← Finset.mul_sum]
  rw [this, inv_mul_cancel_left₀ hc']

/-- **C95 (reduced tensors).** Real dtypes, the Cholesky method, at least one iteration, a gate-applied pair that fits into the bond
dimension and does not vanish: there is a number `K` such that for every positive `als_epsilon`, every floating-point arithmetic of the
stopping criterion and every tolerance, the update returns a pair whose product is, up to a positive factor, the gate-applied pair with
a squared error of at most `K * als_epsilon`. -/
theorem C95_reduced (la : Lapack ℝ) (cfg : Settings F) (hb : bD ≤ Fintype.card (N × P))
    (hm : cfg.als_method = .cholesky) (hni : 0 < cfg.als_niter) (hcut : 0 < cfg.positive_approx_cutoff)
    (hatol : cfg.use_gauge_fix = true → cfg.gauge_fix_atol < Real.sqrt (cfg.positive_approx_cutoff * Fintype.card N))
    (a1r a2r b1 b2 : N → Fin bD → P → ℝ) (n : N → N → N → N → ℝ) (gate : P → P → P → P → ℝ)
    (hfit : pairProd b1 b2 = gateReduced a1r a2r gate) (hne : gateReduced a1r a2r gate ≠ 0) :
    ∃ K, 0 ≤ K ∧ ∀ (fo : Als.FloatOps F) (rep : ℝ → F) (tol : F) (ε : ℝ), 0 < ε → ∃ f,
      updateReduced la fo rep { cfg with als_tol := tol, als_epsilon := ε } hb a1r a2r n gate = some (.ok f) ∧ pairProd f.1 f.2 ≠ 0 ∧
      ∃ κ : ℝ, 0 < κ ∧
        normSq4 (fun y x p q => κ * pairProd f.1 f.2 y x p q - gateReduced a1r a2r gate y x p q) ≤ K * ε := by
  obtain ⟨nz, hnz⟩ := Option.isSome_iff_exists.1 (C33_terminates la cfg.positive_approx_cutoff 0 n)
  have hnz : positiveApprox la 2 cfg.positive_approx_cutoff n = some nz := hnz
  obtain ⟨_, -, -, -, hp, -⟩ := C33_result la _ hcut.le 0 n nz hnz
  have hinj := rootInj_of_atLeast nz _ hcut hp
  obtain ⟨m, hm'⟩ := Nat.exists_eq_succ_of_ne_zero hni.ne'
  have hm' : cfg.als_niter = m + 1 := hm'
  obtain ⟨c0, hmin, hreach, hdist⟩ := cost_least (bD := bD) nz (gateReduced a1r a2r gate)
  -- the error from the cost of the pair before it is finalised
  have fin : ∀ (K ε : ℝ) (p : (N → Fin bD → P → ℝ) × (N → Fin bD → P → ℝ)),
      cost p.1 p.2 (gateReduced a1r a2r gate) (squareNorm nz) ≤ c0 + ε * K →
      ∃ κ : ℝ, 0 < κ ∧ normSq4 (fun y x q q' => κ * pairProd (finalizeCore la (hb_fin hb) p.1 p.2).1
        (finalizeCore la (hb_fin hb) p.1 p.2).2 y x q q' - gateReduced a1r a2r gate y x q q') ≤
          K / cfg.positive_approx_cutoff * ε := by
    intro K ε p hK
    obtain ⟨κ, hκ, e⟩ := finalize_scale la (hb_fin hb) p.1 p.2
    refine ⟨κ⁻¹, inv_pos.2 hκ, ?_⟩
    have e' : ∀ y x q q', κ⁻¹ * pairProd (finalizeCore la (hb_fin hb) p.1 p.2).1 (finalizeCore la (hb_fin hb) p.1 p.2).2 y x q q' =
        pairProd p.1 p.2 y x q q' := by
      intro y x q q'
      rw [e]
      exact inv_mul_cancel_left₀ hκ.ne' _
    simp only [e']
    have := hdist _ hp p.1 p.2
    rw [div_mul_eq_mul_div, le_div_iff₀ hcut]
    linarith
  have ret := fun (fo : Als.FloatOps F) (rep : ℝ → F) (tol : F) (ε : ℝ) (he : 0 < ε) =>
    C94_exact_partial la fo rep { cfg with als_tol := tol, als_epsilon := ε } hb he hm hni hcut hatol a1r a2r b1 b2 n gate hfit hne
  by_cases hgf : cfg.use_gauge_fix = true
  · obtain ⟨c1, c2, hgp⟩ := C34_gauge_fix (B := Fin bD) la _ _ hcut (hatol hgf) 0 n nz hnz (gateReduced a1r a2r gate)
    obtain ⟨-, -, h3, h4⟩ := C34_invertible la _ _ hcut (hatol hgf) nz hp
    have hn := gaugeFix_n12 la cfg.gauge_fix_atol nz (gateReduced a1r a2r gate)
    have hinj' := gaugedRoot_inj nz hinj _ _ _ _ h4 h3
    obtain ⟨c, hc0, hc⟩ := rootInj_bound _ hinj'
    have hfit' := gaugeFix_fits la cfg.gauge_fix_atol nz b1 b2
    rw [hfit] at hfit'
    have hne' : (gaugeFix la cfg.gauge_fix_atol nz (gateReduced a1r a2r gate)).a12g ≠ 0 := by
      intro h0
      apply hne
      funext y x p q
      rw [← hgp y x p q, h0]
      simp
    have hi := init_proportional la (hb_init (hb_gauge hb)) _ hne' _ _ hfit'
    obtain ⟨r, hr⟩ := proportional_reaches _ _ hi
    obtain ⟨c0', hmin', hreach', -⟩ := cost_least (bD := bD) (gaugedRoot nz (la.pinv cfg.gauge_fix_atol (nzxrOf la nz))
      (la.pinv cfg.gauge_fix_atol (nzyrOf la nz))) (gaugeFix la cfg.gauge_fix_atol nz (gateReduced a1r a2r gate)).a12g
    rw [← hn] at hmin' hreach' hc
    have hcc : c0' = c0 := by
      rw [← hreach' _ _ hr]
      have := c1 (r, (initReduced la (hb_init (hb_gauge hb)) (gaugeFix la cfg.gauge_fix_atol nz (gateReduced a1r a2r gate)).a12g).2)
      rw [this]
      refine hreach _ _ ?_
      funext y x p q
      rw [pairProd_undo, ← hgp y x p q, hr]
    have hne'' : Nonempty (Fin (wD N (Fin (Fintype.card (N × N))))) := by
      have : 0 < wD N (Fin (Fintype.card (N × N))) := by
        refine lt_min ?_ Fintype.card_pos
        rw [Fintype.card_prod, Fintype.card_fin, Fintype.card_prod]
        have := Fintype.card_pos (α := N)
        positivity
      exact ⟨⟨0, this⟩⟩
    obtain ⟨K, hK, hsolve⟩ := alsSolve_close la (hb_init (hb_gauge hb)) _ (by rw [hn]; exact squareNorm_herm _) c hc0 hc _ c0' hmin' r
      (hreach' _ _ hr) m
    refine ⟨K / cfg.positive_approx_cutoff, by positivity, fun fo rep tol ε he => ?_⟩
    obtain ⟨f, hf, hf0⟩ := ret fo rep tol ε he
    refine ⟨f, hf, hf0, ?_⟩
    unfold updateReduced at hf
    dsimp only at hf
    rw [hnz] at hf
    have hf := Option.some.inj hf
    dsimp only at hf
    rw [if_pos hgf] at hf
    cases hs : alsSolve la fo rep { cfg with als_tol := tol, als_epsilon := ε } (hb_init (hb_gauge hb))
        (gaugeFix la cfg.gauge_fix_atol nz (gateReduced a1r a2r gate)).n12
        (gaugeFix la cfg.gauge_fix_atol nz (gateReduced a1r a2r gate)).a12g with
    | error e => rw [hs] at hf; exact absurd hf (by simp [bind, Except.bind])
    | ok q =>
      rw [hs] at hf
      have hf : (Except.ok _ : Except PyErr _) = .ok f := hf
      rw [← Except.ok.inj hf]
      have h5 := hsolve F fo rep { cfg with als_tol := tol, als_epsilon := ε } he.le hm' q hs
      rw [c1 q, hcc] at h5
      exact fin K ε _ h5
  · have hi := init_proportional la (hb_init hb) _ hne _ _ hfit
    obtain ⟨r, hr⟩ := proportional_reaches _ _ hi
    obtain ⟨K, hK, hsolve⟩ := alsSolve_close la (hb_init hb) _ (squareNorm_herm nz) _ hcut hp _ c0 hmin r (hreach _ _ hr) m
    refine ⟨K / cfg.positive_approx_cutoff, by positivity, fun fo rep tol ε he => ?_⟩
    obtain ⟨f, hf, hf0⟩ := ret fo rep tol ε he
    refine ⟨f, hf, hf0, ?_⟩
    unfold updateReduced at hf
    dsimp only at hf
    rw [hnz] at hf
    have hf := Option.some.inj hf
    dsimp only at hf
    rw [if_neg hgf] at hf
    cases hs : alsSolve la fo rep { cfg with als_tol := tol, als_epsilon := ε } (hb_init hb) (squareNorm nz) (gateReduced a1r a2r gate) with
    | error e => rw [hs] at hf; exact absurd hf (by simp [bind, Except.bind])
    | ok q =>
      rw [hs] at hf
      have hf : (Except.ok _ : Except PyErr _) = .ok f := hf
      rw [← Except.ok.inj hf]
      exact fin K ε _ (hsolve F fo rep { cfg with als_tol := tol, als_epsilon := ε } he.le hm' q hs)

end reduced

section bond

variable {𝕜 : Type} [RCLike 𝕜] {P : Type} [Fintype P] [DecidableEq P] {bD : ℕ}

/-- Putting the isometric parts back keeps distances. -/
theorem normSq8_assembled (la : Lapack 𝕜) (a1 a2 : ATensor (Fin bD) P 𝕜) (t : Fin (nD (Fin bD) P) → Fin (nD (Fin bD) P) → P → P → 𝕜) :
    normSq8 (assembled (decompose la a1 a2).a1q (decompose la a1 a2).a2q t) = normSq4 t := by
  have hiso := C30_isometric la a1 a2
  revert hiso
  generalize (decompose la a1 a2).a1q = q1
  generalize (decompose la a1 a2).a2q = q2
  intro hiso
  have h1 := outer_iso (P := P) q1 fun x y => (hiso x y).1
  have h2 := outer_iso (P := P) q2 fun x y => (hiso x y).2
  have h2' : (outer (P := P) q2)ᵀ * ((outer (P := P) q2)ᵀ)ᴴ = 1 := by
    have := congrArg Matrix.transpose h2
    rw [transpose_mul, transpose_one] at this
    rw [← this]
    rfl
  rw [← frobSq_twoMat, twoMat_assembled, frobSq_mul_coiso _ h2', frobSq_iso_mul _ h1, frobSq_siteMat]

omit [DecidableEq P] in
theorem normSq8_zero : normSq8 (0 : Fin bD → Fin bD → Fin bD → Fin bD → Fin bD → Fin bD → P → P → 𝕜) = 0 := by
  simp [normSq8]

end bond

/-- **C95.** For every real bond, whatever its boundary tensors, if the gate-applied two-site tensor fits into the bond dimension and
does not vanish, there is a number `K` such that for every positive `als_epsilon` the full update with the Cholesky method returns site
tensors whose contraction is, up to a positive factor, the gate-applied two-site tensor with a squared error of at most
`K * als_epsilon`. -/
theorem C95_bond {F P X : Type} [Fintype P] [DecidableEq P] [Nonempty P] [Fintype X] {bD : ℕ} [NeZero bD] (la : Lapack ℝ)
    (cfg : Settings F) (ipeps : NetT (Fin bD) P X ℝ) (s1 s2 : Site) (k : ℤ)
    (gate : P → P → P → P → ℝ) (a1 a2 : ATensor (Fin bD) P ℝ) (hm : cfg.als_method = .cholesky)
    (hni : 0 < cfg.als_niter) (hcut : 0 < cfg.positive_approx_cutoff)
    (hatol : cfg.use_gauge_fix = true → cfg.gauge_fix_atol < Real.sqrt (cfg.positive_approx_cutoff * nD (Fin bD) P))
    (hfits : Fits (gated gate (twoSite a1 a2))) (hne : gated gate (twoSite a1 a2) ≠ 0) :
    ∃ K, ∀ (fo : Als.FloatOps F) (rep : ℝ → F) (tol : F) (ε : ℝ), 0 < ε → ∃ b1 b2,
      fullTensorUpdate la fo rep { cfg with als_tol := tol, als_epsilon := ε } ipeps s1 s2 k gate a1 a2 = some (.ok (b1, b2)) ∧
      ∃ κ : ℝ, 0 < κ ∧ normSq8 (fun u r d l' u' d' p q =>
        κ * twoSite b1 b2 u r d l' u' d' p q - gated gate (twoSite a1 a2) u r d l' u' d' p q) ≤ K * ε := by
  obtain ⟨c1, c2, hfit⟩ := hfits
  have hg := C30_gate la a1 a2 gate
  rw [← hg] at hfit
  obtain ⟨e1, e2, hfit'⟩ := assembled_fits la a1 a2 c1 c2 _ hfit
  obtain ⟨K, -, hK⟩ := C95_reduced la cfg bD_le hm hni hcut (by rw [Fintype.card_fin]; exact hatol)
    (decompose la a1 a2).a1r (decompose la a1 a2).a2r e1 e2
    (buildNormTensor ipeps s1 s2 k (decompose la a1 a2).a1q (decompose la a1 a2).a2q) gate hfit' (by
      intro h0
      apply hne
      rw [← hg, h0]
      funext u r d l' u' d' p q
      simp [assembled])
  refine ⟨K, fun fo rep tol ε he => ?_⟩
  obtain ⟨f, hf, hf0, κ, hκ, herr⟩ := hK fo rep tol ε he
  unfold fullTensorUpdate
  dsimp only
  rw [hf]
  refine ⟨_, _, rfl, ?_⟩
  have hT := assembled_pair (decompose la a1 a2).a1q (decompose la a1 a2).a2q f.1 f.2
  have hTne : twoSite (recompose (decompose la a1 a2).a1q f.1 (decompose la a1 a2).a2q f.2).1
      (recompose (decompose la a1 a2).a1q f.1 (decompose la a1 a2).a2q f.2).2 ≠ 0 := by
    intro h0
    apply hf0
    have h1 := normSq8_assembled la a1 a2 (pairProd f.1 f.2)
    rw [← hT, h0, normSq8_zero] at h1
    funext y x p q
    unfold normSq4 at h1
    have h2 := (Finset.sum_eq_zero_iff_of_nonneg fun _ _ => by positivity).1 h1.symm y (Finset.mem_univ _)
    have h3 := (Finset.sum_eq_zero_iff_of_nonneg fun _ _ => by positivity).1 h2 x (Finset.mem_univ _)
    have h4 := (Finset.sum_eq_zero_iff_of_nonneg fun _ _ => by positivity).1 h3 p (Finset.mem_univ _)
    have h5 := (Finset.sum_eq_zero_iff_of_nonneg fun _ _ => by positivity).1 h4 q (Finset.mem_univ _)
    simpa using h5
  have n1 := normA_pos (recompose (decompose la a1 a2).a1q f.1 (decompose la a1 a2).a2q f.2).1 fun h0 => hTne (by
    rw [h0]; funext u r d l' u' d' p q; simp [twoSite])
  have n2 := normA_pos (recompose (decompose la a1 a2).a1q f.1 (decompose la a1 a2).a2q f.2).2 fun h0 => hTne (by
    rw [h0]; funext u r d l' u' d' p q; simp [twoSite])
  set z := normA (recompose (decompose la a1 a2).a1q f.1 (decompose la a1 a2).a2q f.2).1 *
    normA (recompose (decompose la a1 a2).a1q f.1 (decompose la a1 a2).a2q f.2).2 with hz
  have hz0 : 0 < z := mul_pos n1 n2
  refine ⟨κ * z, mul_pos hκ hz0, ?_⟩
  rw [← normSq8_assembled la a1 a2] at herr
  refine le_trans (le_of_eq ?_) herr
  congr 1
  funext u r d l' u' d' p q
  rw [twoSite_normalise, ← hz, hT, ← hg]
  change κ * z * (z⁻¹ * _) - _ = _
  rw [mul_assoc, mul_inv_cancel_left₀ hz0.ne']
  unfold assembled
  rw [Finset.mul_sum, ← Finset.sum_sub_distrib]
  refine Finset.sum_congr rfl fun y _ => ?_
  rw [Finset.mul_sum, ← Finset.sum_sub_distrib]
  refine Finset.sum_congr rfl fun x _ => ?_
  ring

/-- A norm tensor that weighs the values of the first reduced leg differently. -/
def unevenNorm (y x Y X : Fin 2) : ℝ := if y = Y ∧ x = X then (if y = 0 then 1 else 2) else 0

theorem uneven_pos : (normMat unevenNorm).IsHermitian ∧ AtLeast (normMat unevenNorm) 1 := by
  constructor
  · ext ⟨y, x⟩ ⟨Y, X⟩
    fin_cases y <;> fin_cases x <;> fin_cases Y <;> fin_cases X <;> simp [normMat, unevenNorm]
  · intro v
    unfold qform Spec.normSq normMat unevenNorm
    simp only [Fintype.sum_prod_type, Fin.sum_univ_two, of_apply, Real.norm_eq_abs, sq_abs, RCLike.re_to_real, star_trivial]
    norm_num
    nlinarith [sq_nonneg (v (1, 1)), sq_nonneg (v (1, 0))]

/-- A half-step of the witness. -/
theorem uneven_first (la : Lapack ℝ) (ε : ℝ) (he : 0 < ε) (a1 a2 : Fin 2 → Fin 1 → Fin 1 → ℝ) (ha : a2 1 0 0 = a2 0 0 0) (hne : a2 0 0 0 ≠ 0)
    (h : solveAr la ε .cholesky (buildR1 unevenNorm a2) (buildS1 (n12gOf unevenNorm fun _ _ _ _ => 1) a2) = .ok a1) :
    a1 0 0 0 ≠ 0 ∧ a1 1 0 0 ≠ a1 0 0 0 := by
  have e := solveAr_cholesky la ε _ (r1_herm _ uneven_pos.1 a2) _ _ h
  have eR : asSq (buildR1 unevenNorm a2) = diagonal fun i => (if i.1 = 0 then 1 else 2) * (2 * a2 0 0 0 ^ 2) := by
    ext ⟨Y, U⟩ ⟨y, u⟩
    obtain rfl : U = 0 := Subsingleton.elim _ _
    obtain rfl : u = 0 := Subsingleton.elim _ _
    fin_cases Y <;> fin_cases y <;>
      simp [asSq, buildR1, unevenNorm, Fin.sum_univ_two, ha] <;> ring
  have eS : ∀ i k, asMat (buildS1 (n12gOf unevenNorm fun _ _ _ _ => 1) a2) i k = (if i.1 = 0 then 1 else 2) * (2 * a2 0 0 0) := by
    rintro ⟨y, u⟩ k
    obtain rfl : u = 0 := Subsingleton.elim _ _
    obtain rfl : k = 0 := Subsingleton.elim _ _
    fin_cases y <;> simp [asMat, buildS1, n12gOf, unevenNorm, Fin.sum_univ_two, ha] <;> ring
  set m := absMax (asSq (buildR1 unevenNorm a2)) with hm
  have hm1 : 2 * (2 * a2 0 0 0 ^ 2) ≤ m := by
    have := le_absMax (asSq (buildR1 unevenNorm a2)) (1, 0) (1, 0)
    rw [← hm, eR, diagonal_apply_eq, Real.norm_eq_abs] at this
    refine le_trans (le_of_eq ?_) ((le_abs_self _).trans this)
    simp
  have row : ∀ y, ((if y = 0 then 1 else 2) * (2 * a2 0 0 0 ^ 2) + ε * m) * a1 y 0 0 = (if y = 0 then 1 else 2) * (2 * a2 0 0 0) := by
    intro y
    have := congrFun (congrFun e (y, 0)) 0
    rw [eS, eR, Matrix.add_mul, Matrix.add_apply, diagonal_mul, Matrix.smul_mul, Matrix.one_mul, Matrix.smul_apply, smul_eq_mul] at this
    have e3 : asMat a1 (y, 0) 0 = a1 y 0 0 := rfl
    rw [e3] at this
    rw [add_mul]
    exact this
  have r0 := row 0
  have r1 := row 1
  simp only [if_true, if_neg (show (1 : Fin 2) ≠ 0 by decide)] at r0 r1
  have h0 : a1 0 0 0 ≠ 0 := by
    intro h0
    rw [h0, mul_zero] at r0
    exact hne (by linarith)
  refine ⟨h0, fun h1 => ?_⟩
  rw [h1] at r1
  have hz : ε * m * a1 0 0 0 = 0 := by linarith
  have hm0 : m = 0 := by
    rcases mul_eq_zero.1 hz with h2 | h2
    · exact (mul_eq_zero.1 h2).resolve_left he.ne'
    · exact absurd h2 h0
  have : 0 < a2 0 0 0 ^ 2 := by positivity
  linarith

theorem uneven_second (la : Lapack ℝ) (ε : ℝ) (a1 a2 : Fin 2 → Fin 1 → Fin 1 → ℝ)
    (h : solveAr la ε .cholesky (buildR2 unevenNorm a1) (buildS2 (n12gOf unevenNorm fun _ _ _ _ => 1) a1) = .ok a2) (he : 0 < ε)
    (h0 : a1 0 0 0 ≠ 0) : a2 1 0 0 = a2 0 0 0 := by
  have e := solveAr_cholesky la ε _ (r2_herm _ uneven_pos.1 a1) _ _ h
  have eR : asSq (buildR2 unevenNorm a1) = diagonal fun _ => a1 0 0 0 ^ 2 + 2 * a1 1 0 0 ^ 2 := by
    ext ⟨Y, U⟩ ⟨y, u⟩
    obtain rfl : U = 0 := Subsingleton.elim _ _
    obtain rfl : u = 0 := Subsingleton.elim _ _
    fin_cases Y <;> fin_cases y <;>
      simp [asSq, buildR2, unevenNorm, Fin.sum_univ_two] <;> ring
  have eS : ∀ i k, asMat (buildS2 (n12gOf unevenNorm fun _ _ _ _ => 1) a1) i k = a1 0 0 0 + 2 * a1 1 0 0 := by
    rintro ⟨y, u⟩ k
    obtain rfl : u = 0 := Subsingleton.elim _ _
    obtain rfl : k = 0 := Subsingleton.elim _ _
    fin_cases y <;> simp [asMat, buildS2, n12gOf, unevenNorm, Fin.sum_univ_two]
  have hm := absMax_nonneg (asSq (buildR2 unevenNorm a1))
  set m := absMax (asSq (buildR2 unevenNorm a1)) with hmd
  have row : ∀ x, (a1 0 0 0 ^ 2 + 2 * a1 1 0 0 ^ 2 + ε * m) * a2 x 0 0 = a1 0 0 0 + 2 * a1 1 0 0 := by
    intro x
    have := congrFun (congrFun e (x, 0)) 0
    rw [eS, eR, Matrix.add_mul, Matrix.add_apply, diagonal_mul, Matrix.smul_mul, Matrix.one_mul, Matrix.smul_apply, smul_eq_mul] at this
    have e3 : asMat a2 (x, 0) 0 = a2 x 0 0 := rfl
    rw [e3] at this
    rw [add_mul]
    exact this
  have hpos : 0 < a1 0 0 0 ^ 2 + 2 * a1 1 0 0 ^ 2 + ε * m := by positivity
  exact mul_left_cancel₀ hpos.ne' ((row 1).trans (row 0).symm)

/-- **C95 (the error is there).** With the Cholesky method no positive `als_epsilon` and no number of iterations makes updates exact,
whatever the linear algebra library: for the reduced tensors with all entries one, bond dimension one, the identity gate and the positive
definite norm tensor `unevenNorm` the update returns a pair that is not a multiple of the gate-applied one. -/
theorem C95_not_exact {F : Type} (la : Lapack ℝ) (fo : Als.FloatOps F) (rep : ℝ → F) (tol : F) (ε : ℝ) (he : 0 < ε) (m : ℕ)
    (hb : 1 ≤ Fintype.card (Fin 2 × Fin 1)) :
    ∃ f, updateReduced la fo rep ⟨false, 0, 1, m + 1, tol, .cholesky, ε⟩ hb (fun _ _ _ => 1) (fun _ _ _ => 1) unevenNorm
        (fun _ _ _ _ => 1) = some (.ok f) ∧
      ¬ ∃ κ : ℝ, ∀ y x p q, gateReduced (fun _ (_ : Fin 1) _ => (1 : ℝ)) (fun _ _ _ => 1) (fun (_ _ _ _ : Fin 1) => 1) y x p q =
        κ * pairProd f.1 f.2 y x p q := by
  have hg : gateReduced (fun (_ : Fin 2) (_ : Fin 1) (_ : Fin 1) => (1 : ℝ)) (fun _ _ _ => 1) (fun _ _ _ _ => 1) = fun _ _ _ _ => 1 := by
    funext y x r s
    simp [gateReduced]
  have hfit : pairProd (fun (_ : Fin 2) (_ : Fin 1) (_ : Fin 1) => (1 : ℝ)) (fun _ _ _ => 1) = fun _ _ _ _ => 1 := by
    funext y x r s
    simp [pairProd]
  have hne : (fun (_ _ : Fin 2) (_ _ : Fin 1) => (1 : ℝ)) ≠ 0 := by
    intro h0
    have := congrFun (congrFun (congrFun (congrFun h0 0) 0) 0) 0
    simp at this
  obtain ⟨f, hf, -⟩ := C94_exact_partial la fo rep ⟨false, 0, 1, m + 1, tol, .cholesky, ε⟩ hb he rfl (Nat.succ_pos _) one_pos
    (fun h => absurd h (by simp)) (fun _ _ _ => 1) (fun _ _ _ => 1) (fun _ _ _ => 1) (fun _ _ _ => 1) unevenNorm (fun _ _ _ _ => 1)
    (by rw [hg, hfit]) (by rw [hg]; exact hne)
  refine ⟨f, hf, ?_⟩
  rw [hg]
  rintro ⟨κ, hκ⟩
  unfold updateReduced at hf
  obtain ⟨nz, hnz⟩ := Option.isSome_iff_exists.1 (C33_terminates la 1 0 unevenNorm)
  have hs := C33_unchanged la 1 zero_le_one 0 unevenNorm nz hnz uneven_pos.1 uneven_pos.2
  have hnz : positiveApprox la 2 1 unevenNorm = some nz := hnz
  dsimp only at hf
  rw [hnz, hg] at hf
  have hf := Option.some.inj hf
  dsimp only at hf
  rw [if_neg (by simp), hs] at hf
  cases hq : alsSolve la fo rep ⟨false, 0, 1, m + 1, tol, .cholesky, ε⟩ (hb_init hb) unevenNorm (fun _ _ _ _ => 1) with
  | error e => rw [hq] at hf; exact absurd hf (by simp [bind, Except.bind])
  | ok q =>
    rw [hq] at hf
    have hf : (Except.ok _ : Except PyErr _) = .ok f := hf
    have hf := Except.ok.inj hf
    have pass : ∀ q q' : (Fin 2 → Fin 1 → Fin 1 → ℝ) × (Fin 2 → Fin 1 → Fin 1 → ℝ), q.2 1 0 0 = q.2 0 0 0 →
        alsPass la ε unevenNorm (n12gOf unevenNorm fun _ _ _ _ => 1) .cholesky q = .ok q' →
        q'.2 1 0 0 = q'.2 0 0 0 ∧ q'.1 1 0 0 ≠ q'.1 0 0 0 := by
      intro q q' hc hq
      have hne : q.2 0 0 0 ≠ 0 := by
        intro h0
        rw [pass_raises la ε unevenNorm _ q] at hq
        · exact absurd hq (by simp)
        · have h1 := hc.trans h0
          funext y u p
          obtain rfl : u = 0 := Subsingleton.elim _ _
          obtain rfl : p = 0 := Subsingleton.elim _ _
          simp [buildS1, Fin.sum_univ_two, h0, h1]
      obtain ⟨h1, h2⟩ := alsPass_ok la ε .cholesky unevenNorm _ _ _ hq
      obtain ⟨h3, h4⟩ := uneven_first la ε he _ _ hc hne h1
      exact ⟨uneven_second la ε _ _ h2 he h3, h4⟩
    have start : (initReduced la (hb_init hb) fun (_ _ : Fin 2) (_ _ : Fin 1) => (1 : ℝ)).2 1 0 0 =
        (initReduced la (hb_init hb) fun (_ _ : Fin 2) (_ _ : Fin 1) => (1 : ℝ)).2 0 0 0 := by
      obtain ⟨c, hc, hi⟩ := init_proportional la (hb_init hb) _ hne _ _ hfit
      have h1 := hi 0 1 0 0
      have h2 := hi 0 0 0 0
      unfold pairProd at h1 h2
      simp only [Finset.univ_unique, Finset.sum_singleton, Fin.default_eq_zero, mul_one] at h1 h2
      have h3 : (initReduced la (hb_init hb) fun (_ _ : Fin 2) (_ _ : Fin 1) => (1 : ℝ)).1 0 0 0 ≠ 0 := by
        intro h0
        rw [h0, zero_mul] at h2
        exact hc.ne h2
      exact mul_left_cancel₀ h3 (h1.trans h2.symm)
    unfold alsSolve Als.solveTorch at hq
    have hend := torchLoop_first fo _ _ tol (fun q : (Fin 2 → Fin 1 → Fin 1 → ℝ) × (Fin 2 → Fin 1 → Fin 1 → ℝ) =>
      q.2 1 0 0 = q.2 0 0 0 ∧ q.1 1 0 0 ≠ q.1 0 0 0) _ (fun q' hq' => pass _ _ start hq') (fun q q' hq hq' => pass _ _ hq.1 hq') m 0 q _ hq
    obtain ⟨κ', hκ', e⟩ := finalize_scale la (hb_fin hb) q.1 q.2
    rw [hf] at e
    have h1 := hκ 0 0 0 0
    have h2 := hκ 1 0 0 0
    rw [e] at h1 h2
    unfold pairProd at h1 h2
    simp only [Finset.univ_unique, Finset.sum_singleton, Fin.default_eq_zero] at h1 h2
    have h3 : κ * (κ' * q.2 0 0 0) * (q.1 1 0 0 - q.1 0 0 0) = 0 := by
      have h1' : (1 : ℝ) = κ * (κ' * (q.1 0 0 0 * q.2 0 0 0)) := h1
      have h2' : (1 : ℝ) = κ * (κ' * (q.1 1 0 0 * q.2 0 0 0)) := h2
      linarith
    rcases mul_eq_zero.1 h3 with h4 | h4
    · have h1' : (1 : ℝ) = κ * (κ' * (q.1 0 0 0 * q.2 0 0 0)) := h1
      have : (1 : ℝ) = κ * (κ' * q.2 0 0 0) * q.1 0 0 0 := by rw [h1']; ring
      rw [h4, zero_mul] at this
      exact one_ne_zero this
    · exact hend.2 (sub_eq_zero.1 h4)

/-- The hypotheses are met, with gauge fixing and the default settings, by an entangled two-site tensor and the identity gate; the
error of the update then vanishes with `als_epsilon`. -/
example {X : Type} [Fintype X] (la : Lapack ℝ) (ipeps : NetT (Fin 2) (Fin 2) X ℝ) (s1 s2 : Site) (k : ℤ) :
    ∃ (a1 a2 : ATensor (Fin 2) (Fin 2) ℝ) (K : ℝ), twoSite a1 a2 ≠ 0 ∧
      ∀ (fo : Als.FloatOps ℝ) (rep : ℝ → ℝ) (tol ε : ℝ), 0 < ε → ∃ b1 b2,
        fullTensorUpdate la fo rep ⟨true, 1e-12, 1e-12, 100, tol, .cholesky, ε⟩ ipeps s1 s2 k
          (fun p q r s => if p = r ∧ q = s then 1 else 0) a1 a2 = some (.ok (b1, b2)) ∧
        ∃ κ : ℝ, 0 < κ ∧ normSq8 (fun u r d l' u' d' p q =>
          κ * twoSite b1 b2 u r d l' u' d' p q - twoSite a1 a2 u r d l' u' d' p q) ≤ K * ε := by
  obtain ⟨hid, hfit⟩ := C39_identity_gate (bD := 2) (fun l _ _ _ p => if l = p then (1 : ℝ) else 0)
    (fun _ _ r _ p => if r = p then 1 else 0) (fun p q r s => if p = r ∧ q = s then 1 else 0) fun _ _ _ _ => rfl
  have hne : twoSite (fun l _ _ _ p => if l = p then (1 : ℝ) else 0) (fun _ _ r _ p => if r = p then 1 else 0) ≠
      (0 : Fin 2 → Fin 2 → Fin 2 → Fin 2 → Fin 2 → Fin 2 → Fin 2 → Fin 2 → ℝ) := by
    intro h
    have := congrFun (congrFun (congrFun (congrFun (congrFun (congrFun (congrFun (congrFun h 0) 0) 0) 0) 0) 0) 0) 0
    simp [twoSite] at this
  obtain ⟨K, hK⟩ := C95_bond la ⟨true, 1e-12, 1e-12, 100, (0 : ℝ), .cholesky, 1⟩ ipeps s1 s2 k _ _ _ rfl (by norm_num) (by norm_num)
    (fun _ => by
      rw [Real.lt_sqrt (by norm_num)]
      norm_num) hfit (by rw [hid]; exact hne)
  rw [hid] at hK
  exact ⟨_, _, K, hne, hK⟩

end AceTN
