import Verif.Lemmas.QuasiOptimal

/-!
C96: full updates are as good as a multiple of the best possible ones.
-/

set_option autoImplicit false

namespace AceTN

open Spec Full Matrix

section reduced

variable {F N P : Type} [Fintype N] [Fintype P] [DecidableEq N] [DecidableEq P] [Nonempty N] {bD : ℕ} [NeZero bD]

/-- How far the gauge lets two-site tensors grow. -/
noncomputable def legGrowth {𝕜 W N : Type} [RCLike 𝕜] [Fintype W] [Fintype N] (ry rx : W → N → 𝕜) : ℝ :=
  ∑ v, ∑ w, ∑ i : N × N, ‖ry v i.1 * rx w i.2‖ ^ 2

omit [Nonempty N] [NeZero bD] [DecidableEq P] in
/-- The gauge lets the distances of pairs from the target grow by a factor at most. -/
theorem gauge_error (la : Lapack ℝ) (atol : ℝ) (nz : N → N → Fin (Fintype.card (N × N)) → ℝ) (g : N → N → P → P → ℝ)
    (b1 b2 : N → Fin bD → P → ℝ) : ∃ b1' b2' : Fin (wD N (Fin (Fintype.card (N × N)))) → Fin bD → P → ℝ,
      normSq4 (fun v w p q => pairProd b1' b2' v w p q - (gaugeFix la atol nz g).a12g v w p q) ≤
        legGrowth (nzyrOf la nz) (nzxrOf la nz) * normSq4 (fun y x p q => pairProd b1 b2 y x p q - g y x p q) ∧
      normSq4 (gaugeFix la atol nz g).a12g ≤ legGrowth (nzyrOf la nz) (nzxrOf la nz) * normSq4 g := by
  have e : ∀ h : N → N → P → P → ℝ, (gaugeFix la atol nz h).a12g = fun v w p q => ∑ y, ∑ x, nzyrOf la nz v y * nzxrOf la nz w x * h y x p q := by
    intro h
    funext v₀ w₀ p q
    set ry := nzyrOf la nz with hry
    set rx := nzxrOf la nz with hrx
    unfold gaugeFix
    dsimp only
    simp only [← hry, ← hrx]
    einsum_ring
  refine ⟨fun w u p => ∑ y, nzyrOf la nz w y * b1 y u p, fun w u p => ∑ y, nzxrOf la nz w y * b2 y u p, ?_, ?_⟩
  · rw [gaugeFix_fits la atol nz b1 b2, e, e]
    refine le_trans (le_of_eq ?_) (legs_le _ _ _)
    congr 1
    funext v w p q
    rw [← Finset.sum_sub_distrib]
    refine Finset.sum_congr rfl fun y _ => ?_
    rw [← Finset.sum_sub_distrib]
    exact Finset.sum_congr rfl fun x _ => (mul_sub _ _ _).symm
  · rw [e]
    exact legs_le _ _ _

/-- **C96 (reduced tensors).** Real dtypes, at least one iteration, a positive cutoff of the norm and a small tolerance of the gauge
fixing: for every norm tensor there is a number `K` such that for all reduced tensors and gates, either method and every
`als_epsilon`, the pair that an update returns is, up to a positive factor, as near to the
gate-applied pair as any pair with that bond dimension, up to the factor `K` and the multiple `K * als_epsilon` of the squared norm. -/
theorem C96_reduced (la : Lapack ℝ) (cfg : Settings F) (hb : bD ≤ Fintype.card (N × P)) (hni : 0 < cfg.als_niter)
    (hcut : 0 < cfg.positive_approx_cutoff)
    (hatol : cfg.use_gauge_fix = true → cfg.gauge_fix_atol < Real.sqrt (cfg.positive_approx_cutoff * Fintype.card N))
    (n : N → N → N → N → ℝ) :
    ∃ K, 0 ≤ K ∧ ∀ (fo : Als.FloatOps F) (rep : ℝ → F) (tol : F) (ε : ℝ), 0 ≤ ε →
      ∀ (a1r a2r : N → Fin bD → P → ℝ) (gate : P → P → P → P → ℝ), gateReduced a1r a2r gate ≠ 0 →
      ∀ f, updateReduced la fo rep { cfg with als_tol := tol, als_epsilon := ε } hb a1r a2r n gate = some (.ok f) →
      ∃ κ : ℝ, 0 < κ ∧ ∀ b1 b2 : N → Fin bD → P → ℝ,
        normSq4 (fun y x p q => κ * pairProd f.1 f.2 y x p q - gateReduced a1r a2r gate y x p q) ≤
          K * (normSq4 (fun y x p q => pairProd b1 b2 y x p q - gateReduced a1r a2r gate y x p q) +
            ε * normSq4 (gateReduced a1r a2r gate)) := by
  obtain ⟨nz, hnz⟩ := Option.isSome_iff_exists.1 (C33_terminates la cfg.positive_approx_cutoff 0 n)
  have hnz : positiveApprox la 2 cfg.positive_approx_cutoff n = some nz := hnz
  obtain ⟨_, -, -, -, hp, -⟩ := C33_result la _ hcut.le 0 n nz hnz
  have hinj := rootInj_of_atLeast nz _ hcut hp
  obtain ⟨m, hm'⟩ := Nat.exists_eq_succ_of_ne_zero hni.ne'
  have hm' : cfg.als_niter = m + 1 := hm'
  -- the error from the distance of the pair before it is finalised
  have fin : ∀ (t : ℝ) (g : N → N → P → P → ℝ) (p : (N → Fin bD → P → ℝ) × (N → Fin bD → P → ℝ)),
      rootDist nz (fun y x q q' => pairProd p.1 p.2 y x q q' - g y x q q') ≤ t → ∀ κ : ℝ, 0 < κ →
      (∀ y x q q', pairProd (finalizeCore la (hb_fin hb) p.1 p.2).1 (finalizeCore la (hb_fin hb) p.1 p.2).2 y x q q' =
        (κ : ℝ) * pairProd p.1 p.2 y x q q') →
      normSq4 (fun y x q q' => κ⁻¹ * pairProd (finalizeCore la (hb_fin hb) p.1 p.2).1
        (finalizeCore la (hb_fin hb) p.1 p.2).2 y x q q' - g y x q q') ≤ t / cfg.positive_approx_cutoff := by
    intro t g p ht κ hκ e
    have e' : ∀ y x q q', κ⁻¹ * pairProd (finalizeCore la (hb_fin hb) p.1 p.2).1 (finalizeCore la (hb_fin hb) p.1 p.2).2 y x q q' =
        pairProd p.1 p.2 y x q q' := by
      intro y x q q'
      rw [e]
      exact inv_mul_cancel_left₀ hκ.ne' _
    simp only [e']
    rw [le_div_iff₀ hcut, mul_comm]
    exact (rootDist_ge nz _ hp _).trans ht
  by_cases hgf : cfg.use_gauge_fix = true
  · obtain ⟨-, -, h3, h4⟩ := C34_invertible la _ _ hcut (hatol hgf) nz hp
    have hinj' := gaugedRoot_inj nz hinj _ _ _ _ h4 h3
    have hne'' : Nonempty (Fin (wD N (Fin (Fintype.card (N × N))))) := by
      have : 0 < wD N (Fin (Fintype.card (N × N))) := by
        refine lt_min ?_ Fintype.card_pos
        rw [Fintype.card_prod, Fintype.card_fin, Fintype.card_prod]
        have := Fintype.card_pos (α := N)
        positivity
      exact ⟨⟨0, this⟩⟩
    obtain ⟨K, hK, hsolve⟩ := alsSolve_quasi (bD := bD) la (hb_init (hb_gauge hb)) _ hinj' m
    have hL : 0 ≤ legGrowth (nzyrOf la nz) (nzxrOf la nz) :=
      Finset.sum_nonneg fun _ _ => Finset.sum_nonneg fun _ _ => Finset.sum_nonneg fun _ _ => by positivity
    refine ⟨K * legGrowth (nzyrOf la nz) (nzxrOf la nz) / cfg.positive_approx_cutoff, by positivity,
      fun fo rep tol ε he a1r a2r gate hne f hf => ?_⟩
    generalize hg : gateReduced a1r a2r gate = g at hne ⊢
    obtain ⟨-, -, hgp⟩ := C34_gauge_fix (B := Fin bD) la _ _ hcut (hatol hgf) 0 n nz hnz g
    have hn := gaugeFix_n12 la cfg.gauge_fix_atol nz g
    have hne' : (gaugeFix la cfg.gauge_fix_atol nz g).a12g ≠ 0 := by
      intro h0
      apply hne
      funext y x p q
      rw [← hgp y x p q, h0]
      simp
    unfold updateReduced at hf
    dsimp only at hf
    rw [hnz, hg] at hf
    have hf := Option.some.inj hf
    dsimp only at hf
    rw [if_pos hgf] at hf
    cases hs : alsSolve la fo rep { cfg with als_tol := tol, als_epsilon := ε } (hb_init (hb_gauge hb))
        (gaugeFix la cfg.gauge_fix_atol nz g).n12 (gaugeFix la cfg.gauge_fix_atol nz g).a12g with
    | error e => rw [hs] at hf; exact absurd hf (by simp [bind, Except.bind])
    | ok q =>
      rw [hs] at hf
      have hf : (Except.ok _ : Except PyErr _) = .ok f := hf
      rw [← Except.ok.inj hf]
      rw [hn] at hs
      obtain ⟨κ, hκ, eκ⟩ := finalize_scale la (hb_fin hb)
        (undoGauge (gaugeFix la cfg.gauge_fix_atol nz g).nzyr_inv (gaugeFix la cfg.gauge_fix_atol nz g).nzxr_inv q).1
        (undoGauge (gaugeFix la cfg.gauge_fix_atol nz g).nzyr_inv (gaugeFix la cfg.gauge_fix_atol nz g).nzxr_inv q).2
      refine ⟨κ⁻¹, inv_pos.2 hκ, fun b1 b2 => ?_⟩
      obtain ⟨b1', b2', hb1, hb2⟩ := gauge_error la cfg.gauge_fix_atol nz g b1 b2
      have h5 := hsolve _ hne' F fo rep { cfg with als_tol := tol, als_epsilon := ε } he hm' q hs b1' b2'
      have h6 : rootDist nz (fun y x p p' => pairProd
          (undoGauge (gaugeFix la cfg.gauge_fix_atol nz g).nzyr_inv (gaugeFix la cfg.gauge_fix_atol nz g).nzxr_inv q).1
          (undoGauge (gaugeFix la cfg.gauge_fix_atol nz g).nzyr_inv (gaugeFix la cfg.gauge_fix_atol nz g).nzxr_inv q).2 y x p p' -
            g y x p p') ≤ K * legGrowth (nzyrOf la nz) (nzxrOf la nz) *
          (normSq4 (fun y x p q => pairProd b1 b2 y x p q - g y x p q) + ε * normSq4 g) := by
        rw [← rootDist_gauged nz (la.pinv cfg.gauge_fix_atol (nzxrOf la nz)) (la.pinv cfg.gauge_fix_atol (nzyrOf la nz))
          (fun v w p p' => pairProd q.1 q.2 v w p p' - (gaugeFix la cfg.gauge_fix_atol nz g).a12g v w p p') _ fun y x p p' => ?_]
        · refine h5.trans ?_
          rw [mul_assoc]
          refine mul_le_mul_of_nonneg_left ?_ hK
          have := mul_le_mul_of_nonneg_left hb2 he
          dsimp only
          linarith
        · rw [pairProd_undo]
          conv_rhs => rw [← hgp y x p p']
          rw [← Finset.sum_sub_distrib]
          refine Finset.sum_congr rfl fun v _ => ?_
          rw [← Finset.sum_sub_distrib]
          exact Finset.sum_congr rfl fun w _ => mul_sub _ _ _
      refine (fin _ g _ h6 κ hκ eκ).trans (le_of_eq ?_)
      ring
  · obtain ⟨K, hK, hsolve⟩ := alsSolve_quasi (bD := bD) la (hb_init hb) nz hinj m
    refine ⟨K / cfg.positive_approx_cutoff, by positivity, fun fo rep tol ε he a1r a2r gate hne f hf => ?_⟩
    generalize hg : gateReduced a1r a2r gate = g at hne ⊢
    unfold updateReduced at hf
    dsimp only at hf
    rw [hnz, hg] at hf
    have hf := Option.some.inj hf
    dsimp only at hf
    rw [if_neg hgf] at hf
    cases hs : alsSolve la fo rep { cfg with als_tol := tol, als_epsilon := ε } (hb_init hb) (squareNorm nz) g with
    | error e => rw [hs] at hf; exact absurd hf (by simp [bind, Except.bind])
    | ok q =>
      rw [hs] at hf
      have hf : (Except.ok _ : Except PyErr _) = .ok f := hf
      rw [← Except.ok.inj hf]
      obtain ⟨κ, hκ, eκ⟩ := finalize_scale la (hb_fin hb) q.1 q.2
      refine ⟨κ⁻¹, inv_pos.2 hκ, fun b1 b2 => ?_⟩
      have h5 := hsolve g hne F fo rep { cfg with als_tol := tol, als_epsilon := ε } he hm' q hs b1 b2
      refine (fin _ g _ h5 κ hκ eκ).trans (le_of_eq ?_)
      ring

/-- **C96 (the update returns, reduced tensors).** For every norm tensor there is a positive number `δ` such that for all reduced tensors
and gates for which some pair with that bond dimension has a relative squared error below `δ`, the update returns a pair that is not
zero; for the Cholesky method with any positive `als_epsilon`, for the pseudo-inverse with one of at most `δ`. -/
theorem C96_reduced_returns (la : Lapack ℝ) (cfg : Settings F) (hb : bD ≤ Fintype.card (N × P)) (hni : 0 < cfg.als_niter)
    (hcut : 0 < cfg.positive_approx_cutoff)
    (hatol : cfg.use_gauge_fix = true → cfg.gauge_fix_atol < Real.sqrt (cfg.positive_approx_cutoff * Fintype.card N))
    (n : N → N → N → N → ℝ) :
    ∃ δ : ℝ, 0 < δ ∧ ∀ (fo : Als.FloatOps F) (rep : ℝ → F) (tol : F) (ε : ℝ),
      (0 ≤ ε ∧ ε ≤ δ ∧ cfg.als_method = .pinv ∨ 0 < ε ∧ cfg.als_method = .cholesky) →
      ∀ (a1r a2r b1 b2 : N → Fin bD → P → ℝ) (gate : P → P → P → P → ℝ),
      normSq4 (fun y x p q => pairProd b1 b2 y x p q - gateReduced a1r a2r gate y x p q) < δ * normSq4 (gateReduced a1r a2r gate) →
      ∃ f, updateReduced la fo rep { cfg with als_tol := tol, als_epsilon := ε } hb a1r a2r n gate = some (.ok f) ∧
        pairProd f.1 f.2 ≠ 0 := by
  obtain ⟨nz, hnz⟩ := Option.isSome_iff_exists.1 (C33_terminates la cfg.positive_approx_cutoff 0 n)
  have hnz : positiveApprox la 2 cfg.positive_approx_cutoff n = some nz := hnz
  obtain ⟨_, -, -, -, hp, -⟩ := C33_result la _ hcut.le 0 n nz hnz
  -- a factor for which the pair that the solver starts from can be completed
  have start : ∃ M : ℝ, 0 < M ∧ ∀ g : N → N → P → P → ℝ, g ≠ 0 → ∀ b1 b2 : N → Fin bD → P → ℝ, ∃ r,
      rootDist nz (fun y x p q => pairProd r (startPair la cfg hb nz g).2 y x p q - g y x p q) ≤
        M * normSq4 (fun y x p q => pairProd b1 b2 y x p q - g y x p q) := by
    by_cases hgf : cfg.use_gauge_fix = true
    · have hne'' : Nonempty (Fin (wD N (Fin (Fintype.card (N × N))))) := by
        have : 0 < wD N (Fin (Fintype.card (N × N))) := by
          refine lt_min ?_ Fintype.card_pos
          rw [Fintype.card_prod, Fintype.card_fin, Fintype.card_prod]
          have := Fintype.card_pos (α := N)
          positivity
        exact ⟨⟨0, this⟩⟩
      set root := gaugedRoot nz (la.pinv cfg.gauge_fix_atol (nzxrOf la nz)) (la.pinv cfg.gauge_fix_atol (nzyrOf la nz)) with hroot
      have hM0 : 0 ≤ ∑ z, ∑ i : Fin (wD N (Fin (Fintype.card (N × N)))) × Fin (wD N (Fin (Fintype.card (N × N)))), ‖root i.1 i.2 z‖ ^ 2 :=
        Finset.sum_nonneg fun _ _ => Finset.sum_nonneg fun _ _ => by positivity
      have hL : 0 ≤ legGrowth (nzyrOf la nz) (nzxrOf la nz) :=
        Finset.sum_nonneg fun _ _ => Finset.sum_nonneg fun _ _ => Finset.sum_nonneg fun _ _ => by positivity
      refine ⟨(∑ z, ∑ i : Fin (wD N (Fin (Fintype.card (N × N)))) × Fin (wD N (Fin (Fintype.card (N × N)))), ‖root i.1 i.2 z‖ ^ 2) *
        legGrowth (nzyrOf la nz) (nzxrOf la nz) + 1, by positivity, fun g hne b1 b2 => ?_⟩
      obtain ⟨-, -, hgp⟩ := C34_gauge_fix (B := Fin bD) la _ _ hcut (hatol hgf) 0 n nz hnz g
      have hne' : (gaugeFix la cfg.gauge_fix_atol nz g).a12g ≠ 0 := by
        intro h0
        apply hne
        funext y x p q
        rw [← hgp y x p q, h0]
        simp
      obtain ⟨r, hr⟩ := start_quasi la (hb_init (hb_gauge hb)) root _ hne'
      obtain ⟨b1', b2', hb1, -⟩ := gauge_error la cfg.gauge_fix_atol nz g b1 b2
      have h5 := hr b1' b2'
      refine ⟨(undoGauge (gaugeFix la cfg.gauge_fix_atol nz g).nzyr_inv (gaugeFix la cfg.gauge_fix_atol nz g).nzxr_inv
        (r, (initReduced la (hb_init (hb_gauge hb)) (gaugeFix la cfg.gauge_fix_atol nz g).a12g).2)).1, ?_⟩
      unfold startPair
      rw [if_pos hgf]
      rw [← rootDist_gauged nz (la.pinv cfg.gauge_fix_atol (nzxrOf la nz)) (la.pinv cfg.gauge_fix_atol (nzyrOf la nz))
        (fun v w p q => pairProd r (initReduced la (hb_init (hb_gauge hb)) (gaugeFix la cfg.gauge_fix_atol nz g).a12g).2 v w p q -
          (gaugeFix la cfg.gauge_fix_atol nz g).a12g v w p q)]
      · refine h5.trans ((mul_le_mul_of_nonneg_left hb1 hM0).trans ?_)
        rw [← mul_assoc]
        exact mul_le_mul_of_nonneg_right (by linarith) (normSq4_nonneg _)
      · intro y x p p'
        have e := pairProd_undo (gaugeFix la cfg.gauge_fix_atol nz g).nzyr_inv (gaugeFix la cfg.gauge_fix_atol nz g).nzxr_inv
          (r, (initReduced la (hb_init (hb_gauge hb)) (gaugeFix la cfg.gauge_fix_atol nz g).a12g).2) y x p p'
        conv_rhs => rw [← hgp y x p p']
        refine Eq.trans ?_ (congrArg (· - _) e.symm)
        rw [← Finset.sum_sub_distrib]
        refine Finset.sum_congr rfl fun v _ => ?_
        rw [← Finset.sum_sub_distrib]
        exact Finset.sum_congr rfl fun w _ => mul_sub _ _ _
    · have hM0 : 0 ≤ ∑ z, ∑ i : N × N, ‖nz i.1 i.2 z‖ ^ 2 := Finset.sum_nonneg fun _ _ => Finset.sum_nonneg fun _ _ => by positivity
      refine ⟨(∑ z, ∑ i : N × N, ‖nz i.1 i.2 z‖ ^ 2) + 1, by positivity, fun g hne b1 b2 => ?_⟩
      obtain ⟨r, hr⟩ := start_quasi la (hb_init hb) nz g hne
      refine ⟨r, ?_⟩
      unfold startPair
      rw [if_neg hgf]
      exact (hr b1 b2).trans (mul_le_mul_of_nonneg_right (by linarith) (normSq4_nonneg _))
  obtain ⟨M, hM, hstart⟩ := start
  obtain ⟨K, hK0, hquasi⟩ := C96_reduced la cfg hb hni hcut hatol n
  refine ⟨min (cfg.positive_approx_cutoff / M) (1 / (2 * K + 1)), lt_min (by positivity) (by positivity),
    fun fo rep tol ε hor a1r a2r b1 b2 gate hsmall => ?_⟩
  have hne : gateReduced a1r a2r gate ≠ 0 := by
    intro h0
    rw [h0] at hsmall
    have h1 : normSq4 (0 : N → N → P → P → ℝ) = 0 := by simp [normSq4]
    rw [h1, mul_zero] at hsmall
    exact absurd hsmall (not_lt.2 (normSq4_nonneg _))
  obtain ⟨r, hr⟩ := hstart _ hne b1 b2
  have hneg : cost r (startPair la cfg hb nz (gateReduced a1r a2r gate)).2 (gateReduced a1r a2r gate) (squareNorm nz) < 0 := by
    rw [cost_rootDist]
    have h1 := rootDist_ge nz _ hp (gateReduced a1r a2r gate)
    have h2 := hsmall.trans_le (mul_le_mul_of_nonneg_right (min_le_left _ _) (normSq4_nonneg _))
    rw [div_mul_eq_mul_div, lt_div_iff₀ hM, mul_comm] at h2
    linarith
  rcases hor with ⟨he0, he1, hm⟩ | ⟨he, hm⟩
  · obtain ⟨f, hf⟩ := updateReduced_total la fo rep { cfg with als_tol := tol, als_epsilon := ε } hb hm a1r a2r n gate
    refine ⟨f, hf, fun h0 => ?_⟩
    obtain ⟨κ, -, h1⟩ := hquasi fo rep tol ε he0 a1r a2r gate hne f hf
    have h2 := h1 b1 b2
    rw [h0] at h2
    have h4 : normSq4 (fun y x p q => κ * (0 : N → N → P → P → ℝ) y x p q - gateReduced a1r a2r gate y x p q) =
        normSq4 (gateReduced a1r a2r gate) := by
      simp [normSq4]
    rw [h4] at h2
    have hg0 := normSq4_nonneg (gateReduced a1r a2r gate)
    have hb0 := normSq4_nonneg (fun y x p q => pairProd b1 b2 y x p q - gateReduced a1r a2r gate y x p q)
    have hpos : 0 < normSq4 (gateReduced a1r a2r gate) := by
      rcases hg0.lt_or_eq with h | h
      · exact h
      · rw [← h, mul_zero] at hsmall
        exact absurd hsmall (not_lt.2 hb0)
    have hδ2 := min_le_right (cfg.positive_approx_cutoff / M) (1 / (2 * K + 1))
    have h5 : K * (normSq4 (fun y x p q => pairProd b1 b2 y x p q - gateReduced a1r a2r gate y x p q) +
        ε * normSq4 (gateReduced a1r a2r gate)) ≤ K * (2 * (1 / (2 * K + 1)) * normSq4 (gateReduced a1r a2r gate)) := by
      refine mul_le_mul_of_nonneg_left ?_ hK0
      have := mul_le_mul_of_nonneg_right (he1.trans hδ2) hg0
      have := mul_le_mul_of_nonneg_right hδ2 hg0
      linarith
    have h6 : K * (2 * (1 / (2 * K + 1)) * normSq4 (gateReduced a1r a2r gate)) < normSq4 (gateReduced a1r a2r gate) := by
      have h7 : K * (2 * (1 / (2 * K + 1))) < 1 := by
        rw [mul_one_div, mul_div_assoc', div_lt_one (by linarith)]
        linarith
      calc _ = K * (2 * (1 / (2 * K + 1))) * normSq4 (gateReduced a1r a2r gate) := by ring
        _ < 1 * normSq4 (gateReduced a1r a2r gate) := mul_lt_mul_of_pos_right h7 hpos
        _ = _ := one_mul _
    linarith
  · obtain ⟨nz', hnz', h1, -⟩ := updateReduced_cholesky la fo rep { cfg with als_tol := tol, als_epsilon := ε } hb he hm hni hcut hatol
      a1r a2r n gate
    have hnz' : positiveApprox la 2 cfg.positive_approx_cutoff n = some nz' := hnz'
    obtain rfl : nz = nz' := Option.some.inj (hnz.symm.trans hnz')
    exact h1 ⟨r, hneg⟩

end reduced

namespace Spec

/-- The intended statement: for all tensors, networks, bonds, dimensions and settings (at least one iteration, a positive cutoff of the
norm, a small tolerance of the gauge fixing) there is a number `K` such that for every gate that does not annihilate the two-site tensor,
every tolerance and floating-point arithmetic of the stopping criterion and every `als_epsilon`, the tensors that an update returns multiply, up to a positive factor, to a two-site tensor as near to the gate-applied one as that of any
two site tensors with that bond dimension, up to the factor `K` and the multiple `K * als_epsilon` of the squared norm. -/
def FullUpdateQuasiOptimal (𝕜 : Type) [RCLike 𝕜] : Prop :=
  ∀ (P X F : Type) [Fintype P] [DecidableEq P] [Nonempty P] [Fintype X] (bD : ℕ) [NeZero bD] (la : Lapack 𝕜) (cfg : Settings F)
    (ipeps : NetT (Fin bD) P X 𝕜) (s1 s2 : Site) (k : ℤ) (a1 a2 : Fin bD → Fin bD → Fin bD → Fin bD → P → 𝕜),
    0 < cfg.als_niter → 0 < cfg.positive_approx_cutoff →
    (cfg.use_gauge_fix = true → cfg.gauge_fix_atol < Real.sqrt (cfg.positive_approx_cutoff * nD (Fin bD) P)) →
    ∃ K : ℝ, ∀ (fo : Als.FloatOps F) (rep : ℝ → F) (tol : F) (ε : ℝ) (gate : P → P → P → P → 𝕜),
      0 ≤ ε → gated gate (twoSite a1 a2) ≠ 0 → ∀ b1 b2,
      fullTensorUpdate la fo rep { cfg with als_tol := tol, als_epsilon := ε } ipeps s1 s2 k gate a1 a2 = some (.ok (b1, b2)) →
      ∃ κ : ℝ, 0 < κ ∧ ∀ c1 c2 : Fin bD → Fin bD → Fin bD → Fin bD → P → 𝕜,
        normSq8 (fun u r d l' u' d' p q => (κ : 𝕜) * twoSite b1 b2 u r d l' u' d' p q - gated gate (twoSite a1 a2) u r d l' u' d' p q) ≤
          K * (normSq8 (fun u r d l' u' d' p q => twoSite c1 c2 u r d l' u' d' p q - gated gate (twoSite a1 a2) u r d l' u' d' p q) +
            ε * normSq8 (gated gate (twoSite a1 a2)))

end Spec

section bond

variable {𝕜 : Type} [RCLike 𝕜] {P : Type} [Fintype P] [DecidableEq P] {bD : ℕ}

omit [DecidableEq P] [Fintype P] in
theorem assembled_sub {N : Type} [Fintype N] (q1 q2 : Fin bD → Fin bD → Fin bD → N → 𝕜) (κ : 𝕜) (s t : N → N → P → P → 𝕜) :
    assembled q1 q2 (fun y x p q => κ * s y x p q - t y x p q) =
      fun u r d l' u' d' p q => κ * assembled q1 q2 s u r d l' u' d' p q - assembled q1 q2 t u r d l' u' d' p q := by
  funext u r d l' u' d' p q
  unfold assembled
  rw [Finset.mul_sum, ← Finset.sum_sub_distrib]
  refine Finset.sum_congr rfl fun y _ => ?_
  rw [Finset.mul_sum, ← Finset.sum_sub_distrib]
  refine Finset.sum_congr rfl fun x _ => ?_
  ring

/-- Every pair of site tensors has a pair of reduced tensors that is at least as near to a target in the span of the isometric parts. -/
theorem reduced_nearer (la : Lapack 𝕜) (a1 a2 c1 c2 : ATensor (Fin bD) P 𝕜)
    (t : Fin (nD (Fin bD) P) → Fin (nD (Fin bD) P) → P → P → 𝕜) :
    ∃ b1 b2 : Fin (nD (Fin bD) P) → Fin bD → P → 𝕜,
      normSq4 (fun y x p q => pairProd b1 b2 y x p q - t y x p q) ≤
        normSq8 (fun u r d l' u' d' p q => twoSite c1 c2 u r d l' u' d' p q -
          assembled (decompose la a1 a2).a1q (decompose la a1 a2).a2q t u r d l' u' d' p q) := by
  have hiso := C30_isometric la a1 a2
  revert hiso
  generalize (decompose la a1 a2).a1q = q1
  generalize (decompose la a1 a2).a2q = q2
  intro hiso
  have h1 := outer_iso (P := P) q1 fun x y => (hiso x y).1
  have h2 := outer_iso (P := P) q2 fun x y => (hiso x y).2
  have h2' : (outer (P := P) q2)ᵀ * ((outer (P := P) q2)ᵀ)ᴴ = 1 := by
    have := congrArg Matrix.transpose h2
    rw [transpose_mul, transpose_one] at this
    rw [← this]
    rfl
  set C1 : Matrix ((Fin bD × Fin bD × Fin bD) × P) (Fin bD) 𝕜 := of fun i b => c1 b i.1.2.2 i.1.1 i.1.2.1 i.2 with hC1
  set C2 : Matrix (Fin bD) ((Fin bD × Fin bD × Fin bD) × P) 𝕜 := of fun b j => c2 j.1.2.1 j.1.2.2 b j.1.1 j.2 with hC2
  refine ⟨fun y u p => ((outer (P := P) q1)ᴴ * C1) (y, p) u, fun x u q => (C2 * ((outer (P := P) q2)ᵀ)ᴴ) u (x, q), ?_⟩
  rw [← frobSq_siteMat, ← frobSq_twoMat]
  have e1 : siteMat (fun y x p q => pairProd (fun y u p => ((outer (P := P) q1)ᴴ * C1) (y, p) u)
      (fun x u q => (C2 * ((outer (P := P) q2)ᵀ)ᴴ) u (x, q)) y x p q - t y x p q) =
      (outer (P := P) q1)ᴴ * twoMat (fun u r d l' u' d' p q => twoSite c1 c2 u r d l' u' d' p q -
          assembled q1 q2 t u r d l' u' d' p q) * ((outer (P := P) q2)ᵀ)ᴴ := by
    have e2 : twoMat (fun u r d l' u' d' p q => twoSite c1 c2 u r d l' u' d' p q - assembled q1 q2 t u r d l' u' d' p q) =
        C1 * C2 - outer q1 * siteMat t * (outer q2)ᵀ := by
      rw [← twoMat_twoSite, ← twoMat_assembled]
      rfl
    have e3 : siteMat (fun y x p q => pairProd (fun y u p => ((outer (P := P) q1)ᴴ * C1) (y, p) u)
        (fun x u q => (C2 * ((outer (P := P) q2)ᵀ)ᴴ) u (x, q)) y x p q - t y x p q) =
        ((outer (P := P) q1)ᴴ * C1) * (C2 * ((outer (P := P) q2)ᵀ)ᴴ) - siteMat t := by
      ext i j
      rw [Matrix.sub_apply, mul_apply]
      rfl
    rw [e2, e3, Matrix.mul_sub, Matrix.sub_mul]
    congr 1
    · simp only [Matrix.mul_assoc]
    · simp only [Matrix.mul_assoc]
      rw [h2', Matrix.mul_one, ← Matrix.mul_assoc, h1, Matrix.one_mul]
  rw [e1, ← frobSq_conjTranspose, conjTranspose_mul]
  refine le_trans (frobSq_isoH_mul_le _ ?_ _) ?_
  · rw [conjTranspose_conjTranspose]
    exact h2'
  · rw [frobSq_conjTranspose]
    exact frobSq_isoH_mul_le _ h1 _

end bond

/-- The factor by which normalising scales the contraction of two site tensors: positive, and up to it the contraction stays. -/
theorem normalise_scale {P : Type} [Fintype P] {bD : ℕ} (x1 x2 : ATensor (Fin bD) P ℝ) : ∃ z : ℝ, 0 < z ∧
    ∀ u r d l' u' d' p q, z * twoSite (normalise x1) (normalise x2) u r d l' u' d' p q = twoSite x1 x2 u r d l' u' d' p q := by
  by_cases h0 : twoSite x1 x2 = 0
  · refine ⟨1, one_pos, fun u r d l' u' d' p q => ?_⟩
    rw [twoSite_normalise, h0]
    simp
  · have n1 := normA_pos x1 fun h => h0 (by rw [h]; funext u r d l' u' d' p q; simp [twoSite])
    have n2 := normA_pos x2 fun h => h0 (by rw [h]; funext u r d l' u' d' p q; simp [twoSite])
    refine ⟨normA x1 * normA x2, mul_pos n1 n2, fun u r d l' u' d' p q => ?_⟩
    rw [twoSite_normalise]
    exact mul_inv_cancel_left₀ (mul_pos n1 n2).ne' _

section recomposed

variable {F P : Type} [Fintype P] [DecidableEq P] [Nonempty P] {bD : ℕ} [NeZero bD]

/-- The site tensors that belong to updated reduced tensors. -/
noncomputable def recomposed {𝕜 : Type} [RCLike 𝕜] (la : Lapack 𝕜) (a1 a2 : ATensor (Fin bD) P 𝕜)
    (o : Option (Except PyErr ((Fin (nD (Fin bD) P) → Fin bD → P → 𝕜) × (Fin (nD (Fin bD) P) → Fin bD → P → 𝕜)))) :
    Option (Except PyErr (ATensor (Fin bD) P 𝕜 × ATensor (Fin bD) P 𝕜)) :=
  o.map fun r => do
    let p ← r
    let (a1, a2) := recompose (decompose la a1 a2).a1q p.1 (decompose la a1 a2).a2q p.2
    return (normalise a1, normalise a2)

/-- The error of the site tensors, whatever the norm tensor is. -/
theorem recomposed_quasi (la : Lapack ℝ) (cfg : Settings F) (hni : 0 < cfg.als_niter) (hcut : 0 < cfg.positive_approx_cutoff)
    (hatol : cfg.use_gauge_fix = true → cfg.gauge_fix_atol < Real.sqrt (cfg.positive_approx_cutoff * nD (Fin bD) P))
    (n12 : Fin (nD (Fin bD) P) → Fin (nD (Fin bD) P) → Fin (nD (Fin bD) P) → Fin (nD (Fin bD) P) → ℝ) (a1 a2 : ATensor (Fin bD) P ℝ) :
    ∃ K : ℝ, 0 ≤ K ∧ ∀ (fo : Als.FloatOps F) (rep : ℝ → F) (tol : F) (ε : ℝ) (gate : P → P → P → P → ℝ),
      0 ≤ ε → gated gate (twoSite a1 a2) ≠ 0 → ∀ b1 b2,
      recomposed la a1 a2 (updateReduced la fo rep { cfg with als_tol := tol, als_epsilon := ε } bD_le (decompose la a1 a2).a1r
        (decompose la a1 a2).a2r n12 gate) = some (.ok (b1, b2)) →
      ∃ κ : ℝ, 0 < κ ∧ ∀ c1 c2 : ATensor (Fin bD) P ℝ,
        normSq8 (fun u r d l' u' d' p q => κ * twoSite b1 b2 u r d l' u' d' p q - gated gate (twoSite a1 a2) u r d l' u' d' p q) ≤
          K * (normSq8 (fun u r d l' u' d' p q => twoSite c1 c2 u r d l' u' d' p q - gated gate (twoSite a1 a2) u r d l' u' d' p q) +
            ε * normSq8 (gated gate (twoSite a1 a2))) := by
  obtain ⟨K, hK0, hK⟩ := C96_reduced (bD := bD) (P := P) la cfg bD_le hni hcut (by rw [Fintype.card_fin]; exact hatol) n12
  refine ⟨K, hK0, fun fo rep tol ε gate he hne b1 b2 hu => ?_⟩
  have hg := C30_gate la a1 a2 gate
  have hgne : gateReduced (decompose la a1 a2).a1r (decompose la a1 a2).a2r gate ≠ 0 := by
    intro h0
    apply hne
    rw [← hg, h0]
    funext u r d l' u' d' p q
    simp [assembled]
  unfold recomposed at hu
  cases hf : updateReduced la fo rep { cfg with als_tol := tol, als_epsilon := ε } bD_le (decompose la a1 a2).a1r (decompose la a1 a2).a2r
      n12 gate with
  | none => rw [hf] at hu; exact absurd hu (by simp)
  | some o =>
    cases o with
    | error e => rw [hf] at hu; exact absurd (Option.some.inj hu) (by simp [bind, Except.bind])
    | ok f =>
      rw [hf] at hu
      have hu : (Except.ok (normalise (recompose (decompose la a1 a2).a1q f.1 (decompose la a1 a2).a2q f.2).1,
        normalise (recompose (decompose la a1 a2).a1q f.1 (decompose la a1 a2).a2q f.2).2) : Except PyErr _) = .ok (b1, b2) :=
        Option.some.inj hu
      have hu := Except.ok.inj hu
      rw [show b1 = _ from (congrArg Prod.fst hu).symm, show b2 = _ from (congrArg Prod.snd hu).symm]
      obtain ⟨κ, hκ, herr⟩ := hK fo rep tol ε he _ _ gate hgne f hf
      obtain ⟨z, hz, ez⟩ := normalise_scale (recompose (decompose la a1 a2).a1q f.1 (decompose la a1 a2).a2q f.2).1
        (recompose (decompose la a1 a2).a1q f.1 (decompose la a1 a2).a2q f.2).2
      refine ⟨κ * z, mul_pos hκ hz, fun c1 c2 => ?_⟩
      obtain ⟨e1, e2, he12⟩ := reduced_nearer la a1 a2 c1 c2 (gateReduced (decompose la a1 a2).a1r (decompose la a1 a2).a2r gate)
      rw [hg] at he12
      have h1 := herr e1 e2
      rw [← normSq8_assembled la a1 a2, ← normSq8_assembled la a1 a2 (gateReduced _ _ _), assembled_sub, hg] at h1
      have h2 : (fun u r d l' u' d' p q => ((κ * z : ℝ) : ℝ) * twoSite
          (normalise (recompose (decompose la a1 a2).a1q f.1 (decompose la a1 a2).a2q f.2).1)
          (normalise (recompose (decompose la a1 a2).a1q f.1 (decompose la a1 a2).a2q f.2).2) u r d l' u' d' p q -
            gated gate (twoSite a1 a2) u r d l' u' d' p q) =
          fun u r d l' u' d' p q => κ * assembled (decompose la a1 a2).a1q (decompose la a1 a2).a2q (pairProd f.1 f.2) u r d l' u' d' p q -
            gated gate (twoSite a1 a2) u r d l' u' d' p q := by
        funext u r d l' u' d' p q
        rw [mul_assoc, ez, assembled_pair]
      refine le_trans (le_of_eq (congrArg normSq8 h2)) (h1.trans (mul_le_mul_of_nonneg_left ?_ hK0))
      linarith

/-- Updates that can be nearly exact return, whatever the norm tensor is. -/
theorem recomposed_returns (la : Lapack ℝ) (cfg : Settings F) (hni : 0 < cfg.als_niter) (hcut : 0 < cfg.positive_approx_cutoff)
    (hatol : cfg.use_gauge_fix = true → cfg.gauge_fix_atol < Real.sqrt (cfg.positive_approx_cutoff * nD (Fin bD) P))
    (n12 : Fin (nD (Fin bD) P) → Fin (nD (Fin bD) P) → Fin (nD (Fin bD) P) → Fin (nD (Fin bD) P) → ℝ) (a1 a2 : ATensor (Fin bD) P ℝ) :
    ∃ δ : ℝ, 0 < δ ∧ ∀ (fo : Als.FloatOps F) (rep : ℝ → F) (tol : F) (ε : ℝ) (gate : P → P → P → P → ℝ) (c1 c2 : ATensor (Fin bD) P ℝ),
      (0 ≤ ε ∧ ε ≤ δ ∧ cfg.als_method = .pinv ∨ 0 < ε ∧ cfg.als_method = .cholesky) →
      normSq8 (fun u r d l' u' d' p q => twoSite c1 c2 u r d l' u' d' p q - gated gate (twoSite a1 a2) u r d l' u' d' p q) <
        δ * normSq8 (gated gate (twoSite a1 a2)) →
      ∃ b1 b2, recomposed la a1 a2 (updateReduced la fo rep { cfg with als_tol := tol, als_epsilon := ε } bD_le (decompose la a1 a2).a1r
        (decompose la a1 a2).a2r n12 gate) = some (.ok (b1, b2)) ∧ twoSite b1 b2 ≠ 0 := by
  obtain ⟨δ, hδ, hret⟩ := C96_reduced_returns (bD := bD) (P := P) la cfg bD_le hni hcut (by rw [Fintype.card_fin]; exact hatol) n12
  refine ⟨δ, hδ, fun fo rep tol ε gate c1 c2 hor hsmall => ?_⟩
  have hg := C30_gate la a1 a2 gate
  obtain ⟨e1, e2, he12⟩ := reduced_nearer la a1 a2 c1 c2 (gateReduced (decompose la a1 a2).a1r (decompose la a1 a2).a2r gate)
  rw [hg] at he12
  have hlt := he12.trans_lt hsmall
  rw [← hg, normSq8_assembled] at hlt
  obtain ⟨f, hf, hf0⟩ := hret fo rep tol ε hor _ _ e1 e2 gate hlt
  unfold recomposed
  rw [hf]
  refine ⟨normalise (recompose (decompose la a1 a2).a1q f.1 (decompose la a1 a2).a2q f.2).1,
    normalise (recompose (decompose la a1 a2).a1q f.1 (decompose la a1 a2).a2q f.2).2, rfl, fun h0 => hf0 ?_⟩
  obtain ⟨z, hz, ez⟩ := normalise_scale (recompose (decompose la a1 a2).a1q f.1 (decompose la a1 a2).a2q f.2).1
    (recompose (decompose la a1 a2).a1q f.1 (decompose la a1 a2).a2q f.2).2
  have h1 : twoSite (recompose (decompose la a1 a2).a1q f.1 (decompose la a1 a2).a2q f.2).1
      (recompose (decompose la a1 a2).a1q f.1 (decompose la a1 a2).a2q f.2).2 = 0 := by
    funext u r d l' u' d' p q
    rw [← ez, h0]
    simp
  have h2 := normSq8_assembled la a1 a2 (pairProd f.1 f.2)
  rw [← assembled_pair, h1, normSq8_zero, ← frobSq_siteMat] at h2
  have h3 := (frobSq_eq_zero _).1 h2.symm
  funext y x p q
  exact congrFun (congrFun h3 (y, p)) (x, q)

end recomposed

/-- **C96** for real dtypes: the factor depends on the bond, its boundary tensors and the settings only. -/
theorem C96_real_partial : Spec.FullUpdateQuasiOptimal ℝ := by
  intro P X F _ _ _ _ bD _ la cfg ipeps s1 s2 k a1 a2 hni hcut hatol
  obtain ⟨K, -, hK⟩ := recomposed_quasi la cfg hni hcut hatol
    (buildNormTensor ipeps s1 s2 k (decompose la a1 a2).a1q (decompose la a1 a2).a2q) a1 a2
  exact ⟨K, fun fo rep tol ε gate he hne b1 b2 hu => hK fo rep tol ε gate he hne b1 b2 hu⟩

/-- **C96 (the update returns).** For real dtypes there is for every bond and every environment a positive number `δ` such that for every
gate for which some two site tensors reach a relative squared error below `δ`, the update returns site tensors that are not zero (the
norms that it divides by are positive). -/
theorem C96_returns {F P X : Type} [Fintype P] [DecidableEq P] [Nonempty P] [Fintype X] {bD : ℕ} [NeZero bD] (la : Lapack ℝ)
    (cfg : Settings F) (ipeps : NetT (Fin bD) P X ℝ) (s1 s2 : Site) (k : ℤ) (a1 a2 : ATensor (Fin bD) P ℝ)
    (hni : 0 < cfg.als_niter) (hcut : 0 < cfg.positive_approx_cutoff)
    (hatol : cfg.use_gauge_fix = true → cfg.gauge_fix_atol < Real.sqrt (cfg.positive_approx_cutoff * nD (Fin bD) P)) :
    ∃ δ : ℝ, 0 < δ ∧ ∀ (fo : Als.FloatOps F) (rep : ℝ → F) (tol : F) (ε : ℝ) (gate : P → P → P → P → ℝ) (c1 c2 : ATensor (Fin bD) P ℝ),
      (0 ≤ ε ∧ ε ≤ δ ∧ cfg.als_method = .pinv ∨ 0 < ε ∧ cfg.als_method = .cholesky) →
      normSq8 (fun u r d l' u' d' p q => twoSite c1 c2 u r d l' u' d' p q - gated gate (twoSite a1 a2) u r d l' u' d' p q) <
        δ * normSq8 (gated gate (twoSite a1 a2)) →
      ∃ b1 b2, fullTensorUpdate la fo rep { cfg with als_tol := tol, als_epsilon := ε } ipeps s1 s2 k gate a1 a2 = some (.ok (b1, b2)) ∧
        twoSite b1 b2 ≠ 0 := by
  obtain ⟨δ, hδ, h⟩ := recomposed_returns la cfg hni hcut hatol
    (buildNormTensor ipeps s1 s2 k (decompose la a1 a2).a1q (decompose la a1 a2).a2q) a1 a2
  exact ⟨δ, hδ, fun fo rep tol ε gate c1 c2 hor hs => h fo rep tol ε gate c1 c2 hor hs⟩

/-- **C96** is violated for complex dtypes: the tensors of `C39_violated_complex` fit exactly, and the update returns zero. -/
theorem C96_violated : ¬ Spec.FullUpdateQuasiOptimal ℂ := by
  intro h
  obtain ⟨la⟩ := nonempty_lapack (𝕜 := ℂ)
  let fo : Als.FloatOps Unit := ⟨fun _ _ => (), fun _ => (), fun _ _ => (), fun _ _ => false⟩
  let cfg : Settings Unit := ⟨true, 1e-12, 1e-12, 1, (), .pinv, 0⟩
  let ipeps : NetT (Fin 1) (Fin 2) (Fin 1) ℂ := fun _ => ⟨upSite, fun _ _ _ => 1, fun _ _ _ _ _ => 1⟩
  obtain ⟨hid, -⟩ := C39_identity_gate upSite ySite idGate fun _ _ _ _ => rfl
  have hne : twoSite upSite ySite ≠ 0 := by
    intro h0
    have := congrFun (congrFun (congrFun (congrFun (congrFun (congrFun (congrFun (congrFun h0 0) 0) 0) 0) 0) 0) 0) 0
    simp [twoSite, upSite, ySite] at this
  obtain ⟨K, hK⟩ := h (Fin 2) (Fin 1) Unit 1 la cfg ipeps (0, 0) (1, 0) 2 upSite ySite (by decide) (by norm_num [cfg]) (fun _ => by
    rw [Real.lt_sqrt (by norm_num [cfg])]
    norm_num [cfg, nD])
  obtain ⟨⟨b1, b2⟩, hb⟩ := C39_returns la fo (fun _ => ()) cfg rfl ipeps (0, 0) (1, 0) 2 idGate upSite ySite
  obtain ⟨-, hz⟩ := C39_violated_complex la fo (fun _ => ()) cfg (by decide) ipeps (0, 0) (1, 0) 2
  obtain ⟨z1, z2⟩ := hz b1 b2 hb
  obtain ⟨κ, hκ, hall⟩ := hK fo (fun _ => ()) () 0 idGate le_rfl (by rw [hid]; exact hne) b1 b2 hb
  have h1 := hall upSite ySite
  rw [hid, z1, z2] at h1
  have h2 : normSq8 (fun u r d l' u' d' p q => twoSite upSite ySite u r d l' u' d' p q - twoSite upSite ySite u r d l' u' d' p q) = 0 := by
    simp [normSq8]
  rw [h2, zero_mul, add_zero, mul_zero] at h1
  unfold normSq8 at h1
  simp only [Finset.univ_unique, Finset.sum_singleton, Fin.default_eq_zero, Fin.sum_univ_two, twoSite, upSite, ySite] at h1
  norm_num at h1


/-- The hypotheses are met, with gauge fixing and the default settings, by a product state and a gate that entangles it so that the
gate-applied two-site tensor does not fit into the bond dimension: with the default solver the error of every update that returns is
bounded by a multiple of the error of the best product state and of `als_epsilon`. -/
example {X : Type} [Fintype X] (la : Lapack ℝ) (ipeps : NetT (Fin 1) (Fin 2) X ℝ) (s1 s2 : Site) (k : ℤ) :
    ∃ (a1 a2 : ATensor (Fin 1) (Fin 2) ℝ) (gate : Fin 2 → Fin 2 → Fin 2 → Fin 2 → ℝ) (K : ℝ), ¬ Fits (gated gate (twoSite a1 a2)) ∧
      ∀ (fo : Als.FloatOps ℝ) (rep : ℝ → ℝ) (tol ε : ℝ), 0 < ε → ∀ b1 b2,
        fullTensorUpdate la fo rep ⟨true, 1e-12, 1e-12, 100, tol, .cholesky, ε⟩ ipeps s1 s2 k gate a1 a2 = some (.ok (b1, b2)) →
        ∃ κ : ℝ, 0 < κ ∧ ∀ c1 c2 : ATensor (Fin 1) (Fin 2) ℝ, normSq8 (fun u r d l' u' d' p q =>
          κ * twoSite b1 b2 u r d l' u' d' p q - gated gate (twoSite a1 a2) u r d l' u' d' p q) ≤
          K * (normSq8 (fun u r d l' u' d' p q => twoSite c1 c2 u r d l' u' d' p q - gated gate (twoSite a1 a2) u r d l' u' d' p q) +
            ε * normSq8 (gated gate (twoSite a1 a2))) := by
  have hT : ∀ p q, gated (fun _ _ r s : Fin 2 => if r = s then (1 : ℝ) else 0)
      (twoSite (fun _ _ _ _ _ => (1 : ℝ)) fun _ _ _ _ _ => 1) (0 : Fin 1) 0 0 0 0 0 p q = if p = q then 4 else 0 := by
    intro p q
    unfold gated twoSite
    fin_cases p <;> fin_cases q <;> norm_num [Fin.sum_univ_two]
  obtain ⟨K, hK⟩ := C96_real_partial (Fin 2) X ℝ 1 la ⟨true, 1e-12, 1e-12, 100, (0 : ℝ), .cholesky, 1⟩ ipeps s1 s2 k
    (fun _ _ _ _ _ => 1) (fun _ _ _ _ _ => 1) (by norm_num) (by norm_num) (fun _ => by
      rw [Real.lt_sqrt (by norm_num)]
      norm_num [nD])
  refine ⟨_, _, fun _ _ r s => if r = s then 1 else 0, K, ?_, fun fo rep tol ε he b1 b2 hu =>
    hK fo rep tol ε _ he.le ?_ b1 b2 hu⟩
  · rintro ⟨c1, c2, hc⟩
    have e : ∀ p q, c1 0 0 0 0 p * c2 0 0 0 0 q = if p = q then 4 else 0 := by
      intro p q
      rw [← hT p q, ← hc]
      simp [twoSite]
    have e1 := e 0 0
    have e2 := e 0 1
    have e3 := e 1 1
    simp only [if_true, if_neg (show (0 : Fin 2) ≠ 1 by decide)] at e1 e2 e3
    rcases mul_eq_zero.1 e2 with h | h
    · rw [h, zero_mul] at e1
      norm_num at e1
    · rw [h, mul_zero] at e3
      norm_num at e3
  · intro h0
    have := hT 0 0
    rw [h0] at this
    norm_num at this

/-- The hypotheses of `C96_returns` are met whatever `δ` is by the identity gate. -/
example {P : Type} [Fintype P] [DecidableEq P] {bD : ℕ} (a1 a2 : ATensor (Fin bD) P ℝ) (hne : 0 < normSq8 (twoSite a1 a2)) (δ : ℝ)
    (hδ : 0 < δ) : ∃ c1 c2 : ATensor (Fin bD) P ℝ,
      normSq8 (fun u r d l' u' d' p q => twoSite c1 c2 u r d l' u' d' p q -
        gated (fun p q r s => if p = r ∧ q = s then 1 else 0) (twoSite a1 a2) u r d l' u' d' p q) <
        δ * normSq8 (gated (fun p q r s => if p = r ∧ q = s then 1 else 0) (twoSite a1 a2)) := by
  obtain ⟨hid, -⟩ := C39_identity_gate a1 a2 (fun p q r s => if p = r ∧ q = s then 1 else 0) fun _ _ _ _ => rfl
  refine ⟨a1, a2, ?_⟩
  rw [hid]
  have h2 : normSq8 (fun u r d l' u' d' p q => twoSite a1 a2 u r d l' u' d' p q - twoSite a1 a2 u r d l' u' d' p q) = 0 := by
    simp [normSq8]
  rw [h2]
  exact mul_pos hδ hne

end AceTN
