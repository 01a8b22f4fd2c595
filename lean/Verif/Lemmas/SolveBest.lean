import Verif.Props.AlsOptimal
import Verif.Props.FullUpdateExact
import Verif.Props.FullUpdateComplex

/-!
What the whole reduced update without regularisation of the solver minimises.
-/

set_option autoImplicit false
set_option linter.unusedSectionVars false

namespace AceTN

open Spec Full Matrix

variable {𝕜 F : Type} [RCLike 𝕜] {N P : Type} [Fintype N] [Fintype P] [DecidableEq N] [DecidableEq P] {bD : ℕ}

theorem torchLoop_first {Q F : Type} (fo : Als.FloatOps F) (half : Q → Except PyErr Q) (rep : Q → F) (tol : F) (I : Q → Prop) (q : Q)
    (h0 : ∀ q', half q = .ok q' → I q') (hI : ∀ q q', I q → half q = .ok q' → I q') (fuel i : ℕ) (q' : Q) (d : F)
    (h : Als.torchLoop fo half rep tol (fuel + 1) i q d = .ok q') : I q' := by
  rw [Als.torchLoop] at h
  cases hq : half q with
  | error e => rw [hq] at h; exact absurd h (by simp [bind, Except.bind])
  | ok q1 =>
    rw [hq] at h
    simp only [bind, Except.bind] at h
    split at h
    · have h : (Except.ok q1 : Except PyErr Q) = .ok q' := h
      rw [← Except.ok.inj h]
      exact h0 _ hq
    · exact torchLoop_inv fo half rep tol I hI _ _ _ _ _ (h0 _ hq) h

/-- The solver without regularisation: the pair it returns is at least as good as every pair whose second tensor is the one the
solver starts from, and has the best second tensor for its first one. -/
theorem alsSolve_best (la : Lapack 𝕜) (fo : Als.FloatOps F) (rep : ℝ → F) (cfg : Settings F) (he : cfg.als_epsilon = 0)
    (hn : 0 < cfg.als_niter) (hb : bD ≤ min (Fintype.card (N × P)) (Fintype.card (N × P))) (n : N → N → N → N → 𝕜)
    (hN : (normMat n).IsHermitian) (hp : AtLeast (normMat n) 0) (g : N → N → P → P → 𝕜)
    (p : (N → Fin bD → P → 𝕜) × (N → Fin bD → P → 𝕜)) (h : alsSolve la fo rep cfg hb n g = .ok p) :
    (∀ r1, cost p.1 p.2 g n ≤ cost r1 (initReduced la hb g).2 g n) ∧ ∀ r2, cost p.1 p.2 g n ≤ cost p.1 r2 g n := by
  unfold alsSolve Als.solveTorch at h
  obtain ⟨k, hk⟩ := Nat.exists_eq_succ_of_ne_zero hn.ne'
  rw [hk, he] at h
  refine torchLoop_first fo _ _ cfg.als_tol (fun p : (N → Fin bD → P → 𝕜) × (N → Fin bD → P → 𝕜) =>
    (∀ r1, cost p.1 p.2 g n ≤ cost r1 (initReduced la hb g).2 g n) ∧ ∀ r2, cost p.1 p.2 g n ≤ cost p.1 r2 g n) _ ?_ ?_ _ _ _ _ h
  · intro q hq
    obtain ⟨h1, h2⟩ := alsPass_ok la 0 cfg.als_method n _ _ _ hq
    have s := C35_second_partial la 0 cfg.als_method n hN hp g _ _ (.inl rfl) h2
    exact ⟨fun r1 => (s _).trans (C35_first_partial la 0 cfg.als_method n hN hp g _ _ (.inl rfl) h1 r1), s⟩
  · intro q q' hq hq'
    obtain ⟨h1, h2⟩ := alsPass_ok la 0 cfg.als_method n _ _ _ hq'
    have s := C35_second_partial la 0 cfg.als_method n hN hp g _ _ (.inl rfl) h2
    exact ⟨fun r1 => ((s _).trans (C35_first_partial la 0 cfg.als_method n hN hp g _ _ (.inl rfl) h1 _)).trans (hq.1 r1), s⟩

/-- The pair that the solver starts from, full_update.py 100-118: without gauge fixing the split of the gate-applied tensor, with
gauge fixing the split of the gate-applied tensor in the gauge, brought back. -/
noncomputable def startPair [Nonempty N] (la : Lapack 𝕜) (cfg : Settings F) (hb : bD ≤ Fintype.card (N × P))
    (nz : N → N → Fin (Fintype.card (N × N)) → 𝕜) (g : N → N → P → P → 𝕜) : (N → Fin bD → P → 𝕜) × (N → Fin bD → P → 𝕜) :=
  if cfg.use_gauge_fix then
    undoGauge (gaugeFix la cfg.gauge_fix_atol nz g).nzyr_inv (gaugeFix la cfg.gauge_fix_atol nz g).nzxr_inv
      (initReduced la (hb_init (hb_gauge hb)) (gaugeFix la cfg.gauge_fix_atol nz g).a12g)
  else initReduced la (hb_init hb) g

/-- Finalising rescales the product. -/
theorem finalize_scale (la : Lapack 𝕜) (hb : bD ≤ min (Fintype.card (Fin (qD N P bD))) (Fintype.card (Fin (qD N P bD))))
    (a1r a2r : N → Fin bD → P → 𝕜) : ∃ κ : ℝ, 0 < κ ∧ ∀ y x p q,
      pairProd (finalizeCore la hb a1r a2r).1 (finalizeCore la hb a1r a2r).2 y x p q = (κ : 𝕜) * pairProd a1r a2r y x p q := by
  by_cases h0 : pairProd a1r a2r = 0
  · refine ⟨1, one_pos, fun y x p q => ?_⟩
    obtain ⟨Q1, Q2, U, s, Vh, hQ1, hQ2, hU, hV, hs0, hss, hm, hf1, hf2⟩ := fin_spec la hb a1r a2r
    have hn : normSq4 (pairProd a1r a2r) = ∑ j, s j ^ 2 := by
      rw [← frobSq_siteMat, hm, frobSq_mul_transpose _ _ hQ2, frobSq_iso_mul _ hQ1, frobSq_usv _ _ _ hU hV]
    have h1 : ∑ j, s j ^ 2 = 0 := by
      rw [← hn, h0]
      simp [normSq4]
    rw [h1, Real.sqrt_zero] at hf1 hf2
    rw [h0]
    unfold pairProd
    rw [Finset.sum_eq_zero]
    · simp
    · intro u _
      rw [hf1]
      simp
  · obtain ⟨hpos, hprod, -⟩ := C38_finalize la hb a1r a2r h0
    exact ⟨_, inv_pos.2 (Real.sqrt_pos.2 hpos), hprod⟩

/-- The reduced update without regularisation of the solver. -/
theorem updateReduced_best [Nonempty N] (la : Lapack 𝕜) (fo : Als.FloatOps F) (rep : ℝ → F) (cfg : Settings F)
    (hb : bD ≤ Fintype.card (N × P)) (he : cfg.als_epsilon = 0) (hn : 0 < cfg.als_niter) (hcut : 0 < cfg.positive_approx_cutoff)
    (hatol : cfg.use_gauge_fix = true → cfg.gauge_fix_atol < Real.sqrt (cfg.positive_approx_cutoff * Fintype.card N))
    (a1r a2r : N → Fin bD → P → 𝕜) (n : N → N → N → N → 𝕜) (gate : P → P → P → P → 𝕜)
    (f : (N → Fin bD → P → 𝕜) × (N → Fin bD → P → 𝕜)) (h : updateReduced la fo rep cfg hb a1r a2r n gate = some (.ok f)) :
    ∃ nz, positiveApprox la 2 cfg.positive_approx_cutoff n = some nz ∧ ∃ p : (N → Fin bD → P → 𝕜) × (N → Fin bD → P → 𝕜),
      (∃ κ : ℝ, 0 < κ ∧ ∀ y x q q', pairProd f.1 f.2 y x q q' = (κ : 𝕜) * pairProd p.1 p.2 y x q q') ∧
      (∀ r1, cost p.1 p.2 (gateReduced a1r a2r gate) (squareNorm nz) ≤
        cost r1 (startPair la cfg hb nz (gateReduced a1r a2r gate)).2 (gateReduced a1r a2r gate) (squareNorm nz)) ∧
      ∀ r2, cost p.1 p.2 (gateReduced a1r a2r gate) (squareNorm nz) ≤ cost p.1 r2 (gateReduced a1r a2r gate) (squareNorm nz) := by
  unfold updateReduced at h
  obtain ⟨nz, hnz⟩ := Option.isSome_iff_exists.1 (C33_terminates la cfg.positive_approx_cutoff 0 n)
  have hnz : positiveApprox la 2 cfg.positive_approx_cutoff n = some nz := hnz
  refine ⟨nz, hnz, ?_⟩
  generalize gateReduced a1r a2r gate = g at h ⊢
  rw [hnz] at h
  have h := Option.some.inj h
  dsimp only at h
  by_cases hgf : cfg.use_gauge_fix = true
  · rw [if_pos hgf] at h
    obtain ⟨_, -, -, -, hp, -⟩ := C33_result la _ hcut.le 0 n nz hnz
    obtain ⟨c1, c2, -⟩ := C34_gauge_fix (B := Fin bD) la _ _ hcut (hatol hgf) 0 n nz hnz g
    obtain ⟨i1, i2, i3, i4⟩ := C34_invertible la _ _ hcut (hatol hgf) nz hp
    unfold startPair
    rw [if_pos hgf]
    cases hs : alsSolve la fo rep cfg (hb_init (hb_gauge hb)) (gaugeFix la cfg.gauge_fix_atol nz g).n12
        (gaugeFix la cfg.gauge_fix_atol nz g).a12g with
    | error e => rw [hs] at h; exact absurd h (by simp [bind, Except.bind])
    | ok q =>
      rw [hs] at h
      have h : (Except.ok _ : Except PyErr _) = .ok f := h
      have h := Except.ok.inj h
      have hN := gaugeFix_n12 la cfg.gauge_fix_atol nz g
      obtain ⟨b1, b2⟩ := alsSolve_best la fo rep cfg he hn _ _ (by rw [hN]; exact squareNorm_herm _)
        (by rw [hN]; exact squareNorm_psd _) _ q hs
      refine ⟨undoGauge (gaugeFix la cfg.gauge_fix_atol nz g).nzyr_inv (gaugeFix la cfg.gauge_fix_atol nz g).nzxr_inv q, ?_, ?_, ?_⟩
      · rw [← h]
        exact finalize_scale la (hb_fin hb) _ _
      · intro r1
        obtain ⟨b, hb', -⟩ := c2 (r1, 0)
        rw [← c1]
        have e := c1 (b.1, (initReduced la (hb_init (hb_gauge hb)) (gaugeFix la cfg.gauge_fix_atol nz g).a12g).2)
        have e1 : (undoGauge (gaugeFix la cfg.gauge_fix_atol nz g).nzyr_inv (gaugeFix la cfg.gauge_fix_atol nz g).nzxr_inv
            (b.1, (initReduced la (hb_init (hb_gauge hb)) (gaugeFix la cfg.gauge_fix_atol nz g).a12g).2)).1 = r1 :=
          congrArg Prod.fst hb'
        rw [e1] at e
        exact (b1 b.1).trans e.le
      · intro r2
        obtain ⟨b, hb', -⟩ := c2 (0, r2)
        rw [← c1]
        have e := c1 (q.1, b.2)
        have e1 : (undoGauge (gaugeFix la cfg.gauge_fix_atol nz g).nzyr_inv (gaugeFix la cfg.gauge_fix_atol nz g).nzxr_inv
            (q.1, b.2)).2 = r2 := congrArg Prod.snd hb'
        rw [e1] at e
        exact (b2 b.2).trans e.le
  · rw [if_neg hgf] at h
    unfold startPair
    rw [if_neg hgf]
    cases hs : alsSolve la fo rep cfg (hb_init hb) (squareNorm nz) g with
    | error e => rw [hs] at h; exact absurd h (by simp [bind, Except.bind])
    | ok q =>
      rw [hs] at h
      have h : (Except.ok _ : Except PyErr _) = .ok f := h
      have h := Except.ok.inj h
      obtain ⟨b1, b2⟩ := alsSolve_best la fo rep cfg he hn _ _ (squareNorm_herm nz) (squareNorm_psd nz) _ q hs
      refine ⟨q, ?_, b1, b2⟩
      rw [← h]
      exact finalize_scale la (hb_fin hb) _ _

end AceTN
