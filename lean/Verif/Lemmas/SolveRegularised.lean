import Verif.Lemmas.SolveBest

/-!
What the whole reduced update with a regularised solver minimises.
-/

set_option autoImplicit false
set_option linter.unusedSectionVars false

namespace AceTN

open Spec Full Matrix

variable {𝕜 F : Type} [RCLike 𝕜] {N P : Type} [Fintype N] [Fintype P] [DecidableEq N] [DecidableEq P] {bD : ℕ}

/-- The size of a second tensor as the solver sees it: in the gauge, if the gauge is fixed. -/
noncomputable def regSize (la : Lapack 𝕜) (cfg : Settings F) (nz : N → N → Fin (Fintype.card (N × N)) → 𝕜)
    (r2 : N → Fin bD → P → 𝕜) : ℝ :=
  if cfg.use_gauge_fix then ∑ p, ∑ i : Fin (wD N (Fin (Fintype.card (N × N)))) × Fin bD, ‖∑ x, nzxrOf la nz i.1 x * r2 x i.2 p‖ ^ 2
  else ∑ p, ∑ i : N × Fin bD, ‖r2 i.1 i.2 p‖ ^ 2

/-- The largest entry of the matrix of the second half-step. -/
noncomputable def regStrength (la : Lapack 𝕜) (cfg : Settings F) (nz : N → N → Fin (Fintype.card (N × N)) → 𝕜)
    (g : N → N → P → P → 𝕜) (p1 : N → Fin bD → P → 𝕜) : ℝ :=
  if cfg.use_gauge_fix then
    absMax (asSq (buildR2 (gaugeFix la cfg.gauge_fix_atol nz g).n12 fun z u p => ∑ y, nzyrOf la nz z y * p1 y u p))
  else absMax (asSq (buildR2 (squareNorm nz) p1))

theorem regStrength_nonneg (la : Lapack 𝕜) (cfg : Settings F) (nz : N → N → Fin (Fintype.card (N × N)) → 𝕜)
    (g : N → N → P → P → 𝕜) (p1 : N → Fin bD → P → 𝕜) : 0 ≤ regStrength la cfg nz g p1 := by
  unfold regStrength
  split <;> exact absMax_nonneg _

theorem regSize_nonneg (la : Lapack 𝕜) (cfg : Settings F) (nz : N → N → Fin (Fintype.card (N × N)) → 𝕜)
    (r2 : N → Fin bD → P → 𝕜) : 0 ≤ regSize la cfg nz r2 := by
  unfold regSize
  split <;> exact Finset.sum_nonneg fun _ _ => Finset.sum_nonneg fun _ _ => by positivity

/-- The solver with the Cholesky method: the second tensor it returns is the best one for the first, up to the regularisation. -/
theorem alsSolve_regularised (la : Lapack 𝕜) (fo : Als.FloatOps F) (rep : ℝ → F) (cfg : Settings F) (he : 0 ≤ cfg.als_epsilon)
    (hm : cfg.als_method = .cholesky) (hn : 0 < cfg.als_niter) (hb : bD ≤ min (Fintype.card (N × P)) (Fintype.card (N × P)))
    (n : N → N → N → N → 𝕜) (hN : (normMat n).IsHermitian) (hp : AtLeast (normMat n) 0) (g : N → N → P → P → 𝕜)
    (p : (N → Fin bD → P → 𝕜) × (N → Fin bD → P → 𝕜)) (h : alsSolve la fo rep cfg hb n g = .ok p) :
    ∀ r2, cost p.1 p.2 g n + cfg.als_epsilon * absMax (asSq (buildR2 n p.1)) * ∑ k, ∑ i : N × Fin bD, ‖p.2 i.1 i.2 k‖ ^ 2 ≤
      cost p.1 r2 g n + cfg.als_epsilon * absMax (asSq (buildR2 n p.1)) * ∑ k, ∑ i : N × Fin bD, ‖r2 i.1 i.2 k‖ ^ 2 := by
  unfold alsSolve Als.solveTorch at h
  obtain ⟨k, hk⟩ := Nat.exists_eq_succ_of_ne_zero hn.ne'
  rw [hk, hm] at h
  have step : ∀ q q' : (N → Fin bD → P → 𝕜) × (N → Fin bD → P → 𝕜), alsPass la cfg.als_epsilon n (n12gOf n g) .cholesky q = .ok q' → _ := fun q q' hq =>
    C35_second_regularised_partial la cfg.als_epsilon he n hN hp g _ _ (alsPass_ok la cfg.als_epsilon .cholesky n _ _ _ hq).2
  exact torchLoop_first fo _ _ cfg.als_tol (fun p : (N → Fin bD → P → 𝕜) × (N → Fin bD → P → 𝕜) => ∀ r2,
    cost p.1 p.2 g n + cfg.als_epsilon * absMax (asSq (buildR2 n p.1)) * ∑ k, ∑ i : N × Fin bD, ‖p.2 i.1 i.2 k‖ ^ 2 ≤
      cost p.1 r2 g n + cfg.als_epsilon * absMax (asSq (buildR2 n p.1)) * ∑ k, ∑ i : N × Fin bD, ‖r2 i.1 i.2 k‖ ^ 2) _
    (fun q hq => step _ _ hq) (fun q q' _ hq => step _ _ hq) _ _ _ _ h

/-- The reduced update with the Cholesky method. -/
theorem updateReduced_regularised [Nonempty N] (la : Lapack 𝕜) (fo : Als.FloatOps F) (rep : ℝ → F) (cfg : Settings F)
    (hb : bD ≤ Fintype.card (N × P)) (he : 0 ≤ cfg.als_epsilon) (hm : cfg.als_method = .cholesky) (hn : 0 < cfg.als_niter)
    (hcut : 0 < cfg.positive_approx_cutoff)
    (hatol : cfg.use_gauge_fix = true → cfg.gauge_fix_atol < Real.sqrt (cfg.positive_approx_cutoff * Fintype.card N))
    (a1r a2r : N → Fin bD → P → 𝕜) (n : N → N → N → N → 𝕜) (gate : P → P → P → P → 𝕜)
    (f : (N → Fin bD → P → 𝕜) × (N → Fin bD → P → 𝕜)) (h : updateReduced la fo rep cfg hb a1r a2r n gate = some (.ok f)) :
    ∃ nz, positiveApprox la 2 cfg.positive_approx_cutoff n = some nz ∧ ∃ p : (N → Fin bD → P → 𝕜) × (N → Fin bD → P → 𝕜),
      (∃ κ : ℝ, 0 < κ ∧ ∀ y x q q', pairProd f.1 f.2 y x q q' = (κ : 𝕜) * pairProd p.1 p.2 y x q q') ∧
      ∀ r2, cost p.1 p.2 (gateReduced a1r a2r gate) (squareNorm nz) +
          cfg.als_epsilon * regStrength la cfg nz (gateReduced a1r a2r gate) p.1 * regSize la cfg nz p.2 ≤
        cost p.1 r2 (gateReduced a1r a2r gate) (squareNorm nz) +
          cfg.als_epsilon * regStrength la cfg nz (gateReduced a1r a2r gate) p.1 * regSize la cfg nz r2 := by
  unfold updateReduced at h
  obtain ⟨nz, hnz⟩ := Option.isSome_iff_exists.1 (C33_terminates la cfg.positive_approx_cutoff 0 n)
  have hnz : positiveApprox la 2 cfg.positive_approx_cutoff n = some nz := hnz
  refine ⟨nz, hnz, ?_⟩
  generalize gateReduced a1r a2r gate = g at h ⊢
  rw [hnz] at h
  have h := Option.some.inj h
  dsimp only at h
  by_cases hgf : cfg.use_gauge_fix = true
  · rw [if_pos hgf] at h
    obtain ⟨_, -, -, -, hp, -⟩ := C33_result la _ hcut.le 0 n nz hnz
    obtain ⟨c1, c2, -⟩ := C34_gauge_fix (B := Fin bD) la _ _ hcut (hatol hgf) 0 n nz hnz g
    obtain ⟨i1, i2, i3, i4⟩ := C34_invertible la _ _ hcut (hatol hgf) nz hp
    unfold regStrength regSize
    simp only [if_pos hgf]
    cases hs : alsSolve la fo rep cfg (hb_init (hb_gauge hb)) (gaugeFix la cfg.gauge_fix_atol nz g).n12
        (gaugeFix la cfg.gauge_fix_atol nz g).a12g with
    | error e => rw [hs] at h; exact absurd h (by simp [bind, Except.bind])
    | ok q =>
      rw [hs] at h
      have h : (Except.ok _ : Except PyErr _) = .ok f := h
      have h := Except.ok.inj h
      have hN := gaugeFix_n12 la cfg.gauge_fix_atol nz g
      have b2 := alsSolve_regularised la fo rep cfg he hm hn _ _ (by rw [hN]; exact squareNorm_herm _)
        (by rw [hN]; exact squareNorm_psd _) _ q hs
      have back : ∀ (M : Matrix (Fin (wD N (Fin (Fintype.card (N × N))))) N 𝕜) (T : Matrix N (Fin (wD N (Fin (Fintype.card (N × N))))) 𝕜),
          M * T = 1 → ∀ (b : Fin (wD N (Fin (Fintype.card (N × N)))) → Fin bD → P → 𝕜) z u p,
          ∑ y, M z y * ∑ w, T y w * b w u p = b z u p := by
        intro M T hMT b z u p
        have := congrFun (congrArg (fun X => X *ᵥ fun z => b z u p) hMT) z
        simp only [one_mulVec, ← mulVec_mulVec] at this
        exact this
      refine ⟨undoGauge (gaugeFix la cfg.gauge_fix_atol nz g).nzyr_inv (gaugeFix la cfg.gauge_fix_atol nz g).nzxr_inv q, ?_, ?_⟩
      · rw [← h]
        exact finalize_scale la (hb_fin hb) _ _
      · intro r2
        obtain ⟨b, hb', -⟩ := c2 (0, r2)
        rw [← c1]
        have e := c1 (q.1, b.2)
        have e1 : (undoGauge (gaugeFix la cfg.gauge_fix_atol nz g).nzyr_inv (gaugeFix la cfg.gauge_fix_atol nz g).nzxr_inv
            (q.1, b.2)).2 = r2 := congrArg Prod.snd hb'
        have f1 : (fun z u p => ∑ y, nzyrOf la nz z y * (undoGauge (gaugeFix la cfg.gauge_fix_atol nz g).nzyr_inv
            (gaugeFix la cfg.gauge_fix_atol nz g).nzxr_inv q).1 y u p) = q.1 := by
          funext z u p
          exact back _ _ i3 q.1 z u p
        have f2 : ∀ z u p, ∑ x, nzxrOf la nz z x * (undoGauge (gaugeFix la cfg.gauge_fix_atol nz g).nzyr_inv
            (gaugeFix la cfg.gauge_fix_atol nz g).nzxr_inv q).2 x u p = q.2 z u p :=
          fun z u p => back _ _ i4 q.2 z u p
        have f3 : ∀ z u p, ∑ x, nzxrOf la nz z x * r2 x u p = b.2 z u p := by
          rw [← e1]
          exact fun z u p => back _ _ i4 b.2 z u p
        rw [e1] at e
        have := b2 b.2
        rw [e] at this
        rw [f1]
        simp only [f2, f3]
        exact this
  · rw [if_neg hgf] at h
    unfold regStrength regSize
    simp only [if_neg hgf]
    cases hs : alsSolve la fo rep cfg (hb_init hb) (squareNorm nz) g with
    | error e => rw [hs] at h; exact absurd h (by simp [bind, Except.bind])
    | ok q =>
      rw [hs] at h
      have h : (Except.ok _ : Except PyErr _) = .ok f := h
      have h := Except.ok.inj h
      refine ⟨q, ?_, alsSolve_regularised la fo rep cfg he hm hn _ _ (squareNorm_herm nz) (squareNorm_psd nz) _ q hs⟩
      rw [← h]
      exact finalize_scale la (hb_fin hb) _ _

end AceTN
