import Verif.Props.FullUpdateExact

/-! C39 is violated for complex dtypes: already a product state with an identity gate is destroyed. -/

set_option autoImplicit false

namespace AceTN

open Full Matrix Spec SumTac ComplexOrder

section solve

variable {𝕜 : Type} [RCLike 𝕜] {N B P : Type} [Fintype N] [Fintype B] [Fintype P] [DecidableEq N] [DecidableEq B]

omit [Fintype N] [Fintype B] in
theorem reg_herm (R : N → B → N → B → 𝕜) (t : ℝ) : (hermAvg R + (t : 𝕜) • 1).IsHermitian := by
  unfold IsHermitian hermAvg
  dsimp only
  rw [conjTranspose_add, conjTranspose_smul, conjTranspose_smul, conjTranspose_add, conjTranspose_conjTranspose,
    conjTranspose_one, RCLike.star_def, RCLike.conj_ofReal, RCLike.conj_ofReal, add_comm (of _)]

omit [Fintype N] [Fintype B] [Fintype P] [DecidableEq N] [DecidableEq B] in
theorem isUnit_mul_zero {n k : Type} [Fintype n] [DecidableEq n] (R : Matrix n n 𝕜) (hR : IsUnit R.det) (X : Matrix n k 𝕜)
    (h : R * X = 0) : X = 0 := by
  have := congrArg (fun M => R⁻¹ * M) h
  simpa [← Matrix.mul_assoc, Matrix.nonsing_inv_mul _ hR] using this

/-- A half-step with a vanishing right-hand side returns zero or raises. -/
theorem solveAr_zero (la : Lapack 𝕜) (epsilon : ℝ) (method : Als.Solver) (R : N → B → N → B → 𝕜) (S a : N → B → P → 𝕜)
    (hS : S = 0) (h : solveAr la epsilon method R S = .ok a) : a = 0 := by
  have hS' : (of fun (i : N × B) p => S i.1 i.2 p) = (0 : Matrix (N × B) P 𝕜) := by rw [hS]; rfl
  unfold solveAr at h
  dsimp only at h
  rw [hS'] at h
  cases method with
  | pinv =>
    have h := Except.ok.inj h
    rw [← h]
    funext y u p
    rw [Matrix.mul_zero]
    rfl
  | cholesky =>
    have hz : ∀ X : Matrix (N × B) P 𝕜, X = 0 → (fun y u p => X (y, u) p) = (0 : N → B → P → 𝕜) := by
      rintro X rfl; rfl
    dsimp only at h
    split at h
    · rename_i X hX
      rw [← Except.ok.inj h]
      have hH := reg_herm R (epsilon * absMax (hermAvg R))
      exact hz _ (isUnit_mul_zero _ (isUnit_iff_isUnit_det _ |>.1 (la.cholSolve_posDef _ _ _ hH hX).isUnit) _
        (la.cholSolve_ok _ _ _ hH hX))
    · split at h
      · rename_i X hX
        rw [← Except.ok.inj h]
        exact hz _ (isUnit_mul_zero _ ((la.linSolve_some _ _).1 (by rw [hX]; rfl)) _ (la.linSolve_ok _ _ _ hX))
      · cases h

/-- A Cholesky half-step with a vanishing matrix raises. -/
theorem solveAr_singular [Nonempty N] [Nonempty B] (la : Lapack 𝕜) (epsilon : ℝ) (R : N → B → N → B → 𝕜) (S : N → B → P → 𝕜)
    (hR : R = 0) : solveAr la epsilon .cholesky R S = .error .runtimeError := by
  have h0 : hermAvg R = 0 := by
    rw [hR]
    unfold hermAvg
    ext i j
    simp
  have h1 : absMax (0 : Matrix (N × B) (N × B) 𝕜) = 0 := by simp [absMax]
  have hdet : ¬ IsUnit (0 : Matrix (N × B) (N × B) 𝕜).det := by simp
  unfold solveAr
  dsimp only
  rw [h0, h1, mul_zero, RCLike.ofReal_zero, zero_smul, add_zero]
  have e1 : la.cholSolve (0 : Matrix (N × B) (N × B) 𝕜) (of fun (i : N × B) p => S i.1 i.2 p) = none := by
    cases h : la.cholSolve (0 : Matrix (N × B) (N × B) 𝕜) (of fun (i : N × B) p => S i.1 i.2 p) with
    | none => rfl
    | some X =>
      exact absurd (isUnit_iff_isUnit_det _ |>.1 (la.cholSolve_posDef _ _ _ (by simp [IsHermitian]) h).isUnit) hdet
  have e2 : la.linSolve (0 : Matrix (N × B) (N × B) 𝕜) (of fun (i : N × B) p => S i.1 i.2 p) = none := by
    cases h : la.linSolve (0 : Matrix (N × B) (N × B) 𝕜) (of fun (i : N × B) p => S i.1 i.2 p) with
    | none => rfl
    | some X => exact absurd ((la.linSolve_some _ _).1 (by rw [h]; rfl)) hdet
  rw [e1, e2]

theorem pass_collapse (la : Lapack 𝕜) (epsilon : ℝ) (method : Als.Solver) (n12 : N → N → N → N → 𝕜)
    (n12g : N → N → P → P → 𝕜) (p p' : (N → B → P → 𝕜) × (N → B → P → 𝕜)) (hS : buildS1 n12g p.2 = 0)
    (h : alsPass la epsilon n12 n12g method p = .ok p') : p' = (0, 0) := by
  obtain ⟨h1, h2⟩ := alsPass_ok la epsilon method n12 n12g p p' h
  have e1 := solveAr_zero la epsilon method _ _ _ hS h1
  have e2 := solveAr_zero la epsilon method _ _ _ (by
    rw [e1]
    funext x v q
    simp [buildS2]) h2
  exact Prod.ext e1 e2

theorem pass_raises [Nonempty N] [Nonempty B] (la : Lapack 𝕜) (epsilon : ℝ) (n12 : N → N → N → N → 𝕜)
    (n12g : N → N → P → P → 𝕜) (p : (N → B → P → 𝕜) × (N → B → P → 𝕜)) (hS : buildS1 n12g p.2 = 0) :
    alsPass la epsilon n12 n12g .cholesky p = .error .runtimeError := by
  have herr : ∀ (R : N → B → N → B → 𝕜) (S : N → B → P → 𝕜) (e : PyErr), solveAr la epsilon .cholesky R S = .error e →
      e = .runtimeError := by
    intro R S e h
    unfold solveAr at h
    dsimp only at h
    split at h
    · cases h
    · split at h
      · cases h
      · cases h; rfl
  unfold alsPass
  cases h1 : solveAr la epsilon .cholesky (buildR1 n12 p.2) (buildS1 n12g p.2) with
  | error e => rw [herr _ _ _ h1]; rfl
  | ok a1 =>
    have e1 := solveAr_zero la epsilon _ _ _ _ hS h1
    have h2 := solveAr_singular la epsilon (buildR2 n12 a1) (buildS2 n12g a1) (by
      rw [e1]
      funext x v y w
      simp [buildR2])
    change (solveAr la epsilon .cholesky (buildR2 n12 a1) (buildS2 n12g a1)).bind _ = _
    rw [h2]
    rfl

end solve

section product

variable {N P F : Type} [Fintype N] [Fintype P] [DecidableEq N] [DecidableEq P] [Unique N]

/-- The right-hand side of the first half-step vanishes for a product target `u ⊗ v` with `v · v = 0`. -/
theorem product_s1 (la : Lapack ℂ) (hb : 1 ≤ min (Fintype.card (N × P)) (Fintype.card (N × P)))
    (n12 : N → N → N → N → ℂ) (u v : P → ℂ) (hv : ∑ q, v q * v q = 0) :
    buildS1 (n12gOf n12 fun _ _ p q => u p * v q) (initReduced la hb fun _ _ p q => u p * v q).2 = 0 := by
  set g : N → N → P → P → ℂ := fun _ _ p q => u p * v q with hg
  have hsvd := init_svd la g
  set U := (la.svd (siteMat g)).1 with hU
  set S := (la.svd (siteMat g)).2.1 with hS
  set Vh := (la.svd (siteMat g)).2.2 with hVh
  set z : Fin (min (Fintype.card (N × P)) (Fintype.card (N × P))) := Fin.castLE hb 0 with hz
  have hex := truncSVD_exact _ U S Vh hsvd
    (of fun (i : N × P) (_ : Fin 1) => u i.2) (of fun (_ : Fin 1) (j : N × P) => v j.2) (by
      ext i j
      rw [mul_apply]
      simp [siteMat, hg])
  rw [Fintype.card_fin] at hex
  have hent : ∀ p q : P, u p * v q = U (default, p) z * (S z : ℂ) * Vh z (default, q) := by
    intro p q
    have e := congrFun (congrFun hex (default, p)) (default, q)
    unfold truncSVD at e
    rw [mul_apply, Finset.sum_eq_single z] at e
    · rw [mul_diagonal, if_pos (by simp [hz])] at e
      exact e.symm
    · intro i _ hi
      rw [mul_diagonal, if_neg, mul_zero, zero_mul]
      intro hi'
      exact hi (Fin.ext (by simp only [hz, Fin.val_castLE, Fin.val_zero]; omega))
    · simp
  have ha2 : ∀ q, star ((initReduced la hb g).2 default 0 q) = Vh z (default, q) *
      ((Real.sqrt (S z / S z) : ℝ) : ℂ) := by
    intro q
    have : (initReduced la hb g).2 default 0 q = star (Vh z (default, q)) * ((Real.sqrt (S z / S z) : ℝ) : ℂ) := rfl
    rw [this, star_mul', star_star, RCLike.star_def, Complex.conj_ofReal]
  -- `u p` times the overlap of `v` with the row of `Vh` vanishes
  have hov : ∀ p, ∑ q, u p * v q * Vh z (default, q) = 0 := by
    intro p
    by_cases hp : ∃ p', u p' ≠ 0 
    · obtain ⟨p', hp'⟩ := hp
      by_cases hv0 : ∃ q', v q' ≠ 0
      · obtain ⟨q', hq'⟩ := hv0
        have hne : U (default, p') z * (S z : ℂ) ≠ 0 := by
          intro h0
          have := hent p' q'
          rw [h0, zero_mul] at this
          exact mul_ne_zero hp' hq' this
        have hV : ∀ q, Vh z (default, q) = (U (default, p') z * (S z : ℂ))⁻¹ * u p' * v q := by
          intro q
          rw [mul_assoc, hent p' q, inv_mul_cancel_left₀ hne]
        simp only [hV]
        have : ∀ q, u p * v q * ((U (default, p') z * (S z : ℂ))⁻¹ * u p' * v q) =
            u p * ((U (default, p') z * (S z : ℂ))⁻¹ * u p') * (v q * v q) := fun q => by ring
        simp only [this]
        rw [← Finset.mul_sum, hv, mul_zero]
      · push Not at hv0
        simp [hv0]
    · push Not at hp
      simp [hp]
  funext Y b p
  obtain rfl : b = 0 := Subsingleton.elim _ _
  unfold buildS1 n12gOf
  simp only [Pi.star_apply, Finset.univ_unique, Finset.sum_singleton, ha2]
  have : ∀ q, n12 default default Y default * g default default p q * (Vh z (default, q) *
      ((Real.sqrt (S z / S z) : ℝ) : ℂ)) =
      n12 default default Y default * ((Real.sqrt (S z / S z) : ℝ) : ℂ) * (u p * v q * Vh z (default, q)) := fun q => by
    simp only [hg]; ring
  simp only [this]
  rw [← Finset.mul_sum, hov, mul_zero]
  rfl

/-- The solver either raises or returns zero tensors for such a target. -/
theorem product_collapse (la : Lapack ℂ) (fo : Als.FloatOps F) (rep : ℝ → F) (cfg : Settings F)
    (hn : 0 < cfg.als_niter) (hb : 1 ≤ min (Fintype.card (N × P)) (Fintype.card (N × P)))
    (n12 : N → N → N → N → ℂ) (u v : P → ℂ) (hv : ∑ q, v q * v q = 0) :
    (∀ p, alsSolve la fo rep cfg hb n12 (fun _ _ p q => u p * v q) = .ok p → p = (0, 0)) ∧
    (cfg.als_method = .cholesky → alsSolve la fo rep cfg hb n12 (fun _ _ p q => u p * v q) = .error .runtimeError) := by
  have hs := product_s1 la hb n12 u v hv
  set g : N → N → P → P → ℂ := fun _ _ p q => u p * v q with hg
  have hstep : ∀ q q' : (N → Fin 1 → P → ℂ) × (N → Fin 1 → P → ℂ), buildS1 (n12gOf n12 g) q.2 = 0 →
      alsPass la cfg.als_epsilon n12 (n12gOf n12 g) cfg.als_method q = .ok q' → q' = (0, 0) :=
    fun q q' hq h => pass_collapse la _ _ _ _ _ _ hq h
  have h0 : buildS1 (n12gOf n12 g) (0 : N → Fin 1 → P → ℂ) = 0 := by
    funext Y b p; simp [buildS1]
  have hr : cfg.als_method = .cholesky → alsPass la cfg.als_epsilon n12 (n12gOf n12 g) cfg.als_method
      (initReduced la hb g) = .error .runtimeError := fun hm => by
    rw [hm]; exact pass_raises la _ n12 _ _ hs
  unfold alsSolve Als.solveTorch
  obtain ⟨n, hn'⟩ := Nat.exists_eq_succ_of_ne_zero hn.ne'
  rw [hn']
  revert hstep hr
  generalize alsPass (B := Fin 1) la cfg.als_epsilon n12 (n12gOf n12 g) cfg.als_method = half
  generalize (fun p : (N → Fin 1 → P → ℂ) × (N → Fin 1 → P → ℂ) => rep (cost p.1 p.2 g n12)) = c
  intro hstep hr
  constructor
  · intro p h
    rw [Nat.succ_eq_add_one, Als.torchLoop] at h
    cases hq : half (initReduced la hb g) with
    | error e => rw [hq] at h; exact absurd h (by simp [bind, Except.bind])
    | ok q1 =>
      rw [hq] at h
      simp only [bind, Except.bind] at h
      have hq1 := hstep _ _ hs hq
      split at h
      · have h : (Except.ok q1 : Except PyErr _) = .ok p := h
        rw [← Except.ok.inj h, hq1]
      · refine torchLoop_inv fo half c cfg.als_tol (fun q => q = (0, 0)) (fun q q' hq hh => ?_) _ _ _ _ _ hq1 h
        refine hstep q q' ?_ hh
        rw [hq]; exact h0
  · intro hm
    rw [Nat.succ_eq_add_one, Als.torchLoop, hr hm]
    rfl

end product

/-- Finalising zero tensors gives zero tensors (in torch: `nan`, from dividing by a vanishing norm). -/
theorem finalize_zero {𝕜 : Type} [RCLike 𝕜] {N P : Type} [Fintype N] [Fintype P] [DecidableEq N] [DecidableEq P] {bD : ℕ}
    (la : Lapack 𝕜) (hb : bD ≤ min (Fintype.card (Fin (qD N P bD))) (Fintype.card (Fin (qD N P bD)))) :
    finalizeCore la hb (0 : N → Fin bD → P → 𝕜) 0 = (0, 0) := by
  obtain ⟨Q1, Q2, U, s, Vh, hQ1, hQ2, hU, hV, hs0, hss, hm, hf1, hf2⟩ := fin_spec la hb (0 : N → Fin bD → P → 𝕜) 0
  have hn : normSq4 (pairProd (0 : N → Fin bD → P → 𝕜) (0 : N → Fin bD → P → 𝕜)) = ∑ j, s j ^ 2 := by
    rw [← frobSq_siteMat, hm, frobSq_mul_transpose _ _ hQ2, frobSq_iso_mul _ hQ1, frobSq_usv _ _ _ hU hV]
  have h0 : ∑ j, s j ^ 2 = 0 := by
    rw [← hn]
    simp [normSq4, pairProd]
  rw [h0, Real.sqrt_zero] at hf1 hf2
  refine Prod.ext ?_ ?_
  · funext y b p
    rw [hf1]
    simp
  · funext y b p
    rw [hf2]
    simp

/-- The site tensors of the counterexample, bond dimension one: the product state `(1, 0) ⊗ (1, i)`. -/
def upSite : ATensor (Fin 1) (Fin 2) ℂ := fun _ _ _ _ p => if p = 0 then 1 else 0

/-- See `upSite`. -/
def ySite : ATensor (Fin 1) (Fin 2) ℂ := fun _ _ _ _ p => if p = 0 then 1 else Complex.I

/-- The identity gate (`dtau = 0`). -/
def idGate : Fin 2 → Fin 2 → Fin 2 → Fin 2 → ℂ := fun p q r s => if p = r ∧ q = s then 1 else 0

section violation

variable {X F : Type} [Fintype X]

theorem updateReduced_collapse {N P : Type} [Fintype N] [Fintype P] [DecidableEq N] [DecidableEq P] [Nonempty N]
    (hN : Fintype.card N = 1)
    (la : Lapack ℂ) (fo : Als.FloatOps F) (rep : ℝ → F) (cfg : Settings F) (hn : 0 < cfg.als_niter)
    (hb : 1 ≤ Fintype.card (N × P)) (a1r a2r : N → Fin 1 → P → ℂ) (n12 : N → N → N → N → ℂ)
    (gate : P → P → P → P → ℂ) (u v : P → ℂ) (hv : ∑ q, v q * v q = 0)
    (hg : gateReduced a1r a2r gate = fun _ _ p q => u p * v q) :
    (∀ f, updateReduced la fo rep cfg hb a1r a2r n12 gate = some (.ok f) → f = (0, 0)) ∧
    (cfg.als_method = .cholesky → updateReduced la fo rep cfg hb a1r a2r n12 gate = some (.error .runtimeError)) := by
  obtain ⟨y0, hy0⟩ := Fintype.card_eq_one_iff.1 hN
  let _ : Unique N := ⟨⟨y0⟩, hy0⟩
  have hW : wD N (Fin (Fintype.card (N × N))) = 1 := by simp [wD]
  let _ : Unique (Fin (wD N (Fin (Fintype.card (N × N))))) := (Fin.castOrderIso hW).toEquiv.unique
  obtain ⟨nz, hnz⟩ := Option.isSome_iff_exists.1 (C33_terminates la cfg.positive_approx_cutoff 0 n12)
  have hnz : positiveApprox la 2 cfg.positive_approx_cutoff n12 = some nz := hnz
  unfold updateReduced
  rw [hnz, hg]
  dsimp only
  rw [Option.map_some]
  by_cases hgf : cfg.use_gauge_fix = true
  · rw [if_pos hgf]
    have hga : (gaugeFix la cfg.gauge_fix_atol nz fun _ _ p q => u p * v q).a12g =
        fun _ _ p q => (nzyrOf la nz default default * nzxrOf la nz default default * u p) * v q := by
      funext w z p q
      obtain rfl : w = default := Subsingleton.elim _ _
      obtain rfl : z = default := Subsingleton.elim _ _
      unfold gaugeFix
      simp only [Finset.univ_unique, Finset.sum_singleton]
      ring
    rw [hga]
    obtain ⟨h1, h2⟩ := product_collapse la fo rep cfg hn (hb_init (hb_gauge hb))
      (gaugeFix la cfg.gauge_fix_atol nz fun _ _ p q => u p * v q).n12
      (fun p => nzyrOf la nz default default * nzxrOf la nz default default * u p) v hv
    constructor
    · intro f h
      have h := Option.some.inj h
      revert h1 h
      generalize alsSolve la fo rep cfg (hb_init (hb_gauge hb)) (gaugeFix la cfg.gauge_fix_atol nz fun _ _ p q => u p * v q).n12
        (fun _ _ p q => nzyrOf la nz default default * nzxrOf la nz default default * u p * v q) = r
      intro h1 h
      cases r with
      | error e => exact absurd h (by simp [bind, Except.bind])
      | ok p =>
        rw [h1 p rfl] at h
        have h : (Except.ok _ : Except PyErr _) = .ok f := h
        rw [← Except.ok.inj h]
        have e : undoGauge (gaugeFix la cfg.gauge_fix_atol nz fun _ _ p q => u p * v q).nzyr_inv
          (gaugeFix la cfg.gauge_fix_atol nz fun _ _ p q => u p * v q).nzxr_inv
          ((0, 0) : (Fin (wD N (Fin (Fintype.card (N × N)))) → Fin 1 → P → ℂ) × _) = (0, 0) := by
          refine Prod.ext ?_ ?_ <;> · funext y b p; simp [undoGauge]
        rw [e]
        exact finalize_zero la _
    · intro hm
      rw [h2 hm]
      rfl
  · rw [if_neg hgf]
    obtain ⟨h1, h2⟩ := product_collapse la fo rep cfg hn (hb_init hb) (squareNorm nz) u v hv
    constructor
    · intro f h
      have h := Option.some.inj h
      revert h1 h
      generalize alsSolve la fo rep cfg (hb_init hb) (squareNorm nz) (fun _ _ p q => u p * v q) = r
      intro h1 h
      cases r with
      | error e => exact absurd h (by simp [bind, Except.bind])
      | ok p =>
        rw [h1 p rfl] at h
        have h : (Except.ok _ : Except PyErr _) = .ok f := h
        rw [← Except.ok.inj h]
        exact finalize_zero la _
    · intro hm
      rw [h2 hm]
      rfl

/-- **C39** is violated for complex dtypes.  A product state with bond dimension one, spin up on the first site and along
`y` on the second, is updated with the identity gate: whatever the environment, the library, the settings (with at least
one iteration) and the bond, the update with the Cholesky method raises and the update with the pseudo-inverse returns
zero tensors before the divisions by their norms. -/
theorem C39_violated_complex (la : Lapack ℂ) (fo : Als.FloatOps F) (rep : ℝ → F) (cfg : Settings F)
    (hn : 0 < cfg.als_niter) (ipeps : NetT (Fin 1) (Fin 2) X ℂ) (s1 s2 : Site) (k : ℤ) :
    (cfg.als_method = .cholesky →
      fullTensorUpdate la fo rep cfg ipeps s1 s2 k idGate upSite ySite = some (.error .runtimeError)) ∧
    (∀ b1 b2, fullTensorUpdate la fo rep cfg ipeps s1 s2 k idGate upSite ySite = some (.ok (b1, b2)) →
      b1 = 0 ∧ b2 = 0) := by
  have hg := C30_gate la upSite ySite idGate
  rw [(C39_identity_gate upSite ySite idGate fun _ _ _ _ => rfl).1] at hg
  have hiso := C30_isometric la upSite ySite
  unfold fullTensorUpdate
  dsimp only
  revert hg hiso
  generalize decompose la upSite ySite = d
  intro hg hiso
  have hN : Fintype.card (Fin (nD (Fin 1) (Fin 2))) = 1 := by simp [nD]
  obtain ⟨y0, hy0⟩ := Fintype.card_eq_one_iff.1 hN
  have hq1 : d.a1q 0 0 0 y0 ≠ 0 := by
    intro h0
    have := (hiso y0 y0).1
    simp [h0] at this
  have hq2 : d.a2q 0 0 0 y0 ≠ 0 := by
    intro h0
    have := (hiso y0 y0).2
    simp [h0] at this
  have hgr : gateReduced d.a1r d.a2r idGate = fun _ _ p q =>
      ((d.a1q 0 0 0 y0 * d.a2q 0 0 0 y0)⁻¹ * (if p = 0 then 1 else 0)) * (if q = 0 then 1 else Complex.I) := by
    funext y x p q
    rw [hy0 y, hy0 x]
    have := congrFun (congrFun (congrFun (congrFun (congrFun (congrFun (congrFun (congrFun hg 0) 0) 0) 0) 0) 0) p) q
    unfold assembled twoSite upSite ySite at this
    rw [Finset.sum_eq_single y0 (fun a _ ha => absurd (hy0 a) ha) (by simp),
      Finset.sum_eq_single y0 (fun a _ ha => absurd (hy0 a) ha) (by simp)] at this
    simp only [Finset.univ_unique, Finset.sum_singleton] at this
    rw [mul_assoc, ← this, inv_mul_cancel_left₀ (mul_ne_zero hq1 hq2)]
  obtain ⟨h1, h2⟩ := updateReduced_collapse hN la fo rep cfg hn bD_le d.a1r d.a2r
    (buildNormTensor ipeps s1 s2 k d.a1q d.a2q) idGate
    (fun p => (d.a1q 0 0 0 y0 * d.a2q 0 0 0 y0)⁻¹ * (if p = 0 then 1 else 0))
    (fun q => if q = 0 then 1 else Complex.I) (by simp [Fin.sum_univ_two]) hgr
  constructor
  · intro hm
    rw [h2 hm]
    rfl
  · intro b1 b2 h
    revert h1 h
    generalize updateReduced la fo rep cfg bD_le d.a1r d.a2r (buildNormTensor ipeps s1 s2 k d.a1q d.a2q) idGate = r
    intro h1 h
    cases r with
    | none => exact absurd h (by simp)
    | some r =>
      cases r with
      | error e => exact absurd (Option.some.inj h) (by simp [bind, Except.bind])
      | ok f =>
        rw [h1 f rfl] at h
        have h : (Except.ok (normalise (recompose d.a1q 0 d.a2q 0).1, normalise (recompose d.a1q 0 d.a2q 0).2) :
          Except PyErr _) = .ok (b1, b2) := Option.some.inj h
        have h := Except.ok.inj h
        constructor
        · rw [show b1 = _ from (congrArg Prod.fst h).symm]
          funext l u r dd p
          simp [normalise, recompose]
        · rw [show b2 = _ from (congrArg Prod.snd h).symm]
          funext l u r dd p
          simp [normalise, recompose]

/-- **C39** (negation of the full statement). -/
theorem C39_violated : ¬ Spec.FullUpdateExact ℂ := by
  intro h
  obtain ⟨la⟩ := nonempty_lapack (𝕜 := ℂ)
  let fo : Als.FloatOps Unit := ⟨fun _ _ => (), fun _ => (), fun _ _ => (), fun _ _ => false⟩
  let cfg : Settings Unit := ⟨true, 1e-12, 1e-12, 1, (), .pinv, 0⟩
  let ipeps : NetT (Fin 1) (Fin 2) (Fin 1) ℂ := fun _ => ⟨upSite, fun _ _ _ => 1, fun _ _ _ _ _ => 1⟩
  obtain ⟨⟨b1, b2⟩, hb⟩ := C39_returns la fo (fun _ => ()) cfg rfl ipeps (0, 0) (1, 0) 2 idGate upSite ySite
  obtain ⟨-, hz⟩ := C39_violated_complex la fo (fun _ => ()) cfg (by decide) ipeps (0, 0) (1, 0) 2
  obtain ⟨z1, z2⟩ := hz b1 b2 hb
  obtain ⟨hid, hfit⟩ := C39_identity_gate upSite ySite idGate fun _ _ _ _ => rfl
  have h1 : twoSite upSite ySite 0 0 0 0 0 0 0 0 = 1 := by simp [twoSite, upSite, ySite]
  obtain ⟨κ, hκ, hm⟩ := h (Fin 2) (Fin 1) Unit 1 la fo (fun _ => ()) cfg ipeps (0, 0) (1, 0) 2 idGate upSite ySite b1 b2
    rfl (by norm_num [cfg]) (by
      simp only [cfg]
      rw [Real.lt_sqrt (by norm_num)]
      norm_num) hfit (by
      rw [hid]
      intro h0
      rw [h0] at h1
      simp at h1) hb
  have := hm 0 0 0 0 0 0 0 0
  rw [hid, h1, z1, z2] at this
  simp [twoSite] at this
  have h0 : (0 : ℝ) = κ := by exact_mod_cast this
  exact hκ.ne h0

end violation

end AceTN
