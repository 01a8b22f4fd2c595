import Verif.Lemmas.RankOne
import Verif.Lemmas.CholeskyReturns
import Verif.Props.CholeskyReturns
import Verif.Props.QuasiOptimal

/-!
The full update with bond dimension one: the norm tensor is a number, and every pass of the solver changes the two vectors it starts from by
positive factors.
-/

set_option autoImplicit false
set_option linter.unusedSectionVars false

namespace AceTN

open Matrix Spec Full

/-- Settings of the solver with which systems of one equation are solved. -/
def Spec.SolvesOne (method : Als.Solver) (ε : ℝ) : Prop := method = .cholesky ∧ 0 ≤ ε ∨ method = .pinv ∧ ε < 1

section one

variable {F N P : Type} [Fintype N] [Subsingleton N] [Nonempty N] [Fintype P] [DecidableEq N]

theorem one_index (a b : N × Fin 1) : a = b := Prod.ext (Subsingleton.elim _ _) (Subsingleton.elim _ _)

/-- One equation. -/
theorem solve_one (la : Lapack ℝ) (ε : ℝ) (method : Als.Solver) (hm : SolvesOne method ε) (R : N → Fin 1 → N → Fin 1 → ℝ)
    (S : N → Fin 1 → P → ℝ) (r : ℝ) (hr : 0 < r) (hR : ∀ y u x w, R y u x w = r) :
    ∃ t : ℝ, 0 < t ∧ solveAr la ε method R S = .ok fun y u p => t * S y u p := by
  have hA : hermAvg R = r • (1 : Matrix (N × Fin 1) (N × Fin 1) ℝ) := by
    ext a b
    obtain rfl := one_index a b
    unfold hermAvg
    simp [hR]
    ring
  unfold solveAr
  rw [hA]
  rcases hm with ⟨rfl, he⟩ | ⟨rfl, he⟩
  · have hmax : absMax (r • (1 : Matrix (N × Fin 1) (N × Fin 1) ℝ)) = r := by
      unfold absMax
      have : ∀ ij : (N × Fin 1) × (N × Fin 1), ‖(r • (1 : Matrix (N × Fin 1) (N × Fin 1) ℝ)) ij.1 ij.2‖ = r := by
        rintro ⟨a, b⟩
        obtain rfl := one_index a b
        simp [abs_of_pos hr]
      simp only [this]
      exact ciSup_const
    have hpos : 0 < r + ε * r := by positivity
    dsimp only
    rw [hmax]
    have e : r • (1 : Matrix (N × Fin 1) (N × Fin 1) ℝ) + ((ε * r : ℝ) : ℝ) • (1 : Matrix (N × Fin 1) (N × Fin 1) ℝ) =
        (r + ε * r) • (1 : Matrix (N × Fin 1) (N × Fin 1) ℝ) := (add_smul _ _ _).symm
    have hpd : ((r + ε * r) • (1 : Matrix (N × Fin 1) (N × Fin 1) ℝ)).PosDef := PosDef.one.smul hpos
    refine ⟨(r + ε * r)⁻¹, inv_pos.2 hpos, ?_⟩
    rw [show ((RCLike.ofReal (ε * r) : ℝ)) = ε * r from rfl, e]
    obtain ⟨X, hX⟩ := Option.isSome_iff_exists.1 (la.cholSolve_some _ (of fun (a : N × Fin 1) p => S a.1 a.2 p) hpd)
    rw [hX]
    have hsol := la.cholSolve_ok _ _ _ hpd.isHermitian hX
    rw [smul_mul, Matrix.one_mul] at hsol
    show Except.ok _ = Except.ok _
    congr 1
    funext y u p
    have := congrFun (congrFun hsol (y, u)) p
    rw [Matrix.smul_apply, smul_eq_mul, of_apply] at this
    rw [← this, inv_mul_cancel_left₀ hpos.ne']
  · obtain ⟨w, z, hz, hp⟩ := la.pinvH_ok ε (r • (1 : Matrix (N × Fin 1) (N × Fin 1) ℝ))
    refine ⟨r⁻¹, inv_pos.2 hr, ?_⟩
    dsimp only
    show Except.ok _ = Except.ok _
    congr 1
    rw [la.herm_of _ (PosDef.one.smul hr).isHermitian] at hz
    have hwr : ∀ i, w i = r := by
      intro i
      have h1 : zᴴ * (r • (1 : Matrix (N × Fin 1) (N × Fin 1) ℝ)) * z = diagonal fun i => ((w i : ℝ) : ℝ) := by
        rw [hz.mul]
        rw [Matrix.mul_assoc z, ← Matrix.mul_assoc zᴴ, hz.left, Matrix.one_mul, Matrix.mul_assoc, hz.left, Matrix.mul_one]
        rfl
      rw [Matrix.mul_smul, Matrix.mul_one, smul_mul, hz.left] at h1
      have := congrFun (congrFun h1 i) i
      simpa using this.symm
    have hP : la.pinvH ε (r • (1 : Matrix (N × Fin 1) (N × Fin 1) ℝ)) = r⁻¹ • 1 := by
      rw [hp]
      have : (fun i => if ∀ j, ε * |w j| < |w i| then ((RCLike.ofReal (w i) : ℝ))⁻¹ else 0) = fun _ => r⁻¹ := by
        funext i
        rw [if_pos fun j => by rw [hwr, hwr, abs_of_pos hr]; nlinarith, hwr]
        rfl
      rw [this, show (diagonal fun _ : Fin (Fintype.card (N × Fin 1)) => r⁻¹) = r⁻¹ • 1 by ext i j; simp [diagonal, one_apply], Matrix.mul_smul,
        Matrix.mul_one, smul_mul, hz.right]
    rw [hP]
    funext y u p
    simp

theorem torchLoop_keeps {Q : Type} (fo : Als.FloatOps F) (half : Q → Except PyErr Q) (rep : Q → F) (tol : F) (I : Q → Prop)
    (hI : ∀ q, I q → ∃ q', half q = .ok q' ∧ I q') (fuel i : ℕ) (q : Q) (d : F) (h : I q) :
    ∃ q', Als.torchLoop fo half rep tol fuel i q d = .ok q' ∧ I q' := by
  cases fuel with
  | zero => exact ⟨q, by rw [Als.torchLoop], h⟩
  | succ k => exact torchLoop_returns fo half rep tol I I hI (fun _ h => h) k i q d h

/-- The pair is the one of two vectors, up to positive factors. -/
def AlongPair (x y : P → ℝ) (p : (N → Fin 1 → P → ℝ) × (N → Fin 1 → P → ℝ)) : Prop :=
  ∃ α β : ℝ, 0 < α ∧ 0 < β ∧ (∀ i u q, p.1 i u q = α * x q) ∧ ∀ i u q, p.2 i u q = β * y q

/-- A pass of the solver. -/
theorem pass_one (la : Lapack ℝ) (ε : ℝ) (method : Als.Solver) (hm : SolvesOne method ε) (n : N → N → N → N → ℝ) (ν : ℝ) (hν : 0 < ν)
    (hn : ∀ a b c d, n a b c d = ν) (g : N → N → P → P → ℝ) (x y : P → ℝ) (s : ℝ) (hs : 0 < s) (hx : ∑ p, x p * x p = 1)
    (hy : ∑ p, y p * y p = 1) (h1 : ∀ i j p, ∑ q, g i j p q * y q = s * x p) (h2 : ∀ i j q, ∑ p, g i j p q * x p = s * y q)
    (q : (N → Fin 1 → P → ℝ) × (N → Fin 1 → P → ℝ)) (hq : AlongPair x y q) :
    ∃ q', alsPass la ε n (n12gOf n g) method q = .ok q' ∧ AlongPair x y q' := by
  obtain ⟨α, β, hα, hβ, e1, e2⟩ := hq
  have a0 : N := Classical.arbitrary N
  have hR1 : ∀ i u j w, buildR1 n q.2 i u j w = ν * β ^ 2 := by
    intro i u j w
    unfold buildR1
    dsimp only
    simp only [Fintype.sum_subsingleton _ a0, hn, e2, Pi.star_apply, star_trivial]
    rw [show ∑ k, ν * (β * y k) * (β * y k) = ν * β ^ 2 * ∑ k, y k * y k by
      rw [Finset.mul_sum]; exact Finset.sum_congr rfl fun k _ => by ring, hy, mul_one]
  have hS1 : ∀ i u p, buildS1 (n12gOf n g) q.2 i u p = ν * β * s * x p := by
    intro i u p
    unfold buildS1 n12gOf
    simp only [Fintype.sum_subsingleton _ a0, hn, e2, Pi.star_apply, star_trivial]
    rw [show ∑ k, ν * g a0 a0 p k * (β * y k) = ν * β * ∑ k, g a0 a0 p k * y k by
      rw [Finset.mul_sum]; exact Finset.sum_congr rfl fun k _ => by ring, h1]
    ring
  obtain ⟨t, ht, ht1⟩ := solve_one la ε method hm (buildR1 n q.2) (buildS1 (n12gOf n g) q.2) _ (by positivity) hR1
  set α' := t * (ν * β * s) with hα'
  have hα0 : 0 < α' := by positivity
  have hb1 : ∀ (i : N) (u : Fin 1) p, t * buildS1 (n12gOf n g) q.2 i u p = α' * x p := fun i u p => by rw [hS1, hα']; ring
  simp only [hb1] at ht1
  have hR2 : ∀ i u j w, buildR2 n (fun (_ : N) (_ : Fin 1) p => α' * x p) i u j w = ν * α' ^ 2 := by
    intro i u j w
    unfold buildR2
    dsimp only
    simp only [Fintype.sum_subsingleton _ a0, hn, Pi.star_apply, star_trivial]
    rw [show ∑ k, ν * (α' * x k) * (α' * x k) = ν * α' ^ 2 * ∑ k, x k * x k by
      rw [Finset.mul_sum]; exact Finset.sum_congr rfl fun k _ => by ring, hx, mul_one]
  have hS2 : ∀ i u p, buildS2 (n12gOf n g) (fun (_ : N) (_ : Fin 1) p => α' * x p) i u p = ν * α' * s * y p := by
    intro i u p
    unfold buildS2 n12gOf
    simp only [Fintype.sum_subsingleton _ a0, hn, Pi.star_apply, star_trivial]
    rw [show ∑ k, ν * g a0 a0 k p * (α' * x k) = ν * α' * ∑ k, g a0 a0 k p * x k by
      rw [Finset.mul_sum]; exact Finset.sum_congr rfl fun k _ => by ring, h2]
    ring
  obtain ⟨t', ht', ht2⟩ := solve_one la ε method hm _ (buildS2 (n12gOf n g) (fun (_ : N) (_ : Fin 1) p => α' * x p)) _ (by positivity) hR2
  refine ⟨(fun _ _ p => α' * x p, fun i u p => t' * buildS2 (n12gOf n g) (fun (_ : N) (_ : Fin 1) p => α' * x p) i u p), ?_,
    α', t' * (ν * α' * s), hα0, by positivity, fun _ _ _ => rfl, fun i u p => by dsimp only; rw [hS2]; ring⟩
  unfold alsPass
  rw [ht1]
  change (solveAr la ε method (buildR2 n _) (buildS2 (n12gOf n g) _)).bind _ = _
  rw [ht2]
  rfl

variable [DecidableEq P]

/-- The solver. -/
theorem als_one (la : Lapack ℝ) (fo : Als.FloatOps F) (rep : ℝ → F) (cfg : Settings F) (hm : SolvesOne cfg.als_method cfg.als_epsilon)
    (hb : 1 ≤ min (Fintype.card (N × P)) (Fintype.card (N × P))) (n : N → N → N → N → ℝ) (hn : ∀ a b c d, 0 < n a b c d)
    (g : N → N → P → P → ℝ) (hne : g ≠ 0) :
    ∃ p, alsSolve la fo rep cfg hb n g = .ok p ∧ ∃ κ : ℝ, 0 < κ ∧ ∀ e1 e2 : N → Fin 1 → P → ℝ,
      normSq4 (fun y x p' q => g y x p' q - κ * pairProd p.1 p.2 y x p' q) ≤ normSq4 (fun y x p q => g y x p q - pairProd e1 e2 y x p q) := by
  have a0 : N := Classical.arbitrary N
  obtain ⟨-, c, hc, hbest⟩ := C37_real_partial N P 1 hb la g hne
  have hsvd : IsSVD (siteMat g) (la.svd (siteMat g)).1 (la.svd (siteMat g)).2.1 (la.svd (siteMat g)).2.2 := init_svd la g
  set U := (la.svd (siteMat g)).1 with hU
  set S := (la.svd (siteMat g)).2.1 with hSdef
  set Vh := (la.svd (siteMat g)).2.2 with hVh
  set i0 : Fin (min (Fintype.card (N × P)) (Fintype.card (N × P))) := Fin.castLE hb 0 with hi0
  have hS0 : 0 < S i0 := by
    refine lt_of_le_of_ne (hsvd.nonneg _) fun h0 => hne ?_
    have hz : ∀ i, S i = 0 := fun i => le_antisymm ((hsvd.sorted i0 i (by rw [hi0]; exact Nat.zero_le _)).trans h0.ge) (hsvd.nonneg i)
    have hm0 : siteMat g = 0 := by
      rw [hsvd.mul]
      simp [hz]
    funext y x p q
    exact congrFun (congrFun hm0 (y, p)) (x, q)
  have hinit : (∀ i u p, (initReduced la hb g).1 i u p = U (i, p) i0) ∧ ∀ i u p, (initReduced la hb g).2 i u p = Vh i0 (i, p) := by
    have hs : ∀ u : Fin 1, Real.sqrt (S (Fin.castLE hb u) / S (Fin.castLE hb ⟨0, u.pos⟩)) = 1 := by
      intro u
      obtain rfl : u = 0 := Subsingleton.elim _ _
      show Real.sqrt (S i0 / S i0) = 1
      rw [div_self hS0.ne', Real.sqrt_one]
    constructor
    · intro i u p
      obtain rfl : u = 0 := Subsingleton.elim _ _
      show U (i, p) i0 * (Real.sqrt (S (Fin.castLE hb 0) / S (Fin.castLE hb ⟨0, _⟩)) : ℝ) = _
      rw [hs 0, mul_one]
    · intro i u p
      obtain rfl : u = 0 := Subsingleton.elim _ _
      show Vhᴴ (i, p) i0 * (Real.sqrt (S (Fin.castLE hb 0) / S (Fin.castLE hb ⟨0, _⟩)) : ℝ) = _
      rw [hs 0, mul_one]
      simp
  have hUU : Uᵀ * U = 1 := by simpa using hsvd.left
  have hVV : Vh * Vhᵀ = 1 := by simpa using hsvd.right
  have hA : siteMat g = U * diagonal S * Vh := by simpa using hsvd.mul
  have hi : ∀ i : N, i = a0 := fun i => Subsingleton.elim _ _
  have hx : ∑ p, U (a0, p) i0 * U (a0, p) i0 = 1 := by
    have := congrFun (congrFun hUU i0) i0
    rw [mul_apply, Fintype.sum_prod_type, Fintype.sum_subsingleton _ a0, one_apply_eq] at this
    exact this
  have hy : ∑ p, Vh i0 (a0, p) * Vh i0 (a0, p) = 1 := by
    have := congrFun (congrFun hVV i0) i0
    rw [mul_apply, Fintype.sum_prod_type, Fintype.sum_subsingleton _ a0, one_apply_eq] at this
    exact this
  have h1 : ∀ i j p, ∑ q, g i j p q * Vh i0 (a0, q) = S i0 * U (a0, p) i0 := by
    intro i j p
    have e : siteMat g * Vhᵀ = U * diagonal S := by rw [hA, Matrix.mul_assoc, hVV, Matrix.mul_one]
    have := congrFun (congrFun e (a0, p)) i0
    rw [mul_apply, Fintype.sum_prod_type, Fintype.sum_subsingleton _ a0, mul_diagonal, mul_comm] at this
    rw [hi i, hi j]
    exact this
  have h2 : ∀ i j q, ∑ p, g i j p q * U (a0, p) i0 = S i0 * Vh i0 (a0, q) := by
    intro i j q
    have e : Uᵀ * siteMat g = diagonal S * Vh := by rw [hA, ← Matrix.mul_assoc, ← Matrix.mul_assoc, hUU, Matrix.one_mul]
    have := congrFun (congrFun e i0) (a0, q)
    rw [mul_apply, Fintype.sum_prod_type, Fintype.sum_subsingleton _ a0, diagonal_mul] at this
    rw [hi i, hi j, ← this]
    exact Finset.sum_congr rfl fun p _ => mul_comm _ _
  have hn' : ∀ a b c d, n a b c d = n a0 a0 a0 a0 := fun a b c d => by rw [hi a, hi b, hi c, hi d]
  have hstart : AlongPair (N := N) (fun p => U (a0, p) i0) (fun p => Vh i0 (a0, p)) (initReduced la hb g) :=
    ⟨1, 1, one_pos, one_pos, fun i u q => by rw [hinit.1, hi i, one_mul], fun i u q => by rw [hinit.2, hi i, one_mul]⟩
  unfold alsSolve Als.solveTorch
  obtain ⟨p, hp, α, β, hα, hβ, e1, e2⟩ := torchLoop_keeps fo
    (alsPass (B := Fin 1) la cfg.als_epsilon n (n12gOf n g) cfg.als_method) _ cfg.als_tol
    (AlongPair (fun p => U (a0, p) i0) fun p => Vh i0 (a0, p))
    (fun q hq => pass_one la _ _ hm n _ (hn a0 a0 a0 a0) hn' g _ _ _ hS0 hx hy h1 h2 q hq) cfg.als_niter 0 (initReduced la hb g)
    _ hstart
  refine ⟨p, hp, c / (α * β), by positivity, fun f1 f2 => le_trans (le_of_eq ?_) (hbest f1 f2)⟩
  congr 1
  funext y x q q'
  unfold pairProd
  rw [Fintype.sum_subsingleton _ 0, Fintype.sum_subsingleton _ 0, e1, e2, hinit.1, hinit.2, hi y, hi x]
  simp only [RCLike.ofReal_real_eq_id, id_eq]
  field_simp

omit [DecidableEq N] [DecidableEq P] [Fintype P] in
theorem squareNorm_one {Z : Type} [Fintype Z] (nz : N → N → Z → ℝ) (h : RootInj nz) (a b c d : N) : 0 < squareNorm nz a b c d := by
  obtain rfl : a = b := Subsingleton.elim _ _
  obtain rfl : a = c := Subsingleton.elim _ _
  obtain rfl : a = d := Subsingleton.elim _ _
  have e : squareNorm nz a a a a = ∑ z, nz a a z * nz a a z := by
    unfold squareNorm
    simp
  rw [e]
  refine lt_of_le_of_ne (Finset.sum_nonneg fun _ _ => mul_self_nonneg _) fun h0 => ?_
  have h1 := (Finset.sum_eq_zero_iff_of_nonneg fun _ _ => mul_self_nonneg _).1 h0.symm
  have := h (fun _ => 1) fun z => by
    rw [Fintype.sum_subsingleton _ a, Fintype.sum_subsingleton _ a, mul_self_eq_zero.1 (h1 z (Finset.mem_univ _)), zero_mul]
  exact one_ne_zero (congrFun this (a, a))

/-- The reduced update returns, and a positive multiple of what it returns is a best approximation of the gate-applied pair, whatever the
norm tensor. -/
theorem reduced_one (la : Lapack ℝ) (fo : Als.FloatOps F) (rep : ℝ → F) (cfg : Settings F) (hm : SolvesOne cfg.als_method cfg.als_epsilon)
    (hb : 1 ≤ Fintype.card (N × P)) (hcut : 0 < cfg.positive_approx_cutoff)
    (hatol : cfg.use_gauge_fix = true → cfg.gauge_fix_atol < Real.sqrt (cfg.positive_approx_cutoff * Fintype.card N))
    (a1r a2r : N → Fin 1 → P → ℝ) (n : N → N → N → N → ℝ) (gate : P → P → P → P → ℝ) (hne : gateReduced a1r a2r gate ≠ 0) :
    ∃ f, updateReduced la fo rep cfg hb a1r a2r n gate = some (.ok f) ∧ ∃ κ : ℝ, 0 < κ ∧ ∀ e1 e2 : N → Fin 1 → P → ℝ,
      normSq4 (fun y x p q => gateReduced a1r a2r gate y x p q - κ * pairProd f.1 f.2 y x p q) ≤
        normSq4 (fun y x p q => gateReduced a1r a2r gate y x p q - pairProd e1 e2 y x p q) := by
  unfold updateReduced
  obtain ⟨nz, hnz⟩ := Option.isSome_iff_exists.1 (C33_terminates la cfg.positive_approx_cutoff 0 n)
  have hnz : positiveApprox la 2 cfg.positive_approx_cutoff n = some nz := hnz
  revert hne
  generalize gateReduced a1r a2r gate = g
  intro hne
  rw [hnz]
  obtain ⟨_, -, -, -, hp, -⟩ := C33_result la _ hcut.le 0 n nz hnz
  have hinj := rootInj_of_atLeast nz _ hcut hp
  dsimp only [Option.map]
  by_cases hgf : cfg.use_gauge_fix = true
  · simp only [if_pos hgf]
    obtain ⟨-, -, hgp⟩ := C34_gauge_fix (B := Fin 1) la _ _ hcut (hatol hgf) 0 n nz hnz g
    have hN := gaugeFix_n12 la cfg.gauge_fix_atol nz g
    have hw : wD N (Fin (Fintype.card (N × N))) = 1 := by
      have h1 : Fintype.card N = 1 := le_antisymm (Fintype.card_le_one_iff_subsingleton.2 inferInstance) Fintype.card_pos
      unfold wD
      simp [h1]
    have hsub : Subsingleton (Fin (wD N (Fin (Fintype.card (N × N))))) := by rw [hw]; infer_instance
    have hnon : Nonempty (Fin (wD N (Fin (Fintype.card (N × N))))) := ⟨⟨0, by omega⟩⟩
    obtain ⟨h1, h2, h3, h4⟩ := C34_invertible la _ _ hcut (hatol hgf) nz hp
    have hne' : (gaugeFix la cfg.gauge_fix_atol nz g).a12g ≠ 0 := by
      intro h0
      apply hne
      funext y x p q
      rw [← hgp y x p q, h0]
      simp
    obtain ⟨p, hp, κ, hκ, h⟩ := als_one la fo rep cfg hm (hb_init (hb_gauge hb)) (gaugeFix la cfg.gauge_fix_atol nz g).n12
      (by rw [hN]; exact squareNorm_one _ (gaugedRoot_inj nz hinj _ _ _ _ h4 h3)) _ hne'
    rw [hp]
    obtain ⟨z, hz, ez⟩ := finalize_scale la (hb_fin hb) (undoGauge (gaugeFix la cfg.gauge_fix_atol nz g).nzyr_inv
      (gaugeFix la cfg.gauge_fix_atol nz g).nzxr_inv p).1 (undoGauge (gaugeFix la cfg.gauge_fix_atol nz g).nzyr_inv
      (gaugeFix la cfg.gauge_fix_atol nz g).nzxr_inv p).2
    refine ⟨_, rfl, κ / z, by positivity, fun e1 e2 => ?_⟩
    have a0 : N := Classical.arbitrary N
    have w0 := Classical.arbitrary (Fin (wD N (Fin (Fintype.card (N × N)))))
    have hi : ∀ i : N, i = a0 := fun i => Subsingleton.elim _ _
    set τ := (gaugeFix la cfg.gauge_fix_atol nz g).nzyr_inv a0 w0 * (gaugeFix la cfg.gauge_fix_atol nz g).nzxr_inv a0 w0 with hτ
    have eg : ∀ y x q q', g y x q q' = τ * (gaugeFix la cfg.gauge_fix_atol nz g).a12g w0 w0 q q' := by
      intro y x q q'
      rw [← hgp, Fintype.sum_subsingleton _ w0, Fintype.sum_subsingleton _ w0, hi y, hi x]
    have hτ0 : τ ≠ 0 := by
      intro h0
      apply hne
      funext y x q q'
      rw [eg, h0, zero_mul]
      rfl
    have eu : ∀ y x q q', pairProd (undoGauge (gaugeFix la cfg.gauge_fix_atol nz g).nzyr_inv
        (gaugeFix la cfg.gauge_fix_atol nz g).nzxr_inv p).1 (undoGauge (gaugeFix la cfg.gauge_fix_atol nz g).nzyr_inv
        (gaugeFix la cfg.gauge_fix_atol nz g).nzxr_inv p).2 y x q q' = τ * pairProd p.1 p.2 w0 w0 q q' := by
      intro y x q q'
      rw [pairProd_undo, Fintype.sum_subsingleton _ w0, Fintype.sum_subsingleton _ w0, hi y, hi x]
    have hb := h (fun _ u q => τ⁻¹ * e1 a0 u q) (fun _ u q => e2 a0 u q)
    unfold normSq4 at hb ⊢
    simp only [Fintype.sum_subsingleton _ a0, Fintype.sum_subsingleton _ w0] at hb ⊢
    have hb' := mul_le_mul_of_nonneg_left hb (sq_nonneg τ)
    simp only [Finset.mul_sum] at hb'
    refine le_trans (le_of_eq ?_) (hb'.trans (le_of_eq ?_))
    · refine Finset.sum_congr rfl fun q _ => Finset.sum_congr rfl fun q' _ => ?_
      rw [ez, eu, eg]
      simp only [RCLike.ofReal_real_eq_id, id_eq, Real.norm_eq_abs, sq_abs]
      field_simp
    · refine Finset.sum_congr rfl fun q _ => Finset.sum_congr rfl fun q' _ => ?_
      rw [eg]
      unfold pairProd
      simp only [Fintype.sum_subsingleton _ (0 : Fin 1), Real.norm_eq_abs, sq_abs]
      field_simp
  · simp only [if_neg hgf]
    obtain ⟨p, hp, κ, hκ, h⟩ := als_one la fo rep cfg hm (hb_init hb) (squareNorm nz) (squareNorm_one nz hinj) g hne
    rw [hp]
    obtain ⟨z, hz, ez⟩ := finalize_scale la (hb_fin hb) p.1 p.2
    refine ⟨_, rfl, κ / z, by positivity, fun e1 e2 => le_trans (le_of_eq ?_) (h e1 e2)⟩
    congr 1
    funext y x q q'
    rw [ez]
    simp only [RCLike.ofReal_real_eq_id, id_eq]
    field_simp

end one

section bond

variable {F P : Type} [Fintype P] [DecidableEq P] [Nonempty P]

theorem nD_one : nD (Fin 1) P = 1 := by
  unfold nD
  have := Fintype.card_pos (α := P)
  simp
  omega

/-- The new site tensors: the update returns, and a positive multiple of their contraction is a best approximation of the gate-applied
pair. -/
theorem recomposed_one (la : Lapack ℝ) (fo : Als.FloatOps F) (rep : ℝ → F) (cfg : Settings F) (hm : SolvesOne cfg.als_method cfg.als_epsilon)
    (hcut : 0 < cfg.positive_approx_cutoff)
    (hatol : cfg.use_gauge_fix = true → cfg.gauge_fix_atol < Real.sqrt cfg.positive_approx_cutoff)
    (n12 : Fin (nD (Fin 1) P) → Fin (nD (Fin 1) P) → Fin (nD (Fin 1) P) → Fin (nD (Fin 1) P) → ℝ) (a1 a2 : ATensor (Fin 1) P ℝ)
    (gate : P → P → P → P → ℝ) (hne : gated gate (twoSite a1 a2) ≠ 0) :
    ∃ b1 b2, recomposed la a1 a2 (updateReduced la fo rep cfg bD_le (decompose la a1 a2).a1r (decompose la a1 a2).a2r n12 gate) =
      some (.ok (b1, b2)) ∧ ∃ κ, BestBond (gated gate (twoSite a1 a2)) (twoSite b1 b2) κ := by
  have hsub : Subsingleton (Fin (nD (Fin 1) P)) := by rw [nD_one]; infer_instance
  have hg := C30_gate la a1 a2 gate
  have hgne : gateReduced (decompose la a1 a2).a1r (decompose la a1 a2).a2r gate ≠ 0 := by
    intro h0
    apply hne
    rw [← hg, h0]
    funext u r d l' u' d' p q
    simp [assembled]
  obtain ⟨f, hf, κ, hκ, herr⟩ := reduced_one la fo rep cfg hm bD_le hcut
    (by rw [Fintype.card_fin, nD_one]; simpa using hatol) (decompose la a1 a2).a1r (decompose la a1 a2).a2r n12 gate hgne
  obtain ⟨z, hz, ez⟩ := normalise_scale (recompose (decompose la a1 a2).a1q f.1 (decompose la a1 a2).a2q f.2).1
    (recompose (decompose la a1 a2).a1q f.1 (decompose la a1 a2).a2q f.2).2
  refine ⟨normalise (recompose (decompose la a1 a2).a1q f.1 (decompose la a1 a2).a2q f.2).1,
    normalise (recompose (decompose la a1 a2).a1q f.1 (decompose la a1 a2).a2q f.2).2, by rw [hf]; rfl, κ * z, mul_pos hκ hz, fun c1 c2 => ?_⟩
  have neg : ∀ {A B : Fin 1 → Fin 1 → Fin 1 → Fin 1 → Fin 1 → Fin 1 → P → P → ℝ},
      normSq8 (fun u r d l' u' d' p q => A u r d l' u' d' p q - B u r d l' u' d' p q) =
      normSq8 (fun u r d l' u' d' p q => B u r d l' u' d' p q - A u r d l' u' d' p q) := by
    intro A B
    unfold normSq8
    simp only [norm_sub_rev]
  have neg4 : ∀ {N : Type} [Fintype N] {A B : N → N → P → P → ℝ},
      normSq4 (fun y x p q => A y x p q - B y x p q) = normSq4 (fun y x p q => B y x p q - A y x p q) := by
    intro N _ A B
    unfold normSq4
    simp only [norm_sub_rev]
  obtain ⟨e1, e2, he12⟩ := reduced_nearer la a1 a2 c1 c2 (gateReduced (decompose la a1 a2).a1r (decompose la a1 a2).a2r gate)
  rw [hg] at he12
  have h1 := herr e1 e2
  rw [neg4, neg4 (A := gateReduced _ _ _) (B := pairProd e1 e2)] at h1
  rw [← normSq8_assembled la a1 a2, assembled_sub, hg] at h1
  rw [neg, neg (A := gated gate (twoSite a1 a2)) (B := twoSite c1 c2)]
  refine le_trans (le_of_eq (congrArg normSq8 ?_)) (h1.trans he12)
  funext u r d l' u' d' p q
  simp only [RCLike.ofReal_real_eq_id, id_eq]
  rw [mul_assoc, ez, assembled_pair]

/-- With bond dimension one the contraction is an outer product. -/
theorem twoMat_outer (c : ℝ) (x1 x2 : ATensor (Fin 1) P ℝ) :
    twoMat (fun u r d l' u' d' p q => c * twoSite x1 x2 u r d l' u' d' p q) =
      vecMulVec (fun i => c * x1 0 i.1.2.2 i.1.1 i.1.2.1 i.2) (fun j => x2 j.1.2.1 j.1.2.2 0 j.1.1 j.2) := by
  ext i j
  show c * ∑ b, x1 b i.1.2.2 i.1.1 i.1.2.1 i.2 * x2 j.1.2.1 j.1.2.2 b j.1.1 j.2 = _
  rw [Fintype.sum_subsingleton _ 0, vecMulVec_apply, mul_assoc]

/-- Without a tie there is one best approximation. -/
theorem best_one (T : Fin 1 → Fin 1 → Fin 1 → Fin 1 → Fin 1 → Fin 1 → P → P → ℝ) (hne : T ≠ 0) (htie : NoTie 1 (twoMat T)) (x1 x2 y1 y2 : ATensor (Fin 1) P ℝ)
    (c c' : ℝ) (h : BestBond T (twoSite x1 x2) c) (h' : BestBond T (twoSite y1 y2) c') :
    (∀ u r d l' u' d' p q, c * twoSite x1 x2 u r d l' u' d' p q = c' * twoSite y1 y2 u r d l' u' d' p q) ∧ twoSite x1 x2 ≠ 0 := by
  obtain ⟨la⟩ := nonempty_lapack (𝕜 := ℝ)
  have hsvd := la.svd_ok (twoMat T)
  set U := (la.svd (twoMat T)).1
  set S := (la.svd (twoMat T)).2.1
  set Vh := (la.svd (twoMat T)).2.2
  have hm0 : twoMat T ≠ 0 := by
    intro h0
    apply hne
    funext u r d l' u' d' p q
    exact congrFun (congrFun h0 ((r, d, u), p)) ((d', l', u'), q)
  obtain ⟨i, hi⟩ : ∃ i, S i ≠ 0 := by
    by_contra h0
    push Not at h0
    apply hm0
    rw [hsvd.mul]
    simp [h0]
  set i0 : Fin (min (Fintype.card ((Fin 1 × Fin 1 × Fin 1) × P)) (Fintype.card ((Fin 1 × Fin 1 × Fin 1) × P))) := ⟨0, i.pos⟩ with hi0
  have hS0 : 0 < S i0 := lt_of_lt_of_le (lt_of_le_of_ne (hsvd.nonneg i) (Ne.symm hi)) (hsvd.sorted i0 i (Nat.zero_le _))
  have hgap : ∀ j, j ≠ i0 → S j < S i0 := by
    intro j hj
    have hj1 : 1 ≤ j.val := Nat.one_le_iff_ne_zero.2 fun h => hj (Fin.ext h)
    rcases htie _ U S Vh hsvd i0 j Nat.zero_lt_one hj1 with h0 | h0
    · rw [h0]; exact hS0
    · exact h0
  have key : ∀ (z1 z2 : ATensor (Fin 1) P ℝ) (c : ℝ), BestBond T (twoSite z1 z2) c →
      twoMat (fun u r d l' u' d' p q => c * twoSite z1 z2 u r d l' u' d' p q) = S i0 • vecMulVec (fun i => U i i0) (Vh i0) := by
    intro z1 z2 c hb
    rw [twoMat_outer]
    refine best_outer hsvd i0 hS0 hgap _ _ fun x' y' => ?_
    have h1 := hb.2 (fun _ u r d p => x' ((r, d, u), p)) (fun l' u' _ d' q => y' ((d', l', u'), q))
    rw [← frobSq_twoMat, ← frobSq_twoMat] at h1
    rw [← twoMat_outer]
    refine h1.trans (le_of_eq ?_)
    congr 1
    ext i j
    show T _ _ _ _ _ _ _ _ - ∑ _ : Fin 1, x' i * y' j = _
    rw [Fintype.sum_subsingleton _ 0]
    rfl
  have k1 := key x1 x2 c h
  have k2 := key y1 y2 c' h'
  refine ⟨fun u r d l' u' d' p q => congrFun (congrFun (k1.trans k2.symm) ((r, d, u), p)) ((d', l', u'), q), fun h0 => ?_⟩
  rw [h0] at k1
  have hUU : Uᵀ * U = 1 := by simpa using hsvd.left
  have hVV : Vh * Vhᵀ = 1 := by simpa using hsvd.right
  have h1 : (∑ a, U a i0 * U a i0) = 1 := by
    have := congrFun (congrFun hUU i0) i0
    rwa [mul_apply, one_apply_eq] at this
  have h2 : (∑ a, Vh i0 a * Vh i0 a) = 1 := by
    have := congrFun (congrFun hVV i0) i0
    rwa [mul_apply, one_apply_eq] at this
  obtain ⟨a, -, ha⟩ := Finset.exists_ne_zero_of_sum_ne_zero (h1.symm ▸ one_ne_zero)
  obtain ⟨b, -, hb⟩ := Finset.exists_ne_zero_of_sum_ne_zero (h2.symm ▸ one_ne_zero)
  have h3 := congrFun (congrFun k1 a) b
  rw [Matrix.smul_apply, vecMulVec_apply, smul_eq_mul] at h3
  have h4 : S i0 * (U a i0 * Vh i0 b) = 0 := by
    rw [← h3]
    show c * (0 : ℝ) = 0
    rw [mul_zero]
  exact mul_ne_zero hS0.ne' (mul_ne_zero (fun h => ha (by rw [h, zero_mul])) (fun h => hb (by rw [h, zero_mul]))) h4

/-- The factors of an outer product. -/
theorem factors_one (x1 x2 y1 y2 : ATensor (Fin 1) P ℝ) (ρ : ℝ) (hρ : ρ ≠ 0) (hne : twoSite y1 y2 ≠ 0)
    (h : ∀ u r d l' u' d' p q, twoSite x1 x2 u r d l' u' d' p q = ρ * twoSite y1 y2 u r d l' u' d' p q) :
    (∃ c : ℝ, c ≠ 0 ∧ x1 = c • y1) ∧ ∃ c : ℝ, c ≠ 0 ∧ x2 = c • y2 := by
  have e : ∀ (z1 z2 : ATensor (Fin 1) P ℝ) u r d l' u' d' p q, twoSite z1 z2 u r d l' u' d' p q = z1 0 0 0 0 p * z2 0 0 0 0 q := by
    intro z1 z2 u r d l' u' d' p q
    unfold twoSite
    rw [Fintype.sum_subsingleton _ 0]
    simp only [Subsingleton.elim _ (0 : Fin 1)]
  have hz : ∀ (z : ATensor (Fin 1) P ℝ) l u r d p, z l u r d p = z 0 0 0 0 p := by
    intro z l u r d p
    simp only [Subsingleton.elim _ (0 : Fin 1)]
  obtain ⟨p0, q0, h0⟩ : ∃ p0 q0, y1 0 0 0 0 p0 * y2 0 0 0 0 q0 ≠ 0 := by
    by_contra h0
    push Not at h0
    apply hne
    funext u r d l' u' d' p q
    rw [e, h0]
    rfl
  have h1 : ∀ p q, x1 0 0 0 0 p * x2 0 0 0 0 q = ρ * (y1 0 0 0 0 p * y2 0 0 0 0 q) := fun p q => by rw [← e, h 0 0 0 0 0 0, e]
  have h2 : x1 0 0 0 0 p0 * x2 0 0 0 0 q0 ≠ 0 := by rw [h1]; exact mul_ne_zero hρ h0
  obtain ⟨hx, hx'⟩ := mul_ne_zero_iff.1 h2
  obtain ⟨hy, hy'⟩ := mul_ne_zero_iff.1 h0
  refine ⟨⟨ρ * y2 0 0 0 0 q0 / x2 0 0 0 0 q0, by positivity, ?_⟩, ⟨ρ * y1 0 0 0 0 p0 / x1 0 0 0 0 p0, by positivity, ?_⟩⟩
  · funext l u r d p
    rw [hz x1]
    show _ = _ * y1 l u r d p
    rw [hz y1]
    field_simp
    linear_combination h1 p q0
  · funext l u r d p
    rw [hz x2]
    show _ = _ * y2 l u r d p
    rw [hz y2]
    field_simp
    linear_combination h1 p0 p

end bond

end AceTN
