import Verif.Lemmas.CholeskyReturns
import Verif.Props.PatchTrial
import Verif.Props.FullUpdateComplex

/-!
C94: when full updates with the Cholesky method, which is the default, return.
-/

set_option autoImplicit false

namespace AceTN

open Spec Full Matrix ComplexOrder

namespace Spec

/-- With the default solver, a positive regularisation and at least one iteration, the update of the reduced tensors of a bond with a
positive norm tensor returns unless the gate takes the pair to zero. -/
def ReturnsUnlessZero (𝕜 : Type) [RCLike 𝕜] : Prop :=
  ∀ (N P F : Type) [Fintype N] [Fintype P] [DecidableEq N] [DecidableEq P] [Nonempty N] (bD : ℕ) [NeZero bD]
    (la : Lapack 𝕜) (fo : Als.FloatOps F) (rep : ℝ → F) (cfg : Settings F) (hb : bD ≤ Fintype.card (N × P))
    (a1r a2r : N → Fin bD → P → 𝕜) (n : N → N → N → N → 𝕜) (gate : P → P → P → P → 𝕜),
    0 < cfg.als_epsilon → cfg.als_method = .cholesky → 0 < cfg.als_niter → 0 < cfg.positive_approx_cutoff →
    (cfg.use_gauge_fix = true → cfg.gauge_fix_atol < Real.sqrt (cfg.positive_approx_cutoff * Fintype.card N)) →
    (normMat n).IsHermitian → AtLeast (normMat n) cfg.positive_approx_cutoff → gateReduced a1r a2r gate ≠ 0 →
    ∃ f, updateReduced la fo rep cfg hb a1r a2r n gate = some (.ok f)

end Spec

section reduced

variable {𝕜 F N P : Type} [RCLike 𝕜] [Fintype N] [Fintype P] [DecidableEq N] [DecidableEq P] [Nonempty N] {bD : ℕ} [NeZero bD]

omit [NeZero bD] [DecidableEq N] [DecidableEq P] [Nonempty N] in
/-- A second tensor with which the gate-applied pair is reached is better than zero. -/
theorem reaches_neg {Z : Type} [Fintype Z] (nz : N → N → Z → 𝕜) (hinj : RootInj nz) (g : N → N → P → P → 𝕜) (hne : g ≠ 0)
    (p : (N → Fin bD → P → 𝕜) × (N → Fin bD → P → 𝕜)) (h : Proportional g p) : ∃ r, cost r p.2 g (squareNorm nz) < 0 := by
  obtain ⟨c, hc, e⟩ := h
  have hc' : (c : 𝕜) ≠ 0 := RCLike.ofReal_ne_zero.2 hc.ne'
  refine ⟨fun y u q => (c : 𝕜)⁻¹ * p.1 y u q, ?_⟩
  have e1 : ∀ y x q q', ∑ u, (c : 𝕜)⁻¹ * p.1 y u q * p.2 x u q' = g y x q q' := by
    intro y x q q'
    have := e y x q q'
    unfold pairProd at this
    simp only [mul_assoc, ← Finset.mul_sum]
    rw [this, inv_mul_cancel_left₀ hc']
  rw [C35_cost_is_distance]
  simp only [e1, sub_self, mul_zero, Finset.sum_const_zero, norm_zero, ne_eq, OfNat.ofNat_ne_zero, not_false_eq_true, zero_pow,
    zero_sub, Left.neg_neg_iff]
  refine lt_of_le_of_ne (Finset.sum_nonneg fun _ _ => Finset.sum_nonneg fun _ _ => Finset.sum_nonneg fun _ _ => by positivity) fun h => hne ?_
  funext y x q q'
  refine congrFun (hinj (fun i => g i.1 i.2 q q') fun z => ?_) (y, x)
  have h1 := (Finset.sum_eq_zero_iff_of_nonneg fun _ _ => Finset.sum_nonneg fun _ _ => Finset.sum_nonneg fun _ _ => by positivity).1
    h.symm z (Finset.mem_univ _)
  have h2 := (Finset.sum_eq_zero_iff_of_nonneg fun _ _ => Finset.sum_nonneg fun _ _ => by positivity).1 h1 q (Finset.mem_univ _)
  have h3 := (Finset.sum_eq_zero_iff_of_nonneg fun _ _ => by positivity).1 h2 q' (Finset.mem_univ _)
  simpa using h3

omit [NeZero bD] in
/-- The pair that the solver starts from, real dtypes and nothing truncated. -/
theorem start_proportional (la : Lapack ℝ) (cfg : Settings F) (hb : bD ≤ Fintype.card (N × P)) (hcut : 0 < cfg.positive_approx_cutoff)
    (hatol : cfg.use_gauge_fix = true → cfg.gauge_fix_atol < Real.sqrt (cfg.positive_approx_cutoff * Fintype.card N))
    (n : N → N → N → N → ℝ) (nz : N → N → Fin (Fintype.card (N × N)) → ℝ)
    (hnz : positiveApprox la 2 cfg.positive_approx_cutoff n = some nz) (b1 b2 : N → Fin bD → P → ℝ)
    (g : N → N → P → P → ℝ) (hfit : pairProd b1 b2 = g) (hne : g ≠ 0) : Proportional g (startPair la cfg hb nz g) := by
  obtain ⟨_, -, -, -, hp, -⟩ := C33_result la _ hcut.le 0 n nz hnz
  unfold startPair
  by_cases hgf : cfg.use_gauge_fix = true
  · rw [if_pos hgf]
    have hgp := (C34_gauge_fix (B := Fin bD) la _ _ hcut (hatol hgf) 0 n nz hnz g).2.2
    have hfit' := gaugeFix_fits la cfg.gauge_fix_atol nz b1 b2
    rw [hfit] at hfit'
    have hne' : (gaugeFix la cfg.gauge_fix_atol nz g).a12g ≠ 0 := by
      intro h0
      apply hne
      funext y x p q
      rw [← hgp y x p q, h0]
      simp
    obtain ⟨c, hc, h⟩ := init_proportional la (hb_init (hb_gauge hb)) _ hne' _ _ hfit'
    refine ⟨c, hc, fun y x q q' => ?_⟩
    rw [pairProd_undo, ← hgp y x q q', Finset.mul_sum]
    refine Finset.sum_congr rfl fun v _ => ?_
    rw [Finset.mul_sum]
    refine Finset.sum_congr rfl fun w _ => ?_
    rw [h]
    ring
  · rw [if_neg hgf]
    exact init_proportional la (hb_init hb) _ hne _ _ hfit

/-- **C94 (nothing truncated).** For real dtypes the reduced update returns if the gate-applied pair fits into the bond dimension and
does not vanish, whatever the norm tensor; the new pair is not zero. -/
theorem C94_exact_partial (la : Lapack ℝ) (fo : Als.FloatOps F) (rep : ℝ → F) (cfg : Settings F) (hb : bD ≤ Fintype.card (N × P))
    (he : 0 < cfg.als_epsilon) (hm : cfg.als_method = .cholesky) (hni : 0 < cfg.als_niter) (hcut : 0 < cfg.positive_approx_cutoff)
    (hatol : cfg.use_gauge_fix = true → cfg.gauge_fix_atol < Real.sqrt (cfg.positive_approx_cutoff * Fintype.card N))
    (a1r a2r b1 b2 : N → Fin bD → P → ℝ) (n : N → N → N → N → ℝ) (gate : P → P → P → P → ℝ)
    (hfit : pairProd b1 b2 = gateReduced a1r a2r gate) (hne : gateReduced a1r a2r gate ≠ 0) :
    ∃ f, updateReduced la fo rep cfg hb a1r a2r n gate = some (.ok f) ∧ pairProd f.1 f.2 ≠ 0 := by
  obtain ⟨nz, hnz, h1, -⟩ := updateReduced_cholesky la fo rep cfg hb he hm hni hcut hatol a1r a2r n gate
  obtain ⟨_, -, -, -, hp, -⟩ := C33_result la _ hcut.le 0 n nz hnz
  exact h1 (reaches_neg nz (rootInj_of_atLeast nz _ hcut hp) _ hne _
    (start_proportional la cfg hb hcut hatol n nz hnz b1 b2 _ hfit hne))

end reduced

/-- **C94 (bond).** The same for the update of two site tensors: with real dtypes it returns if the gate-applied two-site tensor fits
into the bond dimension and does not vanish, whatever the boundary tensors. -/
theorem C94_bond_partial {F P X : Type} [Fintype P] [DecidableEq P] [Nonempty P] [Fintype X] {bD : ℕ} [NeZero bD] (la : Lapack ℝ)
    (fo : Als.FloatOps F) (rep : ℝ → F) (cfg : Settings F) (ipeps : NetT (Fin bD) P X ℝ) (s1 s2 : Site) (k : ℤ)
    (gate : P → P → P → P → ℝ) (a1 a2 : ATensor (Fin bD) P ℝ) (he : 0 < cfg.als_epsilon) (hm : cfg.als_method = .cholesky)
    (hni : 0 < cfg.als_niter) (hcut : 0 < cfg.positive_approx_cutoff)
    (hatol : cfg.use_gauge_fix = true → cfg.gauge_fix_atol < Real.sqrt (cfg.positive_approx_cutoff * nD (Fin bD) P))
    (hfits : Fits (gated gate (twoSite a1 a2))) (hne : gated gate (twoSite a1 a2) ≠ 0) :
    ∃ b1 b2, fullTensorUpdate la fo rep cfg ipeps s1 s2 k gate a1 a2 = some (.ok (b1, b2)) := by
  obtain ⟨c1, c2, hfit⟩ := hfits
  have hg := C30_gate la a1 a2 gate
  rw [← hg] at hfit
  obtain ⟨e1, e2, hfit'⟩ := assembled_fits la a1 a2 c1 c2 _ hfit
  obtain ⟨f, hf, -⟩ := C94_exact_partial la fo rep cfg bD_le he hm hni hcut (by rw [Fintype.card_fin]; exact hatol)
    (decompose la a1 a2).a1r (decompose la a1 a2).a2r e1 e2
    (buildNormTensor ipeps s1 s2 k (decompose la a1 a2).a1q (decompose la a1 a2).a2q) gate hfit' (by
      intro h0
      apply hne
      rw [← hg, h0]
      funext u r d l' u' d' p q
      simp [assembled])
  unfold fullTensorUpdate
  dsimp only
  rw [hf]
  exact ⟨_, _, rfl⟩

/-- With the identity gate the update returns for all real tensors whose contraction does not vanish. -/
example {F X : Type} [Fintype X] {bD : ℕ} [NeZero bD] (la : Lapack ℝ) (fo : Als.FloatOps F) (rep : ℝ → F) (tol : F)
    (ipeps : NetT (Fin bD) (Fin 2) X ℝ) (s1 s2 : Site) (k : ℤ) (a1 a2 : ATensor (Fin bD) (Fin 2) ℝ) (hne : twoSite a1 a2 ≠ 0) :
    ∃ b1 b2, fullTensorUpdate la fo rep ⟨false, 0, 1, 100, tol, .cholesky, 1⟩ ipeps s1 s2 k
      (fun p q r s => if p = r ∧ q = s then 1 else 0) a1 a2 = some (.ok (b1, b2)) := by
  obtain ⟨e, -⟩ := C39_identity_gate a1 a2 (fun p q r s => if p = r ∧ q = s then 1 else 0) fun _ _ _ _ => rfl
  exact C94_bond_partial la fo rep _ ipeps s1 s2 k _ a1 a2 (by norm_num) rfl (by norm_num) (by norm_num) (fun h => absurd h (by simp))
    (by rw [e]; exact ⟨a1, a2, rfl⟩) (by rw [e]; exact hne)

/-- The norm tensor of the witness. -/
def tiltedNorm (y x Y X : Fin 2) : ℝ :=
  if y = Y ∧ x = X then (if y = 1 ∧ x = 1 then 5 else 1)
  else if (y = 0 ∧ x = 0 ∧ Y = 1 ∧ X = 1) ∨ (y = 1 ∧ x = 1 ∧ Y = 0 ∧ X = 0) then -2 else 0

/-- The gate of the witness. -/
def tiltedGate (p q r s : Fin 2) : ℝ :=
  if r = 0 ∧ s = 0 then (if p = 0 ∧ q = 0 then 2 else if p = 1 ∧ q = 1 then 1 else 0) else 0

/-- The reduced tensors of the witness. -/
def tiltedPair (y : Fin 2) (_ : Fin 1) (p : Fin 2) : ℝ := if y = p then 1 else 0

theorem tilted_gate : gateReduced tiltedPair tiltedPair tiltedGate = tiltedGate := by
  funext y x r s
  unfold gateReduced tiltedPair
  simp

theorem tilted_aux (x0 x1 z0 z1 z2 z3 : ℝ)
    (h : (2 - x0 * z0) ^ 2 + (x0 * z1) ^ 2 + (x0 * z2) ^ 2 + (x0 * z3) ^ 2 + (x1 * z0) ^ 2 + (1 - x1 * z1) ^ 2 ≤ 1) :
    z1 = 0 ∧ z2 = 0 ∧ z3 = 0 := by
  have hb : 0 ≤ x1 * z1 := by
    by_contra h0
    nlinarith [h, sq_nonneg (2 - x0 * z0), sq_nonneg (x0 * z1), sq_nonneg (x0 * z2), sq_nonneg (x0 * z3), sq_nonneg (x1 * z0)]
  have h2 : 2 * ((x0 * z0) * (x1 * z1)) ≤ (x0 * z1) ^ 2 + (x1 * z0) ^ 2 := by nlinarith [sq_nonneg (x0 * z1 - x1 * z0)]
  have hb0 : x1 * z1 = 0 := by
    refine le_antisymm ?_ hb
    nlinarith [sq_nonneg (x0 * z0 + x1 * z1 - 2), sq_nonneg (x0 * z2), sq_nonneg (x0 * z3)]
  rw [hb0] at h
  have e0 : x0 * z0 = 2 := by
    have : (2 - x0 * z0) ^ 2 ≤ 0 := by nlinarith [sq_nonneg (x0 * z1), sq_nonneg (x0 * z2), sq_nonneg (x0 * z3), sq_nonneg (x1 * z0)]
    have := pow_eq_zero_iff two_ne_zero |>.1 (le_antisymm this (sq_nonneg _))
    linarith
  have hx0 : x0 ≠ 0 := by rintro rfl; norm_num at e0
  have key : ∀ w : ℝ, (x0 * w) ^ 2 ≤ 0 → w = 0 := fun w hw =>
    (mul_eq_zero.1 (pow_eq_zero_iff two_ne_zero |>.1 (le_antisymm hw (sq_nonneg _)))).resolve_left hx0
  refine ⟨key _ ?_, key _ ?_, key _ ?_⟩ <;>
    nlinarith [sq_nonneg (2 - x0 * z0), sq_nonneg (x0 * z1), sq_nonneg (x0 * z2), sq_nonneg (x0 * z3), sq_nonneg (x1 * z0)]

/-- The second tensor that the solver starts from has entries only where the larger of the two terms has. -/
theorem tilted_start (la : Lapack ℝ) (hb : 1 ≤ min (Fintype.card (Fin 2 × Fin 2)) (Fintype.card (Fin 2 × Fin 2))) :
    ∀ x q, ¬ (x = 0 ∧ q = 0) → (initReduced la hb tiltedGate).2 x 0 q = 0 := by
  obtain ⟨-, c, hc, h⟩ := C37_real_partial (Fin 2) (Fin 2) 1 hb la tiltedGate (by
    intro h0
    have := congrFun (congrFun (congrFun (congrFun h0 0) 0) 0) 0
    simp [tiltedGate] at this)
  have h := h (fun y _ p => if y = 0 ∧ p = 0 then 2 else 0) (fun x _ q => if x = 0 ∧ q = 0 then 1 else 0)
  generalize (initReduced la hb tiltedGate).1 = f at h
  generalize (initReduced la hb tiltedGate).2 = z at h ⊢
  unfold normSq4 pairProd tiltedGate at h
  simp only [Finset.univ_unique, Finset.sum_singleton, Fin.sum_univ_two, Real.norm_eq_abs, sq_abs, Fin.default_eq_zero] at h
  norm_num at h
  obtain ⟨h1, h2, h3⟩ := tilted_aux (c * f 0 0 0) (c * f 1 0 0) (z 0 0 0) (z 1 0 0) (z 0 0 1) (z 1 0 1) (by
    nlinarith [h, sq_nonneg (c * (f 0 0 1 * z 0 0 0)), sq_nonneg (c * (f 0 0 1 * z 0 0 1)), sq_nonneg (c * (f 0 0 1 * z 1 0 0)),
      sq_nonneg (c * (f 0 0 1 * z 1 0 1)), sq_nonneg (c * (f 1 0 0 * z 0 0 1)), sq_nonneg (c * (f 1 0 1 * z 0 0 0)),
      sq_nonneg (c * (f 1 0 1 * z 0 0 1)), sq_nonneg (c * (f 1 0 0 * z 1 0 1)), sq_nonneg (c * (f 1 0 1 * z 1 0 0)),
      sq_nonneg (c * (f 1 0 1 * z 1 0 1))])
  intro x q hxq
  fin_cases x <;> fin_cases q
  · exact absurd ⟨rfl, rfl⟩ hxq
  · exact h2
  · exact h1
  · exact h3

theorem tilted_cost (r z : Fin 2 → Fin 1 → Fin 2 → ℝ) (hz : ∀ x q, ¬ (x = 0 ∧ q = 0) → z x 0 q = 0) :
    0 ≤ cost r z tiltedGate tiltedNorm := by
  have h1 := hz 0 1 (by decide)
  have h2 := hz 1 0 (by decide)
  have h3 := hz 1 1 (by decide)
  unfold cost tiltedGate tiltedNorm
  simp only [Finset.univ_unique, Finset.sum_singleton, Fin.sum_univ_two, Fin.default_eq_zero, h1, h2, h3, RCLike.re_to_real,
    Pi.star_apply, star_trivial]
  norm_num
  have := fun w : Fin 2 × Fin 2 => mul_self_nonneg (r w.1 0 w.2 * z 0 0 0)
  linarith [this (0, 0), this (0, 1), this (1, 0), this (1, 1)]

theorem tilted_pos : (normMat tiltedNorm).IsHermitian ∧ AtLeast (normMat tiltedNorm) (1 / 10) := by
  constructor
  · ext ⟨y, x⟩ ⟨Y, X⟩
    fin_cases y <;> fin_cases x <;> fin_cases Y <;> fin_cases X <;> simp [normMat, tiltedNorm]
  · intro v
    unfold qform Spec.normSq normMat tiltedNorm
    simp only [Fintype.sum_prod_type, Fin.sum_univ_two, of_apply, Real.norm_eq_abs, sq_abs, RCLike.re_to_real, star_trivial]
    norm_num
    nlinarith [sq_nonneg (v (0, 0) - 2 * v (1, 1)), sq_nonneg (9 * v (0, 0) - 20 * v (1, 1)), sq_nonneg (v (0, 0)), sq_nonneg (v (1, 1)),
      sq_nonneg (v (0, 1)), sq_nonneg (v (1, 0))]

/-- The update of the witness raises with every library. -/
theorem tilted_raises {F : Type} (la : Lapack ℝ) (fo : Als.FloatOps F) (rep : ℝ → F) (tol : F) (hb : 1 ≤ Fintype.card (Fin 2 × Fin 2)) :
    updateReduced la fo rep ⟨false, 0, 1 / 10, 1, tol, .cholesky, 1⟩ hb tiltedPair tiltedPair tiltedNorm tiltedGate =
      some (.error .runtimeError) := by
  obtain ⟨nz, hnz, -, h⟩ := updateReduced_cholesky la fo rep ⟨false, 0, 1 / 10, 1, tol, .cholesky, 1⟩ hb (by norm_num) rfl (by norm_num)
    (by norm_num) (fun h => absurd h (by simp)) tiltedPair tiltedPair tiltedNorm tiltedGate
  refine h fun r => ?_
  obtain ⟨t, -, e, -, -, ht⟩ := C33_result la _ (by norm_num) 0 tiltedNorm nz hnz
  rw [la.herm_of _ tilted_pos.1] at e ht
  have hs : squareNorm nz = tiltedNorm := by
    funext y x Y X
    have := congrFun (congrFun e (y, x)) (Y, X)
    rw [ht tilted_pos.2] at this
    simpa [normMat] using this
  rw [hs, tilted_gate]
  exact tilted_cost r _ (tilted_start la _)

/-- **C94** is violated with real dtypes if the bond is truncated: the second tensor that the solver starts from is a singular vector,
and all pairs with it are orthogonal to the gate-applied pair with respect to the norm tensor.  Every library raises. -/
theorem C94_violated_truncation : ¬ Spec.ReturnsUnlessZero ℝ := by
  intro h
  obtain ⟨la⟩ := nonempty_lapack (𝕜 := ℝ)
  obtain ⟨f, hf⟩ := h (Fin 2) (Fin 2) Unit 1 la ⟨fun _ _ => (), fun _ => (), fun _ _ => (), fun _ _ => false⟩ (fun _ => ())
    ⟨false, 0, 1 / 10, 1, (), .cholesky, 1⟩ (by simp) tiltedPair tiltedPair tiltedNorm tiltedGate
    (by norm_num) rfl (by norm_num) (by norm_num) (fun h => absurd h (by simp)) tilted_pos.1 tilted_pos.2 (by
      rw [tilted_gate]
      intro h0
      have := congrFun (congrFun (congrFun (congrFun h0 0) 0) 0) 0
      simp [tiltedGate] at this)
  rw [tilted_raises] at hf
  exact absurd (Option.some.inj hf) (by simp)

/-- **C94** is violated with complex dtypes although nothing is truncated: spin up next to spin along `y`, the identity as gate and as norm
tensor. -/
theorem C94_violated_complex : ¬ Spec.ReturnsUnlessZero ℂ := by
  intro h
  obtain ⟨la⟩ := nonempty_lapack (𝕜 := ℂ)
  have hg : gateReduced (fun (_ : Fin 1) (_ : Fin 1) (p : Fin 2) => if p = 0 then (1 : ℂ) else 0)
      (fun (_ : Fin 1) (_ : Fin 1) (p : Fin 2) => if p = 0 then (1 : ℂ) else Complex.I) idGate =
      fun _ _ p q => (if p = 0 then (1 : ℂ) else 0) * (if q = 0 then (1 : ℂ) else Complex.I) := by
    funext y x p q
    fin_cases p <;> fin_cases q <;> simp [gateReduced, idGate]
  obtain ⟨f, hf⟩ := h (Fin 1) (Fin 2) Unit 1 la ⟨fun _ _ => (), fun _ => (), fun _ _ => (), fun _ _ => false⟩ (fun _ => ())
    ⟨false, 0, 1 / 10, 1, (), .cholesky, 1⟩ (by simp) (fun _ _ p => if p = 0 then 1 else 0) (fun _ _ p => if p = 0 then 1 else Complex.I)
    (fun _ _ _ _ => 1) idGate (by norm_num) rfl (by norm_num) (by norm_num) (fun h => absurd h (by simp))
    (by ext a b; simp [normMat]) (by
      intro v
      unfold qform Spec.normSq normMat
      simp only [Fintype.sum_prod_type, Finset.univ_unique, Finset.sum_singleton, of_apply, mul_one]
      rw [RCLike.star_def, RCLike.conj_mul, ← RCLike.ofReal_pow, RCLike.ofReal_re]
      nlinarith [sq_nonneg ‖v (default, default)‖]) (by
      rw [hg]
      intro h0
      have := congrFun (congrFun (congrFun (congrFun h0 0) 0) 0) 0
      simp at this)
  rw [(updateReduced_collapse (by simp) la _ _ _ (by norm_num) _ _ _ _ _ (fun p => if p = 0 then (1 : ℂ) else 0)
    (fun q => if q = 0 then (1 : ℂ) else Complex.I) (by simp [Fin.sum_univ_two]) hg).2 rfl] at hf
  exact absurd (Option.some.inj hf) (by simp)

section patch

variable {𝕜 F : Type} [RCLike 𝕜] {dB pD nx ny : ℕ} [NeZero dB] [NeZero pD] {A : Site → ATensor (Fin dB) (Fin pD) 𝕜}

/-- What `update` does at a bond for both results of the reduced update, without one-site gates. -/
theorem numUpdate_some (la : Lapack 𝕜) (fo : Als.FloatOps F) (rep : ℝ → F) (cfg : Settings F)
    (gates : Bond → Fin pD → Fin pD → Fin pD → Fin pD → 𝕜) (net : Net (Ten (Fin dB) (Fin pD) 𝕜)) (hnA : ∀ s, net.A s = .site (A s))
    (b : Bond) (n : _)
    (hn : numNorm net b (decompose la (bondPermute b.k (A b.s1)) (bondPermute b.k (A b.s2))).a1q
      (decompose la (bondPermute b.k (A b.s1)) (bondPermute b.k (A b.s2))).a2q = .ok n) :
    (∀ f, updateReduced la fo rep cfg bD_le (decompose la (bondPermute b.k (A b.s1)) (bondPermute b.k (A b.s2))).a1r
        (decompose la (bondPermute b.k (A b.s1)) (bondPermute b.k (A b.s2))).a2r n (gates b) = some (.ok f) →
      ∃ B, numUpdate la fo rep cfg none gates net b = some (.ok B)) ∧
    (∀ e, updateReduced la fo rep cfg bD_le (decompose la (bondPermute b.k (A b.s1)) (bondPermute b.k (A b.s2))).a1r
        (decompose la (bondPermute b.k (A b.s1)) (bondPermute b.k (A b.s2))).a2r n (gates b) = some (.error e) →
      numUpdate la fo rep cfg none gates net b = some (.error e)) := by
  unfold numUpdate
  rw [hnA, hnA]
  dsimp only
  unfold numTensorUpdate
  dsimp only
  rw [hn]
  dsimp only
  constructor
  · intro f hf
    rw [hf]
    exact ⟨_, rfl⟩
  · intro e he
    rw [he]
    rfl

/-- **C94 (patch).** With the default solver the update of a bond returns exactly if some pair with the second tensor that the solver
starts from gives a patch state nearer to the gated one than no state at all; otherwise it raises.  Nearness is the one of
`C91_update`. -/
theorem C94_patch (hx : 0 < nx) (hy : 0 < ny) {net : Net (Ten (Fin dB) (Fin pD) 𝕜)} {G : Rect → Rect}
    (h : PatchNorms nx ny A net G) (hnA : ∀ s, net.A s = .site (A s)) (la : Lapack 𝕜) (fo : Als.FloatOps F) (rep : ℝ → F)
    (cfg : Settings F) (he : 0 < cfg.als_epsilon) (hm : cfg.als_method = .cholesky) (hni : 0 < cfg.als_niter)
    (hcut : 0 < cfg.positive_approx_cutoff)
    (hatol : cfg.use_gauge_fix = true → cfg.gauge_fix_atol < Real.sqrt (cfg.positive_approx_cutoff * nD (Fin dB) (Fin pD)))
    (gates : Bond → Fin pD → Fin pD → Fin pD → Fin pD → 𝕜) (s : Site) (hs : InCell nx ny s) (K : Fin 4) :
    let d := decompose la (bondPermute K.val (A s)) (bondPermute K.val (A (neighbour nx ny s K.val)))
    let R := G (bondRect (atLattice s) K)
    let ψ := trialState (unfoldCell nx ny A) R (atLattice s) K d.a1q d.a2q
    let gate := gates ⟨s, neighbour nx ny s K.val, K.val⟩
    let φ := gatedState (unfoldCell nx ny A) R (atLattice s) K gate
    let g := gateReduced d.a1r d.a2r gate
    ∃ n nz, numNorm net ⟨s, neighbour nx ny s K.val, K.val⟩ d.a1q d.a2q = .ok n ∧
      positiveApprox la 2 cfg.positive_approx_cutoff n = some nz ∧
      ∃ c t : ℝ, 0 < c ∧ 0 ≤ t ∧ (AtLeast (normMat n) cfg.positive_approx_cutoff → t = 0) ∧
        ((∃ r1, c * stateDist (ψ r1 (startPair la cfg bD_le nz g).2) φ + t * normSq4 (pairProd r1 (startPair la cfg bD_le nz g).2 - g) <
            c * stateDist φ 0 + t * normSq4 g) →
          ∃ B, numUpdate la fo rep cfg none gates net ⟨s, neighbour nx ny s K.val, K.val⟩ = some (.ok B)) ∧
        ((∀ r1, c * stateDist φ 0 + t * normSq4 g ≤
            c * stateDist (ψ r1 (startPair la cfg bD_le nz g).2) φ + t * normSq4 (pairProd r1 (startPair la cfg bD_le nz g).2 - g)) →
          numUpdate la fo rep cfg none gates net ⟨s, neighbour nx ny s K.val, K.val⟩ = some (.error .runtimeError)) := by
  intro d R ψ gate φ g
  obtain ⟨n', hn', hpos⟩ := C91_posSemidef h s hs K _ d.a1q d.a2q
  obtain ⟨n, hn, c', hc', ecost⟩ := C91_cost hx hy h la s hs K
  obtain rfl : n = n' := Except.ok.inj (hn.symm.trans hn')
  obtain ⟨nz, hnz, u1, u2⟩ := updateReduced_cholesky la fo rep cfg bD_le he hm hni hcut
    (by rw [Fintype.card_fin]; exact hatol) d.a1r d.a2r n gate
  obtain ⟨t, ht, hsq, -, -, ht0⟩ := C33_result la _ hcut.le 0 n nz hnz
  rw [la.herm_of _ hpos.1] at hsq ht0
  have hsq' : squareNorm nz = fun y x Y X => n y x Y X + if y = Y ∧ x = X then (t : 𝕜) else 0 := by
    funext y x Y X
    have := congrFun (congrFun hsq (y, x)) (Y, X)
    simp only [normMat, of_apply, Matrix.add_apply, Matrix.smul_apply, one_apply, Prod.mk.injEq, smul_eq_mul, mul_ite, mul_one, mul_zero] at this
    exact this
  have key : ∀ r1 r2, cost r1 r2 g (squareNorm nz) = c' * stateDist (ψ r1 r2) φ + t * normSq4 (pairProd r1 r2 - g) -
      (c' * stateDist φ 0 + t * normSq4 g) := by
    intro r1 r2
    rw [hsq', cost_shift, ecost r1 r2 gate]
    ring
  obtain ⟨k1, k2⟩ := numUpdate_some la fo rep cfg gates net hnA ⟨s, neighbour nx ny s K.val, K.val⟩ n hn
  refine ⟨n, nz, hn, hnz, c', t, hc', ht, ht0, ?_, ?_⟩
  · rintro ⟨r1, hr⟩
    obtain ⟨f, hf, -⟩ := u1 ⟨r1, by rw [key]; linarith⟩
    exact k1 f hf
  · intro hr
    exact k2 _ (u2 fun r1 => by rw [key]; linarith [hr r1])

/-- **C94 (run).** In a network whose norm tensors are those of patches, real dtypes: `update` returns for every bond whose gate-applied
two-site tensor fits into the bond dimension and does not vanish.  So `C91_regularised` speaks about it. -/
theorem C94_run_partial {A : Site → ATensor (Fin dB) (Fin pD) ℝ} {net : Net (Ten (Fin dB) (Fin pD) ℝ)} {G : Rect → Rect}
    (h : PatchNorms nx ny A net G) (hnA : ∀ s, net.A s = .site (A s)) (la : Lapack ℝ) (fo : Als.FloatOps F) (rep : ℝ → F)
    (cfg : Settings F) (he : 0 < cfg.als_epsilon) (hm : cfg.als_method = .cholesky) (hni : 0 < cfg.als_niter)
    (hcut : 0 < cfg.positive_approx_cutoff)
    (hatol : cfg.use_gauge_fix = true → cfg.gauge_fix_atol < Real.sqrt (cfg.positive_approx_cutoff * nD (Fin dB) (Fin pD)))
    (gates : Bond → Fin pD → Fin pD → Fin pD → Fin pD → ℝ) (s : Site) (hs : InCell nx ny s) (K : Fin 4)
    (hfits : Fits (gated (gates ⟨s, neighbour nx ny s K.val, K.val⟩)
      (twoSite (bondPermute K.val (A s)) (bondPermute K.val (A (neighbour nx ny s K.val))))))
    (hne : gated (gates ⟨s, neighbour nx ny s K.val, K.val⟩)
      (twoSite (bondPermute K.val (A s)) (bondPermute K.val (A (neighbour nx ny s K.val)))) ≠ 0) :
    ∃ B, numUpdate la fo rep cfg none gates net ⟨s, neighbour nx ny s K.val, K.val⟩ = some (.ok B) := by
  obtain ⟨n, hn, -⟩ := h s hs K _ (decompose la (bondPermute K.val (A s)) (bondPermute K.val (A (neighbour nx ny s K.val)))).a1q
    (decompose la (bondPermute K.val (A s)) (bondPermute K.val (A (neighbour nx ny s K.val)))).a2q
  obtain ⟨c1, c2, hfit⟩ := hfits
  have hg := C30_gate la (bondPermute K.val (A s)) (bondPermute K.val (A (neighbour nx ny s K.val)))
    (gates ⟨s, neighbour nx ny s K.val, K.val⟩)
  rw [← hg] at hfit
  obtain ⟨e1, e2, hfit'⟩ := assembled_fits la _ _ c1 c2 _ hfit
  obtain ⟨f, hf, -⟩ := C94_exact_partial la fo rep cfg bD_le he hm hni hcut (by rw [Fintype.card_fin]; exact hatol)
    _ _ e1 e2 n (gates ⟨s, neighbour nx ny s K.val, K.val⟩) hfit' (by
      intro h0
      apply hne
      rw [← hg, h0]
      funext u r d l' u' d' p q
      simp [assembled])
  exact (numUpdate_some la fo rep cfg gates net hnA ⟨s, neighbour nx ny s K.val, K.val⟩ n hn).1 f hf

end patch

end AceTN
