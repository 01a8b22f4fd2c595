import Verif.Model.FullUpdateBond
import Verif.Props.AlsOptimal
import Verif.Props.Split
import Verif.Props.Gauge

/-! The alternating solver reproduces a target that fits. -/

set_option autoImplicit false

namespace AceTN

open Full Matrix Spec SumTac

variable {𝕜 : Type} [RCLike 𝕜] {N P : Type} [Fintype N] [Fintype P] [DecidableEq N]

/-- The root of the norm has no kernel. -/
def RootInj {Z : Type} (nz : N → N → Z → 𝕜) : Prop :=
  ∀ ψ : N × N → 𝕜, (∀ z, ∑ y, ∑ x, nz y x z * ψ (y, x) = 0) → ψ = 0

omit [DecidableEq N] in
theorem rootInj_of_atLeast {Z : Type} [Fintype Z] (nz : N → N → Z → 𝕜) (c : ℝ) (hc : 0 < c)
    (h : Spec.AtLeast (normMat (squareNorm nz)) c) : RootInj nz := by
  intro ψ hψ
  have := root_key nz c h ψ
  simp only [hψ, norm_zero, ne_eq, OfNat.ofNat_ne_zero, not_false_eq_true, zero_pow, Finset.sum_const_zero] at this
  have h0 : Spec.normSq ψ ≤ 0 := by nlinarith
  have h1 : Spec.normSq ψ = 0 := le_antisymm h0 (normSq_nonneg ψ)
  funext i
  unfold Spec.normSq at h1
  have := (Finset.sum_eq_zero_iff_of_nonneg fun i _ => by positivity).1 h1 i (Finset.mem_univ _)
  simpa using this

omit [DecidableEq N] in
/-- A pair that costs no more than an exact one is exact. -/
theorem exact_of_cost {B Z : Type} [Fintype B] [Fintype Z] (nz : N → N → Z → 𝕜) (hnz : RootInj nz)
    (a12g : N → N → P → P → 𝕜) (a1 a2 b1 b2 : N → B → P → 𝕜) (hb : pairProd b1 b2 = a12g)
    (h : cost a1 a2 a12g (squareNorm nz) ≤ cost b1 b2 a12g (squareNorm nz)) : pairProd a1 a2 = a12g := by
  rw [C35_cost_is_distance, C35_cost_is_distance] at h
  have hb' : ∀ y x p q, (∑ u, b1 y u p * b2 x u q) - a12g y x p q = 0 := fun y x p q => by
    rw [← hb]; exact sub_self _
  have h1 : ∑ z, ∑ p, ∑ q, ‖∑ y, ∑ x, nz y x z * ((∑ u, a1 y u p * a2 x u q) - a12g y x p q)‖ ^ 2 ≤ 0 := by
    simp only [hb', mul_zero, Finset.sum_const_zero, norm_zero, ne_eq, OfNat.ofNat_ne_zero, not_false_eq_true,
      zero_pow] at h
    linarith
  have h2 := le_antisymm h1 (Finset.sum_nonneg fun _ _ => Finset.sum_nonneg fun _ _ => Finset.sum_nonneg fun _ _ => by
    positivity)
  rw [Finset.sum_eq_zero_iff_of_nonneg fun _ _ => Finset.sum_nonneg fun _ _ => Finset.sum_nonneg fun _ _ => by
    positivity] at h2
  funext y x p q
  have h3 := hnz (fun i => (∑ u, a1 i.1 u p * a2 i.2 u q) - a12g i.1 i.2 p q) fun z => by
    have h4 := h2 z (Finset.mem_univ _)
    rw [Finset.sum_eq_zero_iff_of_nonneg fun _ _ => Finset.sum_nonneg fun _ _ => by positivity] at h4
    have h5 := h4 p (Finset.mem_univ _)
    rw [Finset.sum_eq_zero_iff_of_nonneg fun _ _ => by positivity] at h5
    simpa using h5 q (Finset.mem_univ _)
  exact sub_eq_zero.1 (congrFun h3 (y, x))

/-- The invariant of the iteration: the product is a positive multiple of the target. -/
def Proportional {B : Type} [Fintype B] (a12g : N → N → P → P → 𝕜) (p : (N → B → P → 𝕜) × (N → B → P → 𝕜)) : Prop :=
  ∃ c : ℝ, 0 < c ∧ ∀ y x p' q, pairProd p.1 p.2 y x p' q = (c : 𝕜) * a12g y x p' q

omit [Fintype N] [DecidableEq N] in
theorem squareNorm_herm {Z : Type} [Fintype Z] (nz : N → N → Z → 𝕜) : (normMat (squareNorm nz)).IsHermitian := by
  ext a b
  simp only [conjTranspose_apply, normMat, squareNorm, of_apply, star_sum, star_mul', Pi.star_apply, star_star]
  exact Finset.sum_congr rfl fun _ _ => mul_comm _ _

omit [DecidableEq N] in
theorem squareNorm_psd {Z : Type} [Fintype Z] (nz : N → N → Z → 𝕜) : Spec.AtLeast (normMat (squareNorm nz)) 0 := by
  intro v
  have h := qform_squareNorm nz fun a => star (v a)
  simp only [star_star] at h
  rw [zero_mul]
  change 0 ≤ RCLike.re (qform (normMat (squareNorm nz)) fun a => v a)
  rw [h, map_sum]
  refine Finset.sum_nonneg fun z _ => ?_
  rw [RCLike.star_def, RCLike.mul_conj]
  norm_cast
  positivity

/-- A pass without regularisation makes a proportional pair exact. -/
theorem pass_exact {B Z : Type} [Fintype B] [DecidableEq B] [Fintype Z] (la : Lapack 𝕜) (method : Als.Solver)
    (nz : N → N → Z → 𝕜) (hnz : RootInj nz) (a12g : N → N → P → P → 𝕜)
    (p p' : (N → B → P → 𝕜) × (N → B → P → 𝕜)) (hp : Proportional a12g p)
    (h : alsPass la 0 (squareNorm nz) (n12gOf (squareNorm nz) a12g) method p = .ok p') :
    pairProd p'.1 p'.2 = a12g := by
  obtain ⟨c, hc, hp⟩ := hp
  have hc' : (c : 𝕜) ≠ 0 := by exact_mod_cast hc.ne'
  obtain ⟨h1, h2⟩ := alsPass_ok la 0 method _ _ _ _ h
  have hN := squareNorm_herm nz
  have hP := squareNorm_psd nz
  have e1 := C35_first_partial la 0 method _ hN hP a12g _ _ (.inl rfl) h1 (fun y u q => (c : 𝕜)⁻¹ * p.1 y u q)
  have x1 := exact_of_cost nz hnz a12g _ _ _ _ (by
    funext y x q q'
    have := hp y x q q'
    unfold pairProd at this ⊢
    simp only [mul_assoc]
    rw [← Finset.mul_sum, this, inv_mul_cancel_left₀ hc']) e1
  have e2 := C35_second_partial la 0 method _ hN hP a12g _ _ (.inl rfl) h2 p.2
  exact exact_of_cost nz hnz a12g _ _ _ _ x1 e2

theorem torchLoop_inv {Q F : Type} (fo : Als.FloatOps F) (half : Q → Except PyErr Q) (rep : Q → F) (tol : F) (I : Q → Prop)
    (hI : ∀ q q', I q → half q = .ok q' → I q') :
    ∀ (fuel i : ℕ) (q q' : Q) (d : F), I q → Als.torchLoop fo half rep tol fuel i q d = .ok q' → I q'
  | 0, _, q, q', _, hq0, h => by
    rw [Als.torchLoop] at h
    rwa [← Except.ok.inj h]
  | fuel + 1, i, q, q', d, hq0, h => by
    rw [Als.torchLoop] at h
    cases hq : half q with
    | error e => rw [hq] at h; exact absurd h (by simp [bind, Except.bind])
    | ok q1 =>
      rw [hq] at h
      simp only [bind, Except.bind] at h
      split at h
      · have h : (Except.ok q1 : Except PyErr Q) = .ok q' := h
        rw [← Except.ok.inj h]
        exact hI _ _ hq0 hq
      · exact torchLoop_inv fo half rep tol I hI fuel (i + 1) q1 q' _ (hI _ _ hq0 hq) h

/-- If no pass raises, the solver does not raise. -/
theorem torchLoop_total {Q F : Type} (fo : Als.FloatOps F) (half : Q → Except PyErr Q) (rep : Q → F) (tol : F)
    (hh : ∀ q, ∃ q', half q = .ok q') :
    ∀ (fuel i : ℕ) (q : Q) (d : F), ∃ q', Als.torchLoop fo half rep tol fuel i q d = .ok q'
  | 0, _, q, _ => ⟨q, by rw [Als.torchLoop]⟩
  | fuel + 1, i, q, d => by
    obtain ⟨q1, hq⟩ := hh q
    rw [Als.torchLoop, hq]
    simp only [bind, Except.bind]
    split
    · exact ⟨q1, rfl⟩
    · exact torchLoop_total fo half rep tol hh fuel (i + 1) q1 _

theorem alsPass_pinv {B : Type} [Fintype B] [DecidableEq B] (la : Lapack 𝕜) (epsilon : ℝ) (n12 : N → N → N → N → 𝕜)
    (n12g : N → N → P → P → 𝕜) (p : (N → B → P → 𝕜) × (N → B → P → 𝕜)) :
    ∃ p', alsPass la epsilon n12 n12g .pinv p = .ok p' := ⟨_, rfl⟩

variable [DecidableEq P] {bD : ℕ} {F : Type}

/-- The solver without regularisation keeps a proportional starting pair proportional. -/
theorem alsSolve_exact {Z : Type} [Fintype Z] (la : Lapack 𝕜) (fo : Als.FloatOps F) (rep : ℝ → F) (cfg : Settings F)
    (he : cfg.als_epsilon = 0) (hb : bD ≤ min (Fintype.card (N × P)) (Fintype.card (N × P)))
    (nz : N → N → Z → 𝕜) (hnz : RootInj nz) (a12g : N → N → P → P → 𝕜)
    (h0 : Proportional a12g (initReduced la hb a12g)) (p : (N → Fin bD → P → 𝕜) × (N → Fin bD → P → 𝕜))
    (h : alsSolve la fo rep cfg hb (squareNorm nz) a12g = .ok p) : Proportional a12g p := by
  have hstep : ∀ q q' : (N → Fin bD → P → 𝕜) × (N → Fin bD → P → 𝕜), Proportional a12g q →
      alsPass la cfg.als_epsilon (squareNorm nz) (n12gOf (squareNorm nz) a12g) cfg.als_method q = .ok q' →
      Proportional a12g q' := fun q q' hq h => by
    rw [he] at h
    have := pass_exact la _ nz hnz a12g q q' hq h
    exact ⟨1, one_pos, fun y x p q => by rw [this]; simp⟩
  unfold alsSolve Als.solveTorch at h
  revert hstep h
  generalize (alsPass (B := Fin bD) la cfg.als_epsilon (squareNorm nz) (n12gOf (squareNorm nz) a12g) cfg.als_method) = half
  generalize (fun p : (N → Fin bD → P → 𝕜) × (N → Fin bD → P → 𝕜) => rep (cost p.1 p.2 a12g (squareNorm nz))) = c
  intro h hstep
  exact torchLoop_inv fo half c cfg.als_tol (Proportional a12g) hstep _ _ _ _ _ h0 h

/-- With the pseudo-inverse the solver never raises. -/
theorem alsSolve_total (la : Lapack 𝕜) (fo : Als.FloatOps F) (rep : ℝ → F) (cfg : Settings F)
    (hm : cfg.als_method = .pinv) (hb : bD ≤ min (Fintype.card (N × P)) (Fintype.card (N × P)))
    (n12 : N → N → N → N → 𝕜) (a12g : N → N → P → P → 𝕜) : ∃ p, alsSolve la fo rep cfg hb n12 a12g = .ok p := by
  unfold alsSolve Als.solveTorch
  rw [hm]
  exact torchLoop_total fo _ _ _ (alsPass_pinv la _ n12 _) _ _ _ _

/-- For real dtypes the starting pair is proportional to a target that fits. -/
theorem init_proportional (la : Lapack ℝ) (hb : bD ≤ min (Fintype.card (N × P)) (Fintype.card (N × P)))
    (a12g : N → N → P → P → ℝ) (hne : a12g ≠ 0) (b1 b2 : N → Fin bD → P → ℝ) (hfit : pairProd b1 b2 = a12g) :
    Proportional a12g (initReduced la hb a12g) := by
  obtain ⟨-, c, hc, h⟩ := C37_real_partial N P bD hb la a12g hne
  refine ⟨c⁻¹, inv_pos.2 hc, fun y x p q => ?_⟩
  have h0 := h b1 b2
  rw [hfit] at h0
  have hz : normSq4 (fun y x p q => a12g y x p q - ((c : ℝ) : ℝ) *
      pairProd (initReduced la hb a12g).1 (initReduced la hb a12g).2 y x p q) ≤ 0 := by
    refine h0.trans (le_of_eq ?_)
    simp [normSq4]
  rw [← frobSq_siteMat] at hz
  have := (frobSq_eq_zero _).1 (le_antisymm hz (frobSq_nonneg _))
  have e : a12g y x p q - c * pairProd (initReduced la hb a12g).1 (initReduced la hb a12g).2 y x p q = 0 :=
    congrFun (congrFun this (y, p)) (x, q)
  have : a12g y x p q = c * pairProd (initReduced la hb a12g).1 (initReduced la hb a12g).2 y x p q := sub_eq_zero.1 e
  rw [this]
  change _ = c⁻¹ * _
  rw [inv_mul_cancel_left₀ hc.ne']

end AceTN
