import Verif.Lemmas.AlsSystem
import Verif.Props.Gauge
import Verif.Props.AlsLoop

/-! C35: the half-steps of the alternating solver. -/

set_option autoImplicit false

namespace AceTN

open Full Matrix SumTac ComplexOrder

variable {𝕜 : Type} [RCLike 𝕜] {N B P : Type} [Fintype N] [Fintype B] [Fintype P]
  [DecidableEq N] [DecidableEq B]

/-! ### What the cost is -/

omit [DecidableEq N] [DecidableEq B] in
/-- **C35** (meaning of the cost).  The reported cost is the squared distance, in the metric of the norm tensor, between
the product of the two tensors and the gate-applied tensor, minus the squared norm of the latter. -/
theorem C35_cost_is_distance {Z : Type} [Fintype Z] (nz : N → N → Z → 𝕜) (a1r a2r : N → B → P → 𝕜)
    (a12g : N → N → P → P → 𝕜) :
    cost a1r a2r a12g (squareNorm nz) =
      (∑ z, ∑ p, ∑ q, ‖∑ y, ∑ x, nz y x z * ((∑ u, a1r y u p * a2r x u q) - a12g y x p q)‖ ^ 2) -
      ∑ z, ∑ p, ∑ q, ‖∑ y, ∑ x, nz y x z * a12g y x p q‖ ^ 2 := by
  rw [cost_squareNorm]
  set ψ : N → N → P → P → 𝕜 := fun y x p q => ∑ u, a1r y u p * a2r x u q with hψ
  simp only [map_sum]
  rw [Finset.mul_sum, ← Finset.sum_sub_distrib, ← Finset.sum_sub_distrib]
  refine Finset.sum_congr rfl fun z _ => ?_
  rw [Finset.mul_sum, ← Finset.sum_sub_distrib, ← Finset.sum_sub_distrib]
  refine Finset.sum_congr rfl fun p _ => ?_
  rw [Finset.mul_sum, ← Finset.sum_sub_distrib, ← Finset.sum_sub_distrib]
  refine Finset.sum_congr rfl fun q _ => ?_
  have e : ∑ y, ∑ x, nz y x z * (ψ y x p q - a12g y x p q) = sqrtApply nz ψ z p q - sqrtApply nz a12g z p q := by
    unfold sqrtApply
    rw [← Finset.sum_sub_distrib]
    refine Finset.sum_congr rfl fun y _ => ?_
    rw [← Finset.sum_sub_distrib]
    exact Finset.sum_congr rfl fun x _ => mul_sub _ _ _
  have e' : ∑ y, ∑ x, nz y x z * a12g y x p q = sqrtApply nz a12g z p q := rfl
  have hsq : ∀ a b : 𝕜, RCLike.re (a * star a) - 2 * RCLike.re (b * star a) = ‖a - b‖ ^ 2 - ‖b‖ ^ 2 := by
    intro a b
    rw [← RCLike.normSq_eq_def', ← RCLike.normSq_eq_def', RCLike.normSq_apply, RCLike.normSq_apply, RCLike.star_def]
    simp only [RCLike.mul_re, RCLike.conj_re, RCLike.conj_im, map_sub]
    ring
  rw [e, e', ← hsq]

/-! ### The two half-steps -/

namespace Spec

/-- `a1r` minimises the cost for the given second tensor. -/
def MinimisesFirst (a12g : N → N → P → P → 𝕜) (n12 : N → N → N → N → 𝕜) (a1r a2r : N → B → P → 𝕜) : Prop :=
  ∀ a' : N → B → P → 𝕜, cost a1r a2r a12g n12 ≤ cost a' a2r a12g n12

/-- `a2r` minimises the cost for the given first tensor. -/
def MinimisesSecond (a12g : N → N → P → P → 𝕜) (n12 : N → N → N → N → 𝕜) (a1r a2r : N → B → P → 𝕜) : Prop :=
  ∀ a' : N → B → P → 𝕜, cost a1r a2r a12g n12 ≤ cost a1r a' a12g n12

/-- The intended statement on half-steps: whatever the regularisation strength and the method, the tensor returned
minimises the cost. -/
def HalfStepOptimal (𝕜 : Type) [RCLike 𝕜] : Prop :=
  ∀ (N B P : Type) [Fintype N] [Fintype B] [Fintype P] [DecidableEq N] [DecidableEq B] (la : Lapack 𝕜) (epsilon : ℝ)
    (method : Als.Solver) (n12 : N → N → N → N → 𝕜) (a12g : N → N → P → P → 𝕜) (a1r a2r : N → B → P → 𝕜),
    0 ≤ epsilon → (normMat n12).IsHermitian → AtLeast (normMat n12) 0 →
    solveAr la epsilon method (buildR1 n12 a2r) (buildS1 (n12gOf n12 a12g) a2r) = .ok a1r →
    MinimisesFirst a12g n12 a1r a2r

/-- The intended statement on the iteration: no pass increases the cost. -/
def CostNeverIncreases (𝕜 : Type) [RCLike 𝕜] : Prop :=
  ∀ (N B P : Type) [Fintype N] [Fintype B] [Fintype P] [DecidableEq N] [DecidableEq B] (la : Lapack 𝕜) (epsilon : ℝ)
    (method : Als.Solver) (n12 : N → N → N → N → 𝕜) (a12g : N → N → P → P → 𝕜)
    (p p' : (N → B → P → 𝕜) × (N → B → P → 𝕜)),
    0 ≤ epsilon → (normMat n12).IsHermitian → AtLeast (normMat n12) 0 →
    alsPass la epsilon n12 (n12gOf n12 a12g) method p = .ok p' →
    cost p'.1 p'.2 a12g n12 ≤ cost p.1 p.2 a12g n12

end Spec

/-- What the Cholesky branch returns, when it returns. -/
theorem solveAr_cholesky (la : Lapack 𝕜) (epsilon : ℝ) (R : N → B → N → B → 𝕜) (hR : (asSq R).IsHermitian)
    (S ar : N → B → P → 𝕜) (h : solveAr la epsilon .cholesky R S = .ok ar) :
    (asSq R + ((epsilon * absMax (asSq R) : ℝ) : 𝕜) • 1) * asMat ar = asMat S := by
  unfold solveAr at h
  rw [hermAvg_eq R hR] at h
  dsimp only at h
  have hH : (asSq R + ((epsilon * absMax (asSq R) : ℝ) : 𝕜) • (1 : Matrix (N × B) (N × B) 𝕜)).IsHermitian := by
    unfold IsHermitian
    rw [conjTranspose_add, hR.eq, conjTranspose_smul, conjTranspose_one, RCLike.star_def, RCLike.conj_ofReal]
  split at h
  next X hX =>
    have := la.cholSolve_ok _ _ _ hH hX
    rw [← Except.ok.inj h]
    exact this
  next hX =>
    split at h
    next X hX' =>
      have := la.linSolve_ok _ _ _ hX'
      rw [← Except.ok.inj h]
      exact this
    next => exact absurd h (by simp)

/-- What the pseudo-inverse branch returns. -/
theorem solveAr_pinv (la : Lapack 𝕜) (epsilon : ℝ) (R : N → B → N → B → 𝕜) (hR : (asSq R).IsHermitian)
    (S ar : N → B → P → 𝕜) (h : solveAr la epsilon .pinv R S = .ok ar) :
    asMat ar = la.pinvH epsilon (asSq R) * asMat S := by
  unfold solveAr at h
  rw [hermAvg_eq R hR] at h
  rw [← Except.ok.inj h]
  rfl

/-- No non-zero eigenvalue is at or below `epsilon` times the largest one, so that the pseudo-inverse drops none. -/
def Spec.Gap {n : Type} [Fintype n] [DecidableEq n] (epsilon : ℝ) (R : Matrix n n 𝕜) : Prop :=
  ∀ (w : Fin (Fintype.card n) → ℝ) (z : Matrix n (Fin (Fintype.card n)) 𝕜), IsEigh R w z →
    ∀ i j, w i ≠ 0 → epsilon * |w j| < |w i|

theorem gap_zero {n : Type} [Fintype n] [DecidableEq n] (R : Matrix n n 𝕜) : Spec.Gap 0 R :=
  fun w z _ i j hi => by rw [zero_mul]; exact abs_pos.2 hi

/-- **C35** (regularised optimality, first tensor).  Full statement: `Spec.HalfStepOptimal`.  With the Cholesky method
the half-step minimises the cost plus `epsilon * max|R| * ‖a1r‖²`, for every strength; what is missing is the cost
itself, which is refuted below for `epsilon > 0`. -/
theorem C35_first_regularised_partial (la : Lapack 𝕜) (epsilon : ℝ) (he : 0 ≤ epsilon) (n12 : N → N → N → N → 𝕜)
    (hN : (normMat n12).IsHermitian) (hp : Spec.AtLeast (normMat n12) 0) (a12g : N → N → P → P → 𝕜)
    (a1r a2r : N → B → P → 𝕜)
    (h : solveAr la epsilon .cholesky (buildR1 n12 a2r) (buildS1 (n12gOf n12 a12g) a2r) = .ok a1r)
    (a' : N → B → P → 𝕜) :
    cost a1r a2r a12g n12 + epsilon * absMax (asSq (buildR1 n12 a2r)) * ∑ p, ∑ i : N × B, ‖a1r i.1 i.2 p‖ ^ 2 ≤
    cost a' a2r a12g n12 + epsilon * absMax (asSq (buildR1 n12 a2r)) * ∑ p, ∑ i : N × B, ‖a' i.1 i.2 p‖ ^ 2 := by
  have h1 := solveAr_cholesky la epsilon _ (r1_herm n12 hN a2r) _ _ h
  have ht : 0 ≤ epsilon * absMax (asSq (buildR1 n12 a2r)) := mul_nonneg he (absMax_nonneg _)
  have hp' := atLeast_add (r1_psd n12 hp a2r) (epsilon * absMax (asSq (buildR1 n12 a2r)))
  have hp'' : Spec.AtLeast (asSq (buildR1 n12 a2r) + ((epsilon * absMax (asSq (buildR1 n12 a2r)) : ℝ) : 𝕜) • 1) 0 :=
    fun v => le_trans (by rw [zero_mul, zero_add]; exact mul_nonneg ht (normSq_nonneg v)) (hp' v)
  have hH : (asSq (buildR1 n12 a2r) + ((epsilon * absMax (asSq (buildR1 n12 a2r)) : ℝ) : 𝕜) • 1).IsHermitian := by
    unfold IsHermitian
    rw [conjTranspose_add, (r1_herm n12 hN a2r).eq, conjTranspose_smul, conjTranspose_one, RCLike.star_def,
      RCLike.conj_ofReal]
  have := quad_min _ hH hp'' _ _ h1 (asMat a')
  rw [quad_add, quad_add, ← cost_first, ← cost_first] at this
  exact this

/-- **C35** (regularised optimality, second tensor). -/
theorem C35_second_regularised_partial (la : Lapack 𝕜) (epsilon : ℝ) (he : 0 ≤ epsilon) (n12 : N → N → N → N → 𝕜)
    (hN : (normMat n12).IsHermitian) (hp : Spec.AtLeast (normMat n12) 0) (a12g : N → N → P → P → 𝕜)
    (a1r a2r : N → B → P → 𝕜)
    (h : solveAr la epsilon .cholesky (buildR2 n12 a1r) (buildS2 (n12gOf n12 a12g) a1r) = .ok a2r)
    (a' : N → B → P → 𝕜) :
    cost a1r a2r a12g n12 + epsilon * absMax (asSq (buildR2 n12 a1r)) * ∑ p, ∑ i : N × B, ‖a2r i.1 i.2 p‖ ^ 2 ≤
    cost a1r a' a12g n12 + epsilon * absMax (asSq (buildR2 n12 a1r)) * ∑ p, ∑ i : N × B, ‖a' i.1 i.2 p‖ ^ 2 := by
  have h1 := solveAr_cholesky la epsilon _ (r2_herm n12 hN a1r) _ _ h
  have ht : 0 ≤ epsilon * absMax (asSq (buildR2 n12 a1r)) := mul_nonneg he (absMax_nonneg _)
  have hp' := atLeast_add (r2_psd n12 hp a1r) (epsilon * absMax (asSq (buildR2 n12 a1r)))
  have hp'' : Spec.AtLeast (asSq (buildR2 n12 a1r) + ((epsilon * absMax (asSq (buildR2 n12 a1r)) : ℝ) : 𝕜) • 1) 0 :=
    fun v => le_trans (by rw [zero_mul, zero_add]; exact mul_nonneg ht (normSq_nonneg v)) (hp' v)
  have hH : (asSq (buildR2 n12 a1r) + ((epsilon * absMax (asSq (buildR2 n12 a1r)) : ℝ) : 𝕜) • 1).IsHermitian := by
    unfold IsHermitian
    rw [conjTranspose_add, (r2_herm n12 hN a1r).eq, conjTranspose_smul, conjTranspose_one, RCLike.star_def,
      RCLike.conj_ofReal]
  have := quad_min _ hH hp'' _ _ h1 (asMat a')
  rw [quad_add, quad_add, ← cost_second, ← cost_second] at this
  exact this

/-- **C35** (optimality of the first half-step).  It holds for `epsilon = 0` with the Cholesky method and, with the
pseudo-inverse method, for every `epsilon` that cuts off no non-zero eigenvalue. -/
theorem C35_first_partial (la : Lapack 𝕜) (epsilon : ℝ) (method : Als.Solver) (n12 : N → N → N → N → 𝕜)
    (hN : (normMat n12).IsHermitian) (hp : Spec.AtLeast (normMat n12) 0) (a12g : N → N → P → P → 𝕜)
    (a1r a2r : N → B → P → 𝕜)
    (he : epsilon = 0 ∨ method = .pinv ∧ Spec.Gap epsilon (asSq (buildR1 n12 a2r)))
    (h : solveAr la epsilon method (buildR1 n12 a2r) (buildS1 (n12gOf n12 a12g) a2r) = .ok a1r) :
    Spec.MinimisesFirst a12g n12 a1r a2r := by
  intro a'
  cases method with
  | cholesky =>
    have he : epsilon = 0 := he.resolve_right (by simp)
    have := C35_first_regularised_partial la epsilon he.ge n12 hN hp a12g a1r a2r h a'
    rw [he] at this
    linarith
  | pinv =>
    have hg : Spec.Gap epsilon (asSq (buildR1 n12 a2r)) := by
      rcases he with rfl | ⟨-, hg⟩
      · exact gap_zero _
      · exact hg
    have h1 := solveAr_pinv la epsilon _ (r1_herm n12 hN a2r) _ _ h
    have h2 := pinvH_solves la epsilon _ (r1_herm n12 hN a2r) _ (s1_range n12 hN hp a12g a2r) hg
    rw [← h1] at h2
    rw [cost_first, cost_first]
    exact quad_min _ (r1_herm n12 hN a2r) (r1_psd n12 hp a2r) _ _ h2 _

/-- **C35** (optimality of the second half-step). -/
theorem C35_second_partial (la : Lapack 𝕜) (epsilon : ℝ) (method : Als.Solver) (n12 : N → N → N → N → 𝕜)
    (hN : (normMat n12).IsHermitian) (hp : Spec.AtLeast (normMat n12) 0) (a12g : N → N → P → P → 𝕜)
    (a1r a2r : N → B → P → 𝕜)
    (he : epsilon = 0 ∨ method = .pinv ∧ Spec.Gap epsilon (asSq (buildR2 n12 a1r)))
    (h : solveAr la epsilon method (buildR2 n12 a1r) (buildS2 (n12gOf n12 a12g) a1r) = .ok a2r) :
    Spec.MinimisesSecond a12g n12 a1r a2r := by
  intro a'
  cases method with
  | cholesky =>
    have he : epsilon = 0 := he.resolve_right (by simp)
    have := C35_second_regularised_partial la epsilon he.ge n12 hN hp a12g a1r a2r h a'
    rw [he] at this
    linarith
  | pinv =>
    have hg : Spec.Gap epsilon (asSq (buildR2 n12 a1r)) := by
      rcases he with rfl | ⟨-, hg⟩
      · exact gap_zero _
      · exact hg
    have h1 := solveAr_pinv la epsilon _ (r2_herm n12 hN a1r) _ _ h
    have h2 := pinvH_solves la epsilon _ (r2_herm n12 hN a1r) _ (s2_range n12 hN hp a12g a1r) hg
    rw [← h1] at h2
    rw [cost_second, cost_second]
    exact quad_min _ (r2_herm n12 hN a1r) (r2_psd n12 hp a1r) _ _ h2 _

theorem alsPass_ok (la : Lapack 𝕜) (epsilon : ℝ) (method : Als.Solver) (n12 : N → N → N → N → 𝕜)
    (n12g : N → N → P → P → 𝕜) (p p' : (N → B → P → 𝕜) × (N → B → P → 𝕜))
    (h : alsPass la epsilon n12 n12g method p = .ok p') :
    solveAr la epsilon method (buildR1 n12 p.2) (buildS1 n12g p.2) = .ok p'.1 ∧
    solveAr la epsilon method (buildR2 n12 p'.1) (buildS2 n12g p'.1) = .ok p'.2 := by
  unfold alsPass at h
  cases h1 : solveAr la epsilon method (buildR1 n12 p.2) (buildS1 n12g p.2) with
  | error e => rw [h1] at h; exact absurd h (by simp [bind, Except.bind])
  | ok a1 =>
    rw [h1] at h
    have h : (solveAr la epsilon method (buildR2 n12 a1) (buildS2 n12g a1)).bind (fun a2 => .ok (a1, a2)) =
      .ok p' := h
    cases h2 : solveAr la epsilon method (buildR2 n12 a1) (buildS2 n12g a1) with
    | error e => rw [h2] at h; exact absurd h (by simp [Except.bind])
    | ok a2 =>
      rw [h2] at h
      have h : (Except.ok (a1, a2) : Except PyErr _) = .ok p' := h
      rw [← Except.ok.inj h]
      exact ⟨rfl, h2⟩

/-- **C35** (monotone cost).  Full statement: `Spec.CostNeverIncreases`, which allows any `epsilon`.  Without
regularisation no sequence of passes, with either method, ever increases the cost. -/
theorem C35_monotone_partial (la : Lapack 𝕜) (method : Als.Solver) (n12 : N → N → N → N → 𝕜)
    (hN : (normMat n12).IsHermitian) (hp : Spec.AtLeast (normMat n12) 0) (a12g : N → N → P → P → 𝕜)
    (f : ℕ → (N → B → P → 𝕜) × (N → B → P → 𝕜))
    (h : ∀ i, alsPass la 0 n12 (n12gOf n12 a12g) method (f i) = .ok (f (i + 1))) :
    Antitone fun i => cost (f i).1 (f i).2 a12g n12 := by
  refine antitone_nat_of_succ_le fun i => ?_
  obtain ⟨h1, h2⟩ := alsPass_ok la 0 method n12 _ _ _ (h i)
  exact (C35_second_partial la 0 method n12 hN hp a12g _ _ (.inl rfl) h2 (f i).2).trans
    (C35_first_partial la 0 method n12 hN hp a12g _ _ (.inl rfl) h1 (f i).1)

theorem torchLoop_le {Q F : Type} (fo : Als.FloatOps F) (half : Q → Except PyErr Q) (rep : Q → F) (tol : F) (c : Q → ℝ)
    (hc : ∀ q q', half q = .ok q' → c q' ≤ c q) :
    ∀ (fuel i : ℕ) (q q' : Q) (d : F), Als.torchLoop fo half rep tol fuel i q d = .ok q' → c q' ≤ c q
  | 0, _, q, q', _, h => by
    rw [Als.torchLoop] at h
    rw [← Except.ok.inj h]
  | fuel + 1, i, q, q', d, h => by
    rw [Als.torchLoop] at h
    cases hq : half q with
    | error e => rw [hq] at h; exact absurd h (by simp [bind, Except.bind])
    | ok q1 =>
      rw [hq] at h
      simp only [bind, Except.bind] at h
      split at h
      · have h : (Except.ok q1 : Except PyErr Q) = .ok q' := h
        rw [← Except.ok.inj h]
        exact hc _ _ hq
      · exact (torchLoop_le fo half rep tol c hc fuel (i + 1) q1 q' _ h).trans (hc _ _ hq)

/-- **C35** (whole solver).  Without regularisation the pair returned by the solver, with any iteration limit and
tolerance and any floating point comparison in the stopping rule, costs no more than the pair it started from. -/
theorem C35_solver_partial {F : Type} (fo : Als.FloatOps F) (rep : ℝ → F) (tol : F) (niter : ℕ) (la : Lapack 𝕜)
    (method : Als.Solver) (n12 : N → N → N → N → 𝕜) (hN : (normMat n12).IsHermitian)
    (hp : Spec.AtLeast (normMat n12) 0) (a12g : N → N → P → P → 𝕜) (p p' : (N → B → P → 𝕜) × (N → B → P → 𝕜))
    (h : Als.solveTorch fo (alsPass la 0 n12 (n12gOf n12 a12g) method) (fun p => rep (cost p.1 p.2 a12g n12)) tol niter p =
      .ok p') :
    cost p'.1 p'.2 a12g n12 ≤ cost p.1 p.2 a12g n12 := by
  have hstep : ∀ q q' : (N → B → P → 𝕜) × (N → B → P → 𝕜), alsPass la 0 n12 (n12gOf n12 a12g) method q = .ok q' →
      cost q'.1 q'.2 a12g n12 ≤ cost q.1 q.2 a12g n12 := fun q q' hq => by
    obtain ⟨h1, h2⟩ := alsPass_ok la 0 method n12 _ _ _ hq
    exact (C35_second_partial la 0 method n12 hN hp a12g _ _ (.inl rfl) h2 q.2).trans
      (C35_first_partial la 0 method n12 hN hp a12g _ _ (.inl rfl) h1 q.1)
  revert hstep h
  generalize (alsPass (B := B) la 0 n12 (n12gOf n12 a12g) method) = half
  generalize hc : (fun p : (N → B → P → 𝕜) × (N → B → P → 𝕜) => cost p.1 p.2 a12g n12) = c
  have e : ∀ p, cost p.1 p.2 a12g n12 = c p := fun p => congrFun hc p
  simp only [e]
  intro h hstep
  exact torchLoop_le fo half (fun p => rep (c p)) tol c hstep niter 0 p p' _ h

/-- **C35** (monotone cost with regularisation).  One pass with the Cholesky method can increase the cost by no more than
the regularisation terms of the pair it started from. -/
theorem C35_increase_bound_partial (la : Lapack 𝕜) (epsilon : ℝ) (he : 0 ≤ epsilon) (n12 : N → N → N → N → 𝕜)
    (hN : (normMat n12).IsHermitian) (hp : Spec.AtLeast (normMat n12) 0) (a12g : N → N → P → P → 𝕜)
    (p p' : (N → B → P → 𝕜) × (N → B → P → 𝕜))
    (h : alsPass la epsilon n12 (n12gOf n12 a12g) .cholesky p = .ok p') :
    cost p'.1 p'.2 a12g n12 ≤ cost p.1 p.2 a12g n12 +
      epsilon * (absMax (asSq (buildR1 n12 p.2)) * ∑ k, ∑ i : N × B, ‖p.1 i.1 i.2 k‖ ^ 2 +
        absMax (asSq (buildR2 n12 p'.1)) * ∑ k, ∑ i : N × B, ‖p.2 i.1 i.2 k‖ ^ 2) := by
  obtain ⟨h1, h2⟩ := alsPass_ok la epsilon .cholesky n12 _ _ _ h
  have e1 := C35_first_regularised_partial la epsilon he n12 hN hp a12g _ _ h1 p.1
  have e2 := C35_second_regularised_partial la epsilon he n12 hN hp a12g _ _ h2 p.2
  have n1 : 0 ≤ epsilon * absMax (asSq (buildR1 n12 p.2)) * ∑ k, ∑ i : N × B, ‖p'.1 i.1 i.2 k‖ ^ 2 :=
    mul_nonneg (mul_nonneg he (absMax_nonneg _)) (Finset.sum_nonneg fun _ _ => Finset.sum_nonneg fun _ _ => by positivity)
  have n2 : 0 ≤ epsilon * absMax (asSq (buildR2 n12 p'.1)) * ∑ k, ∑ i : N × B, ‖p'.2 i.1 i.2 k‖ ^ 2 :=
    mul_nonneg (mul_nonneg he (absMax_nonneg _)) (Finset.sum_nonneg fun _ _ => Finset.sum_nonneg fun _ _ => by positivity)
  rw [mul_add]
  linarith

theorem absMax_pos {n : Type} [Fintype n] (R : Matrix n n 𝕜) (hR : R ≠ 0) : 0 < absMax R := by
  by_contra h
  have h0 : absMax R = 0 := le_antisymm (not_lt.1 h) (absMax_nonneg R)
  apply hR
  ext i j
  have : ‖R i j‖ ≤ absMax R := le_ciSup (f := fun ij : n × n => ‖R ij.1 ij.2‖) (Set.finite_range _).bddAbove (i, j)
  rw [h0] at this
  simpa using this

theorem solveAr_succeeds (la : Lapack 𝕜) (epsilon : ℝ) (he : 0 < epsilon) (R : N → B → N → B → 𝕜)
    (hH : (asSq R).IsHermitian) (hp : Spec.AtLeast (asSq R) 0) (hR : R ≠ 0) (S : N → B → P → 𝕜) :
    ∃ a1r, solveAr la epsilon .cholesky R S = .ok a1r := by
  have hR' : asSq R ≠ 0 := by
    intro h0
    apply hR
    funext a b c d
    exact congrFun (congrFun h0 (a, b)) (c, d)
  have ht : 0 < epsilon * absMax (asSq R) := mul_pos he (absMax_pos _ hR')
  have hH' : (asSq R + ((epsilon * absMax (asSq R) : ℝ) : 𝕜) • 1).IsHermitian := by
    unfold IsHermitian
    rw [conjTranspose_add, hH.eq, conjTranspose_smul, conjTranspose_one, RCLike.star_def, RCLike.conj_ofReal]
  have hpd := posDef_of_atLeast hH' ht (by
    have := atLeast_add hp (epsilon * absMax (asSq R))
    rwa [zero_add] at this)
  obtain ⟨X, hX⟩ := Option.isSome_iff_exists.1 (la.cholSolve_some _ (asMat S) hpd)
  refine ⟨fun y u p => X (y, u) p, ?_⟩
  unfold solveAr
  rw [hermAvg_eq _ hH]
  dsimp only
  unfold asMat at hX
  rw [hX]

/-- **C35** (success).  With positive regularisation the Cholesky half-steps never raise unless their matrix
vanishes. -/
theorem C35_succeeds (la : Lapack 𝕜) (epsilon : ℝ) (he : 0 < epsilon) (n12 : N → N → N → N → 𝕜)
    (hN : (normMat n12).IsHermitian) (hp : Spec.AtLeast (normMat n12) 0) (a S : N → B → P → 𝕜) :
    (buildR1 n12 a ≠ 0 → ∃ ar, solveAr la epsilon .cholesky (buildR1 n12 a) S = .ok ar) ∧
    (buildR2 n12 a ≠ 0 → ∃ ar, solveAr la epsilon .cholesky (buildR2 n12 a) S = .ok ar) :=
  ⟨fun h => solveAr_succeeds la epsilon he _ (r1_herm n12 hN a) (r1_psd n12 hp a) h S,
    fun h => solveAr_succeeds la epsilon he _ (r2_herm n12 hN a) (r2_psd n12 hp a) h S⟩

/-! ### The violation -/

/-- A one-dimensional system. -/
theorem one_dim (la : Lapack ℝ) (epsilon : ℝ) (he : 0 < epsilon) (r s : ℝ) (hr : 0 < r) :
    solveAr la epsilon .cholesky (fun (_ : Fin 1) (_ : Fin 1) (_ : Fin 1) (_ : Fin 1) => r)
      (fun _ _ (_ : Fin 1) => s) = .ok fun _ _ _ => s / (r * (1 + epsilon)) := by
  set R : Fin 1 → Fin 1 → Fin 1 → Fin 1 → ℝ := fun _ _ _ _ => r with hRdef
  have hH : (asSq R).IsHermitian := by
    ext i j
    rw [conjTranspose_apply]
    simp [asSq, R]
  have hp : Spec.AtLeast (asSq R) 0 := by
    intro v
    rw [zero_mul]
    have e : Spec.qform (asSq R) v = r * (v (0, 0)) ^ 2 := by
      simp only [Spec.qform, Fintype.sum_prod_type, Finset.univ_unique, Finset.sum_singleton, asSq, of_apply, R,
        Fin.default_eq_zero, star_trivial]
      ring
    rw [e]
    exact mul_nonneg hr.le (sq_nonneg _)
  have hR : R ≠ 0 := fun h => hr.ne' (congrFun (congrFun (congrFun (congrFun h 0) 0) 0) 0)
  obtain ⟨a, ha⟩ := solveAr_succeeds la epsilon he R hH hp hR fun _ _ (_ : Fin 1) => s
  rw [ha]
  congr 1
  have h1 := solveAr_cholesky la epsilon R hH _ _ ha
  have hm : absMax (asSq R) = r := by
    unfold absMax
    simp only [asSq, of_apply, R, Real.norm_eq_abs, abs_of_pos hr, ciSup_const]
  rw [hm] at h1
  have h2 := congrFun (congrFun h1 (0, 0)) 0
  rw [mul_apply] at h2
  simp only [Fintype.sum_prod_type, Finset.univ_unique, Finset.sum_singleton, asSq, asMat, of_apply, R,
    Fin.default_eq_zero, Matrix.add_apply, Matrix.smul_apply, one_apply_eq, smul_eq_mul, RCLike.ofReal_real_eq_id,
    id_eq, mul_one] at h2
  funext i j k
  rw [Subsingleton.elim i 0, Subsingleton.elim j 0, Subsingleton.elim k 0, eq_div_iff (by positivity), ← h2]
  ring

/-- The norm used in the counterexamples: all dimensions one, norm equal to one. -/
theorem one_norm : (normMat (fun _ _ _ _ : Fin 1 => (1 : ℝ))).IsHermitian ∧
    Spec.AtLeast (normMat (fun _ _ _ _ : Fin 1 => (1 : ℝ))) 0 := by
  constructor
  · ext i j
    rw [conjTranspose_apply]
    simp [normMat]
  · intro v
    have e : Spec.qform (normMat (fun _ _ _ _ : Fin 1 => (1 : ℝ))) v = (v (0, 0)) ^ 2 := by
      simp only [Spec.qform, Fintype.sum_prod_type, Finset.univ_unique, Finset.sum_singleton, normMat, of_apply,
        Fin.default_eq_zero, star_trivial]
      ring
    rw [zero_mul, e]
    exact sq_nonneg _

theorem one_cost (a b : ℝ) : cost (fun (_ : Fin 1) (_ : Fin 1) (_ : Fin 1) => a) (fun _ _ _ => b) (fun _ _ _ _ => 1)
    (fun _ _ _ _ => (1 : ℝ)) = (a * b) ^ 2 - 2 * (a * b) := by
  simp [cost]
  ring

/-- **C35** is violated for every positive regularisation strength: there are a norm, a target and a pair such that one
pass with the Cholesky method strictly increases the cost, and its first half-step is not optimal.  (All dimensions one,
norm and target equal to one, start at the exact solution.) -/
theorem C35_violated_every_epsilon (la : Lapack ℝ) (epsilon : ℝ) (he : 0 < epsilon) :
    ∃ (n12 : Fin 1 → Fin 1 → Fin 1 → Fin 1 → ℝ) (a12g : Fin 1 → Fin 1 → Fin 1 → Fin 1 → ℝ)
      (p p' : (Fin 1 → Fin 1 → Fin 1 → ℝ) × (Fin 1 → Fin 1 → Fin 1 → ℝ)),
      (normMat n12).IsHermitian ∧ Spec.AtLeast (normMat n12) 0 ∧
      alsPass la epsilon n12 (n12gOf n12 a12g) .cholesky p = .ok p' ∧
      cost p.1 p.2 a12g n12 < cost p'.1 p'.2 a12g n12 ∧
      solveAr la epsilon .cholesky (buildR1 n12 p.2) (buildS1 (n12gOf n12 a12g) p.2) = .ok p'.1 ∧
      ¬ Spec.MinimisesFirst a12g n12 p'.1 p.2 := by
  have hne : (1 + epsilon) ≠ 0 := by positivity
  have hr1 : buildR1 (fun _ _ _ _ : Fin 1 => (1 : ℝ)) (fun _ (_ : Fin 1) (_ : Fin 1) => (1 : ℝ)) =
      fun _ _ _ _ => 1 := by
    funext a b c d; simp [buildR1]
  have hs1 : buildS1 (n12gOf (fun _ _ _ _ : Fin 1 => (1 : ℝ)) (fun _ _ (_ : Fin 1) (_ : Fin 1) => (1 : ℝ)))
      (fun _ (_ : Fin 1) (_ : Fin 1) => (1 : ℝ)) = fun _ _ _ => 1 := by
    funext a b c; simp [buildS1, n12gOf]
  have hr2 : ∀ t : ℝ, buildR2 (fun _ _ _ _ : Fin 1 => (1 : ℝ)) (fun _ (_ : Fin 1) (_ : Fin 1) => t) =
      fun _ _ _ _ => t * t := by
    intro t; funext a b c d; simp [buildR2]
  have hs2 : ∀ t : ℝ, buildS2 (n12gOf (fun _ _ _ _ : Fin 1 => (1 : ℝ)) (fun _ _ (_ : Fin 1) (_ : Fin 1) => (1 : ℝ)))
      (fun _ (_ : Fin 1) (_ : Fin 1) => t) = fun _ _ _ => t := by
    intro t; funext a b c; simp [buildS2, n12gOf]
  set t : ℝ := 1 / (1 * (1 + epsilon)) with ht
  have htpos : 0 < t := by positivity
  have ht1 : t < 1 := by
    rw [ht, one_mul, div_lt_one (by positivity)]; linarith
  have h1 := one_dim la epsilon he 1 1 one_pos
  have h2 := one_dim la epsilon he (t * t) t (by positivity)
  have e : t / (t * t * (1 + epsilon)) = 1 := by
    rw [ht, one_mul]; field_simp
  rw [e] at h2
  refine ⟨fun _ _ _ _ => 1, fun _ _ _ _ => 1, (fun _ _ _ => 1, fun _ _ _ => 1), (fun _ _ _ => t, fun _ _ _ => 1),
    one_norm.1, one_norm.2, ?_, ?_, ?_, ?_⟩
  · unfold alsPass
    dsimp only
    rw [hr1, hs1, h1]
    change (solveAr la epsilon .cholesky _ _).bind _ = _
    rw [hr2, hs2, h2]
    rfl
  · rw [one_cost, one_cost]
    nlinarith [sq_nonneg (t - 1), mul_pos (sub_pos.2 ht1) (sub_pos.2 ht1)]
  · dsimp only
    rw [hr1, hs1, h1]
  · intro hm
    have := hm fun _ _ _ => 1
    rw [one_cost, one_cost] at this
    nlinarith [sq_nonneg (t - 1), mul_pos (sub_pos.2 ht1) (sub_pos.2 ht1)]

/-- **C35** (negation of the full statements). -/
theorem C35_violated : ¬ Spec.HalfStepOptimal ℝ ∧ ¬ Spec.CostNeverIncreases ℝ := by
  obtain ⟨la⟩ := nonempty_lapack (𝕜 := ℝ)
  obtain ⟨n12, a12g, p, p', h1, h2, h3, h4, h5, h6⟩ := C35_violated_every_epsilon la 1 one_pos
  exact ⟨fun h => h6 (h _ _ _ la 1 .cholesky n12 a12g p'.1 p.2 zero_le_one h1 h2 h5),
    fun h => absurd (h _ _ _ la 1 .cholesky n12 a12g p p' zero_le_one h1 h2 h3) (not_le.2 h4)⟩

/-- The hypotheses of the positive statements are met, with several dimensions above one: the identity norm. -/
example (la : Lapack ℂ) (a2r S : Fin 2 → Fin 3 → Fin 2 → ℂ) :
    ∃ n12 : Fin 2 → Fin 2 → Fin 2 → Fin 2 → ℂ, (normMat n12).IsHermitian ∧ Spec.AtLeast (normMat n12) 0 ∧
      ∃ a1r, solveAr la 0 .pinv (buildR1 n12 a2r) S = .ok a1r := by
  refine ⟨fun a b c d => if a = c ∧ b = d then 1 else 0, ?_, ?_, _, rfl⟩
  · ext ⟨a, b⟩ ⟨c, d⟩
    simp [normMat, conjTranspose_apply, eq_comm]
  · have e : normMat (fun a b c d : Fin 2 => if a = c ∧ b = d then (1 : ℂ) else 0) = 1 := by
      ext ⟨a, b⟩ ⟨c, d⟩
      simp [normMat, one_apply]
    rw [e]
    intro v
    have h1 : Spec.qform (1 : Matrix (Fin 2 × Fin 2) (Fin 2 × Fin 2) ℂ) v = (Spec.normSq v : ℝ) := by
      rw [qform_eq, one_mulVec]; exact (normSq_eq v).symm
    rw [h1]
    have := normSq_nonneg v
    simp only [RCLike.re_to_complex, Complex.ofReal_re]
    linarith

end AceTN
