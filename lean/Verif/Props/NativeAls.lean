import Verif.Lemmas.NativeState
import Verif.Props.AlsOptimal

/-! C61: the native solver returns the tensors the PyTorch solver returns. -/

set_option autoImplicit false

namespace AceTN.Native

open Native.Spec Matrix ComplexOrder

variable {𝕜 : Type} [RCLike 𝕜] {nD bD pD : ℕ} {F : Type}

/-! ### One linear solve -/

theorem ofMatrix_holds (X : Matrix (Fin nD × Fin bD) (Fin pD) 𝕜) :
    Holds3 (ofMatrix X) fun y u p => X (y, u) p := by
  refine ⟨rfl, fun i j k => ?_⟩
  unfold ofMatrix
  rw [← offset3 nD bD pD i j k]
  dsimp only
  rw [writeAll_at _ _ _ _ (by simp)]
  simp

omit [RCLike 𝕜] in
theorem get3 {b : Buf 𝕜} {T : Fin nD → Fin bD → Fin pD → 𝕜} (h : Holds3 b T) (y : Fin nD) (u : Fin bD) (p : Fin pD) :
    b.get [y, u, p] = T y u p := by
  rw [Buf.get, h.1, offset3, h.2]

omit [RCLike 𝕜] in
theorem get4 {n0 n1 n2 n3 : ℕ} {b : Buf 𝕜} {T : Fin n0 → Fin n1 → Fin n2 → Fin n3 → 𝕜} (h : Holds4 b T) (i : Fin n0)
    (j : Fin n1) (k : Fin n2) (l : Fin n3) : b.get [i, j, k, l] = T i j k l := by
  rw [Buf.get, h.1, offset4, h.2]

/-- The pseudo-inverse branch. -/
theorem solveAr_pinv_eq (la : Lapack 𝕜) (cs : Cusolver 𝕜) (epsilon : ℝ) {bR bS : Buf 𝕜}
    {R : Fin nD → Fin bD → Fin nD → Fin bD → 𝕜} {S ar : Fin nD → Fin bD → Fin pD → 𝕜} (hR : Holds4 bR R) (hS : Holds3 bS S)
    (h : Full.solveAr la epsilon .pinv R S = .ok ar) :
    Holds3 (solveAr (nD := nD) (bD := bD) (pD := pD) la cs epsilon .pinv bR bS) ar := by
  unfold Full.solveAr at h
  rw [← Except.ok.inj h]
  unfold solveAr
  simp only [get3 hS, get4 hR]
  exact ofMatrix_holds _

theorem posDef_of_unit {n : Type} [Fintype n] [DecidableEq n] {R : Matrix n n 𝕜} (hR : R.IsHermitian)
    (hp : AceTN.Spec.AtLeast R 0) (hu : IsUnit R.det) : R.PosDef := by
  refine PosDef.of_dotProduct_mulVec_pos hR fun x hx => ?_
  rw [← qform_eq, RCLike.pos_iff]
  constructor
  · by_contra h
    have h0 := psd_kernel R hR hp x (not_lt.1 h)
    apply hx
    have h1 : R⁻¹ *ᵥ (R *ᵥ x) = x := by rw [mulVec_mulVec, nonsing_inv_mul _ hu, one_mulVec]
    rw [← h1, h0, mulVec_zero]
  · have h4 : star (AceTN.Spec.qform R x) = AceTN.Spec.qform R x := by
      rw [qform_eq]
      conv_rhs => rw [star_dotProduct, star_mulVec, ← dotProduct_mulVec, hR.eq]
    rw [RCLike.star_def] at h4
    exact RCLike.conj_eq_iff_im.1 h4

/-- The Cholesky branch, for a positive semidefinite system. -/
theorem solveAr_cholesky_eq (la : Lapack 𝕜) (cs : Cusolver 𝕜) (epsilon : ℝ) (he : 0 ≤ epsilon) {bR bS : Buf 𝕜}
    {R : Fin nD → Fin bD → Fin nD → Fin bD → 𝕜} {S ar : Fin nD → Fin bD → Fin pD → 𝕜} (hR : Holds4 bR R) (hS : Holds3 bS S)
    (hH : (asSq R).IsHermitian) (hp : AceTN.Spec.AtLeast (asSq R) 0)
    (h : Full.solveAr la epsilon .cholesky R S = .ok ar) :
    Holds3 (solveAr (nD := nD) (bD := bD) (pD := pD) la cs epsilon .cholesky bR bS) ar := by
  have hH' : (asSq R + ((epsilon * Full.absMax (asSq R) : ℝ) : 𝕜) • 1).IsHermitian := by
    unfold IsHermitian
    rw [conjTranspose_add, hH.eq, conjTranspose_smul, conjTranspose_one, RCLike.star_def, RCLike.conj_ofReal]
  have ht : 0 ≤ epsilon * Full.absMax (asSq R) := mul_nonneg he (absMax_nonneg _)
  have hp' : AceTN.Spec.AtLeast (asSq R + ((epsilon * Full.absMax (asSq R) : ℝ) : 𝕜) • 1) 0 := fun v =>
    le_trans (by rw [zero_mul, zero_add]; exact mul_nonneg ht (normSq_nonneg v)) (atLeast_add hp (epsilon * Full.absMax (asSq R)) v)
  have hs := solveAr_cholesky la epsilon R hH S ar h
  have hpd : (asSq R + ((epsilon * Full.absMax (asSq R) : ℝ) : 𝕜) • 1).PosDef := by
    unfold Full.solveAr at h
    rw [hermAvg_eq R hH] at h
    dsimp only at h
    split at h
    next X hX => exact la.cholSolve_posDef _ _ _ hH' hX
    next hX =>
      split at h
      next X hX' =>
        exact posDef_of_unit hH' hp' ((la.linSolve_some _ _).1 (by rw [hX']; rfl))
      next => exact absurd h (by simp)
  have hc := cs.solve_ok _ (asMat S) hpd
  have hu : IsUnit (asSq R + ((epsilon * Full.absMax (asSq R) : ℝ) : 𝕜) • 1).det := (isUnit_iff_isUnit_det _).1 hpd.isUnit
  have heq : cs.solve (asSq R + ((epsilon * Full.absMax (asSq R) : ℝ) : 𝕜) • 1) (asMat S) = asMat ar := by
    rw [← hs] at hc ⊢
    have := congrArg (fun M => (asSq R + ((epsilon * Full.absMax (asSq R) : ℝ) : 𝕜) • 1)⁻¹ * M) hc
    simpa only [nonsing_inv_mul_cancel_left _ _ hu] using this
  unfold solveAr
  simp only [get3 hS, get4 hR]
  rw [hermAvg_eq R hH]
  have := ofMatrix_holds (cs.solve (asSq R + ((epsilon * Full.absMax (asSq R) : ℝ) : 𝕜) • 1) (asMat S))
  rw [heq] at this
  have e : (Matrix.of fun (a : Fin nD × Fin bD) p => S a.1 a.2 p) = asMat S := rfl
  rw [e, heq]
  exact this

/-- Whatever the system, the native half-step yields some tensor. -/
theorem solveAr_total (la : Lapack 𝕜) (cs : Cusolver 𝕜) (epsilon : ℝ) (m : Als.Solver) (bR bS : Buf 𝕜) :
    ∃ ar : Fin nD → Fin bD → Fin pD → 𝕜, Holds3 (solveAr (nD := nD) (bD := bD) (pD := pD) la cs epsilon m bR bS) ar := by
  unfold solveAr
  cases m with
  | cholesky => exact ⟨_, ofMatrix_holds _⟩
  | pinv => exact ⟨_, ofMatrix_holds _⟩

/-! ### One pass and the loop -/

/-- The half-steps of the run agree: the method is the pseudo-inverse, or the norm is positive semidefinite. -/
def Agreeable (m : Als.Solver) (epsilon : ℝ) (n12 : Fin nD → Fin nD → Fin nD → Fin nD → 𝕜) : Prop :=
  m = .pinv ∨ (m = .cholesky ∧ 0 ≤ epsilon ∧ (Full.normMat n12).IsHermitian ∧ AceTN.Spec.AtLeast (Full.normMat n12) 0)

variable {t : AlsTensors 𝕜} {a1r a2r b1 b2 : Fin nD → Fin bD → Fin pD → 𝕜} {n12g : Fin nD → Fin nD → Fin pD → Fin pD → 𝕜}
  {n12 : Fin nD → Fin nD → Fin nD → Fin nD → 𝕜} {a12g : Fin nD → Fin nD → Fin pD → Fin pD → 𝕜}

theorem half1 (la : Lapack 𝕜) (cs : Cusolver 𝕜) (epsilon : ℝ) (m : Als.Solver) (hm : Agreeable m epsilon n12) {bR bS : Buf 𝕜}
    (hR : Holds4 bR (Full.buildR1 n12 a2r)) (hS : Holds3 bS (Full.buildS1 n12g a2r))
    (h : Full.solveAr la epsilon m (Full.buildR1 n12 a2r) (Full.buildS1 n12g a2r) = .ok b1) :
    Holds3 (solveAr (nD := nD) (bD := bD) (pD := pD) la cs epsilon m bR bS) b1 := by
  rcases hm with rfl | ⟨rfl, he, hN, hp⟩
  · exact solveAr_pinv_eq la cs epsilon hR hS h
  · exact solveAr_cholesky_eq la cs epsilon he hR hS (r1_herm n12 hN a2r) (r1_psd n12 hp a2r) h

theorem half2 (la : Lapack 𝕜) (cs : Cusolver 𝕜) (epsilon : ℝ) (m : Als.Solver) (hm : Agreeable m epsilon n12) {bR bS : Buf 𝕜}
    (hR : Holds4 bR (Full.buildR2 n12 a1r)) (hS : Holds3 bS (Full.buildS2 n12g a1r))
    (h : Full.solveAr la epsilon m (Full.buildR2 n12 a1r) (Full.buildS2 n12g a1r) = .ok b2) :
    Holds3 (solveAr (nD := nD) (bD := bD) (pD := pD) la cs epsilon m bR bS) b2 := by
  rcases hm with rfl | ⟨rfl, he, hN, hp⟩
  · exact solveAr_pinv_eq la cs epsilon hR hS h
  · exact solveAr_cholesky_eq la cs epsilon he hR hS (r2_herm n12 hN a1r) (r2_psd n12 hp a1r) h

theorem update_eq (la : Lapack 𝕜) (cs : Cusolver 𝕜) (fo : Als.FloatOps F) (rep : ℝ → F) (epsilon : ℝ) (m : Als.Solver)
    (hm : Agreeable m epsilon n12) (c : F) (ht : Ready t a1r a2r n12g n12 a12g)
    (h : Full.alsPass la epsilon n12 n12g m (a1r, a2r) = .ok (b1, b2)) :
    ∃ t', update nD bD pD la cs fo rep epsilon m t c = .ok (t', rep (Full.cost b1 b2 a12g n12),
      Als.relErr fo (rep (Full.cost b1 b2 a12g n12)) c) ∧ Ready t' b1 b2 n12g n12 a12g := by
  unfold Full.alsPass at h
  dsimp only at h
  cases e1 : Full.solveAr la epsilon m (Full.buildR1 n12 a2r) (Full.buildS1 n12g a2r) with
  | error e => rw [e1] at h; cases h
  | ok c1 =>
    rw [e1] at h
    change ((Full.solveAr la epsilon m (Full.buildR2 n12 c1) (Full.buildS2 n12g c1)) >>= _) = _ at h
    cases e2 : Full.solveAr la epsilon m (Full.buildR2 n12 c1) (Full.buildS2 n12g c1) with
    | error e => rw [e2] at h; cases h
    | ok c2 =>
      rw [e2] at h
      have h' := Except.ok.inj h
      rw [Prod.mk.injEq] at h'
      obtain ⟨rfl, rfl⟩ := h'
      obtain ⟨t1, q1, r1, hS1⟩ := buildS1_ready ht
      obtain ⟨t2, q2, r2, hR1, eS⟩ := buildR1_ready r1
      have x1 := half1 la cs epsilon m hm hR1 (eS ▸ hS1) e1
      have r3 : Ready { t2 with a1r := solveAr (nD := nD) (bD := bD) (pD := pD) la cs epsilon m t2.R t2.S }
        c1 a2r n12g n12 a12g := { r2 with a1r := x1 }
      obtain ⟨t4, q4, r4, hS2⟩ := buildS2_ready r3
      obtain ⟨t5, q5, r5, hR2, eS2⟩ := buildR2_ready r4
      have x2 := half2 la cs epsilon m hm hR2 (eS2 ▸ hS2) e2
      have r6 : Ready { t5 with a2r := solveAr (nD := nD) (bD := bD) (pD := pD) la cs epsilon m t5.R t5.S }
        c1 c2 n12g n12 a12g := { r5 with a2r := x2 }
      obtain ⟨t7, q7, r7⟩ := cost_ready r6
      refine ⟨t7, ?_, r7⟩
      unfold update
      simp only [q1, q2, q4, q5, q7, bind, Except.bind, pure, Except.pure]

theorem update_total (la : Lapack 𝕜) (cs : Cusolver 𝕜) (fo : Als.FloatOps F) (rep : ℝ → F) (epsilon : ℝ) (m : Als.Solver)
    (c : F) (ht : Ready t a1r a2r n12g n12 a12g) : ∃ r, update nD bD pD la cs fo rep epsilon m t c = .ok r ∧
      ∃ b1 b2 : Fin nD → Fin bD → Fin pD → 𝕜, Ready r.1 b1 b2 n12g n12 a12g := by
  obtain ⟨t1, q1, r1, -⟩ := buildS1_ready ht
  obtain ⟨t2, q2, r2, -, -⟩ := buildR1_ready r1
  obtain ⟨c1, x1⟩ := solveAr_total (nD := nD) (bD := bD) (pD := pD) la cs epsilon m t2.R t2.S
  have r3 : Ready { t2 with a1r := solveAr (nD := nD) (bD := bD) (pD := pD) la cs epsilon m t2.R t2.S }
    c1 a2r n12g n12 a12g := { r2 with a1r := x1 }
  obtain ⟨t4, q4, r4, -⟩ := buildS2_ready r3
  obtain ⟨t5, q5, r5, -, -⟩ := buildR2_ready r4
  obtain ⟨c2, x2⟩ := solveAr_total (nD := nD) (bD := bD) (pD := pD) la cs epsilon m t5.R t5.S
  have r6 : Ready { t5 with a2r := solveAr (nD := nD) (bD := bD) (pD := pD) la cs epsilon m t5.R t5.S }
    c1 c2 n12g n12 a12g := { r5 with a2r := x2 }
  obtain ⟨t7, q7, r7⟩ := cost_ready r6
  refine ⟨(t7, rep (Full.cost c1 c2 a12g n12), Als.relErr fo (rep (Full.cost c1 c2 a12g n12)) c), ?_, c1, c2, r7⟩
  unfold update
  simp only [q1, q2, q4, q5, q7, bind, Except.bind, pure, Except.pure]

theorem loop_eq (la : Lapack 𝕜) (cs : Cusolver 𝕜) (fo : Als.FloatOps F) (rep : ℝ → F) (epsilon : ℝ) (m : Als.Solver)
    (hm : Agreeable m epsilon n12) (tol : F) (fuel i : ℕ) (c : F) (p q : (Fin nD → Fin bD → Fin pD → 𝕜) × (Fin nD → Fin bD → Fin pD → 𝕜))
    (ht : Ready t p.1 p.2 n12g n12 a12g)
    (h : Als.nativeLoop fo (Full.alsPass la epsilon n12 n12g m) (fun r => rep (Full.cost r.1 r.2 a12g n12)) tol fuel i p c = .ok q) :
    ∃ t', loop nD bD pD la cs fo rep epsilon m tol fuel i t c = .ok t' ∧ Ready t' q.1 q.2 n12g n12 a12g := by
  induction fuel generalizing i c p t with
  | zero =>
    rw [Als.nativeLoop] at h
    rw [← Except.ok.inj h]
    exact ⟨t, rfl, ht⟩
  | succ fuel ih =>
    rw [Als.nativeLoop, Als.alsUpdate] at h
    cases e : Full.alsPass la epsilon n12 n12g m p with
    | error x => rw [e] at h; cases h
    | ok p' =>
      rw [e] at h
      obtain ⟨t', q1, r1⟩ := update_eq (b1 := p'.1) (b2 := p'.2) la cs fo rep epsilon m hm c ht e
      rw [loop, q1]
      simp only [bind, Except.bind, pure, Except.pure] at h ⊢
      split at h
      next hc =>
        rw [if_pos hc, ← Except.ok.inj h]
        exact ⟨t', rfl, r1⟩
      next hc =>
        rw [if_neg hc]
        exact ih _ _ _ r1 h

theorem loop_total (la : Lapack 𝕜) (cs : Cusolver 𝕜) (fo : Als.FloatOps F) (rep : ℝ → F) (epsilon : ℝ) (m : Als.Solver)
    (tol : F) (fuel i : ℕ) (c : F) (ht : Ready t a1r a2r n12g n12 a12g) :
    ∃ t', loop nD bD pD la cs fo rep epsilon m tol fuel i t c = .ok t' ∧
      ∃ b1 b2 : Fin nD → Fin bD → Fin pD → 𝕜, Ready t' b1 b2 n12g n12 a12g := by
  induction fuel generalizing i c a1r a2r t with
  | zero => exact ⟨t, rfl, _, _, ht⟩
  | succ fuel ih =>
    obtain ⟨r, q1, b1, b2, r1⟩ := update_total la cs fo rep epsilon m c ht
    rw [loop, q1]
    simp only [bind, Except.bind, pure, Except.pure]
    split
    · exact ⟨_, rfl, _, _, r1⟩
    · exact ih _ _ r1

/-! ### The property -/

namespace Spec

/-- The intended statement: given the same tensors and settings, the native solver returns buffers holding the tensors which
the PyTorch solver returns, and raises when the PyTorch solver raises. -/
def SameSolver (𝕜 : Type) [RCLike 𝕜] : Prop :=
  ∀ (nD bD pD : ℕ) (F : Type) (la : Lapack 𝕜) (cs : Cusolver 𝕜) (junk : String → ℕ → 𝕜) (fo : Als.FloatOps F) (rep : ℝ → F)
    (epsilon : ℝ) (m : Als.Solver) (method : String) (tol : F) (niter : ℕ)
    (a1r a2r : Fin nD → Fin bD → Fin pD → 𝕜) (n12 : Fin nD → Fin nD → Fin nD → Fin nD → 𝕜)
    (a12g : Fin nD → Fin nD → Fin pD → Fin pD → 𝕜) (x1 x2 xg xn xt : Buf 𝕜),
    Als.torchSolver method = .ok m → 0 ≤ epsilon → (Full.normMat n12).IsHermitian → AceTN.Spec.AtLeast (Full.normMat n12) 0 →
    Holds3 x1 a1r → Holds3 x2 a2r → Holds4 xg (Full.n12gOf n12 a12g) → Holds4 xn n12 → Holds4 xt a12g →
    match Als.solveTorch fo (Full.alsPass la epsilon n12 (Full.n12gOf n12 a12g) m)
      (fun r => rep (Full.cost r.1 r.2 a12g n12)) tol niter (a1r, a2r) with
    | .ok q => ∃ y1 y2, alsSolve nD bD pD la cs junk fo rep epsilon method tol niter x1 x2 xg xn xt = .ok (y1, y2) ∧
        Holds3 y1 q.1 ∧ Holds3 y2 q.2
    | .error _ => ∃ e, alsSolve nD bD pD la cs junk fo rep epsilon method tol niter x1 x2 xg xn xt = .error e

end Spec

variable {x1 x2 xg xn xt : Buf 𝕜}

theorem solver_eq {method : String} {m : Als.Solver} (h : Als.torchSolver method = .ok m) : Als.nativeSolver method = .ok m := by
  unfold Als.torchSolver at h
  unfold Als.nativeSolver
  split_ifs at h ⊢ with h1 h2 <;> exact h

theorem alsSolve_eq (la : Lapack 𝕜) (cs : Cusolver 𝕜) (junk : String → ℕ → 𝕜) (fo : Als.FloatOps F) (rep : ℝ → F)
    (epsilon : ℝ) (m : Als.Solver) (method : String) (hmeth : Als.torchSolver method = .ok m) (hm : Agreeable m epsilon n12)
    (tol : F) (niter : ℕ) (h1 : Holds3 x1 a1r) (h2 : Holds3 x2 a2r) (hg : Holds4 xg n12g) (hn : Holds4 xn n12)
    (ht : Holds4 xt a12g) (q : (Fin nD → Fin bD → Fin pD → 𝕜) × (Fin nD → Fin bD → Fin pD → 𝕜))
    (h : Als.solveTorch fo (Full.alsPass la epsilon n12 n12g m) (fun r => rep (Full.cost r.1 r.2 a12g n12)) tol niter
      (a1r, a2r) = .ok q) :
    ∃ y1 y2, alsSolve nD bD pD la cs junk fo rep epsilon method tol niter x1 x2 xg xn xt = .ok (y1, y2) ∧
      Holds3 y1 q.1 ∧ Holds3 y2 q.2 := by
  rw [Als.C36_backends_agree, Als.solveNative] at h
  obtain ⟨t, q0, r0⟩ := new_ready junk x1 x2 xg xn xt h1 h2 hg hn ht
  obtain ⟨t1, q1, r1⟩ := cost_ready r0
  obtain ⟨t2, q2, r2⟩ := loop_eq la cs fo rep epsilon m hm tol niter 0 _ (a1r, a2r) q r1 h
  refine ⟨t2.a1r, t2.a2r, ?_, r2.a1r, r2.a2r⟩
  unfold alsSolve
  simp only [solver_eq hmeth, q0, q1, q2, bind, Except.bind, pure, Except.pure]

/-- **C61** (pseudo-inverse).  With `als_method = "pinv"` the native solver returns, for every input, buffers holding exactly
the two tensors the PyTorch solver returns (which never raises), whatever the uninitialised memory contained. -/
theorem C61_pinv (la : Lapack 𝕜) (cs : Cusolver 𝕜) (junk : String → ℕ → 𝕜) (fo : Als.FloatOps F) (rep : ℝ → F)
    (epsilon : ℝ) (tol : F) (niter : ℕ) (h1 : Holds3 x1 a1r) (h2 : Holds3 x2 a2r) (hg : Holds4 xg n12g) (hn : Holds4 xn n12)
    (ht : Holds4 xt a12g) :
    ∃ q y1 y2, Als.solveTorch fo (Full.alsPass la epsilon n12 n12g .pinv) (fun r => rep (Full.cost r.1 r.2 a12g n12)) tol niter
        (a1r, a2r) = .ok q ∧
      alsSolve nD bD pD la cs junk fo rep epsilon "pinv" tol niter x1 x2 xg xn xt = .ok (y1, y2) ∧
      Holds3 y1 q.1 ∧ Holds3 y2 q.2 := by
  have ⟨q, hq⟩ : ∃ q, Als.solveTorch fo (Full.alsPass la epsilon n12 n12g .pinv) (fun r => rep (Full.cost r.1 r.2 a12g n12))
      tol niter (a1r, a2r) = .ok q := by
    have hp : ∀ p : (Fin nD → Fin bD → Fin pD → 𝕜) × (Fin nD → Fin bD → Fin pD → 𝕜),
        ∃ p', Full.alsPass la epsilon n12 n12g .pinv p = .ok p' := fun p => ⟨_, rfl⟩
    choose f hf using hp
    obtain ⟨n, hn, -⟩ := Als.C36_stopping_rule fo f (fun r => rep (Full.cost r.1 r.2 a12g n12)) tol niter (a1r, a2r)
    rw [show Full.alsPass la epsilon n12 n12g .pinv = fun q => .ok (f q) from funext hf]
    exact ⟨_, hn⟩
  obtain ⟨y1, y2, h3, h4⟩ := alsSolve_eq la cs junk fo rep epsilon .pinv "pinv" rfl (Or.inl rfl) tol niter h1 h2 hg hn ht q hq
  exact ⟨q, y1, y2, hq, h3, h4⟩

/-- **C61** (Cholesky).  Full statement: `Spec.SameSolver`.  Whenever the PyTorch solver returns, the native solver returns
buffers holding the same two tensors; the norm tensor is positive semidefinite, as preconditioning makes it.  What is missing
are the runs in which the PyTorch solver raises, see `C61_violated`. -/
theorem C61_cholesky_partial (la : Lapack 𝕜) (cs : Cusolver 𝕜) (junk : String → ℕ → 𝕜) (fo : Als.FloatOps F) (rep : ℝ → F)
    (epsilon : ℝ) (he : 0 ≤ epsilon) (hN : (Full.normMat n12).IsHermitian) (hp : AceTN.Spec.AtLeast (Full.normMat n12) 0)
    (tol : F) (niter : ℕ) (h1 : Holds3 x1 a1r) (h2 : Holds3 x2 a2r) (hg : Holds4 xg n12g) (hn : Holds4 xn n12)
    (ht : Holds4 xt a12g) (q : (Fin nD → Fin bD → Fin pD → 𝕜) × (Fin nD → Fin bD → Fin pD → 𝕜))
    (h : Als.solveTorch fo (Full.alsPass la epsilon n12 n12g .cholesky) (fun r => rep (Full.cost r.1 r.2 a12g n12)) tol niter
      (a1r, a2r) = .ok q) :
    ∃ y1 y2, alsSolve nD bD pD la cs junk fo rep epsilon "cholesky" tol niter x1 x2 xg xn xt = .ok (y1, y2) ∧
      Holds3 y1 q.1 ∧ Holds3 y2 q.2 :=
  alsSolve_eq la cs junk fo rep epsilon .cholesky "cholesky" rfl (Or.inr ⟨rfl, he, hN, hp⟩) tol niter h1 h2 hg hn ht q h

/-- **C61** (no exception).  With a known method the native solver returns a pair for every input: a failed factorisation goes
unnoticed. -/
theorem C61_never_raises (la : Lapack 𝕜) (cs : Cusolver 𝕜) (junk : String → ℕ → 𝕜) (fo : Als.FloatOps F) (rep : ℝ → F)
    (epsilon : ℝ) (m : Als.Solver) (method : String) (hm : Als.torchSolver method = .ok m) (tol : F) (niter : ℕ)
    (h1 : Holds3 x1 a1r) (h2 : Holds3 x2 a2r) (hg : Holds4 xg n12g) (hn : Holds4 xn n12) (ht : Holds4 xt a12g) :
    ∃ y1 y2, alsSolve nD bD pD la cs junk fo rep epsilon method tol niter x1 x2 xg xn xt = .ok (y1, y2) := by
  obtain ⟨t, q0, r0⟩ := new_ready junk x1 x2 xg xn xt h1 h2 hg hn ht
  obtain ⟨t1, q1, r1⟩ := cost_ready r0
  obtain ⟨t2, q2, b1, b2, r2⟩ := loop_total la cs fo rep epsilon m tol niter 0 (rep (Full.cost a1r a2r a12g n12)) r1
  refine ⟨t2.a1r, t2.a2r, ?_⟩
  unfold alsSolve
  simp only [solver_eq hm, q0, q1, q2, bind, Except.bind, pure, Except.pure]

/-- A buffer of zeros. -/
def zeros (shape : List ℕ) : Buf 𝕜 := ⟨shape, fun _ => 0⟩

/-- The zero system is singular: the PyTorch half-step raises. -/
theorem zero_system (la : Lapack 𝕜) (epsilon : ℝ) (S : Fin 1 → Fin 1 → Fin 1 → 𝕜) :
    Full.solveAr la epsilon .cholesky (fun _ _ _ _ => 0 : Fin 1 → Fin 1 → Fin 1 → Fin 1 → 𝕜) S = .error .runtimeError := by
  have hR : (asSq (fun _ _ _ _ => 0 : Fin 1 → Fin 1 → Fin 1 → Fin 1 → 𝕜)) = 0 := rfl
  have hH : (asSq (fun _ _ _ _ => 0 : Fin 1 → Fin 1 → Fin 1 → Fin 1 → 𝕜)).IsHermitian := by rw [hR]; exact isHermitian_zero
  have ha : Full.absMax (0 : Matrix (Fin 1 × Fin 1) (Fin 1 × Fin 1) 𝕜) = 0 := by simp [Full.absMax]
  unfold Full.solveAr
  rw [hermAvg_eq _ hH, hR]
  simp only [ha, mul_zero, RCLike.ofReal_zero, zero_smul, add_zero]
  have hl : ∀ S' : Matrix (Fin 1 × Fin 1) (Fin 1) 𝕜, la.linSolve 0 S' = none := fun S' => by
    have := la.linSolve_some (0 : Matrix (Fin 1 × Fin 1) (Fin 1 × Fin 1) 𝕜) S'
    rw [det_zero] at this
    simpa using this
  have hc : ∀ S' : Matrix (Fin 1 × Fin 1) (Fin 1) 𝕜, la.cholSolve 0 S' = none := fun S' => by
    cases hx : la.cholSolve 0 S' with
    | none => rfl
    | some X =>
      have := (la.cholSolve_posDef _ _ _ isHermitian_zero hx).det_pos
      rw [det_zero] at this
      exact absurd this (lt_irrefl _)
  rw [hc, hl]

/-- The assumption on the vendor's solver can be met. -/
theorem nonempty_cusolver : Nonempty (Cusolver 𝕜) :=
  ⟨{ solve := fun R S => R⁻¹ * S
     solve_ok := fun _ _ h => mul_nonsing_inv_cancel_left _ _ ((isUnit_iff_isUnit_det _).1 h.isUnit) }⟩

/-- **C61** fails when a linear system is singular: the PyTorch solver raises, the native solver does not look at the status
of the factorisation and returns whatever it finds. -/
theorem C61_violated : ¬ Spec.SameSolver 𝕜 := by
  intro hs
  obtain ⟨la⟩ := nonempty_lapack (𝕜 := 𝕜)
  obtain ⟨cs⟩ := nonempty_cusolver (𝕜 := 𝕜)
  have h3 : Holds3 (zeros [1, 1, 1] : Buf 𝕜) (fun _ _ _ => 0 : Fin 1 → Fin 1 → Fin 1 → 𝕜) := ⟨rfl, fun _ _ _ => rfl⟩
  have h4 : Holds4 (zeros [1, 1, 1, 1] : Buf 𝕜) (fun _ _ _ _ => 0 : Fin 1 → Fin 1 → Fin 1 → Fin 1 → 𝕜) :=
    ⟨rfl, fun _ _ _ _ => rfl⟩
  have hg : Full.n12gOf (fun _ _ _ _ => 0 : Fin 1 → Fin 1 → Fin 1 → Fin 1 → 𝕜)
      (fun _ _ _ _ => 0 : Fin 1 → Fin 1 → Fin 1 → Fin 1 → 𝕜) = fun _ _ _ _ => 0 := by
    funext a b c d; simp [Full.n12gOf]
  have hr : Full.buildR1 (fun _ _ _ _ => 0 : Fin 1 → Fin 1 → Fin 1 → Fin 1 → 𝕜)
      (fun _ _ _ => 0 : Fin 1 → Fin 1 → Fin 1 → 𝕜) = fun _ _ _ _ => 0 := by
    funext a b c d; simp [Full.buildR1]
  have := hs 1 1 1 ℕ la cs (fun _ _ => 0) Als.natOps (fun _ => 0) 0 .cholesky "cholesky" 0 1 (fun _ _ _ => 0)
    (fun _ _ _ => 0) (fun _ _ _ _ => 0) (fun _ _ _ _ => 0) (zeros [1, 1, 1]) (zeros [1, 1, 1]) (zeros [1, 1, 1, 1])
    (zeros [1, 1, 1, 1]) (zeros [1, 1, 1, 1]) rfl le_rfl (by ext; simp [Full.normMat])
    (fun v => by simp [AceTN.Spec.qform, Full.normMat]) h3 h3 (by rw [hg]; exact h4) h4 h4
  rw [hg, Als.solveTorch, Als.torchLoop, Full.alsPass] at this
  dsimp only at this
  rw [hr, zero_system] at this
  obtain ⟨e, he⟩ := this
  obtain ⟨y1, y2, hy⟩ := C61_never_raises (x1 := zeros [1, 1, 1]) (x2 := zeros [1, 1, 1]) (xg := zeros [1, 1, 1, 1])
    (xn := zeros [1, 1, 1, 1]) (xt := zeros [1, 1, 1, 1]) la cs (fun _ _ => (0 : 𝕜)) Als.natOps (fun _ => 0) 0 .cholesky
    "cholesky" rfl 0 1 h3 h3 h4 h4 h4
  rw [hy] at he
  cases he

/-! The hypotheses of the theorems are met: every tensor lies in some buffer, and on a 1×1×1 problem the PyTorch solver
completes a pass. -/

/-- One in every entry. -/
def ones3 : Fin 1 → Fin 1 → Fin 1 → 𝕜 := fun _ _ _ => 1

/-- One in every entry. -/
def ones4 : Fin 1 → Fin 1 → Fin 1 → Fin 1 → 𝕜 := fun _ _ _ _ => 1

example (T : Fin nD → Fin bD → Fin pD → 𝕜) : ∃ b, Holds3 b T := ⟨_, ofMatrix_holds fun a p => T a.1 a.2 p⟩

theorem ones_herm : (Full.normMat (ones4 (𝕜 := 𝕜))).IsHermitian := by
  ext; simp [Full.normMat, ones4]

theorem ones_psd : AceTN.Spec.AtLeast (Full.normMat (ones4 (𝕜 := 𝕜))) 0 := fun v => by
  simp [AceTN.Spec.qform, Full.normMat, ones4, Fintype.sum_prod_type, RCLike.conj_mul]

example (la : Lapack ℝ) : (Full.normMat (ones4 (𝕜 := ℝ))).IsHermitian ∧ AceTN.Spec.AtLeast (Full.normMat (ones4 (𝕜 := ℝ))) 0 ∧
    ∃ q, Als.solveTorch Als.natOps (Full.alsPass la 1 ones4 ones4 .cholesky) (fun _ => 0) 0 1 (ones3, ones3) = .ok q := by
  refine ⟨ones_herm, ones_psd, ?_⟩
  have hr : Full.buildR1 (ones4 (𝕜 := ℝ)) ones3 = ones4 := by
    funext a b c d; simp [Full.buildR1, ones3, ones4]
  obtain ⟨a1, h1⟩ := (C35_succeeds la 1 one_pos ones4 ones_herm ones_psd ones3 (Full.buildS1 ones4 ones3)).1 (fun h => by
    rw [hr] at h
    simpa [ones4] using congrFun (congrFun (congrFun (congrFun h 0) 0) 0) 0)
  have e1 := solveAr_cholesky la 1 _ (r1_herm ones4 ones_herm ones3) _ _ h1
  have h0 : a1 0 0 0 ≠ 0 := by
    intro h0
    have := congrFun (congrFun e1 (0, 0)) 0
    simp [Matrix.mul_apply, Fintype.sum_prod_type, asMat, h0, Full.buildS1, ones4, ones3] at this
  obtain ⟨a2, h2⟩ := (C35_succeeds la 1 one_pos ones4 ones_herm ones_psd a1 (Full.buildS2 ones4 a1)).2 (fun h => by
    have := congrFun (congrFun (congrFun (congrFun h 0) 0) 0) 0
    simp [Full.buildR2, ones4, h0] at this)
  refine ⟨(a1, a2), ?_⟩
  rw [Als.solveTorch, Als.torchLoop, Full.alsPass]
  dsimp only
  rw [h1]
  change ((Full.solveAr la 1 .cholesky (Full.buildR2 ones4 a1) (Full.buildS2 ones4 a1) >>= _) >>= _) = _
  rw [h2]
  rfl

end AceTN.Native
