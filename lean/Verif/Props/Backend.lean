import Verif.Model.Backend
import Verif.Props.NativeAls
import Verif.Lemmas.AlsExact
import Verif.Props.CholeskyReturns
import Verif.Props.Session

/-!
Property C108: a script gives the same results with both backends.
-/

set_option autoImplicit false

namespace AceTN

open Native Native.Spec

variable {𝕜 F : Type} [RCLike 𝕜]

theorem contiguous3_holds {n0 n1 n2 : ℕ} (T : Fin n0 → Fin n1 → Fin n2 → 𝕜) : Holds3 (contiguous3 T) T := by
  refine ⟨rfl, fun i j k => ?_⟩
  unfold contiguous3
  rw [← offset3 n0 n1 n2 i j k]
  dsimp only
  rw [writeAll_at _ _ _ _ (by simp)]
  simp

theorem contiguous4_holds {n0 n1 n2 n3 : ℕ} (T : Fin n0 → Fin n1 → Fin n2 → Fin n3 → 𝕜) : Holds4 (contiguous4 T) T := by
  refine ⟨rfl, fun i j k l => ?_⟩
  unfold contiguous4
  rw [← offset4 n0 n1 n2 n3 i j k l]
  dsimp only
  rw [writeAll_at _ _ _ _ (by simp)]
  simp

omit [RCLike 𝕜] in
theorem read3_holds {n0 n1 n2 : ℕ} {b : Buf 𝕜} {T : Fin n0 → Fin n1 → Fin n2 → 𝕜} (h : Holds3 b T) : read3 b = T := by
  funext i j k
  exact get3 h i j k

namespace Full

variable {bD pD : ℕ}

/-- The solver, for a norm tensor made by preconditioning. -/
theorem alsSolve_backend {nD : ℕ} (la : Lapack 𝕜) (cs : Cusolver 𝕜) (junk : String → ℕ → 𝕜) (fo : Als.FloatOps F) (rep : ℝ → F)
    (cfg : Settings F) (he : cfg.als_method = .cholesky → 0 ≤ cfg.als_epsilon)
    (hb : bD ≤ min (Fintype.card (Fin nD × Fin pD)) (Fintype.card (Fin nD × Fin pD)))
    (n12 : Fin nD → Fin nD → Fin nD → Fin nD → 𝕜) (hN : (normMat n12).IsHermitian) (hp : AceTN.Spec.AtLeast (normMat n12) 0)
    (a12g : Fin nD → Fin nD → Fin pD → Fin pD → 𝕜) (q : (Fin nD → Fin bD → Fin pD → 𝕜) × (Fin nD → Fin bD → Fin pD → 𝕜))
    (h : alsSolve la fo rep cfg hb n12 a12g = .ok q) : alsSolveCutensor la cs junk fo rep cfg hb n12 a12g = .ok q := by
  unfold alsSolveCutensor
  unfold alsSolve at h
  have key : ∃ y1 y2, Native.alsSolve nD bD pD la cs junk fo rep cfg.als_epsilon (methodName cfg.als_method) cfg.als_tol cfg.als_niter
      (contiguous3 (initReduced la hb a12g).1) (contiguous3 (initReduced la hb a12g).2) (contiguous4 (n12gOf n12 a12g)) (contiguous4 n12)
      (contiguous4 a12g) = .ok (y1, y2) ∧ Holds3 y1 q.1 ∧ Holds3 y2 q.2 := by
    revert h he
    cases hm : cfg.als_method with
    | cholesky =>
      intro he h
      exact C61_cholesky_partial la cs junk fo rep cfg.als_epsilon (he rfl) hN hp cfg.als_tol cfg.als_niter (contiguous3_holds _)
        (contiguous3_holds _) (contiguous4_holds _) (contiguous4_holds _) (contiguous4_holds _) q h
    | pinv =>
      intro _ h
      obtain ⟨q', y1, y2, h1, h2, h3, h4⟩ := C61_pinv la cs junk fo rep cfg.als_epsilon cfg.als_tol cfg.als_niter (contiguous3_holds _)
        (contiguous3_holds _) (contiguous4_holds (n12gOf n12 a12g)) (contiguous4_holds n12) (contiguous4_holds a12g)
      obtain rfl : q' = q := Except.ok.inj (h1.symm.trans h)
      exact ⟨y1, y2, h2, h3, h4⟩
  obtain ⟨y1, y2, h1, h2, h3⟩ := key
  simp only [h1]
  exact congrArg Except.ok (Prod.ext (read3_holds h2) (read3_holds h3))

/-- With the pseudo-inverse the solvers agree for every input. -/
theorem alsSolve_backend_pinv {nD : ℕ} (la : Lapack 𝕜) (cs : Cusolver 𝕜) (junk : String → ℕ → 𝕜) (fo : Als.FloatOps F) (rep : ℝ → F)
    (cfg : Settings F) (hm : cfg.als_method = .pinv) (hb : bD ≤ min (Fintype.card (Fin nD × Fin pD)) (Fintype.card (Fin nD × Fin pD)))
    (n12 : Fin nD → Fin nD → Fin nD → Fin nD → 𝕜) (a12g : Fin nD → Fin nD → Fin pD → Fin pD → 𝕜) :
    alsSolveCutensor la cs junk fo rep cfg hb n12 a12g = alsSolve la fo rep cfg hb n12 a12g := by
  unfold alsSolveCutensor alsSolve
  rw [hm]
  obtain ⟨q', y1, y2, h1, h2, h3, h4⟩ := C61_pinv la cs junk fo rep cfg.als_epsilon cfg.als_tol cfg.als_niter
    (contiguous3_holds (initReduced la hb a12g).1) (contiguous3_holds (initReduced la hb a12g).2) (contiguous4_holds (n12gOf n12 a12g))
    (contiguous4_holds n12) (contiguous4_holds a12g)
  change Als.solveTorch fo _ _ cfg.als_tol cfg.als_niter (initReduced la hb a12g) = _ at h1
  rw [h1]
  change Native.alsSolve nD bD pD la cs junk fo rep cfg.als_epsilon (methodName .pinv) _ _ _ _ _ _ _ = _ at h2
  simp only [h2]
  exact congrArg Except.ok (Prod.ext (read3_holds h3) (read3_holds h4))

/-- With a known method the native solver never raises. -/
theorem alsSolveCutensor_returns {nD : ℕ} (la : Lapack 𝕜) (cs : Cusolver 𝕜) (junk : String → ℕ → 𝕜) (fo : Als.FloatOps F) (rep : ℝ → F)
    (cfg : Settings F) (hb : bD ≤ min (Fintype.card (Fin nD × Fin pD)) (Fintype.card (Fin nD × Fin pD)))
    (n12 : Fin nD → Fin nD → Fin nD → Fin nD → 𝕜) (a12g : Fin nD → Fin nD → Fin pD → Fin pD → 𝕜) :
    ∃ q, alsSolveCutensor la cs junk fo rep cfg hb n12 a12g = .ok q := by
  unfold alsSolveCutensor
  obtain ⟨y1, y2, h⟩ := C61_never_raises la cs junk fo rep cfg.als_epsilon cfg.als_method (methodName cfg.als_method)
    (by cases cfg.als_method <;> rfl) cfg.als_tol cfg.als_niter (contiguous3_holds (initReduced la hb a12g).1)
    (contiguous3_holds (initReduced la hb a12g).2) (contiguous4_holds (n12gOf n12 a12g)) (contiguous4_holds n12) (contiguous4_holds a12g)
  simp only [h]
  exact ⟨_, rfl⟩

/-- The norm tensor after gauge fixing. -/
theorem gaugeFix_square {N P Z : Type} [Fintype N] [DecidableEq N] [Fintype Z] [DecidableEq Z] (la : Lapack 𝕜) (atol : ℝ)
    (nz : N → N → Z → 𝕜) (a12g : N → N → P → P → 𝕜) :
    ∃ nz' : Fin (wD N Z) → Fin (wD N Z) → Z → 𝕜, (gaugeFix la atol nz a12g).n12 = squareNorm nz' :=
  ⟨fun v w z => (einsum% "yzw,yv->zvw" (einsum% "yxz,xw->yzw" nz (la.pinv atol (nzxrOf la nz))) (la.pinv atol (nzyrOf la nz))) z v w, rfl⟩

/-- Reduced tensors. -/
theorem updateReduced_backend {nD : ℕ} [Nonempty (Fin nD)] (la : Lapack 𝕜) (cs : Cusolver 𝕜) (junk : String → ℕ → 𝕜) (fo : Als.FloatOps F)
    (rep : ℝ → F) (cfg : Settings F) (he : cfg.als_method = .cholesky → 0 ≤ cfg.als_epsilon) (hb : bD ≤ Fintype.card (Fin nD × Fin pD))
    (a1r a2r : Fin nD → Fin bD → Fin pD → 𝕜) (n12 : Fin nD → Fin nD → Fin nD → Fin nD → 𝕜) (gate : Fin pD → Fin pD → Fin pD → Fin pD → 𝕜)
    (f : (Fin nD → Fin bD → Fin pD → 𝕜) × (Fin nD → Fin bD → Fin pD → 𝕜)) (h : updateReduced la fo rep cfg hb a1r a2r n12 gate = some (.ok f)) :
    updateReducedCutensor la cs junk fo rep cfg hb a1r a2r n12 gate = some (.ok f) := by
  unfold updateReduced at h
  unfold updateReducedCutensor
  dsimp only at h ⊢
  cases hz : positiveApprox la 2 cfg.positive_approx_cutoff n12 with
  | none => rw [hz] at h; cases h
  | some nz =>
    rw [hz] at h
    rw [Option.map_some] at h ⊢
    have h := Option.some.inj h
    refine congrArg some ?_
    by_cases hg : cfg.use_gauge_fix = true
    · rw [if_pos hg] at h ⊢
      cases hs : alsSolve la fo rep cfg (hb_init (hb_gauge hb)) (gaugeFix la cfg.gauge_fix_atol nz (gateReduced a1r a2r gate)).n12
        (gaugeFix la cfg.gauge_fix_atol nz (gateReduced a1r a2r gate)).a12g with
      | error e => simp only [hs] at h; cases h
      | ok p =>
        have hc := alsSolve_backend la cs junk fo rep cfg he _ _
          (by obtain ⟨nz', e⟩ := gaugeFix_square la cfg.gauge_fix_atol nz (gateReduced a1r a2r gate); rw [e]; exact squareNorm_herm nz')
          (by obtain ⟨nz', e⟩ := gaugeFix_square la cfg.gauge_fix_atol nz (gateReduced a1r a2r gate); rw [e]; exact squareNorm_psd nz') _ p hs
        simp only [hs] at h
        simp only [hc]
        exact h
    · rw [if_neg hg] at h ⊢
      cases hs : alsSolve la fo rep cfg (hb_init hb) (squareNorm nz) (gateReduced a1r a2r gate) with
      | error e => simp only [hs] at h; cases h
      | ok p =>
        simp only [hs] at h
        simp only [alsSolve_backend la cs junk fo rep cfg he _ _ (squareNorm_herm nz) (squareNorm_psd nz) _ p hs]
        exact h

theorem updateReduced_backend_pinv {nD : ℕ} [Nonempty (Fin nD)] (la : Lapack 𝕜) (cs : Cusolver 𝕜) (junk : String → ℕ → 𝕜)
    (fo : Als.FloatOps F) (rep : ℝ → F) (cfg : Settings F) (hm : cfg.als_method = .pinv) (hb : bD ≤ Fintype.card (Fin nD × Fin pD))
    (a1r a2r : Fin nD → Fin bD → Fin pD → 𝕜) (n12 : Fin nD → Fin nD → Fin nD → Fin nD → 𝕜) (gate : Fin pD → Fin pD → Fin pD → Fin pD → 𝕜) :
    updateReducedCutensor la cs junk fo rep cfg hb a1r a2r n12 gate = updateReduced la fo rep cfg hb a1r a2r n12 gate := by
  unfold updateReducedCutensor updateReduced
  simp only [alsSolve_backend_pinv la cs junk fo rep cfg hm]

/-- **C108 (no exceptions).** With the cuTENSOR backend the update of the reduced tensors never raises. -/
theorem C108_never_raises {nD : ℕ} [Nonempty (Fin nD)] (la : Lapack 𝕜) (cs : Cusolver 𝕜) (junk : String → ℕ → 𝕜)
    (fo : Als.FloatOps F) (rep : ℝ → F) (cfg : Settings F) (hb : bD ≤ Fintype.card (Fin nD × Fin pD))
    (a1r a2r : Fin nD → Fin bD → Fin pD → 𝕜) (n12 : Fin nD → Fin nD → Fin nD → Fin nD → 𝕜) (gate : Fin pD → Fin pD → Fin pD → Fin pD → 𝕜) :
    ∃ f, updateReducedCutensor la cs junk fo rep cfg hb a1r a2r n12 gate = some (.ok f) := by
  unfold updateReducedCutensor
  dsimp only
  obtain ⟨nz, hz⟩ := Option.isSome_iff_exists.1 (C33_terminates la cfg.positive_approx_cutoff 0 n12)
  rw [hz, Option.map_some]
  by_cases hg : cfg.use_gauge_fix = true
  · rw [if_pos hg]
    obtain ⟨q, h⟩ := alsSolveCutensor_returns la cs junk fo rep cfg (hb_init (hb_gauge hb))
      (gaugeFix la cfg.gauge_fix_atol nz (gateReduced a1r a2r gate)).n12 (gaugeFix la cfg.gauge_fix_atol nz (gateReduced a1r a2r gate)).a12g
    simp only [h]
    exact ⟨_, rfl⟩
  · rw [if_neg hg]
    obtain ⟨q, h⟩ := alsSolveCutensor_returns la cs junk fo rep cfg (hb_init hb) (squareNorm nz) (gateReduced a1r a2r gate)
    simp only [h]
    exact ⟨_, rfl⟩

/-- The intended statement about exceptions: an update that raises with the torch backend raises with the cuTENSOR backend. -/
def Spec.SameExceptions (𝕜 : Type) [RCLike 𝕜] : Prop :=
  ∀ (F : Type) (bD pD nD : ℕ) (_ : Nonempty (Fin nD)) (la : Lapack 𝕜) (cs : Cusolver 𝕜) (junk : String → ℕ → 𝕜) (fo : Als.FloatOps F)
    (rep : ℝ → F) (cfg : Settings F) (hb : bD ≤ Fintype.card (Fin nD × Fin pD)) (a1r a2r : Fin nD → Fin bD → Fin pD → 𝕜)
    (n12 : Fin nD → Fin nD → Fin nD → Fin nD → 𝕜) (gate : Fin pD → Fin pD → Fin pD → Fin pD → 𝕜) (e : PyErr), 0 < cfg.als_epsilon →
    updateReduced la fo rep cfg hb a1r a2r n12 gate = some (.error e) →
    ∃ e', updateReducedCutensor la cs junk fo rep cfg hb a1r a2r n12 gate = some (.error e')

/-- **C108** is violated: the truncated pair of C94, a positive definite norm tensor and a positive regulariser; with the torch backend the
update raises, with the cuTENSOR backend it returns. -/
theorem C108_violated : ¬ Spec.SameExceptions ℝ := by
  intro h
  obtain ⟨la⟩ := nonempty_lapack (𝕜 := ℝ)
  obtain ⟨cs⟩ := nonempty_cusolver (𝕜 := ℝ)
  have hb : 1 ≤ Fintype.card (Fin 2 × Fin 2) := by simp
  obtain ⟨e', he⟩ := h Unit 1 2 2 ⟨0⟩ la cs (fun _ _ => 0) ⟨fun _ _ => (), fun _ => (), fun _ _ => (), fun _ _ => false⟩ (fun _ => ())
    ⟨false, 0, 1 / 10, 1, (), .cholesky, 1⟩ hb tiltedPair tiltedPair tiltedNorm tiltedGate .runtimeError (by norm_num)
    (tilted_raises la _ _ () hb)
  obtain ⟨f, hf⟩ := C108_never_raises la cs (fun _ _ => 0) ⟨fun _ _ => (), fun _ => (), fun _ _ => (), fun _ _ => false⟩ (fun _ => ())
    ⟨false, 0, 1 / 10, 1, (), .cholesky, 1⟩ hb tiltedPair tiltedPair tiltedNorm tiltedGate
  rw [hf] at he
  exact absurd (Option.some.inj he) (by simp)

variable [NeZero bD] [Nonempty (Fin pD)]

theorem fullBondStep_backend_pinv (st : ProjSettings 𝕜) (pk : ProjKind) (ω : ℕ → Draws (Fin bD) 𝕜) (la : Lapack 𝕜) (ext : Extension 𝕜)
    (fo : Als.FloatOps F) (rep : ℝ → F) (cfg : Settings F) (hm : cfg.als_method = .pinv)
    (gates : Bond → Fin pD → Fin pD → Fin pD → Fin pD → 𝕜) :
    fullBondStepCutensor st pk ω la ext fo rep cfg gates = fullBondStep st pk ω la fo rep cfg none gates := by
  funext s b
  have e1 : numUpdateCutensor la ext.cs (ext.junk s.2) fo rep cfg gates s.1 b = numUpdate la fo rep cfg none gates s.1 b := by
    unfold numUpdateCutensor numUpdate numTensorUpdateCutensor numTensorUpdate
    simp only [updateReduced_backend_pinv la ext.cs (ext.junk s.2) fo rep cfg hm]
    cases s.1.A b.s1 <;> cases s.1.A b.s2 <;> try rfl
    rename_i a1 a2
    dsimp only
    cases numNorm s.1 b (decompose la (bondPermute (b.k : ℕ) a1) (bondPermute (b.k : ℕ) a2)).a1q
      (decompose la (bondPermute (b.k : ℕ) a1) (bondPermute (b.k : ℕ) a2)).a2q <;> rfl
  unfold fullBondStepCutensor fullBondStep
  rw [e1]
  cases numUpdate la fo rep cfg none gates s.1 b with
  | none => rfl
  | some r =>
    cases r with
    | error e => rfl
    | ok p =>
      obtain ⟨a1, a2⟩ := p
      dsimp only
      cases runDrawn st pk ω s.2 (absorbMoves b) (writeSite (writeSite s.1 b.s1 a1) b.s2 a2) with
      | error e => rfl
      | ok net => rfl

theorem numTensorUpdate_backend (la : Lapack 𝕜) (cs : Cusolver 𝕜) (junk : String → ℕ → 𝕜) (fo : Als.FloatOps F) (rep : ℝ → F)
    (cfg : Settings F) (he : cfg.als_method = .cholesky → 0 ≤ cfg.als_epsilon) (net : Net (Ten (Fin bD) (Fin pD) 𝕜)) (b : Bond)
    (gate : Fin pD → Fin pD → Fin pD → Fin pD → 𝕜) (a1 a2 : ATensor (Fin bD) (Fin pD) 𝕜)
    (f : ATensor (Fin bD) (Fin pD) 𝕜 × ATensor (Fin bD) (Fin pD) 𝕜) (h : numTensorUpdate la fo rep cfg net b gate a1 a2 = some (.ok f)) :
    numTensorUpdateCutensor la cs junk fo rep cfg net b gate a1 a2 = some (.ok f) := by
  unfold numTensorUpdate at h
  unfold numTensorUpdateCutensor
  dsimp only at h ⊢
  cases hn : numNorm net b (decompose la a1 a2).a1q (decompose la a1 a2).a2q with
  | error e => rw [hn] at h; cases h
  | ok n12 =>
    rw [hn] at h
    dsimp only at h ⊢
    cases hu : updateReduced la fo rep cfg bD_le (decompose la a1 a2).a1r (decompose la a1 a2).a2r n12 gate with
    | none => rw [hu] at h; cases h
    | some r =>
      cases r with
      | error e => rw [hu] at h; cases h
      | ok p =>
        rw [hu] at h
        rw [updateReduced_backend la cs junk fo rep cfg he _ _ _ _ _ _ hu]
        exact h

theorem numUpdate_backend (la : Lapack 𝕜) (cs : Cusolver 𝕜) (junk : String → ℕ → 𝕜) (fo : Als.FloatOps F) (rep : ℝ → F)
    (cfg : Settings F) (he : cfg.als_method = .cholesky → 0 ≤ cfg.als_epsilon) (gates : Bond → Fin pD → Fin pD → Fin pD → Fin pD → 𝕜)
    (net : Net (Ten (Fin bD) (Fin pD) 𝕜)) (b : Bond) (f : ATensor (Fin bD) (Fin pD) 𝕜 × ATensor (Fin bD) (Fin pD) 𝕜)
    (h : numUpdate la fo rep cfg none gates net b = some (.ok f)) :
    numUpdateCutensor la cs junk fo rep cfg gates net b = some (.ok f) := by
  unfold numUpdate at h
  unfold numUpdateCutensor
  cases h1 : net.A b.s1 <;> cases h2 : net.A b.s2 <;> simp only [h1, h2] at h ⊢ <;> try cases h
  rename_i a1 a2
  cases hu : numTensorUpdate la fo rep cfg net b (gates b) (bondPermute b.k a1) (bondPermute b.k a2) with
  | none => rw [hu] at h; cases h
  | some r =>
    cases r with
    | error e => rw [hu] at h; cases h
    | ok p =>
      rw [hu] at h
      rw [numTensorUpdate_backend la cs junk fo rep cfg he _ _ _ _ _ _ hu]
      exact h

/-- **C108 (bond updates).** A bond update that succeeds with the torch backend succeeds with the cuTENSOR backend, with the same network. -/
theorem C108_bond (st : ProjSettings 𝕜) (pk : ProjKind) (ω : ℕ → Draws (Fin bD) 𝕜) (la : Lapack 𝕜) (ext : Extension 𝕜)
    (fo : Als.FloatOps F) (rep : ℝ → F) (cfg : Settings F) (he : cfg.als_method = .cholesky → 0 ≤ cfg.als_epsilon)
    (gates : Bond → Fin pD → Fin pD → Fin pD → Fin pD → 𝕜) (s s' : Net (Ten (Fin bD) (Fin pD) 𝕜) × ℕ) (b : Bond)
    (h : fullBondStep st pk ω la fo rep cfg none gates s b = (s', none)) :
    fullBondStepCutensor st pk ω la ext fo rep cfg gates s b = (s', none) := by
  unfold fullBondStep at h
  unfold fullBondStepCutensor
  cases hu : numUpdate la fo rep cfg none gates s.1 b with
  | none => rw [hu] at h; cases h
  | some r =>
    cases r with
    | error e => rw [hu] at h; cases h
    | ok p =>
      rw [hu] at h
      rw [numUpdate_backend la ext.cs (ext.junk s.2) fo rep cfg he _ _ _ _ hu]
      obtain ⟨a1, a2⟩ := p
      dsimp only at h ⊢
      revert h
      cases runDrawn st pk ω s.2 (absorbMoves b) (writeSite (writeSite s.1 b.s1 a1) b.s2 a2) with
      | error e => exact id
      | ok net => exact id

end Full

section loop

variable {σ : Type}

theorem bondPass_follow {upd upd' : σ → Bond → σ × Option PyErr} (h : ∀ s b s', upd s b = (s', none) → upd' s b = (s', none)) :
    ∀ (bl : List Bond) (s s' : σ), bondPass upd bl s = (s', none) → bondPass upd' bl s = (s', none)
  | [], _, _, e => e
  | b :: bl, s, s', e => by
    unfold bondPass at e ⊢
    cases hu : upd s b with
    | mk t o =>
      cases o with
      | some x => rw [hu] at e; cases e
      | none =>
        rw [hu] at e
        rw [h _ _ _ hu]
        exact bondPass_follow h bl t s' e

theorem evolveLoop_follow {upd upd' : σ → Bond → σ × Option PyErr} (h : ∀ s b s', upd s b = (s', none) → upd' s b = (s', none)) :
    ∀ (n : ℕ) (bl bl' : List Bond) (s s' : σ), evolveLoop upd n bl s = (bl', s', none) → evolveLoop upd' n bl s = (bl', s', none)
  | 0, _, _, _, _, e => e
  | n + 1, bl, bl', s, s', e => by
    unfold evolveLoop at e ⊢
    cases hu : bondPass upd bl s with
    | mk t o =>
      cases o with
      | some x => rw [hu] at e; cases e
      | none =>
        rw [hu] at e
        rw [bondPass_follow h _ _ _ hu]
        exact evolveLoop_follow h n _ _ _ _ e

theorem andThen_follow {r r' : σ × Option PyErr} {f f' : σ → σ × Option PyErr} {s' : σ} (hr : ∀ t, r = (t, none) → r' = (t, none))
    (hf : ∀ t u, f t = (u, none) → f' t = (u, none)) (h : Set.andThen r f = (s', none)) : Set.andThen r' f' = (s', none) := by
  obtain ⟨t, o⟩ := r
  cases o with
  | some e => cases h
  | none =>
    rw [hr t rfl]
    exact hf t s' h

end loop

namespace Session

variable {bD pD : ℕ} [NeZero bD] [NeZero pD]

/-- The only requirement: no negative regulariser with the Cholesky method. -/
def NonnegShift (c : Config F) : Prop := c.update.als_method = .cholesky → 0 ≤ c.update.als_epsilon

theorem exec_backend (M : Machine F bD 𝕜) (ext : Extension 𝕜) (s s' : State bD pD 𝕜) (cut : Bool) (call : Call F bD pD 𝕜)
    (hc : ∀ c e, call = .evolve c e → NonnegShift c) (h : exec M s call = (s', none)) : execBackend M ext s (cut, call) = (s', none) := by
  cases call with
  | setChi chi => exact h
  | renormalize c => exact h
  | evolve c e =>
    cases cut with
    | false => exact h
    | true =>
      change Set.evolve (comp M c e) c.strings s.initialized s = (s', none) at h
      change Set.evolve (compBackend M ext true c e) c.strings s.initialized s = (s', none)
      unfold Set.evolve at h ⊢
      refine andThen_follow (fun t ht => ?_) (fun t u ht => ht) h
      refine andThen_follow (fun t ht => ht) (fun t u ht => ?_) ht
      unfold Set.evolveFn at ht ⊢
      revert ht
      cases createTensorUpdater c.strings.updateType with
      | error x => exact id
      | ok k =>
        cases k with
        | simple => exact id
        | full =>
          cases setCalculate c.strings.projectors with
          | error x => exact id
          | ok pk =>
            intro ht
            set sk := Set.svdKind c.strings.svdType
            have hl : ∀ r : List Bond × (Net (Ten (Fin bD) (Fin pD) 𝕜) × ℕ) × Option PyErr,
                Full.fullEvolve (c.proj M sk) pk M.ω M.la M.fo M.rep c.update none (twoSiteGate e.model e.dtau) e.steps
                  (t.bonds, t.net, t.moves) = r → r.2.2 = none →
                evolveLoop (Full.fullBondStepCutensor (c.proj M sk) pk M.ω M.la ext M.fo M.rep c.update (twoSiteGate e.model e.dtau))
                  e.steps t.bonds (t.net, t.moves) = r := by
              rintro ⟨bl, x, o⟩ hr ho
              obtain rfl : o = none := ho
              exact evolveLoop_follow (fun s b s' => Full.C108_bond (c.proj M sk) pk M.ω M.la ext M.fo M.rep c.update (hc c e rfl)
                (twoSiteGate e.model e.dtau) s s' b) _ _ _ _ _ hr
            have h2 : (Full.fullEvolve (c.proj M sk) pk M.ω M.la M.fo M.rep c.update none (twoSiteGate e.model e.dtau) e.steps
                (t.bonds, t.net, t.moves)).2.2 = none := congrArg Prod.snd ht
            have h3 := hl _ rfl h2
            change (({ t with bonds := _, net := _, moves := _ } : State bD pD 𝕜), _) = _
            rw [h3]
            exact ht

/-- **C108.** A script that runs to the end with the torch backend runs to the end, with the same tensors, bond list, chi and flags, when any
of its calls of `evolve` use the cuTENSOR backend instead, whatever its uninitialised memory contains. -/
theorem C108_session (M : Machine F bD 𝕜) (ext : Extension 𝕜) (script : List (Bool × Call F bD pD 𝕜))
    (hreg : ∀ c e, Call.evolve c e ∈ script.map Prod.snd → NonnegShift c) (s s' : State bD pD 𝕜)
    (h : run M (script.map Prod.snd) s = (s', none)) : runBackend M ext script s = (s', none) := by
  induction script generalizing s s' with
  | nil => exact h
  | cons x script ih =>
    obtain ⟨cut, call⟩ := x
    change Set.andThen (exec M s call) (run M (script.map Prod.snd)) = _ at h
    change Set.andThen (execBackend M ext s (cut, call)) (runBackend M ext script) = _
    refine andThen_follow (fun t ht => ?_) (fun t u ht => ?_) h
    · exact exec_backend M ext s t cut call (fun c e hce => hreg c e (by simp [hce])) ht
    · exact ih (fun c e hce => hreg c e (List.mem_cons_of_mem _ hce)) t u ht

/-- **C108 (pseudo-inverse).** If `als_method` is `"pinv"` in all calls, a script does the same with both backends whether it raises or
not. -/
theorem C108_pinv (M : Machine F bD 𝕜) (ext : Extension 𝕜) (script : List (Bool × Call F bD pD 𝕜))
    (hm : ∀ c e, Call.evolve c e ∈ script.map Prod.snd → c.update.als_method = .pinv) (s : State bD pD 𝕜) :
    runBackend M ext script s = run M (script.map Prod.snd) s := by
  induction script generalizing s with
  | nil => rfl
  | cons x script ih =>
    obtain ⟨cut, call⟩ := x
    have e1 : execBackend M ext s (cut, call) = exec M s call := by
      cases call with
      | setChi chi => rfl
      | renormalize c => rfl
      | evolve c e =>
        have e2 : compBackend M ext cut c e = comp M c e := by
          unfold compBackend
          cases cut with
          | false => rfl
          | true =>
            simp only [Full.fullBondStep_backend_pinv _ _ _ _ _ _ _ _ (hm c e (by simp))]
            rfl
        change Set.evolve (compBackend M ext cut c e) c.strings s.initialized s = _
        rw [e2]
        rfl
    change Set.andThen (execBackend M ext s (cut, call)) (runBackend M ext script) = Set.andThen (exec M s call) (run M (script.map Prod.snd))
    rw [e1]
    refine congrArg (Set.andThen _) (funext fun t => ih (fun c e hce => hm c e (List.mem_cons_of_mem _ hce)) t)

end Session

section example_
open _root_.AceTN.Spec Session

variable {nx ny N : ℕ}

/-- Non-vacuity: a script that evolves with the torch backend, raises the boundary dimension and evolves with the cuTENSOR backend does not
raise and leaves the state it leaves with the torch backend alone. -/
example [NeZero N] (hx : 2 ≤ nx) (hy : 2 ≤ ny) (σ : Bond → Equiv.Perm (Fin N)) (M : Machine ℝ 2 ℝ) (ext : Extension ℝ) (c : Config ℝ)
    (hp : KnownProjectors c) (hu : c.strings.updateType = "full") (ha : c.update.als_method = .pinv) (he : c.update.als_epsilon = 0)
    (hcut : 0 < c.update.positive_approx_cutoff) (hatol : c.update.gauge_fix_atol < Real.sqrt c.update.positive_approx_cutoff)
    (dtau : ℝ) (steps chi chi' : ℕ) (A : Site → ATensor (Fin 2) (Fin 2) ℝ) :
    ∃ script : List (Bool × Call ℝ 2 2 ℝ), script.map Prod.fst = [false, true, true] ∧
      (∀ c e, Call.evolve c e ∈ script.map Prod.snd → NonnegShift c) ∧
      ∃ s', run M (script.map Prod.snd) (new nx ny chi A) = (s', none) ∧ runBackend M ext script (new nx ny chi A) = (s', none) := by
  refine ⟨[(false, .evolve c ⟨dtau, steps, fieldTerms, fun s => (ghzNet s).A⟩), (true, .setChi chi'),
    (true, .evolve c ⟨dtau, steps, fieldTerms, fun s => (ghzNet s).A⟩)], rfl, ?_, ?_⟩
  · intro c' e' h h'
    simp at h
    rcases h with ⟨rfl, -⟩ | ⟨rfl, -⟩
    all_goals simp [ha] at h'
  · have h := (field_script hx hy σ M [.evolve c ⟨dtau, steps, fieldTerms, fun s => (ghzNet s).A⟩, .setChi chi',
      .evolve c ⟨dtau, steps, fieldTerms, fun s => (ghzNet s).A⟩] (fun x hx' => ?_) (new nx ny chi A) (new_sound (by omega) (by omega) chi A)
      fun h => by cases h).1
    · refine ⟨_, Prod.ext rfl h, ?_⟩
      refine C108_session M ext _ ?_ _ _ (Prod.ext rfl h)
      intro c' e' h h'
      simp at h
      rcases h with ⟨rfl, -⟩ | ⟨rfl, -⟩
      all_goals simp [ha] at h'
    · simp only [List.mem_cons, List.not_mem_nil, or_false] at hx'
      rcases hx' with rfl | rfl | rfl
      · exact ⟨hp, hu, ha, he, hcut, hatol, rfl, rfl⟩
      · trivial
      · exact ⟨hp, hu, ha, he, hcut, hatol, rfl, rfl⟩

/-- Non-vacuity: with the Cholesky method both backends return if the target has bond dimension `bD` or less. -/
example {F : Type} {bD pD nD : ℕ} [NeZero bD] [Nonempty (Fin nD)] (la : Lapack ℝ) (cs : Cusolver ℝ) (junk : String → ℕ → ℝ) (fo : Als.FloatOps F)
    (rep : ℝ → F) (cfg : Full.Settings F) (hb : bD ≤ Fintype.card (Fin nD × Fin pD)) (he : 0 < cfg.als_epsilon)
    (hm : cfg.als_method = .cholesky) (hni : 0 < cfg.als_niter) (hcut : 0 < cfg.positive_approx_cutoff) (hg : cfg.use_gauge_fix = false)
    (a1r a2r b1 b2 : Fin nD → Fin bD → Fin pD → ℝ) (n : Fin nD → Fin nD → Fin nD → Fin nD → ℝ) (gate : Fin pD → Fin pD → Fin pD → Fin pD → ℝ)
    (hfit : pairProd b1 b2 = Full.gateReduced a1r a2r gate) (hne : Full.gateReduced a1r a2r gate ≠ 0) :
    ∃ f, Full.updateReduced la fo rep cfg hb a1r a2r n gate = some (.ok f) ∧
      Full.updateReducedCutensor la cs junk fo rep cfg hb a1r a2r n gate = some (.ok f) := by
  obtain ⟨f, hf, -⟩ := C94_exact_partial la fo rep cfg hb he hm hni hcut (fun h => by simp [hg] at h) a1r a2r b1 b2 n gate hfit hne
  exact ⟨f, hf, Full.updateReduced_backend la cs junk fo rep cfg (fun _ => he.le) hb a1r a2r n gate f hf⟩

end example_

end AceTN
