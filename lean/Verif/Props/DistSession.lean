import Verif.Lemmas.DistSession

/-!
# C90: whole sessions on several ranks

Scripts that run on all ranks of a distributed program: the ranks stay in step, and they reach what a single process reaches.
-/

set_option autoImplicit false

namespace AceTN

open _root_.AceTN.Spec Session NormedSpace
open scoped Matrix.Norms.L2Operator

variable {𝕜 F : Type} [RCLike 𝕜] {bD pD nx ny N : ℕ} [NeZero bD] [NeZero pD]

/-- Calls that do not raise on one process (C88). -/
def Spec.FineCall (M : Machine F bD 𝕜) : Call F bD pD 𝕜 → Prop
  | .setChi _ => True
  | .renormalize c => KnownProjectors c
  | .evolve c _ => KnownProjectors c ∧ SafeUpdate M c

/-- Calls whose settings choose the half-system projectors. -/
def Spec.ChoosesHalf : Call F bD pD 𝕜 → Prop
  | .setChi _ => True
  | .renormalize c => c.strings.projectors = some "half-system"
  | .evolve c _ => c.strings.projectors = some "half-system"

omit [RCLike 𝕜] [NeZero bD] [NeZero pD] in
theorem halfCall_of {c : Call F bD pD 𝕜} (h : ChoosesHalf c) : HalfCall c := by
  cases c with
  | setChi _ => trivial
  | renormalize c =>
    show setCalculate c.strings.projectors = _
    rw [show c.strings.projectors = some "half-system" from h]
    rfl
  | evolve c e =>
    show setCalculate c.strings.projectors = _
    rw [show c.strings.projectors = some "half-system" from h]
    rfl

/-- **C90 (ranks return and agree).** Numbers of ranks for which the work can be shared (C13), ranks that create the same site tensors, every
cell, all tensors, dtypes, models, libraries and random numbers, which may be different on every rank, both kinds of projectors: a script of
calls that do not raise on one process does not raise on any rank, all ranks hold the same object at the end, and `measure` returns the same
dictionary on all of them, with the averages of the values given by the density matrices. -/
theorem C90_returns (hx : 0 < nx) (hy : 0 < ny) (D : Team F bD pD 𝕜) (hD : D.Works nx ny) (chi : ℕ) (A : Site → ATensor (Fin bD) (Fin pD) 𝕜)
    (cs : List (Call F bD pD 𝕜)) (hc : ∀ c ∈ cs, FineCall D.first c) :
    let r := distRun D cs (distNew D nx ny chi A)
    r.2 = none ∧ (∀ k < D.ws, r.1.view k = r.1.view 0) ∧
    ∀ init model, Meas.Clean model (buildSiteList nx ny) (buildBondList nx ny) →
      ∃ (ρ₁ : Site → Fin pD → Fin pD → 𝕜) (ρ₂ : Bond → Fin pD → Fin pD → Fin pD → Fin pD → 𝕜) (d : PyDict String ℝ),
      (∀ x, InCell nx ny x → numSiteRdm (r.1.nets 0) x = .ok (ρ₁ x)) ∧ (∀ b ∈ buildBondList nx ny, numBondRdm init (r.1.nets 0) b = .ok (ρ₂ b)) ∧
      (∀ k < D.ws, Session.measure init model (r.1.view k) = .ok d) ∧
        let v₁ := fun x op => measureOneSite (ρ₁ x) op / siteNorm (ρ₁ x)
        let v₂ := fun b op => measureTwoSite (ρ₂ b) op / bondNorm (ρ₂ b)
        d.get? "Energy" = some (energyPerSite model v₁ v₂ (buildSiteList nx ny) (buildBondList nx ny)) ∧
        (∀ name ∈ (model.one_site_observables (0, 0)).keys,
          d.get? name = some (average (buildSiteList nx ny) (contribution model.one_site_observables v₁ name))) ∧
        ∀ b ∈ buildBondList nx ny, ∀ name ∈ (model.two_site_observables b).keys,
          d.get? name = some (average (buildBondList nx ny) (contribution model.two_site_observables v₂ name)) := by
  intro r
  have key : ∀ s : Ranks bD pD 𝕜, Sync D.ws nx ny s → (distRun D cs s).2 = none := by
    clear r
    induction cs with
    | nil => exact fun _ _ => rfl
    | cons c cs ih =>
      intro s hs
      obtain ⟨c1, c2, c3⟩ := distCalls D hx hy hD s hs
      have h1 : (distExec D s c).2 = none := by
        have := hc c List.mem_cons_self
        cases c with
        | setChi x => exact c1 x
        | renormalize c => exact c2 c this
        | evolve c e => exact c3 c e this.1 this.2
      have h2 := (distExec_ok D hx hy hD s hs c).1
      show (Set.andThen (distExec D s c) (distRun D cs)).2 = none
      rcases he : distExec D s c with ⟨s', x⟩
      rw [he] at h1 h2
      cases h1
      exact ih (fun c h => hc c (List.mem_cons_of_mem _ h)) s' h2
  obtain ⟨n1, -⟩ := distNew_ok D hx hy hD chi A
  have hs : Sync D.ws nx ny r.1 := (distRun_ok D hx hy hD cs _ n1).1
  have hv : ∀ k < D.ws, r.1.view k = r.1.view 0 := fun k hk => by
    unfold Ranks.view
    rw [hs.1 k hk]
  refine ⟨key _ n1, hv, fun init model hcl => ?_⟩
  obtain ⟨ρ₁, ρ₂, e1, e2⟩ := rdms_exist hx hy (r.1.view 0) hs.2 init
  obtain ⟨d, hd, h⟩ := measure_of_rdms hx hy (r.1.view 0) hs.2 init model hcl ρ₁ ρ₂ e1 e2
  exact ⟨ρ₁, ρ₂, d, e1, e2, fun k hk => by rw [hv k hk]; exact hd, h⟩

/-- **C90 (the same as one process).** As before, with the half-system projectors: there are random numbers, each of which some rank has drawn for
that projector, with which the script on a single process raises what the ranks raise and ends with the object every rank ends with, so that
`measure` returns on every rank what it returns on the single process.  So C88 and C89 hold for the ranks. -/
theorem C90_half_serial (hx : 0 < nx) (hy : 0 < ny) (D : Team F bD pD 𝕜) (hD : D.Works nx ny) :
    ∃ ω : ℕ → Draws (Fin bD) 𝕜, (∀ t key, ∃ r < D.ws, ω t key = D.ω r (t / 2) key) ∧
      ∀ (chi : ℕ) (A : Site → ATensor (Fin bD) (Fin pD) 𝕜) (cs : List (Call F bD pD 𝕜)), (∀ c ∈ cs, ChoosesHalf c) →
        let r := distRun D cs (distNew D nx ny chi A)
        let r' := run ⟨D.la, D.fo, D.rep, ω, D.cx⟩ cs (new nx ny chi A)
        r'.2 = r.2 ∧ ∀ k < D.ws, r'.1.net = r.1.nets k ∧ r'.1.bonds = r.1.bonds ∧ r'.1.initialized = r.1.initialized ∧
          ∀ init model, Session.measure init model (r.1.view k) = Session.measure init model r'.1 := by
  refine ⟨aloneDraws D.ws nx ny D.ω, fun t key => ⟨drawerOf D.ws nx ny key, ?_, rfl⟩, fun chi A cs hc => ?_⟩
  · have := hD.1
    unfold drawerOf
    omega
  · intro r r'
    obtain ⟨n1, n2⟩ := distNew_ok D hx hy hD chi A
    obtain ⟨h1, h2⟩ := distRun_ok D hx hy hD cs _ n1
    have h2' : r' = (r.1.alone, r.2) := by
      rw [n2] at h2
      exact h2 fun c h => halfCall_of (hc c h)
    rw [h2']
    refine ⟨rfl, fun k hk => ⟨(h1.1 k hk).symm, rfl, rfl, fun init model => ?_⟩⟩
    have : r.1.view k = r.1.view 0 := by
      unfold Ranks.view
      rw [h1.1 k hk]
    rw [this]
    rfl

/-- Non-vacuity: two ranks with random numbers of their own can share every lattice, four ranks some. -/
example (la : Lapack 𝕜) (fo : Als.FloatOps F) (rep : ℝ → F) (ω : ℕ → ℕ → Draws (Fin bD) 𝕜) (cx : Bool) :
    Team.Works (⟨2, la, fo, rep, ω, cx, fun _ A => A⟩ : Team F bD pD 𝕜) nx ny ∧
      Team.Works (⟨4, la, fo, rep, ω, cx, fun _ A => A⟩ : Team F bD pD 𝕜) 2 3 :=
  ⟨⟨le_rfl, Or.inl rfl, Or.inl rfl, fun _ _ _ => rfl⟩,
    ⟨by show 2 ≤ 4; omega, by simp [SharingWorks], by simp [SharingWorks], fun _ _ _ => rfl⟩⟩

/-! ### Accuracy -/

/-- The state of the lattice the ranks describe. -/
noncomputable def Spec.ranksState (σ : Bond → Equiv.Perm (Fin N)) (s : Ranks bD pD 𝕜) : (BigSite nx ny N → Fin pD) → 𝕜 :=
  stateOf σ (s.view 0)

/-- The sum of the errors of the bond updates of a call, as in `callError`. -/
noncomputable def Spec.ranksError (hx : 2 ≤ nx) (hy : 2 ≤ ny) (σ : Bond → Equiv.Perm (Fin N)) (D : Team F bD pD 𝕜) (s : Ranks bD pD 𝕜) :
    Call F bD pD 𝕜 → ℝ
  | .evolve c e =>
    let s0 := if s.initialized then s else distInitSites D e.start s
    let s1 := (Set.renormalize (distComp D c e) c.strings s0).1
    match createTensorUpdater c.strings.updateType, setCalculate c.strings.projectors with
    | .ok .full, .ok pk =>
      let upd := Full.distBondStep (c.proj D.first (Set.svdKind c.strings.svdType)) pk D.ws D.ω D.la D.fo D.rep c.update (twoSiteGate e.model e.dtau)
      totalError (bondError hx hy σ (twoSiteGate e.model e.dtau)
        (fun st : (ℕ → Net (Ten (Fin bD) (Fin pD) 𝕜)) × ℕ => siteTensors (bare (st.1 0))) upd) upd (schedule e.steps s1.bonds) (s1.nets, s1.moves)
    | .ok .simple, _ => totalError (bondError hx hy σ (twoSiteGate e.model e.dtau)
        (fun st : Net (Ten (Fin bD) (Fin pD) 𝕜) × LambdaTensors (Simple.Weight bD) => siteTensors (bare st.1))
        (Simple.numBondStep D.la (twoSiteGate e.model e.dtau))) (Simple.numBondStep D.la (twoSiteGate e.model e.dtau))
        (schedule e.steps s1.bonds) (s1.nets 0, LambdaTensors.init s1.bonds (Simple.ones bD D.cx))
    | _, _ => 0
  | _ => 0

/-- The sum of the errors of all bond updates of a script. -/
noncomputable def Spec.ranksErrors (hx : 2 ≤ nx) (hy : 2 ≤ ny) (σ : Bond → Equiv.Perm (Fin N)) (D : Team F bD pD 𝕜) :
    List (Call F bD pD 𝕜) → Ranks bD pD 𝕜 → ℝ
  | [], _ => 0
  | c :: cs, s => ranksError hx hy σ D s c + ranksErrors hx hy σ D cs (distExec D s c).1

theorem ranksError_nonneg (hx : 2 ≤ nx) (hy : 2 ≤ ny) (σ : Bond → Equiv.Perm (Fin N)) (D : Team F bD pD 𝕜) (s : Ranks bD pD 𝕜)
    (c : Call F bD pD 𝕜) : 0 ≤ ranksError hx hy σ D s c := by
  unfold ranksError
  split
  · dsimp only
    split
    · exact totalError_nonneg _ (fun s b => bondError_nonneg hx hy σ _ _ _ s b) _ _ _
    · exact totalError_nonneg _ (fun s b => bondError_nonneg hx hy σ _ _ _ s b) _ _ _
    · exact le_rfl
  · exact le_rfl

theorem ranksErrors_nonneg (hx : 2 ≤ nx) (hy : 2 ≤ ny) (σ : Bond → Equiv.Perm (Fin N)) (D : Team F bD pD 𝕜) (cs : List (Call F bD pD 𝕜))
    (s : Ranks bD pD 𝕜) : 0 ≤ ranksErrors hx hy σ D cs s := by
  induction cs generalizing s with
  | nil => exact le_rfl
  | cons c cs ih => exact add_nonneg (ranksError_nonneg hx hy σ D s c) (ih _)

omit [NeZero bD] [NeZero pD] in
theorem ranksState_congr (σ : Bond → Equiv.Perm (Fin N)) {s s' : Ranks bD pD 𝕜} (h : (s'.nets 0).A = (s.nets 0).A) :
    ranksState (nx := nx) (ny := ny) σ s' = ranksState σ s := stateOf_congr σ h

/-- One call of `evolve` on all ranks. -/
theorem dist_evolve_step (hx : 2 ≤ nx) (hy : 2 ≤ ny) (σ : Bond → Equiv.Perm (Fin N)) (m : ModelTerms (Fin pD) 𝕜) (hm : Uniform nx ny m) (T : ℝ) :
    ∃ K C : ℝ, ∀ (D : { D : Team F bD pD 𝕜 // D.Works nx ny }) (s : Ranks bD pD 𝕜) (c : Config F) (e : Evolution bD pD 𝕜),
      Sync D.1.ws nx ny s → s.initialized = true → e.model = m → 0 ≤ e.dtau → e.steps * e.dtau = T → (distExec D.1 s (.evolve c e)).2 = none →
      (distExec D.1 s (.evolve c e)).1.initialized = true ∧
      rayDist (ranksState σ (distExec D.1 s (.evolve c e)).1) ((exp ((-(T : 𝕜)) • latticeHamiltonian hx hy σ m)).mulVec (ranksState σ s)) ≤
        (K * e.dtau ^ 2 + C * (Real.exp (ranksError hx hy σ D.1 s (.evolve c e)) - 1)) * stateNorm (ranksState (nx := nx) (ny := ny) σ s) := by
  obtain ⟨K, C, hK⟩ := C87_truncation (B := Fin bD) hx hy σ m hm T
  refine ⟨K, C, fun ⟨D, hD⟩ s c e hs hi he hd hT hok => ?_⟩
  have hx0 : 0 < nx := by omega
  have hy0 : 0 < ny := by omega
  subst he
  dsimp only at hs hok ⊢
  rw [distExec_evolve D s c e hi] at hok ⊢
  obtain ⟨ok1, e1⟩ := andThen_none hok
  obtain ⟨ok2, e2⟩ := andThen_none ok1
  rw [e1, e2]
  rw [e2] at ok1
  obtain ⟨q1, q2, q3, -⟩ := distRenormalize_ok D hx0 hy0 hD c e s hs
  have herr : ranksError hx hy σ D s (.evolve c e) =
    match createTensorUpdater c.strings.updateType, setCalculate c.strings.projectors with
    | .ok .full, .ok pk => totalError (bondError hx hy σ (twoSiteGate e.model e.dtau)
        (fun st : (ℕ → Net (Ten (Fin bD) (Fin pD) 𝕜)) × ℕ => siteTensors (bare (st.1 0)))
        (Full.distBondStep (c.proj D.first (Set.svdKind c.strings.svdType)) pk D.ws D.ω D.la D.fo D.rep c.update (twoSiteGate e.model e.dtau)))
        (Full.distBondStep (c.proj D.first (Set.svdKind c.strings.svdType)) pk D.ws D.ω D.la D.fo D.rep c.update (twoSiteGate e.model e.dtau))
        (schedule e.steps (Set.renormalize (distComp D c e) c.strings s).1.bonds)
        ((Set.renormalize (distComp D c e) c.strings s).1.nets, (Set.renormalize (distComp D c e) c.strings s).1.moves)
    | .ok .simple, _ => totalError (bondError hx hy σ (twoSiteGate e.model e.dtau)
        (fun st : Net (Ten (Fin bD) (Fin pD) 𝕜) × LambdaTensors (Simple.Weight bD) => siteTensors (bare st.1))
        (Simple.numBondStep D.la (twoSiteGate e.model e.dtau))) (Simple.numBondStep D.la (twoSiteGate e.model e.dtau))
        (schedule e.steps (Set.renormalize (distComp D c e) c.strings s).1.bonds) ((Set.renormalize (distComp D c e) c.strings s).1.nets 0,
          LambdaTensors.init (Set.renormalize (distComp D c e) c.strings s).1.bonds (Simple.ones bD D.cx))
    | _, _ => 0 := by
    unfold ranksError
    dsimp only
    rw [if_pos hi]
  rw [herr]
  rw [← ranksState_congr σ q2]
  rw [hi] at q3
  clear herr e1 e2 ok2 q2 hs hi hok
  generalize (Set.renormalize (distComp D c e) c.strings s).1 = s1 at *
  obtain ⟨p1, p2, -⟩ := distEvolveFn_ok D hx0 hy0 hD c e s1 q1
  obtain ⟨r1, r2, r3, -⟩ := distRenormalize_ok D hx0 hy0 hD c e (Set.evolveFn (distComp D c e) c.strings s1).1 p1
  rw [ranksState_congr σ r2, r3, p2]
  refine ⟨q3, ?_⟩
  clear r1 r2 r3 p1 p2
  unfold Set.evolveFn at ok1 ⊢
  cases hu : createTensorUpdater c.strings.updateType with
  | error x => rw [hu] at ok1; cases ok1
  | ok u =>
    rw [hu] at ok1
    cases u with
    | simple =>
      have ok2 : (evolveLoop (Simple.numBondStep D.la (twoSiteGate e.model e.dtau)) e.steps s1.bonds
          (s1.nets 0, LambdaTensors.init s1.bonds (Simple.ones bD D.cx))).2.2 = none := by
        have := (distSimpleLoop_ok D hx0 hy0 hD c e s1 q1).2.2.2
        exact (congrArg Prod.snd this).trans ok1
      have := hK (Net (Ten (Fin bD) (Fin pD) 𝕜) × LambdaTensors (Simple.Weight bD)) (fun st => siteTensors (bare st.1))
        (Simple.numBondStep D.la (twoSiteGate e.model e.dtau)) s1.bonds q1.2.2 e.steps e.dtau hd hT.le
        (s1.nets 0, LambdaTensors.init s1.bonds (Simple.ones bD D.cx)) ok2
      rw [hT] at this
      exact this
    | full =>
      dsimp only at ok1 ⊢
      cases hp : setCalculate c.strings.projectors with
      | error x => rw [hp] at ok1; cases ok1
      | ok pk =>
        rw [hp] at ok1
        have := hK ((ℕ → Net (Ten (Fin bD) (Fin pD) 𝕜)) × ℕ) (fun s => siteTensors (bare (s.1 0)))
          (Full.distBondStep (c.proj D.first (Set.svdKind c.strings.svdType)) pk D.ws D.ω D.la D.fo D.rep c.update (twoSiteGate e.model e.dtau))
          s1.bonds q1.2.2 e.steps e.dtau hd hT.le (s1.nets, s1.moves) ok1
        rw [hT] at this
        exact this

/-- The rules hold for the ranks. -/
theorem ranks_rules (hx : 2 ≤ nx) (hy : 2 ≤ ny) (σ : Bond → Equiv.Perm (Fin N)) :
    ScriptRules (I := { D : Team F bD pD 𝕜 // D.Works nx ny }) hx hy σ (fun D => distExec D.1) (fun D => distRun D.1)
      (fun D => ranksError hx hy σ D.1) (fun D => ranksErrors hx hy σ D.1) (fun D => Sync D.1.ws nx ny) Ranks.initialized (ranksState σ) := by
  have hx0 : 0 < nx := by omega
  have hy0 : 0 < ny := by omega
  refine ⟨fun _ _ => rfl, fun _ _ _ _ => rfl, fun _ _ _ _ => rfl, fun D => ranksError_nonneg hx hy σ D.1, fun D => ranksErrors_nonneg hx hy σ D.1,
    fun D s c hs => (distExec_ok D.1 hx0 hy0 D.2 s hs c).1, fun D s x _ => ⟨ranksState_congr σ rfl, rfl⟩, fun D s c hs => ?_,
    fun D s c e hs hi => ?_, fun m hm T => dist_evolve_step hx hy σ m hm T⟩
  · have q := distRenormalize_ok D.1 hx0 hy0 D.2 c ⟨0, 0, ⟨fun _ => 0, fun _ => none⟩, fun _ _ _ _ _ _ => 0⟩ s hs
    exact ⟨ranksState_congr σ q.2.1, q.2.2.1⟩
  · obtain ⟨i1, i2, -⟩ := distInit_ok D.1 hx0 hy0 D.2 e.start s hs
    refine ⟨distInitSites D.1 e.start s, i1, rfl, congrArg (latticeState σ) i2, distExec_evolve_init D.1 s c e hi, ?_⟩
    unfold ranksError
    dsimp only
    rw [if_neg (by rw [hi]; decide), if_pos (show (distInitSites D.1 e.start s).initialized = true from rfl)]

omit [NeZero bD] [NeZero pD] in
theorem distNew_state [NeZero bD] [NeZero pD] (σ : Bond → Equiv.Perm (Fin N)) (D : Team F bD pD 𝕜) (hD : D.Works nx ny) (chi : ℕ)
    (A : Site → ATensor (Fin bD) (Fin pD) 𝕜) : ranksState (nx := nx) (ny := ny) σ (distNew D nx ny chi A) = latticeState σ A := by
  obtain ⟨w1, -, -, w4⟩ := hD
  show latticeState σ (D.own 0 A) = _
  rw [w4 0 (by omega)]

/-- **C90 (evolution).** C88 (evolution) on several ranks, with both kinds of projectors: every finite lattice covering the cell, all dtypes; for
every plan and every accuracy there is a tolerance such that every script on new objects, on any number of ranks for which the work can be
shared, that makes the evolutions of the plan with time steps within the tolerance, does not raise, and has errors of its bond updates that sum
up to no more than the tolerance, ends on every rank with the state of the lattice that the plan evolves the start to, up to a positive factor
and the accuracy. -/
theorem C90_evolution (hx : 2 ≤ nx) (hy : 2 ≤ ny) (σ : Bond → Equiv.Perm (Fin N)) (ps : Plan pD 𝕜) (hm : ∀ p ∈ ps, Uniform nx ny p.1)
    (ε : ℝ) (hε : 0 < ε) :
    ∃ δ : ℝ, 0 < δ ∧ ∀ (D : Team F bD pD 𝕜), D.Works nx ny → ∀ (chi : ℕ) (A : Site → ATensor (Fin bD) (Fin pD) 𝕜) (cs : List (Call F bD pD 𝕜)),
      Follows δ cs ps → (distRun D cs (distNew D nx ny chi A)).2 = none → ranksErrors hx hy σ D cs (distNew D nx ny chi A) ≤ δ →
      ∀ k < D.ws, rayDist (stateOf σ ((distRun D cs (distNew D nx ny chi A)).1.view k))
        ((planOperator hx hy σ ps).mulVec (latticeState σ (startOf A cs))) ≤ ε * stateNorm (latticeState (nx := nx) (ny := ny) σ (startOf A cs)) := by
  obtain ⟨δ, hδ, h⟩ := (ranks_rules (F := F) (bD := bD) hx hy σ).evolution ps hm ε hε
  refine ⟨δ, hδ, fun D hD chi A cs hf hr herr k hk => ?_⟩
  have hs := (distNew_ok D (by omega) (by omega) hD chi A).1
  have hk' : (distRun D cs (distNew D nx ny chi A)).1.view k = (distRun D cs (distNew D nx ny chi A)).1.view 0 := by
    unfold Ranks.view
    rw [(distRun_ok D (by omega) (by omega) hD cs _ hs).1.1 k hk]
  rw [hk']
  exact h ⟨D, hD⟩ A cs _ hs rfl (distNew_state σ D hD chi A) hf hr herr

/-- **C90 (ground state).** C88 (ground state) on several ranks, with both kinds of projectors. -/
theorem C90_ground (hx : 2 ≤ nx) (hy : 2 ≤ ny) (σ : Bond → Equiv.Perm (Fin N)) (m : ModelTerms (Fin pD) 𝕜) (hh : m.Hermitian)
    (hm : Uniform nx ny m) (E : ℝ) (chi₀ : ℕ) (A₀ : Site → ATensor (Fin bD) (Fin pD) 𝕜)
    (ho : OverlapsGround hx hy σ m E (bare (freshNet nx ny chi₀ A₀))) :
    ∃ g, GroundState hx hy σ m E g ∧ ∀ η : ℝ, 0 < η → ∃ T₀ : ℝ, ∀ Ts : List ℝ, T₀ ≤ Ts.sum → ∃ δ : ℝ, 0 < δ ∧
      ∀ (D : Team F bD pD 𝕜), D.Works nx ny → ∀ (chi : ℕ) (A : Site → ATensor (Fin bD) (Fin pD) 𝕜) (cs : List (Call F bD pD 𝕜)),
      startOf A cs = A₀ → Follows δ cs (Ts.map fun T => (m, T)) → (distRun D cs (distNew D nx ny chi A)).2 = none →
      ranksErrors hx hy σ D cs (distNew D nx ny chi A) ≤ δ →
      ∀ k < D.ws, NearGround hx hy σ m g E η (bare ((distRun D cs (distNew D nx ny chi A)).1.nets k)) := by
  obtain ⟨g, hg, h⟩ := (ranks_rules (F := F) (bD := bD) hx hy σ).ground m hh hm E chi₀ A₀ ho
  refine ⟨g, hg, fun η hη => ?_⟩
  obtain ⟨T₀, hT₀⟩ := h η hη
  refine ⟨T₀, fun Ts hT => ?_⟩
  obtain ⟨δ, hδ, h'⟩ := hT₀ Ts hT
  refine ⟨δ, hδ, fun D hD chi A cs hA hf hr herr k hk => ?_⟩
  have hs := (distNew_ok D (by omega) (by omega) hD chi A).1
  rw [(distRun_ok D (by omega) (by omega) hD cs _ hs).1.1 k hk]
  exact h' ⟨D, hD⟩ A cs _ _ hs rfl (distNew_state σ D hD chi A) hA hf hr herr rfl

/-! ### The hypotheses are met -/

omit [RCLike 𝕜] [NeZero bD] [NeZero pD] in
theorem totalError_rel {S S' : Type} (err : S → Bond → ℝ) (err' : S' → Bond → ℝ) (upd : S → Bond → S × Option PyErr)
    (upd' : S' → Bond → S' × Option PyErr) (R : S → S' → Prop) (M : Bond → Prop)
    (step : ∀ s s' b, R s s' → M b → err' s' b = err s b ∧ R (upd s b).1 (upd' s' b).1) (l : List Bond) (hl : ∀ b ∈ l, M b) (s : S) (s' : S')
    (h : R s s') : totalError err' upd' l s' = totalError err upd l s := by
  induction l generalizing s s' with
  | nil => rfl
  | cons b l ih =>
    obtain ⟨h1, h2⟩ := step s s' b h (hl b List.mem_cons_self)
    show err' s' b + totalError err' upd' l (upd' s' b).1 = err s b + totalError err upd l (upd s b).1
    rw [h1, ih (fun b' hb' => hl b' (List.mem_cons_of_mem _ hb')) _ _ h2]

theorem ranksError_half (hx : 2 ≤ nx) (hy : 2 ≤ ny) (σ : Bond → Equiv.Perm (Fin N)) (D : Team F bD pD 𝕜) (hD : D.Works nx ny)
    (s : Ranks bD pD 𝕜) (hs : Sync D.ws nx ny s) (c : Call F bD pD 𝕜) (hc : HalfCall c) :
    ranksError hx hy σ D s c = callError hx hy σ (D.alone nx ny) s.alone c := by
  have hx0 : 0 < nx := by omega
  have hy0 : 0 < ny := by omega
  have key : ∀ (c : Config F) (e : Evolution bD pD 𝕜) (s : Ranks bD pD 𝕜), setCalculate c.strings.projectors = .ok .half → Sync D.ws nx ny s →
      s.initialized = true → ranksError hx hy σ D s (.evolve c e) = callError hx hy σ (D.alone nx ny) s.alone (.evolve c e) := by
    intro c e s hp hs hi
    unfold ranksError callError
    dsimp only
    rw [if_pos hi, if_pos (show s.alone.initialized = true from hi)]
    obtain ⟨q1, -, -, -, -, q2⟩ := distRenormalize_ok D hx0 hy0 hD c e s hs
    rw [q2 hp]
    generalize (Set.renormalize (distComp D c e) c.strings s).1 = s1 at *
    rw [hp]
    cases createTensorUpdater c.strings.updateType with
    | error x => rfl
    | ok u =>
      cases u with
      | simple => rfl
      | full =>
        obtain ⟨w1, w2, w3, -⟩ := hD
        refine (totalError_rel _ _ _ _ (fun (t : (ℕ → Net (Ten (Fin bD) (Fin pD) 𝕜)) × ℕ) u =>
          (InSync D.ws t.1 (t.1 0) ∧ FitNet nx ny (t.1 0)) ∧ u = (t.1 0, 2 * t.2)) (· ∈ buildBondList nx ny) (fun t u b hR hb => ?_)
          (schedule e.steps s1.bonds) (fun b hb => q1.2.mem.1 (mem_schedule hb)) (s1.nets, s1.moves) (s1.nets 0, 2 * s1.moves)
          ⟨⟨q1.1, q1.2.1⟩, rfl⟩).symm
        obtain ⟨hR, rfl⟩ := hR
        obtain ⟨j1, j2, -, j4⟩ := distBondStep_ok hx0 hy0 (c.proj D.first (Set.svdKind c.strings.svdType)) .half D.ws w1 w2 w3 D.ω D.la D.fo D.rep
          c.update (twoSiteGate e.model e.dtau) t hb hR.2 hR.1
        replace j4 := j4 rfl
        refine ⟨?_, ⟨j1, j2⟩, congrArg Prod.fst j4⟩
        unfold bondError
        rw [show (Full.fullBondStep (c.proj (D.alone nx ny) (Set.svdKind c.strings.svdType)) .half (D.alone nx ny).ω (D.alone nx ny).la
          (D.alone nx ny).fo (D.alone nx ny).rep c.update none (twoSiteGate e.model e.dtau) (t.1 0, 2 * t.2) b) = _ from j4]
  cases c with
  | setChi x => rfl
  | renormalize c => rfl
  | evolve c e =>
    cases hi : s.initialized with
    | true => exact key c e s hc hs hi
    | false =>
      obtain ⟨h1, -, h3⟩ := distInit_ok D hx0 hy0 hD e.start s hs
      have := key c e _ hc h1 rfl
      rw [← h3] at this
      unfold ranksError callError at this ⊢
      dsimp only at this ⊢
      rw [if_neg (by rw [hi]; decide), if_neg (by rw [show s.alone.initialized = false from hi]; decide)]
      rw [if_pos (show (distInitSites D e.start s).initialized = true from rfl),
        if_pos (show (initSites e.start s.alone).initialized = true from rfl)] at this
      exact this

/-- **C90 (errors).** With the half-system projectors the errors of the bond updates are those of a single process with random numbers each of
which some rank has drawn for that projector. -/
theorem C90_errors (hx : 2 ≤ nx) (hy : 2 ≤ ny) (σ : Bond → Equiv.Perm (Fin N)) (D : Team F bD pD 𝕜) (hD : D.Works nx ny) :
    ∃ ω : ℕ → Draws (Fin bD) 𝕜, (∀ t key, ∃ r < D.ws, ω t key = D.ω r (t / 2) key) ∧
      ∀ (chi : ℕ) (A : Site → ATensor (Fin bD) (Fin pD) 𝕜) (cs : List (Call F bD pD 𝕜)), (∀ c ∈ cs, ChoosesHalf c) →
        ranksErrors hx hy σ D cs (distNew D nx ny chi A) = scriptError hx hy σ ⟨D.la, D.fo, D.rep, ω, D.cx⟩ cs (new nx ny chi A) := by
  have hx0 : 0 < nx := by omega
  have hy0 : 0 < ny := by omega
  refine ⟨aloneDraws D.ws nx ny D.ω, fun t key => ⟨drawerOf D.ws nx ny key, ?_, rfl⟩, fun chi A cs hc => ?_⟩
  · have := hD.1
    unfold drawerOf
    omega
  · obtain ⟨n1, n2⟩ := distNew_ok D hx0 hy0 hD chi A
    have key : ∀ (cs : List (Call F bD pD 𝕜)), (∀ c ∈ cs, ChoosesHalf c) → ∀ s : Ranks bD pD 𝕜, Sync D.ws nx ny s →
        ranksErrors hx hy σ D cs s = scriptError hx hy σ (D.alone nx ny) cs s.alone := by
      intro cs hc
      induction cs with
      | nil => exact fun _ _ => rfl
      | cons c cs ih =>
        intro s hs
        have hh := halfCall_of (hc c List.mem_cons_self)
        obtain ⟨h1, h2⟩ := distExec_ok D hx0 hy0 hD s hs c
        show ranksError hx hy σ D s c + ranksErrors hx hy σ D cs (distExec D s c).1 =
          callError hx hy σ (D.alone nx ny) s.alone c + scriptError hx hy σ (D.alone nx ny) cs (exec (D.alone nx ny) s.alone c).1
        rw [ranksError_half hx hy σ D hD s hs c hh, ih (fun c h => hc c (List.mem_cons_of_mem _ h)) _ h1, h2 hh]
    have := key cs hc _ n1
    rw [n2] at this
    exact this

/-- Non-vacuity: on any number of ranks for which the work can be shared there are, for all times and tolerances, scripts that follow the plan, do
not raise and have no errors, from a start that overlaps the ground states. -/
example [NeZero N] (hx : 2 ≤ nx) (hy : 2 ≤ ny) (σ : Bond → Equiv.Perm (Fin N)) (D : Team ℝ 2 2 ℝ) (hD : D.Works nx ny) (c : Config ℝ)
    (T δ : ℝ) (h1 : 0 ≤ T) (hδ : 0 < δ) (chi chi' : ℕ) (A : Site → ATensor (Fin 2) (Fin 2) ℝ) :
    Uniform nx ny fieldTerms ∧ fieldTerms.Hermitian ∧
    OverlapsGround hx hy σ fieldTerms (fieldGround nx ny N) (bare (freshNet nx ny chi fun s => (ghzNet s).A)) ∧
    ∃ cs : List (Call ℝ 2 2 ℝ), cs.length = 3 ∧ startOf A cs = (fun s => (ghzNet s).A) ∧ Follows δ cs [(fieldTerms, T)] ∧
      (∀ c ∈ cs, FineCall D.first c) ∧ (∀ c ∈ cs, ChoosesHalf c) ∧
      (distRun D cs (distNew D nx ny chi A)).2 = none ∧ ranksErrors hx hy σ D cs (distNew D nx ny chi A) = 0 := by
  obtain ⟨n, a1, a2, a3⟩ : ∃ n : ℕ, 0 ≤ T / n ∧ T / n ≤ δ ∧ n * (T / n) = T := by
    refine ⟨⌈T / δ⌉₊ + 1, by positivity, ?_, by field_simp⟩
    rw [div_le_iff₀ (by positivity)]
    have := Nat.le_ceil (T / δ)
    rw [div_le_iff₀ hδ] at this
    push_cast
    nlinarith
  set c' : Config ℝ := { c with
      strings := { c.strings with projectors := some "half-system", updateType := "full" }
      update := { c.update with als_method := .pinv, als_epsilon := 0, positive_approx_cutoff := 1, gauge_fix_atol := 0 } } with hc'
  have hp : KnownProjectors c' := Or.inr (Or.inr rfl)
  refine ⟨Or.inl fun _ _ => rfl, fieldTerms_hermitian, field_overlaps hx hy σ _ (ghzNet_ones σ),
    [.evolve c' ⟨T / n, n, fieldTerms, fun s => (ghzNet s).A⟩, .renormalize c', .setChi chi'], rfl, rfl, ⟨T, _, rfl, a1, a2, a3, rfl⟩, ?_⟩
  set cs : List (Call ℝ 2 2 ℝ) := [.evolve c' ⟨T / n, n, fieldTerms, fun s => (ghzNet s).A⟩, .renormalize c', .setChi chi'] with hcs
  have f1 : ∀ c ∈ cs, FineCall D.first c := by
    intro x hx'
    simp only [hcs, List.mem_cons, List.not_mem_nil, or_false] at hx'
    rcases hx' with rfl | rfl | rfl
    · exact ⟨hp, Or.inl ⟨rfl, rfl⟩⟩
    · exact hp
    · trivial
  have f2 : ∀ c ∈ cs, ChoosesHalf c := by
    intro x hx'
    simp only [hcs, List.mem_cons, List.not_mem_nil, or_false] at hx'
    rcases hx' with rfl | rfl | rfl <;> first | rfl | trivial
  have f3 : ∀ c ∈ cs, FieldCall c := by
    intro x hx'
    simp only [hcs, List.mem_cons, List.not_mem_nil, or_false] at hx'
    rcases hx' with rfl | rfl | rfl
    · exact ⟨hp, rfl, rfl, rfl, one_pos, by simp [hc'], rfl, rfl⟩
    · exact hp
    · trivial
  refine ⟨f1, f2, (C90_returns (by omega) (by omega) D hD chi A cs f1).1, ?_⟩
  obtain ⟨ω, -, h⟩ := C90_errors hx hy σ D hD
  rw [h chi A cs f2]
  exact (field_script hx hy σ _ cs f3 _ (new_sound (by omega) (by omega) chi A) fun h => by cases h).2.1

end AceTN
