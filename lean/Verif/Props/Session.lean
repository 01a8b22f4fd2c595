import Verif.Lemmas.Session

/-!
# C88: whole sessions

Scripts that construct an `Ipeps` object, call its methods with settings and models that may change from call to call, and measure.
-/

set_option autoImplicit false

namespace AceTN

open _root_.AceTN.Spec Session NormedSpace
open scoped Matrix.Norms.L2Operator

variable {𝕜 F : Type} [RCLike 𝕜] {bD pD nx ny N : ℕ} [NeZero bD] [NeZero pD]

/-! ### Nothing gets out of shape -/

/-- The values of `ctmrg.projectors` that exist. -/
def Spec.KnownProjectors (c : Config F) : Prop :=
  c.strings.projectors = none ∨ c.strings.projectors = some "full-system" ∨ c.strings.projectors = some "half-system"

/-- Updates that do not raise: the full update with the pseudo-inverse, and the simple update with a real dtype. -/
def Spec.SafeUpdate (M : Machine F bD 𝕜) (c : Config F) : Prop :=
  (c.strings.updateType = "full" ∧ c.update.als_method = .pinv) ∨ (c.strings.updateType = "simple" ∧ M.cx = false)

theorem setCalculate_known {c : Config F} (h : KnownProjectors c) : (setCalculate c.strings.projectors).isOk := by
  unfold setCalculate
  rcases h with h | h | h <;> rw [h] <;> rfl

theorem forIn_ok {α β : Type} (l : List α) (f : α → Except PyErr β) (h : ∀ x ∈ l, ∃ y, f x = .ok y) :
    (forIn l PUnit.unit fun x _ => do
      let _ ← f x
      pure (ForInStep.yield PUnit.unit) : Except PyErr PUnit) = .ok PUnit.unit := by
  induction l with
  | nil => rfl
  | cons x l ih =>
    obtain ⟨y, hy⟩ := h x List.mem_cons_self
    rw [List.forIn_cons, hy]
    exact ih fun z hz => h z (List.mem_cons_of_mem _ hz)

/-- What can be called in a state whose tensors fit together. -/
theorem sound_calls (hx : 0 < nx) (hy : 0 < ny) (M : Machine F bD 𝕜) (s : State bD pD 𝕜) (hs : Sound nx ny s) :
    (∀ chi', (exec M s (.setChi chi')).2 = none) ∧
    (∀ c, KnownProjectors c → (exec M s (.renormalize c)).2 = none) ∧
    ∀ c e, KnownProjectors c → SafeUpdate M c → (exec M s (.evolve c e)).2 = none := by
  refine ⟨fun _ => rfl, fun c hc => ?_, fun c e hc hu => ?_⟩
  · rw [exec_renormalize M s c ⟨0, 0, ⟨fun _ => 0, fun _ => none⟩, fun _ _ _ _ _ _ => 0⟩]
    exact (renormalize_sound hx hy M c _ s hs).2.2.2 (setCalculate_known hc)
  · have key : ∀ s : State bD pD 𝕜, Sound nx ny s → s.initialized = true → (exec M s (.evolve c e)).2 = none := by
      intro s hs hi
      rw [exec_evolve M s c e hi]
      obtain ⟨r1, -, -, r2⟩ := renormalize_sound hx hy M c e s hs
      replace r2 := r2 (setCalculate_known hc)
      rcases hr : Set.renormalize (comp M c e) c.strings s with ⟨s1, x⟩
      rw [hr] at r1 r2
      cases r2
      have hf : (Set.evolveFn (comp M c e) c.strings s1).2 = none := by
        unfold Set.evolveFn
        rcases hu with ⟨h1, h2⟩ | ⟨h1, h2⟩
        · rw [h1]
          show (match setCalculate c.strings.projectors with | .error e => (s1, some e) | .ok k => (comp M c e).fullLoop k _ s1).2 = none
          obtain hk := setCalculate_known hc
          cases hq : setCalculate c.strings.projectors with
          | error x => rw [hq] at hk; cases hk
          | ok pk => exact (fullLoop_sound hx hy M c e pk _ s1 r1).2.2 h2
        · rw [h1]
          exact (simpleLoop_sound hx hy M c e s1 r1).2.2 h2
      have hsd := (evolveFn_sound hx hy M c e s1 r1).1
      show (Set.andThen (Set.evolveFn (comp M c e) c.strings s1) _).2 = none
      rcases hr2 : Set.evolveFn (comp M c e) c.strings s1 with ⟨s2, x⟩
      rw [hr2] at hf hsd
      cases hf
      exact (renormalize_sound hx hy M c e s2 hsd).2.2.2 (setCalculate_known hc)
    cases hi : s.initialized with
    | true => exact key s hs hi
    | false =>
      rw [exec_evolve_init M s c e hi]
      exact key _ (initSites_sound hx hy e.start s hs) rfl

omit [NeZero bD] [NeZero pD] in
/-- What `measure` returns, given the density matrices. -/
theorem measure_of_rdms (hx : 0 < nx) (hy : 0 < ny) (s : State bD pD 𝕜) (hs : Sound nx ny s) (init : Fin pD → Fin pD → Fin pD → Fin pD → 𝕜)
    (model : MeasModel (Fin pD → Fin pD → 𝕜) (Fin pD → Fin pD → Fin pD → Fin pD → 𝕜))
    (hcl : Meas.Clean model (buildSiteList nx ny) (buildBondList nx ny)) (ρ₁ : Site → Fin pD → Fin pD → 𝕜)
    (ρ₂ : Bond → Fin pD → Fin pD → Fin pD → Fin pD → 𝕜) (e1 : ∀ x, InCell nx ny x → numSiteRdm s.net x = .ok (ρ₁ x))
    (e2 : ∀ b ∈ buildBondList nx ny, numBondRdm init s.net b = .ok (ρ₂ b)) :
    ∃ d, Session.measure init model s = .ok d ∧
      let v₁ := fun x op => measureOneSite (ρ₁ x) op / siteNorm (ρ₁ x)
      let v₂ := fun b op => measureTwoSite (ρ₂ b) op / bondNorm (ρ₂ b)
      d.get? "Energy" = some (energyPerSite model v₁ v₂ (buildSiteList nx ny) (buildBondList nx ny)) ∧
      (∀ name ∈ (model.one_site_observables (0, 0)).keys,
        d.get? name = some (average (buildSiteList nx ny) (contribution model.one_site_observables v₁ name))) ∧
      ∀ b ∈ buildBondList nx ny, ∀ name ∈ (model.two_site_observables b).keys,
        d.get? name = some (average (buildBondList nx ny) (contribution model.two_site_observables v₂ name)) := by
  obtain ⟨n1, n2, -⟩ := hs.1
  have hne : s.bonds ≠ [] := by
    intro h0
    have := hs.perm.length_eq
    rw [h0, (C02_bond_list nx ny).1, List.length_nil] at this
    have : 0 < 2 * nx * ny := by positivity
    omega
  have hcl' : Meas.Clean model (buildSiteList nx ny) s.bonds :=
    ⟨hcl.nodup1, hcl.nodup2, hcl.same1, fun b hb b2 hb2 => hcl.same2 b (hs.mem.1 hb) b2 (hs.mem.1 hb2), hcl.energy1,
      fun b hb => hcl.energy2 b (hs.mem.1 hb), fun b hb => hcl.disjoint b (hs.mem.1 hb)⟩
  obtain ⟨d, d1, d2, d3, d4, -⟩ := Meas.C48_partial model (fun x op => (siteVal s.net x op).toOption.getD 0)
    (fun b op => (bondVal init s.net b op).toOption.getD 0) (buildSiteList nx ny) s.bonds hne hcl'
  have v1 : ∀ x ∈ buildSiteList nx ny, (fun op => (siteVal s.net x op).toOption.getD 0) = fun op => measureOneSite (ρ₁ x) op / siteNorm (ρ₁ x) := by
    intro x hx'
    funext op
    unfold siteVal
    rw [e1 x (mem_buildSiteList.1 hx')]
    rfl
  have v2 : ∀ b ∈ s.bonds, (fun op => (bondVal init s.net b op).toOption.getD 0) = fun op => measureTwoSite (ρ₂ b) op / bondNorm (ρ₂ b) := by
    intro b hb
    funext op
    unfold bondVal
    rw [e2 b (hs.mem.1 hb)]
    rfl
  refine ⟨d, ?_, ?_, fun name hn => ?_, fun b hb name hn => ?_⟩
  · unfold Session.measure
    dsimp only
    rw [n1, n2, forIn_ok _ _ fun x hx' => ⟨_, e1 x (mem_buildSiteList.1 hx')⟩, forIn_ok _ _ fun b hb => ⟨_, e2 b (hs.mem.1 hb)⟩]
    exact d1
  · rw [d2]
    unfold energyPerSite
    congr 3
    · refine congrArg List.sum (List.map_congr_left fun x hx' => ?_)
      unfold siteEnergy
      cases model.one_site_hamiltonian x with
      | none => rfl
      | some h => exact congrFun (v1 x hx') h
    · rw [← (hs.perm.map _).sum_eq]
      exact congrArg List.sum (List.map_congr_left fun b hb => congrFun (v2 b hb) _)
  · rw [d3 name hn]
    unfold average
    congr 3
    refine List.map_congr_left fun x hx' => ?_
    unfold contribution
    cases (model.one_site_observables x).get? name with
    | none => rfl
    | some o => exact congrFun (v1 x hx') o
  · rw [d4 b (hs.mem.2 hb) name hn, ← Meas.average_perm hs.perm]
    unfold average
    congr 3
    refine List.map_congr_left fun x hx' => ?_
    unfold contribution
    cases (model.two_site_observables x).get? name with
    | none => rfl
    | some o => exact congrFun (v2 x hx') o

omit [NeZero bD] [NeZero pD] in
/-- The density matrices can be built. -/
theorem rdms_exist (hx : 0 < nx) (hy : 0 < ny) (s : State bD pD 𝕜) (hs : Sound nx ny s) (init : Fin pD → Fin pD → Fin pD → Fin pD → 𝕜) :
    ∃ (ρ₁ : Site → Fin pD → Fin pD → 𝕜) (ρ₂ : Bond → Fin pD → Fin pD → Fin pD → Fin pD → 𝕜),
      (∀ x, InCell nx ny x → numSiteRdm s.net x = .ok (ρ₁ x)) ∧ (∀ b ∈ buildBondList nx ny, numBondRdm init s.net b = .ok (ρ₂ b)) := by
  obtain ⟨h1, h2⟩ := hs.1.readable hx hy
  have hρ : ∃ ρ₁ : Site → Fin pD → Fin pD → 𝕜, ∀ x, InCell nx ny x → numSiteRdm s.net x = .ok (ρ₁ x) := by
    choose! f hf using h1
    exact ⟨f, hf⟩
  have hρ' : ∃ ρ₂ : Bond → Fin pD → Fin pD → Fin pD → Fin pD → 𝕜, ∀ b ∈ buildBondList nx ny, numBondRdm init s.net b = .ok (ρ₂ b) := by
    choose! f hf using fun b hb => h2 b hb init
    exact ⟨f, hf⟩
  obtain ⟨ρ₁, e1⟩ := hρ
  obtain ⟨ρ₂, e2⟩ := hρ'
  exact ⟨ρ₁, ρ₂, e1, e2⟩

/-- **C88 (sessions return).** Every cell, all tensors, dtypes, models, settings, libraries and random numbers: after any sequence of calls of
`set_chi`, `renormalize` and `evolve`, some of which may have raised exceptions that the script caught, `set_chi` and, with projectors that
exist, `renormalize` do not raise, neither does `evolve` with the pseudo-inverse or with the simple update and a real dtype, and `measure`
with a model whose dictionaries are as in C48 returns the averages of the values given by the density matrices. -/
theorem C88_returns (hx : 0 < nx) (hy : 0 < ny) (M : Machine F bD 𝕜) (chi : ℕ) (A : Site → ATensor (Fin bD) (Fin pD) 𝕜)
    (cs : List (Call F bD pD 𝕜)) :
    let s := runCatching M cs (new nx ny chi A)
    (∀ chi', (exec M s (.setChi chi')).2 = none) ∧
    (∀ c, KnownProjectors c → (exec M s (.renormalize c)).2 = none) ∧
    (∀ c e, KnownProjectors c → SafeUpdate M c → (exec M s (.evolve c e)).2 = none) ∧
    ∀ init model, Meas.Clean model (buildSiteList nx ny) (buildBondList nx ny) →
      ∃ (ρ₁ : Site → Fin pD → Fin pD → 𝕜) (ρ₂ : Bond → Fin pD → Fin pD → Fin pD → Fin pD → 𝕜), (∀ x, InCell nx ny x → numSiteRdm s.net x = .ok (ρ₁ x)) ∧ (∀ b ∈ buildBondList nx ny, numBondRdm init s.net b = .ok (ρ₂ b)) ∧
      ∃ d, Session.measure init model s = .ok d ∧
        let v₁ := fun x op => measureOneSite (ρ₁ x) op / siteNorm (ρ₁ x)
        let v₂ := fun b op => measureTwoSite (ρ₂ b) op / bondNorm (ρ₂ b)
        d.get? "Energy" = some (energyPerSite model v₁ v₂ (buildSiteList nx ny) (buildBondList nx ny)) ∧
        (∀ name ∈ (model.one_site_observables (0, 0)).keys,
          d.get? name = some (average (buildSiteList nx ny) (contribution model.one_site_observables v₁ name))) ∧
        ∀ b ∈ buildBondList nx ny, ∀ name ∈ (model.two_site_observables b).keys,
          d.get? name = some (average (buildBondList nx ny) (contribution model.two_site_observables v₂ name)) := by
  intro s
  have hs : Sound nx ny s := runCatching_sound hx hy M cs _ (new_sound hx hy chi A)
  clear_value s
  obtain ⟨h1, h2, h3⟩ := sound_calls hx hy M s hs
  refine ⟨h1, h2, h3, fun init model hcl => ?_⟩
  obtain ⟨ρ₁, ρ₂, e1, e2⟩ := rdms_exist hx hy s hs init
  exact ⟨ρ₁, ρ₂, e1, e2, measure_of_rdms hx hy s hs init model hcl ρ₁ ρ₂ e1 e2⟩

/-! ### Simple updates -/

omit [NeZero bD] [NeZero pD] in
theorem siteTensors_bare_congr {net net' : Net (Ten (Fin bD) (Fin pD) 𝕜)} (h : net'.A = net.A) :
    siteTensors (bare net') = siteTensors (bare net) :=
  funext fun x => bare_congr (congrFun h x)

/-- **C88 (simple updates of a session).** Every cell, all tensors, dtypes, models, libraries and random numbers, after any sequence of calls: a
call of `evolve` with the simple update does to the site tensors and to the order of the bonds what C40, C76, C83, C84 and C87 say of the simple
update of the object's tensors, or of those it creates in the first call, in the order of its bond list, and it raises what that raises.  The
boundary tensors, the moves of `renormalize` before and after, and the boundary dimension have no influence on the site tensors. -/
theorem C88_simple {X : Type} (hx : 0 < nx) (hy : 0 < ny) (M : Machine F bD 𝕜) (chi : ℕ) (A : Site → ATensor (Fin bD) (Fin pD) 𝕜)
    (cs : List (Call F bD pD 𝕜)) (c : Config F) (e : Evolution bD pD 𝕜) (hp : KnownProjectors c) (hu : c.strings.updateType = "simple")
    (net : NetT (Fin bD) (Fin pD) X 𝕜) :
    let s := runCatching M cs (new nx ny chi A)
    siteTensors net = (if s.initialized then siteTensors (bare s.net) else e.start) →
    let r := Simple.evolve M.la M.cx (fun _ => none) (twoSiteGate e.model e.dtau) e.steps (if s.initialized then s.bonds else buildBondList nx ny, net)
    let r' := exec M s (.evolve c e)
    r'.1.bonds = r.1 ∧ siteTensors (bare r'.1.net) = siteTensors r.2.1 ∧ r'.2 = r.2.2 := by
  intro s hnet
  have hs : Sound nx ny s := runCatching_sound hx hy M cs _ (new_sound hx hy chi A)
  have key : ∀ s : State bD pD 𝕜, Sound nx ny s → s.initialized = true → siteTensors net = siteTensors (bare s.net) →
      let r := Simple.evolve M.la M.cx (fun _ => none) (twoSiteGate e.model e.dtau) e.steps (s.bonds, net)
      let r' := exec M s (.evolve c e)
      r'.1.bonds = r.1 ∧ siteTensors (bare r'.1.net) = siteTensors r.2.1 ∧ r'.2 = r.2.2 := by
    intro s hs hi hA r r'
    obtain ⟨q1, q2, -, q4⟩ := renormalize_sound hx hy M c e s hs
    have q5 := renormalize_bonds hx hy M c e s hs
    have hk := setCalculate_known hp
    replace q4 := q4 hk
    have hr' : r' = Set.andThen (Set.andThen (Set.renormalize (comp M c e) c.strings s) (Set.evolveFn (comp M c e) c.strings))
      (Set.renormalize (comp M c e) c.strings) := exec_evolve M s c e hi
    rcases hr : Set.renormalize (comp M c e) c.strings s with ⟨s1, x⟩
    rw [hr] at q1 q2 q4 q5 hr'
    cases q4
    have hfn : Set.evolveFn (comp M c e) c.strings s1 = (comp M c e).simpleLoop s1 := by
      unfold Set.evolveFn
      rw [hu]
      rfl
    have hr'' : r' = Set.andThen ((comp M c e).simpleLoop s1) (Set.renormalize (comp M c e) c.strings) := by
      rw [hr', ← hfn]
      rfl
    obtain ⟨p1, -, -⟩ := simpleLoop_sound hx hy M c e s1 q1
    obtain ⟨a1, a2, a3⟩ := numEvolve_alike (X := X) hx hy M.la M.cx (twoSiteGate e.model e.dtau) e.steps s1.net net q1.1
      ((siteTensors_bare_congr q2).trans hA.symm) s1.bonds fun b hb => q1.mem.1 hb
    have q5' : s1.bonds = s.bonds := q5
    rw [q5'] at a1 a2 a3
    have b1 : ((comp M c e).simpleLoop s1).1.bonds = r.1 := by
      rw [← a1, ← q5']
      rfl
    have b2 : siteTensors (bare ((comp M c e).simpleLoop s1).1.net) = siteTensors r.2.1 := by
      rw [← a2, ← q5']
      rfl
    have b3 : ((comp M c e).simpleLoop s1).2 = r.2.2 := by
      rw [← a3, ← q5']
      rfl
    rcases hl : (comp M c e).simpleLoop s1 with ⟨s2, y⟩
    rw [hl] at hr'' b1 b2 b3 p1
    cases y with
    | some y =>
      rw [show r' = (s2, some y) from hr'']
      exact ⟨b1, b2, b3⟩
    | none =>
      have hr3 : r' = Set.renormalize (comp M c e) c.strings s2 := hr''
      obtain ⟨-, t2, -, t4⟩ := renormalize_sound hx hy M c e s2 p1
      rw [hr3]
      exact ⟨(renormalize_bonds hx hy M c e s2 p1).trans b1, (siteTensors_bare_congr t2).trans b2, (t4 hk).trans b3⟩
  cases hi : s.initialized with
  | true =>
    rw [hi, if_pos rfl] at hnet
    rw [if_pos rfl]
    exact key s hs hi hnet
  | false =>
    rw [hi, if_neg (by decide)] at hnet
    rw [if_neg (by decide), exec_evolve_init M s c e hi]
    have hb : (initSites e.start s).bonds = buildBondList nx ny := by
      obtain ⟨⟨e1, e2, -⟩, -⟩ := hs
      show buildBondList s.net.nx s.net.ny = _
      rw [e1, e2]
    have := key _ (initSites_sound hx hy e.start s hs) rfl hnet
    rw [hb] at this
    exact this

/-- Non-vacuity: in every state there is such a network, and settings with the simple update exist. -/
example (s : State bD pD 𝕜) (start : Site → ATensor (Fin bD) (Fin pD) 𝕜) (c : Config F) :
    (∃ net : NetT (Fin bD) (Fin pD) Unit 𝕜, siteTensors net = if s.initialized then siteTensors (bare s.net) else start) ∧
      ∃ c' : Config F, KnownProjectors c' ∧ c'.strings.updateType = "simple" := by
  refine ⟨⟨bare (if s.initialized then s.net else (initSites start s).net), ?_⟩,
    ⟨{ c with strings := { c.strings with projectors := none, updateType := "simple" } }, Or.inl rfl, rfl⟩⟩
  split <;> rfl

/-! ### What the state of the lattice is at the end of a script -/

/-- The state of the lattice an object describes. -/
noncomputable def Spec.stateOf (σ : Bond → Equiv.Perm (Fin N)) (s : State bD pD 𝕜) : (BigSite nx ny N → Fin pD) → 𝕜 :=
  latticeState σ (siteTensors (bare s.net))

/-- The sum of the errors of the bond updates of a call (C87); calls other than `evolve` have none. -/
noncomputable def Spec.callError (hx : 2 ≤ nx) (hy : 2 ≤ ny) (σ : Bond → Equiv.Perm (Fin N)) (M : Machine F bD 𝕜) (s : State bD pD 𝕜) :
    Call F bD pD 𝕜 → ℝ
  | .evolve c e =>
    let s0 := if s.initialized then s else initSites e.start s
    let s1 := (Set.renormalize (comp M c e) c.strings s0).1
    match createTensorUpdater c.strings.updateType, setCalculate c.strings.projectors with
    | .ok .full, .ok pk => fullError hx hy σ e.model (c.proj M (Set.svdKind c.strings.svdType)) pk M.ω M.la M.fo M.rep c.update e.steps e.dtau
        s1.bonds (s1.net, s1.moves)
    | .ok .simple, _ => totalError (bondError hx hy σ (twoSiteGate e.model e.dtau)
        (fun st : Net (Ten (Fin bD) (Fin pD) 𝕜) × LambdaTensors (Simple.Weight bD) => siteTensors (bare st.1))
        (Simple.numBondStep M.la (twoSiteGate e.model e.dtau))) (Simple.numBondStep M.la (twoSiteGate e.model e.dtau))
        (schedule e.steps s1.bonds) (s1.net, LambdaTensors.init s1.bonds (Simple.ones bD M.cx))
    | _, _ => 0
  | _ => 0

/-- The sum of the errors of all bond updates of a script. -/
noncomputable def Spec.scriptError (hx : 2 ≤ nx) (hy : 2 ≤ ny) (σ : Bond → Equiv.Perm (Fin N)) (M : Machine F bD 𝕜) :
    List (Call F bD pD 𝕜) → State bD pD 𝕜 → ℝ
  | [], _ => 0
  | c :: cs, s => callError hx hy σ M s c + scriptError hx hy σ M cs (exec M s c).1

/-- What a script is meant to do: evolve for the given imaginary times with the given models, one after the other. -/
abbrev Spec.Plan (pD : ℕ) (𝕜 : Type) := List (ModelTerms (Fin pD) 𝕜 × ℝ)

/-- The evolution operator of a plan: the exponentials of the Hamiltonians of the lattice, the first to the right. -/
noncomputable def Spec.planOperator (hx : 2 ≤ nx) (hy : 2 ≤ ny) (σ : Bond → Equiv.Perm (Fin N)) :
    Plan pD 𝕜 → Matrix (BigSite nx ny N → Fin pD) (BigSite nx ny N → Fin pD) 𝕜
  | [] => 1
  | (m, T) :: ps => planOperator hx hy σ ps * exp ((-(T : 𝕜)) • latticeHamiltonian hx hy σ m)

/-- The calls of `evolve` of the script are those of the plan, with time steps of at most `δ`; other calls may be made anywhere. -/
def Spec.Follows (δ : ℝ) : List (Call F bD pD 𝕜) → Plan pD 𝕜 → Prop
  | [], ps => ps = []
  | .evolve _ e :: cs, ps => ∃ T ps', ps = (e.model, T) :: ps' ∧ 0 ≤ e.dtau ∧ e.dtau ≤ δ ∧ e.steps * e.dtau = T ∧ Follows δ cs ps'
  | .setChi _ :: cs, ps => Follows δ cs ps
  | .renormalize _ :: cs, ps => Follows δ cs ps

/-- The site tensors a script starts from: those its first call of `evolve` creates, or those of the constructor if there is none. -/
def Spec.startOf (A : Site → ATensor (Fin bD) (Fin pD) 𝕜) : List (Call F bD pD 𝕜) → Site → ATensor (Fin bD) (Fin pD) 𝕜
  | [] => A
  | .evolve _ e :: _ => e.start
  | _ :: cs => startOf A cs

/-- The model has one-site terms everywhere or nowhere (otherwise the gates leave some out, C70). -/
def Spec.Uniform (nx ny : ℕ) (m : ModelTerms (Fin pD) 𝕜) : Prop :=
  (∀ s, InCell nx ny s → (m.one s).isSome) ∨ (∀ s, InCell nx ny s → m.one s = none)

omit [RCLike 𝕜] [NeZero bD] [NeZero pD] in
theorem Spec.Follows.mono {δ δ' : ℝ} (h : δ ≤ δ') {cs : List (Call F bD pD 𝕜)} {ps : Plan pD 𝕜} (hf : Follows δ cs ps) : Follows δ' cs ps := by
  induction cs generalizing ps with
  | nil => exact hf
  | cons c cs ih =>
    cases c with
    | setChi chi => exact ih (ps := ps) hf
    | renormalize c => exact ih (ps := ps) hf
    | evolve c e =>
      obtain ⟨T, ps', e1, e2, e3, e4, e5⟩ := hf
      exact ⟨T, ps', e1, e2, e3.trans h, e4, ih e5⟩

omit [NeZero bD] [NeZero pD] in
theorem stateOf_congr (σ : Bond → Equiv.Perm (Fin N)) {s s' : State bD pD 𝕜} (h : s'.net.A = s.net.A) :
    stateOf (nx := nx) (ny := ny) σ s' = stateOf σ s := by
  unfold stateOf
  congr 1
  funext x
  exact bare_congr (congrFun h x)

theorem callError_nonneg (hx : 2 ≤ nx) (hy : 2 ≤ ny) (σ : Bond → Equiv.Perm (Fin N)) (M : Machine F bD 𝕜) (s : State bD pD 𝕜)
    (c : Call F bD pD 𝕜) : 0 ≤ callError hx hy σ M s c := by
  unfold callError
  split
  · dsimp only
    split
    · exact totalError_nonneg _ (fun s b => bondError_nonneg hx hy σ _ _ _ s b) _ _ _
    · exact totalError_nonneg _ (fun s b => bondError_nonneg hx hy σ _ _ _ s b) _ _ _
    · exact le_rfl
  · exact le_rfl

theorem scriptError_nonneg (hx : 2 ≤ nx) (hy : 2 ≤ ny) (σ : Bond → Equiv.Perm (Fin N)) (M : Machine F bD 𝕜) (cs : List (Call F bD pD 𝕜))
    (s : State bD pD 𝕜) : 0 ≤ scriptError hx hy σ M cs s := by
  induction cs generalizing s with
  | nil => exact le_rfl
  | cons c cs ih => exact add_nonneg (callError_nonneg hx hy σ M s c) (ih _)

theorem andThen_none {S : Type} {r : S × Option PyErr} {f : S → S × Option PyErr} (h : (Set.andThen r f).2 = none) :
    r.2 = none ∧ Set.andThen r f = f r.1 := by
  obtain ⟨s, e⟩ := r
  cases e with
  | some e => cases h
  | none => exact ⟨rfl, rfl⟩

/-- One call of `evolve`. -/
theorem evolve_step (hx : 2 ≤ nx) (hy : 2 ≤ ny) (σ : Bond → Equiv.Perm (Fin N)) (m : ModelTerms (Fin pD) 𝕜) (hm : Uniform nx ny m) (T : ℝ) :
    ∃ K C : ℝ, ∀ (M : Machine F bD 𝕜) (s : State bD pD 𝕜) (c : Config F) (e : Evolution bD pD 𝕜), Sound nx ny s → s.initialized = true →
      e.model = m → 0 ≤ e.dtau → e.steps * e.dtau = T → (exec M s (.evolve c e)).2 = none →
      (exec M s (.evolve c e)).1.initialized = true ∧
      rayDist (stateOf σ (exec M s (.evolve c e)).1) ((exp ((-(T : 𝕜)) • latticeHamiltonian hx hy σ m)).mulVec (stateOf σ s)) ≤
        (K * e.dtau ^ 2 + C * (Real.exp (callError hx hy σ M s (.evolve c e)) - 1)) * stateNorm (stateOf (nx := nx) (ny := ny) σ s) := by
  obtain ⟨K, C, hK⟩ := C87_truncation (B := Fin bD) hx hy σ m hm T
  refine ⟨K, C, fun M s c e hs hi he hd hT hok => ?_⟩
  have hx0 : 0 < nx := by omega
  have hy0 : 0 < ny := by omega
  subst he
  rw [exec_evolve M s c e hi] at hok ⊢
  obtain ⟨ok1, e1⟩ := andThen_none hok
  obtain ⟨ok2, e2⟩ := andThen_none ok1
  rw [e1, e2]
  rw [e2] at ok1
  obtain ⟨q1, q2, q3, -⟩ := renormalize_sound hx0 hy0 M c e s hs
  have herr : callError hx hy σ M s (.evolve c e) =
    match createTensorUpdater c.strings.updateType, setCalculate c.strings.projectors with
    | .ok .full, .ok pk => fullError hx hy σ e.model (c.proj M (Set.svdKind c.strings.svdType)) pk M.ω M.la M.fo M.rep c.update e.steps e.dtau
        (Set.renormalize (comp M c e) c.strings s).1.bonds
        ((Set.renormalize (comp M c e) c.strings s).1.net, (Set.renormalize (comp M c e) c.strings s).1.moves)
    | .ok .simple, _ => totalError (bondError hx hy σ (twoSiteGate e.model e.dtau)
        (fun st : Net (Ten (Fin bD) (Fin pD) 𝕜) × LambdaTensors (Simple.Weight bD) => siteTensors (bare st.1))
        (Simple.numBondStep M.la (twoSiteGate e.model e.dtau))) (Simple.numBondStep M.la (twoSiteGate e.model e.dtau))
        (schedule e.steps (Set.renormalize (comp M c e) c.strings s).1.bonds) ((Set.renormalize (comp M c e) c.strings s).1.net,
          LambdaTensors.init (Set.renormalize (comp M c e) c.strings s).1.bonds (Simple.ones bD M.cx))
    | _, _ => 0 := by
    unfold callError
    dsimp only
    rw [if_pos hi]
  rw [herr]
  rw [← stateOf_congr σ q2]
  rw [hi] at q3
  clear herr e1 e2 ok2 q2 hs hi hok
  generalize (Set.renormalize (comp M c e) c.strings s).1 = s1 at *
  obtain ⟨p1, p2⟩ := evolveFn_sound hx0 hy0 M c e s1 q1
  obtain ⟨r1, r2, r3, -⟩ := renormalize_sound hx0 hy0 M c e (Set.evolveFn (comp M c e) c.strings s1).1 p1
  rw [stateOf_congr σ r2, r3, p2]
  refine ⟨q3, ?_⟩
  clear r1 r2 r3 p1 p2
  unfold Set.evolveFn at ok1 ⊢
  cases hu : createTensorUpdater c.strings.updateType with
  | error x => rw [hu] at ok1; cases ok1
  | ok u =>
    rw [hu] at ok1
    cases u with
    | simple =>
      have := hK (Net (Ten (Fin bD) (Fin pD) 𝕜) × LambdaTensors (Simple.Weight bD)) (fun st => siteTensors (bare st.1))
        (Simple.numBondStep M.la (twoSiteGate e.model e.dtau)) s1.bonds q1.2 e.steps e.dtau hd hT.le
        (s1.net, LambdaTensors.init s1.bonds (Simple.ones bD M.cx)) ok1
      rw [hT] at this
      exact this
    | full =>
      dsimp only at ok1 ⊢
      cases hp : setCalculate c.strings.projectors with
      | error x => rw [hp] at ok1; cases ok1
      | ok pk =>
        rw [hp] at ok1
        have := hK (Net (Ten (Fin bD) (Fin pD) 𝕜) × ℕ) (fun s => siteTensors (bare s.1))
          (Full.fullBondStep (c.proj M (Set.svdKind c.strings.svdType)) pk M.ω M.la M.fo M.rep c.update none (twoSiteGate e.model e.dtau))
          s1.bonds q1.2 e.steps e.dtau hd hT.le (s1.net, s1.moves) ok1
        rw [hT] at this
        exact this

/-- Distances up to a factor through a step that is accurate up to `η`. -/
theorem rayDist_step {ι : Type} [Fintype ι] [DecidableEq ι] (U : Matrix ι ι 𝕜) (φ φ' ψ : ι → 𝕜) (η e : ℝ) (h0 : 0 ≤ η)
    (h : rayDist φ' (U.mulVec φ) ≤ η * stateNorm φ) (he : rayDist φ ψ ≤ e) :
    rayDist φ' (U.mulVec ψ) ≤ η * (stateNorm ψ + e) + ‖U‖ * e := by
  have hc : 0 < η + ‖U‖ + 1 := by positivity
  refine le_of_forall_pos_le_add fun γ hγ => ?_
  obtain ⟨κ, hκ, hlt⟩ := rayDist_lt φ ψ (x := e + γ / (η + ‖U‖ + 1)) (lt_of_le_of_lt he (lt_add_of_pos_right _ (by positivity)))
  set x := stateNorm ((κ : 𝕜) • φ - ψ) with hx
  have hx0 : 0 ≤ x := stateNorm_nonneg _
  have h1 : rayDist φ' ((κ : 𝕜) • U.mulVec φ) ≤ η * (κ * stateNorm φ) := by
    refine (rayDist_smul _ _ hκ).trans ((mul_le_mul_of_nonneg_left h hκ.le).trans (le_of_eq ?_))
    ring
  have h2 : κ * stateNorm φ ≤ stateNorm ψ + x := by
    rw [show κ * stateNorm φ = stateNorm ((κ : 𝕜) • φ) by rw [stateNorm_smul, RCLike.norm_ofReal, abs_of_pos hκ],
      show (κ : 𝕜) • φ = ψ + ((κ : 𝕜) • φ - ψ) from (add_sub_cancel _ _).symm]
    exact stateNorm_add_le _ _
  have h3 : stateNorm ((κ : 𝕜) • U.mulVec φ - U.mulVec ψ) ≤ ‖U‖ * x := by
    rw [← Matrix.mulVec_smul, ← Matrix.mulVec_sub]
    exact stateNorm_mulVec _ _
  have h4 := rayDist_triangle φ' ((κ : 𝕜) • U.mulVec φ) (U.mulVec ψ)
  have h5 := mul_le_mul_of_nonneg_left h2 h0
  have h6 : (η + ‖U‖) * x ≤ (η + ‖U‖) * (e + γ / (η + ‖U‖ + 1)) := mul_le_mul_of_nonneg_left hlt.le (by positivity)
  have h7 : (η + ‖U‖) * (γ / (η + ‖U‖ + 1)) ≤ γ := by
    rw [mul_div_assoc', div_le_iff₀ hc]
    nlinarith
  nlinarith

omit [NeZero pD] in
/-- Evolutions with one model add up. -/
theorem planOperator_same (hx : 2 ≤ nx) (hy : 2 ≤ ny) (σ : Bond → Equiv.Perm (Fin N)) (m : ModelTerms (Fin pD) 𝕜) (Ts : List ℝ) :
    planOperator hx hy σ (Ts.map fun T => (m, T)) = calculateGate (latticeHamiltonian hx hy σ m) Ts.sum := by
  induction Ts with
  | nil =>
    show (1 : Matrix _ _ 𝕜) = exp ((-((0 : ℝ) : 𝕜)) • latticeHamiltonian hx hy σ m)
    rw [RCLike.ofReal_zero, neg_zero, zero_smul, exp_zero]
  | cons T Ts ih =>
    show planOperator hx hy σ (Ts.map fun T => (m, T)) * exp ((-(T : 𝕜)) • latticeHamiltonian hx hy σ m) = _
    rw [ih, List.sum_cons]
    unfold calculateGate
    rw [← Matrix.exp_add_of_commute]
    · rw [← add_smul]
      push_cast
      congr 2
      ring
    · exact ((Commute.refl _).smul_left _).smul_right _

/-- What is needed of an object, or of the objects of several ranks, for the accuracy of scripts: `I` are the machines, `S` the states. -/
structure ScriptRules {I : Type*} {S : Type} (hx : 2 ≤ nx) (hy : 2 ≤ ny) (σ : Bond → Equiv.Perm (Fin N))
    (exec : I → S → Call F bD pD 𝕜 → S × Option PyErr) (run : I → List (Call F bD pD 𝕜) → S → S × Option PyErr)
    (err : I → S → Call F bD pD 𝕜 → ℝ) (errs : I → List (Call F bD pD 𝕜) → S → ℝ) (good : I → S → Prop) (init : S → Bool)
    (vec : S → (BigSite nx ny N → Fin pD) → 𝕜) : Prop where
  run_nil : ∀ M s, run M [] s = (s, none)
  run_cons : ∀ M c cs s, run M (c :: cs) s = Set.andThen (exec M s c) (run M cs)
  errs_cons : ∀ M c cs s, errs M (c :: cs) s = err M s c + errs M cs (exec M s c).1
  err_nonneg : ∀ M s c, 0 ≤ err M s c
  errs_nonneg : ∀ M cs s, 0 ≤ errs M cs s
  keep : ∀ M s c, good M s → good M (exec M s c).1
  chi : ∀ M s x, good M s → vec (exec M s (.setChi x)).1 = vec s ∧ init (exec M s (.setChi x)).1 = init s
  renormalize : ∀ M s c, good M s → vec (exec M s (.renormalize c)).1 = vec s ∧ init (exec M s (.renormalize c)).1 = init s
  first : ∀ M s c e, good M s → init s = false → ∃ s', good M s' ∧ init s' = true ∧ vec s' = latticeState σ e.start ∧
    exec M s (.evolve c e) = exec M s' (.evolve c e) ∧ err M s (.evolve c e) = err M s' (.evolve c e)
  step : ∀ m, Uniform nx ny m → ∀ T : ℝ, ∃ K C : ℝ, ∀ (M : I) (s : S) (c : Config F) (e : Evolution bD pD 𝕜), good M s → init s = true →
    e.model = m → 0 ≤ e.dtau → e.steps * e.dtau = T → (exec M s (.evolve c e)).2 = none → init (exec M s (.evolve c e)).1 = true ∧
      rayDist (vec (exec M s (.evolve c e)).1) ((exp ((-(T : 𝕜)) • latticeHamiltonian hx hy σ m)).mulVec (vec s)) ≤
        (K * e.dtau ^ 2 + C * (Real.exp (err M s (.evolve c e)) - 1)) * stateNorm (vec s)

section scripts

variable {I : Type*} {S : Type} {hx : 2 ≤ nx} {hy : 2 ≤ ny} {σ : Bond → Equiv.Perm (Fin N)}
  {exec : I → S → Call F bD pD 𝕜 → S × Option PyErr} {run : I → List (Call F bD pD 𝕜) → S → S × Option PyErr}
  {err : I → S → Call F bD pD 𝕜 → ℝ} {errs : I → List (Call F bD pD 𝕜) → S → ℝ} {good : I → S → Prop} {init : S → Bool}
  {vec : S → (BigSite nx ny N → Fin pD) → 𝕜}

omit [NeZero bD] [NeZero pD] in
/-- Scripts in an initialised object. -/
theorem ScriptRules.initialized (R : ScriptRules hx hy σ exec run err errs good init vec) (ps : Plan pD 𝕜) (hm : ∀ p ∈ ps, Uniform nx ny p.1)
    (ε : ℝ) (hε : 0 < ε) :
    ∃ δ : ℝ, 0 < δ ∧ ∀ (M : I) (cs : List (Call F bD pD 𝕜)) (s : S) (ψ : (BigSite nx ny N → Fin pD) → 𝕜) (a : ℝ),
      good M s → init s = true → Follows δ cs ps → (run M cs s).2 = none → errs M cs s ≤ δ → stateNorm ψ ≤ a →
      rayDist (vec s) ψ ≤ δ * a → rayDist (vec (run M cs s).1) ((planOperator hx hy σ ps).mulVec ψ) ≤ ε * a := by
  induction ps generalizing ε with
  | nil =>
    refine ⟨ε, hε, fun M cs => ?_⟩
    induction cs with
    | nil =>
      intro s ψ a _ _ _ _ _ _ h
      rw [show planOperator hx hy σ ([] : Plan pD 𝕜) = 1 from rfl, Matrix.one_mulVec, R.run_nil]
      exact h
    | cons c cs ih =>
      intro s ψ a hs hi hf hr herr ha h
      rw [R.run_cons] at hr
      obtain ⟨o1, o2⟩ := andThen_none (f := run M cs) hr
      have hr' : (run M cs (exec M s c).1).2 = none := by rw [← o2]; exact hr
      rw [R.run_cons, o2]
      have herr' : errs M cs (exec M s c).1 ≤ ε := by
        have := R.err_nonneg M s c
        have h' : err M s c + errs M cs (exec M s c).1 ≤ ε := (R.errs_cons M c cs s).symm.trans_le herr
        linarith
      have hs' := R.keep M s c hs
      cases c with
      | setChi x =>
        obtain ⟨q1, q2⟩ := R.chi M s x hs
        exact ih _ ψ a hs' (q2.trans hi) hf hr' herr' ha ((congrArg (fun φ => rayDist φ ψ) q1).trans_le h)
      | renormalize c =>
        obtain ⟨q1, q2⟩ := R.renormalize M s c hs
        exact ih _ ψ a hs' (q2.trans hi) hf hr' herr' ha ((congrArg (fun φ => rayDist φ ψ) q1).trans_le h)
      | evolve c e =>
        obtain ⟨T, ps', e', -⟩ := hf
        cases e'
  | cons p ps ihp =>
    obtain ⟨m, T⟩ := p
    obtain ⟨K, C, hK⟩ := R.step m (hm _ List.mem_cons_self) T
    set U := exp ((-(T : 𝕜)) • latticeHamiltonian hx hy σ m) with hU
    have hU0 : 0 < ‖U‖ + 1 := by positivity
    obtain ⟨δ', hδ', hstep⟩ := ihp (fun q hq => hm q (List.mem_cons_of_mem _ hq)) (ε / (‖U‖ + 1)) (by positivity)
    have hB : 0 < 2 * |K| + 4 * |C| + ‖U‖ + 1 := by positivity
    refine ⟨min (min 1 δ') (δ' / (2 * |K| + 4 * |C| + ‖U‖ + 1)), lt_min (lt_min one_pos hδ') (by positivity), fun M cs => ?_⟩
    set δ := min (min 1 δ') (δ' / (2 * |K| + 4 * |C| + ‖U‖ + 1)) with hδ
    have d0 : 0 < δ := lt_min (lt_min one_pos hδ') (by positivity)
    have d1 : δ ≤ 1 := (min_le_left _ _).trans (min_le_left _ _)
    have d2 : δ ≤ δ' := (min_le_left _ _).trans (min_le_right _ _)
    have d3 : δ * (2 * |K| + 4 * |C| + ‖U‖ + 1) ≤ δ' := (le_div_iff₀ hB).1 (min_le_right _ _)
    clear_value δ
    induction cs with
    | nil =>
      intro s ψ a _ _ hf
      cases hf
    | cons c cs ih =>
      intro s ψ a hs hi hf hr herr ha h
      rw [R.run_cons] at hr
      obtain ⟨o1, o2⟩ := andThen_none (f := run M cs) hr
      have hr' : (run M cs (exec M s c).1).2 = none := by rw [← o2]; exact hr
      rw [R.run_cons, o2]
      have hc0 := R.err_nonneg M s c
      have hs0 := R.errs_nonneg M cs (exec M s c).1
      have h' : err M s c + errs M cs (exec M s c).1 ≤ δ := (R.errs_cons M c cs s).symm.trans_le herr
      have herr' : errs M cs (exec M s c).1 ≤ δ := by linarith
      have hs' := R.keep M s c hs
      cases c with
      | setChi x =>
        obtain ⟨q1, q2⟩ := R.chi M s x hs
        exact ih _ ψ a hs' (q2.trans hi) hf hr' herr' ha ((congrArg (fun φ => rayDist φ ψ) q1).trans_le h)
      | renormalize c =>
        obtain ⟨q1, q2⟩ := R.renormalize M s c hs
        exact ih _ ψ a hs' (q2.trans hi) hf hr' herr' ha ((congrArg (fun φ => rayDist φ ψ) q1).trans_le h)
      | evolve c e =>
        obtain ⟨T', ps', e', t0, t1, t2, hf'⟩ := hf
        obtain ⟨⟨e1, e2⟩, e3⟩ := by simpa only [List.cons.injEq, Prod.mk.injEq] using e'
        subst e3
        obtain ⟨i1, i2⟩ := hK M s c e hs hi e1.symm t0 (t2.trans e2.symm) o1
        set x := err M s (.evolve c e) with hxe
        set η := |K| * e.dtau ^ 2 + |C| * (Real.exp x - 1) with hη
        have x1 : x ≤ δ := by linarith
        have x2 : Real.exp x - 1 ≤ 2 * x := by
          have := Real.abs_exp_sub_one_le (x := x) (by rw [abs_of_nonneg hc0]; linarith)
          rw [abs_of_nonneg hc0] at this
          exact (le_abs_self _).trans this
        have x3 : 0 ≤ Real.exp x - 1 := by linarith [Real.one_le_exp hc0]
        have hη0 : 0 ≤ η := by positivity
        have hη1 : η ≤ (|K| + 2 * |C|) * δ := by
          have b1 : e.dtau ^ 2 ≤ δ := by nlinarith
          have b2 := mul_le_mul_of_nonneg_left b1 (abs_nonneg K)
          have b3 := mul_le_mul_of_nonneg_left (x2.trans (by linarith : 2 * x ≤ 2 * δ)) (abs_nonneg C)
          rw [hη]
          linarith
        have ha0 : 0 ≤ a := (stateNorm_nonneg _).trans ha
        have i3 : rayDist (vec (exec M s (.evolve c e)).1) (U.mulVec (vec s)) ≤ η * stateNorm (vec s) := by
          refine i2.trans (mul_le_mul_of_nonneg_right ?_ (stateNorm_nonneg _))
          have b1 : K * e.dtau ^ 2 ≤ |K| * e.dtau ^ 2 := mul_le_mul_of_nonneg_right (le_abs_self _) (by positivity)
          have b2 : C * (Real.exp x - 1) ≤ |C| * (Real.exp x - 1) := mul_le_mul_of_nonneg_right (le_abs_self _) x3
          linarith
        have i4 := rayDist_step U _ _ ψ η (δ * a) hη0 i3 h
        have i5 : rayDist (vec (exec M s (.evolve c e)).1) (U.mulVec ψ) ≤ δ' * ((‖U‖ + 1) * a) := by
          have b1 : η * (stateNorm ψ + δ * a) ≤ (|K| + 2 * |C|) * δ * (2 * a) := by
            refine mul_le_mul hη1 ?_ (add_nonneg (stateNorm_nonneg _) (by positivity)) (by positivity)
            nlinarith
          have b2 : δ' * a ≤ δ' * ((‖U‖ + 1) * a) := by
            refine mul_le_mul_of_nonneg_left ?_ hδ'.le
            nlinarith [norm_nonneg U]
          have b3 := mul_le_mul_of_nonneg_right d3 ha0
          nlinarith
        have i6 : stateNorm (U.mulVec ψ) ≤ (‖U‖ + 1) * a := by
          refine (stateNorm_mulVec _ _).trans (mul_le_mul (by linarith) ha (stateNorm_nonneg _) (by positivity))
        have := hstep M cs _ (U.mulVec ψ) ((‖U‖ + 1) * a) hs' i1 (hf'.mono d2) hr' (herr'.trans d2) i6 i5
        rw [show planOperator hx hy σ ((m, T) :: ps) = planOperator hx hy σ ps * U from rfl, ← Matrix.mulVec_mulVec]
        refine this.trans (le_of_eq ?_)
        field_simp

omit [NeZero bD] [NeZero pD] in
/-- Scripts in a new object. -/
theorem ScriptRules.evolution (R : ScriptRules hx hy σ exec run err errs good init vec) (ps : Plan pD 𝕜) (hm : ∀ p ∈ ps, Uniform nx ny p.1)
    (ε : ℝ) (hε : 0 < ε) :
    ∃ δ : ℝ, 0 < δ ∧ ∀ (M : I) (A : Site → ATensor (Fin bD) (Fin pD) 𝕜) (cs : List (Call F bD pD 𝕜)) (s : S), good M s → init s = false →
      vec s = latticeState σ A → Follows δ cs ps → (run M cs s).2 = none → errs M cs s ≤ δ →
      rayDist (vec (run M cs s).1) ((planOperator hx hy σ ps).mulVec (latticeState σ (startOf A cs))) ≤
        ε * stateNorm (latticeState (nx := nx) (ny := ny) σ (startOf A cs)) := by
  obtain ⟨δ, hδ, h⟩ := R.initialized ps hm ε hε
  refine ⟨δ, hδ, fun M A cs => ?_⟩
  induction cs with
  | nil =>
    intro s _ _ hA hf _ _
    rw [show ps = [] from hf, show planOperator hx hy σ ([] : Plan pD 𝕜) = 1 from rfl, Matrix.one_mulVec, R.run_nil]
    show rayDist (vec s) (latticeState σ A) ≤ _
    rw [hA, rayDist_self one_pos (by rw [RCLike.ofReal_one, one_smul])]
    exact mul_nonneg hε.le (stateNorm_nonneg _)
  | cons c cs ih =>
    intro s hs hi hA hf hr herr
    have hr0 := hr
    have herr0 := herr
    rw [R.run_cons] at hr
    rw [R.errs_cons] at herr
    obtain ⟨o1, o2⟩ := andThen_none (f := run M cs) hr
    rw [o2] at hr
    have hn := R.err_nonneg M s c
    cases c with
    | setChi x =>
      obtain ⟨q1, q2⟩ := R.chi M s x hs
      rw [R.run_cons, o2]
      exact ih _ (R.keep M s _ hs) (q2.trans hi) (q1.trans hA) hf hr (by linarith)
    | renormalize c =>
      obtain ⟨q1, q2⟩ := R.renormalize M s c hs
      rw [R.run_cons, o2]
      exact ih _ (R.keep M s _ hs) (q2.trans hi) (q1.trans hA) hf hr (by linarith)
    | evolve c e =>
      obtain ⟨s', g1, g2, g3, g4, g5⟩ := R.first M s c e hs hi
      have e1 : run M (.evolve c e :: cs) s = run M (.evolve c e :: cs) s' := by rw [R.run_cons, R.run_cons, g4]
      have e2 : errs M (.evolve c e :: cs) s = errs M (.evolve c e :: cs) s' := by rw [R.errs_cons, R.errs_cons, g4, g5]
      rw [e1] at hr0 ⊢
      rw [e2] at herr0
      refine h M (.evolve c e :: cs) s' (latticeState σ e.start) _ g1 g2 hf hr0 herr0 le_rfl ?_
      rw [g3, rayDist_self one_pos (by rw [RCLike.ofReal_one, one_smul])]
      exact mul_nonneg hδ.le (stateNorm_nonneg _)

omit [NeZero bD] [NeZero pD] in
/-- The ground state is reached by scripts. -/
theorem ScriptRules.ground (R : ScriptRules hx hy σ exec run err errs good init vec) (m : ModelTerms (Fin pD) 𝕜) (hh : m.Hermitian)
    (hm : Uniform nx ny m) (E : ℝ) (chi₀ : ℕ) (A₀ : Site → ATensor (Fin bD) (Fin pD) 𝕜)
    (ho : OverlapsGround hx hy σ m E (bare (freshNet nx ny chi₀ A₀))) :
    ∃ g, GroundState hx hy σ m E g ∧ ∀ η : ℝ, 0 < η → ∃ T₀ : ℝ, ∀ Ts : List ℝ, T₀ ≤ Ts.sum → ∃ δ : ℝ, 0 < δ ∧
      ∀ (M : I) (A : Site → ATensor (Fin bD) (Fin pD) 𝕜) (cs : List (Call F bD pD 𝕜)) (s : S) (net : Net (Ten (Fin bD) (Fin pD) 𝕜)),
      good M s → init s = false → vec s = latticeState σ A → startOf A cs = A₀ → Follows δ cs (Ts.map fun T => (m, T)) →
      (run M cs s).2 = none → errs M cs s ≤ δ → vec (run M cs s).1 = latticeState σ (siteTensors (bare net)) →
      NearGround hx hy σ m g E η (bare net) := by
  have hne : latticeState (nx := nx) (ny := ny) σ A₀ ≠ 0 := state_ne_zero_of_overlap hx hy σ m E _ ho
  obtain ⟨hE, v, hv, hov⟩ := ho
  obtain ⟨g, g1, g2, hg⟩ := ground_reached _ (latticeHamiltonian_isHermitian hx hy σ m hh) E hE _ v hv hov
  refine ⟨g, ⟨g1, g2⟩, fun η hη => ?_⟩
  obtain ⟨T₀, hT₀⟩ := hg η hη
  refine ⟨T₀, fun Ts hT => ?_⟩
  obtain ⟨ε, hε, hφ⟩ := hT₀ Ts.sum hT
  obtain ⟨δ, hδ, h⟩ := R.evolution (Ts.map fun T => (m, T)) (fun p hp => by obtain ⟨T, -, rfl⟩ := List.mem_map.1 hp; exact hm) (ε / 2) (by positivity)
  refine ⟨δ, hδ, fun M A cs s net hs hi hA hst hf hr herr hnet => ?_⟩
  have h1 := h M A cs s hs hi hA hf hr herr
  rw [planOperator_same, hst, hnet] at h1
  have h2 : ε / 2 * stateNorm (latticeState (nx := nx) (ny := ny) σ A₀) < ε * stateNorm (latticeState (nx := nx) (ny := ny) σ A₀) :=
    mul_lt_mul_of_pos_right (by linarith) (stateNorm_pos hne)
  obtain ⟨κ, hκ, hlt⟩ := rayDist_lt _ _ (lt_of_le_of_lt h1 h2)
  obtain ⟨r1, r2, r3⟩ := hφ _ κ hκ hlt.le
  exact ⟨r1, r2, hE _ r1, r3⟩

end scripts

/-- The rules hold for an object on one process. -/
theorem session_rules (hx : 2 ≤ nx) (hy : 2 ≤ ny) (σ : Bond → Equiv.Perm (Fin N)) :
    ScriptRules hx hy σ (exec (F := F) (bD := bD) (pD := pD) (𝕜 := 𝕜)) run (callError hx hy σ) (scriptError hx hy σ) (fun _ => Sound nx ny)
      State.initialized (stateOf σ) := by
  have hx0 : 0 < nx := by omega
  have hy0 : 0 < ny := by omega
  refine ⟨fun _ _ => rfl, fun _ _ _ _ => rfl, fun _ _ _ _ => rfl, callError_nonneg hx hy σ, scriptError_nonneg hx hy σ,
    fun M s c hs => exec_sound hx0 hy0 M s hs c, fun M s x _ => ⟨stateOf_congr σ rfl, rfl⟩, fun M s c hs => ?_, fun M s c e hs hi => ?_,
    fun m hm T => evolve_step hx hy σ m hm T⟩
  · have q := renormalize_sound hx0 hy0 M c ⟨0, 0, ⟨fun _ => 0, fun _ => none⟩, fun _ _ _ _ _ _ => 0⟩ s hs
    exact ⟨stateOf_congr σ q.2.1, q.2.2.1⟩
  · refine ⟨initSites e.start s, initSites_sound hx0 hy0 e.start s hs, rfl, rfl, exec_evolve_init M s c e hi, ?_⟩
    unfold callError
    dsimp only
    rw [if_neg (by rw [hi]; decide), if_pos (show (initSites e.start s).initialized = true from rfl)]

/-- **C88 (evolution).** Every finite lattice covering the cell, all dtypes: for every plan, models with one-site terms everywhere or nowhere, and
every accuracy there is a tolerance such that every script on a new object that makes the evolutions of the plan with time steps within the
tolerance, whatever else it calls in between and whatever its settings are, does not raise, and has errors of its bond updates that sum up to
no more than the tolerance, ends with the state of the lattice that the plan evolves the start to, up to a positive factor and the accuracy. -/
theorem C88_evolution (hx : 2 ≤ nx) (hy : 2 ≤ ny) (σ : Bond → Equiv.Perm (Fin N)) (ps : Plan pD 𝕜) (hm : ∀ p ∈ ps, Uniform nx ny p.1)
    (ε : ℝ) (hε : 0 < ε) :
    ∃ δ : ℝ, 0 < δ ∧ ∀ (M : Machine F bD 𝕜) (chi : ℕ) (A : Site → ATensor (Fin bD) (Fin pD) 𝕜) (cs : List (Call F bD pD 𝕜)), Follows δ cs ps →
      (run M cs (new nx ny chi A)).2 = none → scriptError hx hy σ M cs (new nx ny chi A) ≤ δ →
      rayDist (stateOf σ (run M cs (new nx ny chi A)).1) ((planOperator hx hy σ ps).mulVec (latticeState σ (startOf A cs))) ≤
        ε * stateNorm (latticeState (nx := nx) (ny := ny) σ (startOf A cs)) := by
  obtain ⟨δ, hδ, h⟩ := (session_rules (F := F) (bD := bD) hx hy σ).evolution ps hm ε hε
  exact ⟨δ, hδ, fun M chi A cs hf hr herr => h M A cs _ (new_sound (by omega) (by omega) chi A) rfl rfl hf hr herr⟩

/-- **C88 (ground state).** Hermitian model, all dtypes, a start that is not orthogonal to the ground states: there is a ground state such that for
every accuracy there is a time such that for every sequence of evolutions of at least that total time there is a tolerance within which every
script that makes them ends within the accuracy of the ground state, whatever else it calls in between, e.g. with time steps that get smaller
and boundary dimensions that get larger, and with simple updates before full ones. -/
theorem C88_ground (hx : 2 ≤ nx) (hy : 2 ≤ ny) (σ : Bond → Equiv.Perm (Fin N)) (m : ModelTerms (Fin pD) 𝕜) (hh : m.Hermitian)
    (hm : Uniform nx ny m) (E : ℝ) (chi₀ : ℕ) (A₀ : Site → ATensor (Fin bD) (Fin pD) 𝕜)
    (ho : OverlapsGround hx hy σ m E (bare (freshNet nx ny chi₀ A₀))) :
    ∃ g, GroundState hx hy σ m E g ∧ ∀ η : ℝ, 0 < η → ∃ T₀ : ℝ, ∀ Ts : List ℝ, T₀ ≤ Ts.sum → ∃ δ : ℝ, 0 < δ ∧
      ∀ (M : Machine F bD 𝕜) (chi : ℕ) (A : Site → ATensor (Fin bD) (Fin pD) 𝕜) (cs : List (Call F bD pD 𝕜)), startOf A cs = A₀ →
      Follows δ cs (Ts.map fun T => (m, T)) → (run M cs (new nx ny chi A)).2 = none →
      scriptError hx hy σ M cs (new nx ny chi A) ≤ δ →
      NearGround hx hy σ m g E η (bare (run M cs (new nx ny chi A)).1.net) := by
  obtain ⟨g, hg, h⟩ := (session_rules (F := F) (bD := bD) hx hy σ).ground m hh hm E chi₀ A₀ ho
  refine ⟨g, hg, fun η hη => ?_⟩
  obtain ⟨T₀, hT₀⟩ := h η hη
  refine ⟨T₀, fun Ts hT => ?_⟩
  obtain ⟨δ, hδ, h'⟩ := hT₀ Ts hT
  exact ⟨δ, hδ, fun M chi A cs hA hf hr herr => h' M A cs _ _ (new_sound (by omega) (by omega) chi A) rfl rfl hA hf hr herr rfl⟩

/-! ### The hypotheses are met -/

section example_

open Full

/-- Calls with settings under which nothing is truncated in a field. -/
def FieldCall : Call ℝ 2 2 ℝ → Prop
  | .setChi _ => True
  | .renormalize c => KnownProjectors c
  | .evolve c e => KnownProjectors c ∧ c.strings.updateType = "full" ∧ c.update.als_method = .pinv ∧ c.update.als_epsilon = 0 ∧
      0 < c.update.positive_approx_cutoff ∧ c.update.gauge_fix_atol < Real.sqrt c.update.positive_approx_cutoff ∧ e.model = fieldTerms ∧
      e.start = fun s => (ghzNet s).A

omit [NeZero bD] [NeZero pD] in
theorem exactRun_ne_zero {S : Type} (hx : 2 ≤ nx) (hy : 2 ≤ ny) (σ : Bond → Equiv.Perm (Fin N)) (m : ModelTerms (Fin pD) 𝕜)
    (dtau : ℝ) (A : S → Site → Fin bD → Fin bD → Fin bD → Fin bD → Fin pD → 𝕜) (upd : S → Bond → S × Option PyErr) (l : List Bond)
    (hl : ∀ b ∈ l, b ∈ buildBondList nx ny) (s : S) (h : ExactRun (twoSiteGate m dtau) A upd l s)
    (hs : latticeState (nx := nx) (ny := ny) σ (A s) ≠ 0) :
    latticeState (nx := nx) (ny := ny) σ (A (l.foldl (fun s b => (upd s b).1) s)) ≠ 0 := by
  induction l generalizing s with
  | nil => exact hs
  | cons b l ih =>
    exact ih (fun b' hb' => hl b' (List.mem_cons_of_mem _ hb')) _ h.2
      (exactStep_ne_zero hx hy σ m dtau A upd s b (hl b List.mem_cons_self) h.1 hs)

/-- Scripts in a field do not raise and have no errors. -/
theorem field_script [NeZero N] (hx : 2 ≤ nx) (hy : 2 ≤ ny) (σ : Bond → Equiv.Perm (Fin N)) (M : Machine ℝ 2 ℝ) (cs : List (Call ℝ 2 2 ℝ))
    (hc : ∀ c ∈ cs, FieldCall c) (s : State 2 2 ℝ) (hs : Sound nx ny s)
    (h0 : s.initialized = true → stateOf (nx := nx) (ny := ny) σ s ≠ 0) :
    (run M cs s).2 = none ∧ scriptError hx hy σ M cs s = 0 ∧
      ((run M cs s).1.initialized = true → stateOf (nx := nx) (ny := ny) σ (run M cs s).1 ≠ 0) := by
  have hx0 : 0 < nx := by omega
  have hy0 : 0 < ny := by omega
  -- a call of `evolve` in an initialised object
  have key : ∀ (c : Config ℝ) (e : Evolution 2 2 ℝ) (s : State 2 2 ℝ), FieldCall (.evolve c e) → Sound nx ny s → s.initialized = true →
      stateOf (nx := nx) (ny := ny) σ s ≠ 0 → (exec M s (.evolve c e)).2 = none ∧ callError hx hy σ M s (.evolve c e) = 0 ∧
        stateOf (nx := nx) (ny := ny) σ (exec M s (.evolve c e)).1 ≠ 0 := by
    rintro c e s ⟨hp, hu, ha, hep, hcut, hatol, hm, -⟩ hs hi hne
    obtain ⟨q1, q2, -, q4⟩ := renormalize_sound hx0 hy0 M c e s hs
    have hk := setCalculate_known hp
    replace q4 := q4 hk
    obtain ⟨pk, hpk⟩ : ∃ pk, setCalculate c.strings.projectors = .ok pk := by
      cases hq : setCalculate c.strings.projectors with
      | error x => rw [hq] at hk; cases hk
      | ok pk => exact ⟨pk, rfl⟩
    have hupd : createTensorUpdater c.strings.updateType = .ok .full := by rw [hu]; rfl
    rw [← stateOf_congr σ q2] at hne
    have hce : callError hx hy σ M s (.evolve c e) = fullError hx hy σ e.model (c.proj M (Set.svdKind c.strings.svdType)) pk M.ω M.la M.fo M.rep
        c.update e.steps e.dtau (Set.renormalize (comp M c e) c.strings s).1.bonds
        ((Set.renormalize (comp M c e) c.strings s).1.net, (Set.renormalize (comp M c e) c.strings s).1.moves) := by
      unfold callError
      dsimp only
      rw [if_pos hi, hupd, hpk]
    rw [hce, exec_evolve M s c e hi]
    clear hce
    rcases hr : Set.renormalize (comp M c e) c.strings s with ⟨s1, x⟩
    rw [hr] at q1 q2 q4 hne
    cases q4
    have hfn : Set.evolveFn (comp M c e) c.strings s1 = (comp M c e).fullLoop pk (Set.svdKind c.strings.svdType) s1 := by
      unfold Set.evolveFn
      rw [hupd, hpk]
    obtain ⟨p1, -, p3⟩ := fullLoop_sound hx0 hy0 M c e pk (Set.svdKind c.strings.svdType) s1 q1
    replace p3 := p3 ha
    show (Set.andThen (Set.evolveFn (comp M c e) c.strings s1) _).2 = none ∧ _ ∧ stateOf σ (Set.andThen (Set.evolveFn (comp M c e) c.strings s1) _).1 ≠ 0
    rw [hfn]
    have hl : ∀ b ∈ schedule e.steps s1.bonds, b ∈ buildBondList nx ny := fun b hb => q1.mem.1 (mem_schedule hb)
    have hex := runFits_exact hx hy σ (c.proj M (Set.svdKind c.strings.svdType)) pk M.ω M.la M.fo M.rep c.update hep hcut hatol fieldTerms e.dtau
      (schedule e.steps s1.bonds) hl (s1.net, s1.moves) q1.1 hne
      (field_runFits (c.proj M (Set.svdKind c.strings.svdType)) pk M.ω M.la M.fo M.rep c.update ha e.dtau _ _)
    have hloop : (evolveLoop (fullBondStep (c.proj M (Set.svdKind c.strings.svdType)) pk M.ω M.la M.fo M.rep c.update none
        (twoSiteGate e.model e.dtau)) e.steps s1.bonds (s1.net, s1.moves)).2.2 = none := p3
    have hst : stateOf (nx := nx) (ny := ny) σ ((comp M c e).fullLoop pk (Set.svdKind c.strings.svdType) s1).1 ≠ 0 := by
      show latticeState σ (siteTensors (bare (evolveLoop (fullBondStep (c.proj M (Set.svdKind c.strings.svdType)) pk M.ω M.la M.fo M.rep c.update none
        (twoSiteGate e.model e.dtau)) e.steps s1.bonds (s1.net, s1.moves)).2.1.1)) ≠ 0
      rw [evolveLoop_ok_of_none _ _ _ _ hloop, hm]
      exact exactRun_ne_zero hx hy σ fieldTerms e.dtau (fun s : Net (Ten (Fin 2) (Fin 2) ℝ) × ℕ => siteTensors (bare s.1)) _ _ hl _ hex hne
    rcases hf : (comp M c e).fullLoop pk (Set.svdKind c.strings.svdType) s1 with ⟨s2, x⟩
    rw [hf] at p1 p3 hst
    cases p3
    obtain ⟨-, t2, -, t4⟩ := renormalize_sound hx0 hy0 M c e s2 p1
    refine ⟨t4 hk, ?_, ?_⟩
    · rw [hm]
      exact C87_exact hx hy σ _ _ _ _ hl _ hex
    · show stateOf σ (Set.renormalize (comp M c e) c.strings s2).1 ≠ 0
      rw [stateOf_congr σ t2]
      exact hst
  induction cs generalizing s with
  | nil => exact ⟨rfl, rfl, h0⟩
  | cons c cs ih =>
    have hc' := hc c List.mem_cons_self
    have hs' := exec_sound hx0 hy0 M s hs c
    have hone : (exec M s c).2 = none ∧ callError hx hy σ M s c = 0 ∧
        ((exec M s c).1.initialized = true → stateOf (nx := nx) (ny := ny) σ (exec M s c).1 ≠ 0) := by
      cases c with
      | setChi chi => exact ⟨rfl, rfl, fun h => h0 h⟩
      | renormalize c =>
        have q := renormalize_sound hx0 hy0 M c ⟨0, 0, ⟨fun _ => 0, fun _ => none⟩, fun _ _ _ _ _ _ => 0⟩ s hs
        refine ⟨q.2.2.2 (setCalculate_known hc'), rfl, fun h => ?_⟩
        exact (stateOf_congr σ q.2.1).trans_ne (h0 (q.2.2.1.symm.trans h))
      | evolve c e =>
        cases hi : s.initialized with
        | true =>
          obtain ⟨k1, k2, k3⟩ := key c e s hc' hs hi (h0 hi)
          exact ⟨k1, k2, fun _ => k3⟩
        | false =>
          have hst : stateOf (nx := nx) (ny := ny) σ (initSites e.start s) ≠ 0 := by
            show latticeState σ e.start ≠ 0
            rw [hc'.2.2.2.2.2.2.2]
            exact ghzNet_state σ
          obtain ⟨k1, k2, k3⟩ := key c e _ hc' (initSites_sound hx0 hy0 e.start s hs) rfl hst
          rw [exec_evolve_init M s c e hi]
          refine ⟨k1, ?_, fun _ => k3⟩
          rw [← k2]
          unfold callError
          dsimp only
          rw [if_neg (by rw [hi]; decide), if_pos (show (initSites e.start s).initialized = true from rfl)]
    obtain ⟨r1, r2, r3⟩ := ih (fun c h => hc c (List.mem_cons_of_mem _ h)) (exec M s c).1 hs' hone.2.2
    refine ⟨?_, ?_, ?_⟩
    · show (Set.andThen (exec M s c) (run M cs)).2 = none
      rcases hq : exec M s c with ⟨s', x⟩
      rw [hq] at hone r1
      obtain ⟨hx', -⟩ := hone
      cases hx'
      exact r1
    · show callError hx hy σ M s c + scriptError hx hy σ M cs (exec M s c).1 = 0
      rw [hone.2.1, r2, add_zero]
    · show (Set.andThen (exec M s c) (run M cs)).1.initialized = true → stateOf σ (Set.andThen (exec M s c) (run M cs)).1 ≠ 0
      rcases hq : exec M s c with ⟨s', x⟩
      rw [hq] at hone r3
      obtain ⟨hx', -⟩ := hone
      cases hx'
      exact r3

/-- Non-vacuity: for all times and tolerances there is a script that evolves, renormalises, raises the boundary dimension, evolves again with a
different time step, follows the plan, does not raise, has no errors, and starts from a state that overlaps the ground states. -/
example [NeZero N] (hx : 2 ≤ nx) (hy : 2 ≤ ny) (σ : Bond → Equiv.Perm (Fin N)) (M : Machine ℝ 2 ℝ) (c : Config ℝ) (hp : KnownProjectors c)
    (hu : c.strings.updateType = "full") (ha : c.update.als_method = .pinv) (he : c.update.als_epsilon = 0)
    (hcut : 0 < c.update.positive_approx_cutoff) (hatol : c.update.gauge_fix_atol < Real.sqrt c.update.positive_approx_cutoff)
    (T₁ T₂ δ : ℝ) (h1 : 0 ≤ T₁) (h2 : 0 ≤ T₂) (hδ : 0 < δ) (chi chi' : ℕ) (A : Site → ATensor (Fin 2) (Fin 2) ℝ) :
    Uniform nx ny fieldTerms ∧ fieldTerms.Hermitian ∧
    OverlapsGround hx hy σ fieldTerms (fieldGround nx ny N) (bare (freshNet nx ny chi fun s => (ghzNet s).A)) ∧
    ∃ cs : List (Call ℝ 2 2 ℝ), cs.length = 4 ∧ startOf A cs = (fun s => (ghzNet s).A) ∧ Follows δ cs [(fieldTerms, T₁), (fieldTerms, T₂)] ∧
      (run M cs (new nx ny chi A)).2 = none ∧ scriptError hx hy σ M cs (new nx ny chi A) = 0 := by
  have hn : ∀ T : ℝ, 0 ≤ T → ∃ n : ℕ, 0 ≤ T / n ∧ T / n ≤ δ ∧ n * (T / n) = T := by
    intro T hT
    refine ⟨⌈T / δ⌉₊ + 1, by positivity, ?_, by field_simp⟩
    rw [div_le_iff₀ (by positivity)]
    have := Nat.le_ceil (T / δ)
    rw [div_le_iff₀ hδ] at this
    push_cast
    nlinarith
  obtain ⟨n₁, a1, a2, a3⟩ := hn T₁ h1
  obtain ⟨n₂, b1, b2, b3⟩ := hn T₂ h2
  refine ⟨Or.inl fun _ _ => rfl, fieldTerms_hermitian, field_overlaps hx hy σ _ (ghzNet_ones σ),
    [.evolve c ⟨T₁ / n₁, n₁, fieldTerms, fun s => (ghzNet s).A⟩, .renormalize c, .setChi chi',
      .evolve c ⟨T₂ / n₂, n₂, fieldTerms, fun s => (ghzNet s).A⟩], rfl, rfl,
    ⟨T₁, _, rfl, a1, a2, a3, T₂, _, rfl, b1, b2, b3, rfl⟩, ?_⟩
  refine And.imp_right And.left (field_script hx hy σ M _ (fun x hx' => ?_) _ (new_sound (by omega) (by omega) chi A) fun h => by cases h)
  simp only [List.mem_cons, List.not_mem_nil, or_false] at hx'
  rcases hx' with rfl | rfl | rfl | rfl
  · exact ⟨hp, hu, ha, he, hcut, hatol, rfl, rfl⟩
  · exact hp
  · trivial
  · exact ⟨hp, hu, ha, he, hcut, hatol, rfl, rfl⟩

/-- Non-vacuity: settings as in the example exist. -/
example (c : Config ℝ) : ∃ c' : Config ℝ, KnownProjectors c' ∧ c'.strings.updateType = "full" ∧ c'.update.als_method = .pinv ∧
    c'.update.als_epsilon = 0 ∧ 0 < c'.update.positive_approx_cutoff ∧ c'.update.gauge_fix_atol < Real.sqrt c'.update.positive_approx_cutoff :=
  ⟨{ c with
      strings := { c.strings with projectors := none, updateType := "full" }
      update := { c.update with als_method := .pinv, als_epsilon := 0, positive_approx_cutoff := 1, gauge_fix_atol := 0 } },
    Or.inl rfl, rfl, rfl, rfl, one_pos, by simp⟩

end example_

end AceTN
