import Verif.Lemmas.MeanSmall
import Verif.Props.MeanSession

/-!
C111: with bond dimension one a session is time-dependent mean-field theory, and no setting matters.
-/

set_option autoImplicit false
set_option linter.unusedSectionVars false

namespace AceTN

open Matrix Spec Full Session

variable {F F' : Type} {pD nx ny : ℕ} [NeZero pD]

/-! ### The theory -/

/-- The calls of `evolve` in a script, without their settings. -/
def Spec.evolutions : List (Call F 1 pD ℝ) → List (Evolution 1 pD ℝ)
  | [] => []
  | .evolve _ e :: cs => e :: evolutions cs
  | _ :: cs => evolutions cs

/-- Mean-field theory of such calls, the first of which begins with the bonds `bl`: `steps` passes over the bonds with the gates of the model and the
time step, in the order of `Spec.schedule`. -/
def Spec.MeanField (nx ny : ℕ) : List (Evolution 1 pD ℝ) → List Bond → (Site → Fin pD → ℝ) → (Site → Fin pD → ℝ) → Prop
  | [], _, v, v' => ∀ s, InCell nx ny s → v' s = v s
  | e :: es, bl, v, v' => ∃ w, MeanRun nx ny (twoSiteGate e.model e.dtau) (schedule e.steps bl) v w ∧ MeanField nx ny es (listAfter e.steps bl) w v'

/-- No step of it has a choice between different products. -/
def Spec.NoChoice (nx ny : ℕ) : List (Evolution 1 pD ℝ) → List Bond → (Site → Fin pD → ℝ) → Prop
  | [], _, _ => True
  | e :: es, bl, v => NoChoiceRun nx ny (twoSiteGate e.model e.dtau) (schedule e.steps bl) v ∧
      ∀ w, MeanRun nx ny (twoSiteGate e.model e.dtau) (schedule e.steps bl) v w → NoChoice nx ny es (listAfter e.steps bl) w

/-- The vectors it begins with: those of the first call of `evolve`, if there is one. -/
def Spec.startVec (A : Site → ATensor (Fin 1) (Fin pD) ℝ) : List (Evolution 1 pD ℝ) → Site → Fin pD → ℝ
  | [] => siteVec A
  | e :: _ => siteVec e.start

/-- The bonds after it. -/
def Spec.bondsAfter (es : List (Evolution 1 pD ℝ)) (bl : List Bond) : List Bond := es.foldl (fun bl e => listAfter e.steps bl) bl

/-! ### Sessions -/

section calls

variable (hx : 2 ≤ nx) (hy : 2 ≤ ny) (M : Machine F 1 ℝ) (hM : M.cx = false) (hω : DrawsNonzero M.ω)

include hx hy

theorem renormalize_keeps (c : Config F) (e : Evolution 1 pD ℝ) (s : State 1 pD ℝ) (h : Sound nx ny s) :
    (Set.renormalize (Session.comp M c e) c.strings s).1.net.A = s.net.A ∧
      (Set.renormalize (Session.comp M c e) c.strings s).1.initialized = s.initialized ∧
      (Set.renormalize (Session.comp M c e) c.strings s).1.bonds = s.bonds := by
  unfold Set.renormalize
  cases setCalculate c.strings.projectors with
  | error x => exact ⟨rfl, rfl, rfl⟩
  | ok pk =>
    obtain ⟨s', e', -, h3, h4, h5⟩ := sweeps_sound (by omega) (by omega) M c pk (Set.svdKind c.strings.svdType) s h
    have e'' : (Session.comp M c e).sweeps pk (Set.svdKind c.strings.svdType) s = (s', none) := e'
    dsimp only
    rw [e'']
    exact ⟨h3, h4, h5⟩

include hM hω

/-- The part of `evolve` between the sweeps. -/
theorem evolveFn_meanRun (c : Config F) (e : Evolution 1 pD ℝ) (hc : CutsBelowOne c) (hu : c.strings.updateType = "full" → SolvableUpdate c.update)
    (hk : KnownNames (.evolve c e : Call F 1 pD ℝ)) (s : State 1 pD ℝ) (h : MeanState nx ny s) :
    (Set.evolveFn (Session.comp M c e) c.strings s).1.initialized = s.initialized ∧
      (Set.evolveFn (Session.comp M c e) c.strings s).1.bonds = listAfter e.steps s.bonds ∧
      MeanRun nx ny (twoSiteGate e.model e.dtau) (schedule e.steps s.bonds) (netVec s.net)
        (netVec (Set.evolveFn (Session.comp M c e) c.strings s).1.net) := by
  have hmem : ∀ b ∈ s.bonds, b ∈ buildBondList nx ny := fun b hb => h.sound.mem.1 hb
  unfold Set.evolveFn
  cases hup : createTensorUpdater c.strings.updateType with
  | error x =>
    have := hk.2
    rw [hup] at this
    cases this
  | ok u =>
    cases u with
    | simple =>
      have h0 : MeanNet nx ny s.net ∧ AllOnes nx ny (LambdaTensors.init s.bonds (Simple.ones 1 M.cx)) := by
        refine ⟨h.1, ⟨s.bonds, _, [], h.sound.perm, rfl⟩, fun x hs d hd w hw => ?_⟩
        obtain ⟨b, ⟨hb, hE⟩, -⟩ := C03_unique_bond_per_side nx ny x hs d hd
        have h' := C03_weight_lookup nx ny s.bonds h.sound.perm (Simple.ones 1 M.cx) [] x hs d hd b hb hE
        rw [hM] at h'
        rw [hM] at hw
        exact (Except.ok.inj (h'.symm.trans hw)).symm
      obtain ⟨r1, r2⟩ := loop_meanRun (Simple.numBondStep M.la (twoSiteGate e.model e.dtau)) (fun t => netVec t.1) (twoSiteGate e.model e.dtau)
        (fun t : Net (Ten (Fin 1) (Fin pD) ℝ) × LambdaTensors (Simple.Weight 1) => MeanNet nx ny t.1 ∧ AllOnes nx ny t.2)
        (fun t b hb ht => by
          obtain ⟨g1, g2, g3, g4⟩ := MeanNet.simpleStep_mean hx hy M.la e.model e.dtau t ht.1 ht.2 hb
          exact ⟨⟨g1, g2⟩, g3, g4⟩) e.steps s.bonds hmem (s.net, LambdaTensors.init s.bonds (Simple.ones 1 M.cx)) h0
      exact ⟨rfl, r2, r1⟩
    | full =>
      have hfull : c.strings.updateType = "full" := by
        unfold createTensorUpdater at hup
        split_ifs at hup with h1 h2
        · exact h1
        · cases hup
      obtain ⟨u1, u2, u3⟩ := hu hfull
      dsimp only
      cases hp : setCalculate c.strings.projectors with
      | error x =>
        have := setCalculate_known hk.1
        rw [hp] at this
        cases this
      | ok pk =>
        obtain ⟨r1, r2⟩ := loop_meanRun
          (fullBondStep (c.proj M (Set.svdKind c.strings.svdType)) pk M.ω M.la M.fo M.rep c.update none (twoSiteGate e.model e.dtau))
          (fun t => netVec t.1) (twoSiteGate e.model e.dtau) (fun t : Net (Ten (Fin 1) (Fin pD) ℝ) × ℕ => MeanNet nx ny t.1)
          (fun t b hb ht => MeanNet.fullStep_mean (st := c.proj M (Set.svdKind c.strings.svdType)) (pk := pk) hc.1 hc.2 hω hx hy M.la M.fo M.rep
            c.update u1 u2 u3 e.model e.dtau t ht hb) e.steps s.bonds hmem (s.net, s.moves) h.1
        exact ⟨rfl, r2, r1⟩

/-- A call of `evolve` in an initialised object. -/
theorem evolve_meanRun (c : Config F) (e : Evolution 1 pD ℝ) (hc : Sensible nx ny (.evolve c e : Call F 1 pD ℝ))
    (hk : KnownNames (.evolve c e : Call F 1 pD ℝ)) (s : State 1 pD ℝ) (h : MeanState nx ny s) (hs : s.initialized = true) :
    (exec M s (.evolve c e)).1.initialized = true ∧ (exec M s (.evolve c e)).1.bonds = listAfter e.steps s.bonds ∧
      MeanRun nx ny (twoSiteGate e.model e.dtau) (schedule e.steps s.bonds) (netVec s.net) (netVec (exec M s (.evolve c e)).1.net) := by
  have hn := (mean_exec hx hy M hM hω (.evolve c e) hc s h).2 hk
  obtain ⟨h1, h2, -⟩ := hc
  rw [exec_evolve M s c e hs] at hn ⊢
  obtain ⟨n1, e1⟩ := andThen_none hn
  obtain ⟨-, e2⟩ := andThen_none n1
  rw [e1, e2]
  have m1 := (mean_renormalize hx hy M hω c e h1 s h).1
  obtain ⟨a1, a2, a3⟩ := renormalize_keeps hx hy M c e s h.sound
  obtain ⟨b1, b2, b3⟩ := evolveFn_meanRun hx hy M hM hω c e h1 h2 hk _ m1
  have m2 := (mean_evolveFn hx hy M hM hω c e h1 h2 _ m1).1
  obtain ⟨c1, c2, c3⟩ := renormalize_keeps hx hy M c e _ m2.sound
  refine ⟨by rw [c2, b1, a2, hs], by rw [c3, b2, a3], ?_⟩
  have v1 : netVec (Set.renormalize (Session.comp M c e) c.strings s).1.net = netVec s.net := funext fun x => netVec_congr (congrFun a1 x)
  rw [a3, v1] at b3
  rw [show netVec (Set.renormalize (Session.comp M c e) c.strings _).1.net = netVec _ from funext fun x => netVec_congr (congrFun c1 x)]
  exact b3

/-- A script in an initialised object. -/
theorem run_meanField (cs : List (Call F 1 pD ℝ)) (hcs : ∀ c ∈ cs, Sensible nx ny c ∧ KnownNames c) (s : State 1 pD ℝ) (h : MeanState nx ny s)
    (hs : s.initialized = true) :
    MeanField nx ny (evolutions cs) s.bonds (netVec s.net) (netVec (runCatching M cs s).net) ∧
      (runCatching M cs s).bonds = bondsAfter (evolutions cs) s.bonds := by
  induction cs generalizing s with
  | nil => exact ⟨fun _ _ => rfl, rfl⟩
  | cons c cs ih =>
    obtain ⟨hc, hk⟩ := hcs c (by simp)
    have m1 := (mean_exec hx hy M hM hω c hc s h).1
    have ih' := ih (fun c hc => hcs c (by simp [hc])) (exec M s c).1 m1
    cases c with
    | setChi chi => exact ih' hs
    | renormalize c =>
      obtain ⟨a1, a2, a3⟩ := renormalize_keeps hx hy M c ⟨0, 0, ⟨fun _ => 0, fun _ => none⟩, fun _ _ _ _ _ _ => 0⟩ s h.sound
      rw [← exec_renormalize M s c] at a1 a2 a3
      obtain ⟨i1, i2⟩ := ih' (a2.trans hs)
      rw [a3, show netVec (exec M s (.renormalize c)).1.net = netVec s.net from funext fun x => netVec_congr (congrFun a1 x)] at i1
      rw [a3] at i2
      exact ⟨i1, i2⟩
    | evolve c e =>
      obtain ⟨a1, a2, a3⟩ := evolve_meanRun hx hy M hM hω c e hc hk s h hs
      obtain ⟨i1, i2⟩ := ih' a1
      rw [a2] at i1 i2
      exact ⟨⟨_, a3, i1⟩, i2⟩

omit hx hy hM hω in
theorem netVec_fresh (nx ny chi : ℕ) (A : Site → ATensor (Fin 1) (Fin pD) ℝ) : netVec (freshNet nx ny chi A) = siteVec A := rfl

/-- A script in an object that is not initialised. -/
theorem run_meanField_new (cs : List (Call F 1 pD ℝ)) (hcs : ∀ c ∈ cs, Sensible nx ny c ∧ KnownNames c) (A : Site → ATensor (Fin 1) (Fin pD) ℝ)
    (s : State 1 pD ℝ) (h : MeanState nx ny s) (hs : s.initialized = false) (hb : s.bonds = buildBondList nx ny) (hv : netVec s.net = siteVec A) :
    MeanField nx ny (evolutions cs) (buildBondList nx ny) (startVec A (evolutions cs)) (netVec (runCatching M cs s).net) ∧
      (runCatching M cs s).bonds = bondsAfter (evolutions cs) (buildBondList nx ny) := by
  induction cs generalizing s with
  | nil => exact ⟨fun x _ => congrFun hv x, hb⟩
  | cons c cs ih =>
    obtain ⟨hc, hk⟩ := hcs c (by simp)
    have m1 := (mean_exec hx hy M hM hω c hc s h).1
    have ih' := ih (fun c hc => hcs c (by simp [hc])) (exec M s c).1 m1
    cases c with
    | setChi chi => exact ih' hs hb hv
    | renormalize c =>
      obtain ⟨a1, a2, a3⟩ := renormalize_keeps hx hy M c ⟨0, 0, ⟨fun _ => 0, fun _ => none⟩, fun _ _ _ _ _ _ => 0⟩ s h.sound
      rw [← exec_renormalize M s c] at a1 a2 a3
      exact ih' (a2.trans hs) (a3.trans hb) ((funext fun x => netVec_congr (congrFun a1 x)).trans hv)
    | evolve c e =>
      have hm : MeanState nx ny (initSites e.start s) := by
        obtain ⟨⟨e1, e2, -⟩, hc', -⟩ := h.1
        unfold initSites MeanState
        dsimp only
        rw [e1, e2]
        exact ⟨meanNet_fresh (by omega) (by omega) hc' _ hc.2.2, Or.inl rfl⟩
      have hb' : (initSites e.start s).bonds = buildBondList nx ny := by
        obtain ⟨⟨e1, e2, -⟩, -⟩ := h.1
        show buildBondList s.net.nx s.net.ny = _
        rw [e1, e2]
      obtain ⟨i1, i2⟩ := run_meanField hx hy M hM hω (.evolve c e :: cs) hcs (initSites e.start s) hm rfl
      rw [hb'] at i1 i2
      have e0 : runCatching M (.evolve c e :: cs) s = runCatching M (.evolve c e :: cs) (initSites e.start s) := by
        show runCatching M cs (exec M s (.evolve c e)).1 = runCatching M cs (exec M (initSites e.start s) (.evolve c e)).1
        rw [exec_evolve_init M s c e hs]
      rw [e0]
      exact ⟨i1, i2⟩

/-- **C111 (mean-field theory).** Real dtype, bond dimension one, cells from 2 × 2, all models, time steps and initial states: the product states that a
session goes through are those of time-dependent mean-field theory.  Its calls of `evolve`, whichever update they use, replace pair after pair, in
the order of the schedule, by a product nearest to the pair after the gate; nothing else in a script changes the state. -/
theorem C111_refines {chi : ℕ} (hchi : 0 < chi) (A : Site → ATensor (Fin 1) (Fin pD) ℝ) (hA : ∀ s, InCell nx ny s → A s ≠ 0)
    (cs : List (Call F 1 pD ℝ)) (hcs : ∀ c ∈ cs, Sensible nx ny c ∧ KnownNames c) :
    MeanField nx ny (evolutions cs) (buildBondList nx ny) (startVec A (evolutions cs))
      (siteVec (siteTensors (bare (runCatching M cs (new nx ny chi A)).net))) :=
  (run_meanField_new hx hy M hM hω cs hcs A _ (mean_new (by omega) (by omega) hchi A hA) rfl rfl (netVec_fresh nx ny chi A)).1

end calls

/-! ### Settings -/

/-- **C111 (one result).** Where no step has a choice, mean-field theory has one result, up to factors. -/
theorem C111_unique (es : List (Evolution 1 pD ℝ)) (bl : List Bond) (hl : ∀ b ∈ bl, b ∈ buildBondList nx ny) (v v' w w' : Site → Fin pD → ℝ)
    (h : UpToFactors nx ny v v') (hT : NoChoice nx ny es bl v) (hw : MeanField nx ny es bl v w) (hw' : MeanField nx ny es bl v' w') :
    UpToFactors nx ny w w' := by
  induction es generalizing bl v v' with
  | nil =>
    intro s hs
    obtain ⟨c, hc, e⟩ := h s hs
    exact ⟨c, hc, by rw [hw' s hs, hw s hs, e]⟩
  | cons e es ih =>
    obtain ⟨u, hu, hw⟩ := hw
    obtain ⟨u', hu', hw'⟩ := hw'
    refine ih (listAfter e.steps bl) (fun b hb => hl b ?_) u u' (meanRun_unique (fun b hb => hl b (mem_schedule hb)) h hT.1 hu hu') (hT.2 u hu) hw hw'
    unfold listAfter at hb
    split_ifs at hb with h0
    · exact hb
    · exact List.mem_reverse.1 hb

theorem foldlM_congr_mem {α β : Type} {f g : β → α → Except PyErr β} (l : List α) (h : ∀ a ∈ l, ∀ b, f b a = g b a) (b : β) :
    l.foldlM f b = l.foldlM g b := by
  induction l generalizing b with
  | nil => rfl
  | cons a l ih =>
    rw [List.foldlM_cons, List.foldlM_cons, h a (by simp)]
    exact congrArg (g b a >>= ·) (funext fun b => ih (fun a ha => h a (by simp [ha])) b)

/-- Only the values on the sites and bonds in the lists matter. -/
theorem calculate_congr {S O : Type} (places : List S) (first : S) (obs : S → PyDict String O) {energy energy' : S → ℝ} {value value' : S → O → ℝ}
    (he : ∀ s ∈ places, energy' s = energy s) (hv : ∀ s ∈ places, value' s = value s) (ave : PyDict String ℝ) :
    Meas.calculate places first obs energy' value' ave = Meas.calculate places first obs energy value ave := by
  unfold Meas.calculate
  dsimp only
  rw [foldlM_congr_mem places (g := fun ave s => do
    let ave ← Meas.addTo ave "Energy" (energy s)
    if (obs first).keys ≠ [] then Meas.addAll (value s) (obs s) ave else return ave) fun s hs ave => by rw [he s hs, hv s hs]]

theorem measure_congr {O₁ O₂ : Type} (model : MeasModel O₁ O₂) {v1 v1' : Site → O₁ → ℝ} {v2 v2' : Bond → O₂ → ℝ} (sites : List Site) (bonds : List Bond)
    (h1 : ∀ s ∈ sites, v1' s = v1 s) (h2 : ∀ b ∈ bonds, v2' b = v2 b) :
    Meas.measure model v1' v2' sites bonds = Meas.measure model v1 v2 sites bonds := by
  unfold Meas.measure
  dsimp only
  rw [calculate_congr sites (0, 0) model.one_site_observables (energy := fun s => match model.one_site_hamiltonian s with | some h => v1 s h | none => 0)
    (value := v1) (fun s hs => by rw [h1 s hs]; rfl) h1]
  have : ∀ first ave, Meas.calculate bonds first model.two_site_observables (fun b => v2' b (model.two_site_hamiltonian b)) v2' ave =
      Meas.calculate bonds first model.two_site_observables (fun b => v2 b (model.two_site_hamiltonian b)) v2 ave :=
    fun first ave => calculate_congr bonds first _ (fun b hb => by rw [h2 b hb]) h2 ave
  simp only [this]
  rfl

/-- What `measure` does when no density matrix raises. -/
theorem measure_eq (hx : 0 < nx) (hy : 0 < ny) (s : State 1 pD ℝ) (hs : Sound nx ny s) (init : Fin pD → Fin pD → Fin pD → Fin pD → ℝ)
    (model : MeasModel (Fin pD → Fin pD → ℝ) (Fin pD → Fin pD → Fin pD → Fin pD → ℝ)) :
    Session.measure init model s = Meas.measure model (fun x op => (siteVal s.net x op).toOption.getD 0)
      (fun b op => (bondVal init s.net b op).toOption.getD 0) (buildSiteList nx ny) s.bonds := by
  obtain ⟨r1, r2, e1, e2⟩ := rdms_exist hx hy s hs init
  obtain ⟨n1, n2, -⟩ := hs.1
  unfold Session.measure
  show (forIn (buildSiteList s.net.nx s.net.ny) PUnit.unit fun x _ => (numSiteRdm s.net x >>= fun _ => pure (ForInStep.yield PUnit.unit))) >>=
    (fun _ => (forIn s.bonds PUnit.unit fun b _ => (numBondRdm init s.net b >>= fun _ => pure (ForInStep.yield PUnit.unit))) >>=
      fun _ => Meas.measure model _ _ (buildSiteList s.net.nx s.net.ny) s.bonds) = _
  rw [n1, n2, forIn_ok _ _ fun x hx' => ⟨_, e1 x (mem_buildSiteList.1 hx')⟩, forIn_ok _ _ fun b hb => ⟨_, e2 b (hs.mem.1 hb)⟩]
  rfl

theorem ratio_smul {ι : Type} [Fintype ι] (O : Matrix ι ι ℝ) (v : ι → ℝ) {c : ℝ} (hc : c ≠ 0) : qform O (c • v) / normSq (c • v) = qform O v / normSq v := by
  have h1 : qform O (c • v) = c ^ 2 * qform O v := by
    unfold qform
    rw [Finset.mul_sum]
    refine Finset.sum_congr rfl fun i _ => ?_
    rw [Finset.mul_sum]
    refine Finset.sum_congr rfl fun j _ => ?_
    simp only [star_trivial, Pi.smul_apply, smul_eq_mul]
    ring
  have h2 : normSq (c • v) = c ^ 2 * normSq v := by
    unfold normSq
    rw [Finset.mul_sum]
    refine Finset.sum_congr rfl fun i _ => ?_
    simp only [Pi.smul_apply, smul_eq_mul, norm_mul, mul_pow, Real.norm_eq_abs, sq_abs]
  rw [h1, h2, mul_div_mul_left _ _ (pow_ne_zero 2 hc)]

/-- **C111 (settings).** Two sessions with the same calls of `evolve`, except for their settings: wherever mean-field theory leaves no choice, they end
with the same site and bond values, the same list of bonds and the same results of `measure`.  Which update, projectors, solver, library and random
numbers they use, their boundary dimensions, and how often and when they renormalise makes no difference. -/
theorem C111_settings (hx : 2 ≤ nx) (hy : 2 ≤ ny) (M : Machine F 1 ℝ) (M' : Machine F' 1 ℝ) (hM : M.cx = false) (hM' : M'.cx = false)
    (hω : DrawsNonzero M.ω) (hω' : DrawsNonzero M'.ω) {chi chi' : ℕ} (hchi : 0 < chi) (hchi' : 0 < chi')
    (A : Site → ATensor (Fin 1) (Fin pD) ℝ) (hA : ∀ s, InCell nx ny s → A s ≠ 0)
    (cs : List (Call F 1 pD ℝ)) (cs' : List (Call F' 1 pD ℝ)) (hcs : ∀ c ∈ cs, Sensible nx ny c ∧ KnownNames c)
    (hcs' : ∀ c ∈ cs', Sensible nx ny c ∧ KnownNames c) (he : evolutions cs' = evolutions cs)
    (hT : NoChoice nx ny (evolutions cs) (buildBondList nx ny) (startVec A (evolutions cs))) :
    let s := runCatching M cs (new nx ny chi A)
    let s' := runCatching M' cs' (new nx ny chi' A)
    s'.bonds = s.bonds ∧ (∀ x, InCell nx ny x → ∀ O, siteVal s'.net x O = siteVal s.net x O) ∧
      (∀ b ∈ buildBondList nx ny, ∀ init init' O, bondVal init' s'.net b O = bondVal init s.net b O) ∧
      ∀ init init' model, Session.measure init' model s' = Session.measure init model s := by
  intro s s'
  have hx0 : 0 < nx := by omega
  have hy0 : 0 < ny := by omega
  have n0 := mean_new hx0 hy0 hchi A hA
  have n0' := mean_new hx0 hy0 hchi' A hA
  obtain ⟨f1, b1⟩ := run_meanField_new hx hy M hM hω cs hcs A _ n0 rfl rfl (netVec_fresh nx ny chi A)
  obtain ⟨f2, b2⟩ := run_meanField_new hx hy M' hM' hω' cs' hcs' A _ n0' rfl rfl (netVec_fresh nx ny chi' A)
  rw [he] at f2 b2
  have hb : s'.bonds = s.bonds := b2.trans b1.symm
  have hf := C111_unique _ _ (fun b hb => hb) _ _ _ _ (fun _ _ => ⟨1, one_ne_zero, (one_smul _ _).symm⟩) hT f1 f2
  have hval := C110_values hx hy M hM hω hchi A hA cs fun c hc => (hcs c hc).1
  have hval' := C110_values hx hy M' hM' hω' hchi' A hA cs' fun c hc => (hcs' c hc).1
  dsimp only at hval hval'
  have k1 : ∀ x, InCell nx ny x → ∀ O, siteVal s'.net x O = siteVal s.net x O := by
    intro x hxc O
    obtain ⟨c, hc, e⟩ := hf x hxc
    refine ((hval' x hxc).2.1 O).trans (Eq.trans ?_ ((hval x hxc).2.1 O).symm)
    have e' : siteVec (siteTensors (bare s'.net)) x = c • siteVec (siteTensors (bare s.net)) x := e
    rw [e', ratio_smul _ _ hc]
  have k2 : ∀ b ∈ buildBondList nx ny, ∀ init init' O, bondVal init' s'.net b O = bondVal init s.net b O := by
    intro b hb init init' O
    obtain ⟨i1, i2, i3⟩ := ((C02_bond_list nx ny).2.2 b).1 hb
    obtain ⟨-, i4⟩ := C02_bond_ends_in_cell nx ny b hb
    rw [mem_buildSiteList] at i4
    have hk4 : b.k < 4 := by omega
    have h := (hval b.s1 i1).2.2 ⟨b.k, hk4⟩ init fun p q => O p.1 p.2 q.1 q.2
    have h' := (hval' b.s1 i1).2.2 ⟨b.k, hk4⟩ init' fun p q => O p.1 p.2 q.1 q.2
    dsimp only at h h'
    rw [← i3] at h h'
    refine h'.trans (Eq.trans ?_ h.symm)
    obtain ⟨c, hc, e⟩ := hf b.s1 i1
    obtain ⟨d, hd, e'⟩ := hf b.s2 i4
    have e1 : (fun p : Fin pD × Fin pD => siteVec (siteTensors (bare s'.net)) b.s1 p.1 * siteVec (siteTensors (bare s'.net)) b.s2 p.2) =
        (c * d) • fun p : Fin pD × Fin pD => siteVec (siteTensors (bare s.net)) b.s1 p.1 * siteVec (siteTensors (bare s.net)) b.s2 p.2 := by
      funext p
      have h1 : siteVec (siteTensors (bare s'.net)) b.s1 = c • siteVec (siteTensors (bare s.net)) b.s1 := e
      have h2 : siteVec (siteTensors (bare s'.net)) b.s2 = d • siteVec (siteTensors (bare s.net)) b.s2 := e'
      rw [h1, h2]
      simp only [Pi.smul_apply, smul_eq_mul]
      ring
    rw [e1, ratio_smul _ _ (mul_ne_zero hc hd)]
  refine ⟨hb, k1, k2, fun init init' model => ?_⟩
  have hs : MeanState nx ny s := mean_run hx hy M hM hω cs (fun c hc => (hcs c hc).1) _ n0
  have hs' : MeanState nx ny s' := mean_run hx hy M' hM' hω' cs' (fun c hc => (hcs' c hc).1) _ n0'
  rw [measure_eq hx0 hy0 s hs.sound, measure_eq hx0 hy0 s' hs'.sound, hb]
  refine measure_congr model _ _ (fun x hx => ?_) fun b hb => ?_
  · funext O
    rw [k1 x (mem_buildSiteList.1 hx)]
  · funext O
    rw [k2 b (hs.sound.mem.1 hb) init init']

/-! ### Small time steps -/

section small

open scoped Matrix.Norms.L2Operator

/-- A call of `evolve` with a small time step: `dtau` times the largest singular value of what is exponentiated is at most `1/3`, on every bond.  It
may be negative. -/
def Spec.SmallStep (nx ny : ℕ) (e : Evolution 1 pD ℝ) : Prop := ∀ b ∈ buildBondList nx ny, |e.dtau| * ‖bondHam e.model b‖ ≤ 1 / 3

/-- **C111 (small steps).** With small time steps mean-field theory never has a choice. -/
theorem C111_small (es : List (Evolution 1 pD ℝ)) (hes : ∀ e ∈ es, SmallStep nx ny e) (bl : List Bond) (hl : ∀ b ∈ bl, b ∈ buildBondList nx ny)
    (v : Site → Fin pD → ℝ) (hv : ∀ s, InCell nx ny s → v s ≠ 0) : NoChoice nx ny es bl v := by
  induction es generalizing bl v with
  | nil => trivial
  | cons e es ih =>
    obtain ⟨h1, h2⟩ := clearRun_small e.model e.dtau (schedule e.steps bl) (fun b hb => hl b (mem_schedule hb)) (hes e (by simp)) v hv
    refine ⟨h1, fun w hw => ih (fun e he => hes e (by simp [he])) _ (fun b hb => hl b ?_) w (h2 w hw)⟩
    unfold listAfter at hb
    split_ifs at hb with h0
    · exact hb
    · exact List.mem_reverse.1 hb

theorem siteVec_ne {a : Site → ATensor (Fin 1) (Fin pD) ℝ} {s : Site} (h : a s ≠ 0) : siteVec a s ≠ 0 := by
  intro h0
  apply h
  funext l u r d p
  simp only [Subsingleton.elim _ (0 : Fin 1)]
  exact congrFun h0 p

theorem startVec_ne (A : Site → ATensor (Fin 1) (Fin pD) ℝ) (hA : ∀ s, InCell nx ny s → A s ≠ 0) (cs : List (Call F 1 pD ℝ))
    (hcs : ∀ c ∈ cs, Sensible nx ny c) : ∀ s, InCell nx ny s → startVec A (evolutions cs) s ≠ 0 := by
  induction cs with
  | nil => exact fun s hs => siteVec_ne (hA s hs)
  | cons c cs ih =>
    have ih' := ih fun c hc => hcs c (by simp [hc])
    have hc := hcs c (by simp)
    cases c with
    | setChi chi => exact ih'
    | renormalize c => exact ih'
    | evolve c e => exact fun s hs => siteVec_ne (hc.2.2 s hs)

/-- **C111 (settings, small steps).** So for scripts with small time steps no setting matters. -/
theorem C111_settings_small (hx : 2 ≤ nx) (hy : 2 ≤ ny) (M : Machine F 1 ℝ) (M' : Machine F' 1 ℝ) (hM : M.cx = false) (hM' : M'.cx = false)
    (hω : DrawsNonzero M.ω) (hω' : DrawsNonzero M'.ω) {chi chi' : ℕ} (hchi : 0 < chi) (hchi' : 0 < chi')
    (A : Site → ATensor (Fin 1) (Fin pD) ℝ) (hA : ∀ s, InCell nx ny s → A s ≠ 0)
    (cs : List (Call F 1 pD ℝ)) (cs' : List (Call F' 1 pD ℝ)) (hcs : ∀ c ∈ cs, Sensible nx ny c ∧ KnownNames c)
    (hcs' : ∀ c ∈ cs', Sensible nx ny c ∧ KnownNames c) (he : evolutions cs' = evolutions cs) (hd : ∀ e ∈ evolutions cs, SmallStep nx ny e) :
    let s := runCatching M cs (new nx ny chi A)
    let s' := runCatching M' cs' (new nx ny chi' A)
    s'.bonds = s.bonds ∧ (∀ x, InCell nx ny x → ∀ O, siteVal s'.net x O = siteVal s.net x O) ∧
      (∀ b ∈ buildBondList nx ny, ∀ init init' O, bondVal init' s'.net b O = bondVal init s.net b O) ∧
      ∀ init init' model, Session.measure init' model s' = Session.measure init model s :=
  C111_settings hx hy M M' hM hM' hω hω' hchi hchi' A hA cs cs' hcs hcs' he
    (C111_small _ hd _ (fun _ hb => hb) _ (startVec_ne A hA cs fun c hc => (hcs c hc).1))

/-- Every model has small time steps. -/
theorem smallStep_exists (nx ny : ℕ) (m : ModelTerms (Fin pD) ℝ) :
    ∃ τ : ℝ, 0 < τ ∧ ∀ dtau n start, |dtau| ≤ τ → SmallStep nx ny ⟨dtau, n, m, start⟩ := by
  have hs : ∀ b ∈ buildBondList nx ny, ‖bondHam m b‖ ≤ ((buildBondList nx ny).map fun b => ‖bondHam m b‖).sum := fun b hb =>
    List.single_le_sum (by
      intro x hx
      obtain ⟨b, -, rfl⟩ := List.mem_map.1 hx
      exact norm_nonneg _) _ (List.mem_map.2 ⟨b, hb, rfl⟩)
  have h0 : 0 ≤ ((buildBondList nx ny).map fun b => ‖bondHam m b‖).sum := List.sum_nonneg (by
    intro x hx
    obtain ⟨b, -, rfl⟩ := List.mem_map.1 hx
    exact norm_nonneg _)
  set S := ((buildBondList nx ny).map fun b => ‖bondHam m b‖).sum
  refine ⟨1 / (3 * (1 + S)), by positivity, fun dtau n start hd b hb => ?_⟩
  show |dtau| * ‖bondHam m b‖ ≤ 1 / 3
  calc |dtau| * ‖bondHam m b‖ ≤ 1 / (3 * (1 + S)) * (1 + S) := by
        gcongr
        linarith [hs b hb]
    _ = 1 / 3 := by field_simp

/-- The script of C110 with the updates exchanged, and with fewer sweeps in between. -/
noncomputable def otherScript (svd : String) (method : Als.Solver) (n : ℕ) (dtau : ℝ) (m m' : ModelTerms (Fin 2) ℝ) : List (Call ℝ 1 2 ℝ) :=
  [.evolve (exampleConfig svd "simple" method) ⟨dtau, n, m, fun s => (plusNet s).A⟩,
    .evolve (exampleConfig svd "full" method) ⟨dtau, n, m', fun s => (plusNet s).A⟩]

theorem otherScript_ok (svd : String) (method : Als.Solver) (n : ℕ) (dtau : ℝ) (m m' : ModelTerms (Fin 2) ℝ) :
    ∀ c ∈ otherScript svd method n dtau m m', Sensible nx ny c ∧ KnownNames c := by
  intro c hc
  simp only [otherScript, List.mem_cons, List.not_mem_nil, or_false] at hc
  rcases hc with rfl | rfl
  all_goals exact ⟨⟨(exampleConfig_ok _ _ _).1, fun _ => (exampleConfig_ok _ _ _).2, fun s _ => plusNet_ne s⟩, .inl rfl, rfl⟩

theorem ones_drawn : DrawsNonzero fun _ _ _ _ _ _ _ => 1 := fun t key q hq h =>
  one_ne_zero (α := ℝ) (congrFun (congrFun h (0, 0, 0)) ⟨0, by simp [clipRank]; omega⟩)

/-- Non-vacuity: the script of C110 and that one, with other methods of decomposition, solvers, libraries and boundary dimensions, for all models. -/
example (hx : 2 ≤ nx) (hy : 2 ≤ ny) (la la' : Lapack ℝ) (fo : Als.FloatOps ℝ) (n : ℕ) (m m' : ModelTerms (Fin 2) ℝ) :
    ∃ τ : ℝ, 0 < τ ∧ ∀ dtau, |dtau| ≤ τ → ∀ init init' model,
      Session.measure init' model (runCatching (⟨la', fo, id, fun _ _ _ _ _ _ _ => 1, false⟩ : Machine ℝ 1 ℝ)
          (otherScript "full-rank" .pinv n dtau m m') (new nx ny 7 fun s => (plusNet s).A)) =
        Session.measure init model (runCatching (⟨la, fo, id, fun _ _ _ _ _ _ _ => 1, false⟩ : Machine ℝ 1 ℝ)
          (exampleScript "rsvd" .cholesky 4 n dtau m m') (new nx ny 3 fun s => (plusNet s).A)) := by
  obtain ⟨τ, hτ, h1⟩ := smallStep_exists nx ny m
  obtain ⟨τ', hτ', h2⟩ := smallStep_exists nx ny m'
  refine ⟨min τ τ', lt_min hτ hτ', fun dtau hd => ?_⟩
  have hs : ∀ e ∈ evolutions (exampleScript "rsvd" .cholesky 4 n dtau m m'), SmallStep nx ny e := by
    intro e he
    simp only [exampleScript, evolutions, List.mem_cons, List.not_mem_nil, or_false] at he
    rcases he with rfl | rfl
    · exact h1 _ _ _ (hd.trans (min_le_left _ _))
    · exact h2 _ _ _ (hd.trans (min_le_right _ _))
  exact (C111_settings_small hx hy _ _ rfl rfl ones_drawn ones_drawn (Nat.succ_pos 2) (Nat.succ_pos 6) _ (fun s _ => plusNet_ne s) _ _
    (exampleScript_ok "rsvd" .cholesky 4 n dtau m m') (otherScript_ok "full-rank" .pinv n dtau m m') rfl hs).2.2.2

end small

end AceTN
