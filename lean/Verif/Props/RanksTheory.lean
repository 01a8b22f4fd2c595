import Verif.Lemmas.MeanRanks
import Verif.Props.GateDescent
import Verif.Props.MeanRanks

/-!
C117: distributed sessions at bond dimension one are mean-field theory, with both kinds of projectors.
-/

set_option autoImplicit false
set_option linter.unusedSectionVars false

namespace AceTN

open Matrix Spec Full Session Pauli

variable {F F' : Type} {pD nx ny N : ℕ} [NeZero pD]

/-! ### Objects with the same product state -/

theorem meanNet_values (hx : 0 < nx) (hy : 0 < ny) {net : Net (Ten (Fin 1) (Fin pD) ℝ)} (h : MeanNet nx ny net) {x : Site} (hxc : InCell nx ny x) :
    (∀ O : Matrix (Fin pD) (Fin pD) ℝ, siteVal net x O = .ok (qform Oᵀ (netVec net x) / normSq (netVec net x))) ∧
      ∀ (k : Fin 4) (init : Fin pD → Fin pD → Fin pD → Fin pD → ℝ) (O : Matrix (Fin pD × Fin pD) (Fin pD × Fin pD) ℝ),
        bondVal init net ⟨x, neighbour nx ny x k.val, k.val⟩ (fun k1 k2 b1 b2 => O (k1, k2) (b1, b2)) =
          .ok (qform Oᵀ (fun p => netVec net x p.1 * netVec net (neighbour nx ny x k.val) p.2) /
            normSq fun p : Fin pD × Fin pD => netVec net x p.1 * netVec net (neighbour nx ny x k.val) p.2) := by
  obtain ⟨⟨r, er, h1⟩, h2⟩ := C68_values _ _ (h.rdms hx hy) x hxc
  refine ⟨fun O => ?_, fun k init O => ?_⟩
  · unfold siteVal
    rw [er]
    exact congrArg Except.ok (h1 O)
  · obtain ⟨r, er, h⟩ := h2 k init
    unfold bondVal
    rw [er]
    exact congrArg Except.ok (h O)

/-- Objects that hold the same product state, up to factors, give the same results of `measure`. -/
theorem measure_same (hx : 2 ≤ nx) (hy : 2 ≤ ny) {s s' : State 1 pD ℝ} (h : MeanState nx ny s) (h' : MeanState nx ny s') (hb : s'.bonds = s.bonds)
    (hf : UpToFactors nx ny (netVec s.net) (netVec s'.net)) (init init' : Fin pD → Fin pD → Fin pD → Fin pD → ℝ)
    (model : MeasModel (Fin pD → Fin pD → ℝ) (Fin pD → Fin pD → Fin pD → Fin pD → ℝ)) :
    Session.measure init' model s' = Session.measure init model s := by
  have hx0 : 0 < nx := by omega
  have hy0 : 0 < ny := by omega
  have k1 : ∀ x, InCell nx ny x → ∀ O, siteVal s'.net x O = siteVal s.net x O := by
    intro x hxc O
    obtain ⟨c, hc, e⟩ := hf x hxc
    refine ((meanNet_values hx0 hy0 h'.1 hxc).1 O).trans (Eq.trans ?_ ((meanNet_values hx0 hy0 h.1 hxc).1 O).symm)
    rw [e, ratio_smul _ _ hc]
  have k2 : ∀ b ∈ buildBondList nx ny, ∀ O, bondVal init' s'.net b O = bondVal init s.net b O := by
    intro b hb O
    obtain ⟨i1, i2, i3⟩ := ((C02_bond_list nx ny).2.2 b).1 hb
    obtain ⟨-, i4⟩ := C02_bond_ends_in_cell nx ny b hb
    rw [mem_buildSiteList] at i4
    have hk4 : b.k < 4 := by omega
    have q := (meanNet_values hx0 hy0 h.1 i1).2 ⟨b.k, hk4⟩ init fun p q => O p.1 p.2 q.1 q.2
    have q' := (meanNet_values hx0 hy0 h'.1 i1).2 ⟨b.k, hk4⟩ init' fun p q => O p.1 p.2 q.1 q.2
    dsimp only at q q'
    rw [← i3] at q q'
    refine q'.trans (Eq.trans ?_ q.symm)
    obtain ⟨c, hc, e⟩ := hf b.s1 i1
    obtain ⟨d, hd, e'⟩ := hf b.s2 i4
    have e1 : (fun p : Fin pD × Fin pD => netVec s'.net b.s1 p.1 * netVec s'.net b.s2 p.2) =
        (c * d) • fun p : Fin pD × Fin pD => netVec s.net b.s1 p.1 * netVec s.net b.s2 p.2 := by
      funext p
      rw [e, e']
      simp only [Pi.smul_apply, smul_eq_mul]
      ring
    rw [e1, ratio_smul _ _ (mul_ne_zero hc hd)]
  rw [measure_eq hx0 hy0 s h.sound, measure_eq hx0 hy0 s' h'.sound, hb]
  refine measure_congr model _ _ (fun x hx => ?_) fun b hb => ?_
  · funext O
    rw [k1 x (mem_buildSiteList.1 hx)]
  · funext O
    rw [k2 b (h.sound.mem.1 hb)]

/-! ### Calls -/

/-- What every sensible call keeps on the ranks: they are in step and hold such an object. -/
def MeanTeam (ws nx ny : ℕ) (s : Ranks 1 pD ℝ) : Prop := InSync ws s.nets (s.nets 0) ∧ MeanState nx ny (s.view 0)

theorem MeanTeam.sync {ws : ℕ} {s : Ranks 1 pD ℝ} (h : MeanTeam ws nx ny s) : Sync ws nx ny s := ⟨h.1, h.2.sound⟩

section calls

variable (hx : 2 ≤ nx) (hy : 2 ≤ ny) (D : Team F 1 pD ℝ) (hD : D.Works nx ny) (hcx : D.cx = false) (hω : ∀ r < D.ws, DrawsNonzero (D.ω r))

include hx hy hD hω

theorem team_renormalize (c : Config F) (e : Evolution 1 pD ℝ) (hc : CutsBelowOne c) (hk : KnownProjectors c) (s : Ranks 1 pD ℝ)
    (h : MeanTeam D.ws nx ny s) :
    let r := Set.renormalize (distComp D c e) c.strings s
    MeanTeam D.ws nx ny r.1 ∧ r.2 = none ∧ netVec (r.1.nets 0) = netVec (s.nets 0) ∧ r.1.initialized = s.initialized ∧ r.1.bonds = s.bonds := by
  intro r
  obtain ⟨q1, q2, q3, q4, q5, -⟩ := distRenormalize_ok D (by omega) (by omega) hD c e s h.sync
  obtain ⟨w1, w2, w3, -⟩ := hD
  refine ⟨⟨q1.1, ?_, q1.2.2⟩, q5 (setCalculate_known hk), funext fun x => netVec_congr (congrFun q2 x), q3, q4⟩
  have hok := setCalculate_known hk
  cases hp : setCalculate c.strings.projectors with
  | error x => rw [hp] at hok; cases hok
  | ok pk =>
    obtain ⟨ns, n, e', i1, i2, -⟩ := MeanNet.distSweeps (st := c.proj D.first (Set.svdKind c.strings.svdType)) (pk := pk) hc.1 hc.2 hω w1 w2 w3 (by omega)
      (by omega) c.sweeps s.moves s.nets (s.nets 0) h.2.1 h.1
    have hr : r.1.nets 0 = n := by
      show (Set.renormalize (distComp D c e) c.strings s).1.nets 0 = n
      unfold Set.renormalize
      rw [hp]
      show (distSweeps D c pk (Set.svdKind c.strings.svdType) s).1.nets 0 = n
      unfold distSweeps
      rw [e']
      exact i1 0 (by omega)
    show MeanNet nx ny (r.1.nets 0)
    rw [hr]
    exact i2

include hcx

theorem team_evolveFn (c : Config F) (e : Evolution 1 pD ℝ) (hc : CutsBelowOne c) (hu : c.strings.updateType = "full" → SolvableUpdate c.update)
    (hk : KnownNames (.evolve c e : Call F 1 pD ℝ)) (s : Ranks 1 pD ℝ) (h : MeanTeam D.ws nx ny s) :
    let r := Set.evolveFn (distComp D c e) c.strings s
    MeanTeam D.ws nx ny r.1 ∧ r.2 = none ∧ r.1.initialized = s.initialized ∧ r.1.bonds = listAfter e.steps s.bonds ∧
      MeanRun nx ny (twoSiteGate e.model e.dtau) (schedule e.steps s.bonds) (netVec (s.nets 0)) (netVec (r.1.nets 0)) := by
  intro r
  have hmem : ∀ b ∈ s.bonds, b ∈ buildBondList nx ny := fun b hb => h.sync.2.mem.1 hb
  have hr : r = Set.evolveFn (distComp D c e) c.strings s := rfl
  clear_value r
  unfold Set.evolveFn at hr
  have hok := hk.2
  cases hup : createTensorUpdater c.strings.updateType with
  | error x => rw [hup] at hok; cases hok
  | ok u =>
    rw [hup] at hr
    cases u with
    | simple =>
      obtain ⟨q1, q2, q3, -⟩ := distSimpleLoop_ok D (by omega) (by omega) hD c e s h.sync
      obtain ⟨w1, -⟩ := hD
      have m1 := (mean_evolveFn hx hy D.first hcx (hω 0 (by omega)) c e hc hu (s.view 0) h.2).1
      have m2 := evolveFn_meanRun hx hy D.first hcx (hω 0 (by omega)) c e hc hu hk (s.view 0) h.2
      unfold Set.evolveFn at m1 m2
      rw [hup] at m1 m2
      dsimp only at hr
      rw [hr]
      exact ⟨⟨q1.1, m1⟩, q3 hcx, q2, m2.2⟩
    | full =>
      have hfull : c.strings.updateType = "full" := by
        unfold createTensorUpdater at hup
        split_ifs at hup with h1 h2
        · exact h1
        · cases hup
      obtain ⟨u1, u2, u3⟩ := hu hfull
      dsimp only at hr
      have hok := setCalculate_known hk.1
      cases hp : setCalculate c.strings.projectors with
      | error x => rw [hp] at hok; cases hok
      | ok pk =>
        rw [hp] at hr
        dsimp only at hr
        obtain ⟨w1, w2, w3, -⟩ := hD
        have hstep := fun (t : (ℕ → Net (Ten (Fin 1) (Fin pD) ℝ)) × ℕ) b (hb : b ∈ buildBondList nx ny)
            (ht : InSync D.ws t.1 (t.1 0) ∧ MeanNet nx ny (t.1 0)) =>
          MeanNet.distStep (st := c.proj D.first (Set.svdKind c.strings.svdType)) (pk := pk) hc.1 hc.2 hω w1 w2 w3 hx hy D.la D.fo D.rep c.update u1 u2 u3
            e.model e.dtau t ht.1 ht.2 hb
        have i1 := evolveLoop_inv (fun t : (ℕ → Net (Ten (Fin 1) (Fin pD) ℝ)) × ℕ => InSync D.ws t.1 (t.1 0) ∧ MeanNet nx ny (t.1 0))
          (· ∈ buildBondList nx ny) (fun t b hb ht => (hstep t b hb ht).1) e.steps s.bonds hmem (s.nets, s.moves) ⟨h.1, h.2.1⟩
        have i2 := evolveLoop_noraise (fun t : (ℕ → Net (Ten (Fin 1) (Fin pD) ℝ)) × ℕ => InSync D.ws t.1 (t.1 0) ∧ MeanNet nx ny (t.1 0))
          (· ∈ buildBondList nx ny) (fun t b hb ht => ⟨(hstep t b hb ht).1, (hstep t b hb ht).2.1⟩) e.steps s.bonds hmem (s.nets, s.moves) ⟨h.1, h.2.1⟩
        obtain ⟨r1, r2⟩ := loop_meanRun
          (distBondStep (c.proj D.first (Set.svdKind c.strings.svdType)) pk D.ws D.ω D.la D.fo D.rep c.update (twoSiteGate e.model e.dtau))
          (fun t => netVec (t.1 0)) (twoSiteGate e.model e.dtau)
          (fun t : (ℕ → Net (Ten (Fin 1) (Fin pD) ℝ)) × ℕ => InSync D.ws t.1 (t.1 0) ∧ MeanNet nx ny (t.1 0)) hstep e.steps s.bonds hmem
          (s.nets, s.moves) ⟨h.1, h.2.1⟩
        rw [hr]
        exact ⟨⟨i1.1, i1.2, bonds_after _ _ _ h.2.2 _⟩, i2, rfl, r2, r1⟩

/-- A call of `evolve` on initialised ranks. -/
theorem team_evolve (c : Config F) (e : Evolution 1 pD ℝ) (hc : Sensible nx ny (.evolve c e : Call F 1 pD ℝ))
    (hk : KnownNames (.evolve c e : Call F 1 pD ℝ)) (s : Ranks 1 pD ℝ) (h : MeanTeam D.ws nx ny s) (hs : s.initialized = true) :
    let r := distExec D s (.evolve c e)
    MeanTeam D.ws nx ny r.1 ∧ r.2 = none ∧ r.1.initialized = true ∧ r.1.bonds = listAfter e.steps s.bonds ∧
      MeanRun nx ny (twoSiteGate e.model e.dtau) (schedule e.steps s.bonds) (netVec (s.nets 0)) (netVec (r.1.nets 0)) := by
  intro r
  obtain ⟨h1, h2, -⟩ := hc
  obtain ⟨a1, a2, a3, a4, a5⟩ := team_renormalize hx hy D hD hω c e h1 hk.1 s h
  obtain ⟨b1, b2, b3, b4, b5⟩ := team_evolveFn hx hy D hD hcx hω c e h1 h2 hk _ a1
  obtain ⟨c1, c2, c3, c4, c5⟩ := team_renormalize hx hy D hD hω c e h1 hk.1 _ b1
  have step : ∀ (r : Ranks 1 pD ℝ × Option PyErr) (f : Ranks 1 pD ℝ → Ranks 1 pD ℝ × Option PyErr), r.2 = none → Set.andThen r f = f r.1 := by
    rintro ⟨s, x⟩ f rfl
    rfl
  have e0 : r = Set.renormalize (distComp D c e) c.strings
      (Set.evolveFn (distComp D c e) c.strings (Set.renormalize (distComp D c e) c.strings s).1).1 := by
    show distExec D s (.evolve c e) = _
    rw [distExec_evolve D s c e hs, step _ (Set.evolveFn (distComp D c e) c.strings) a2, step _ _ b2]
  rw [e0]
  refine ⟨c1, c2, by rw [c4, b3, a4, hs], by rw [c5, b4, a5], ?_⟩
  rw [c3]
  rw [a5, a3] at b5
  exact b5

/-- A script on initialised ranks. -/
theorem team_meanField (cs : List (Call F 1 pD ℝ)) (hcs : ∀ c ∈ cs, Sensible nx ny c ∧ KnownNames c) (s : Ranks 1 pD ℝ) (h : MeanTeam D.ws nx ny s)
    (hs : s.initialized = true) :
    MeanTeam D.ws nx ny (distRun D cs s).1 ∧ (distRun D cs s).2 = none ∧
      MeanField nx ny (evolutions cs) s.bonds (netVec (s.nets 0)) (netVec ((distRun D cs s).1.nets 0)) ∧
      (distRun D cs s).1.bonds = bondsAfter (evolutions cs) s.bonds := by
  induction cs generalizing s with
  | nil => exact ⟨h, rfl, fun _ _ => rfl, rfl⟩
  | cons c cs ih =>
    obtain ⟨hc, hk⟩ := hcs c (by simp)
    have ih' := ih fun c hc => hcs c (by simp [hc])
    have step : ∀ r : Ranks 1 pD ℝ × Option PyErr, r.2 = none → Set.andThen r (distRun D cs) = distRun D cs r.1 := by
      rintro ⟨s, x⟩ rfl
      rfl
    have e0 : distRun D (c :: cs) s = Set.andThen (distExec D s c) (distRun D cs) := rfl
    rw [e0]
    cases c with
    | setChi chi =>
      obtain ⟨g1, ⟨⟨e1, e2, f, hw⟩, -, φ, hp⟩, g3⟩ := h
      exact ih' _ ⟨fun r hr => (by
        show { s.nets r with chi := chi } = { s.nets 0 with chi := chi }
        rw [g1 r hr]), ⟨⟨e1, e2, f, hw.site, hw.corner, hw.edge⟩, hc, φ, hp.unit, hp.site, hp.corner, hp.edge⟩, g3⟩ hs
    | renormalize c =>
      have e : Evolution 1 pD ℝ := ⟨0, 0, ⟨fun _ => 0, fun _ => none⟩, fun _ _ _ _ _ _ => 0⟩
      obtain ⟨a1, a2, a3, a4, a5⟩ := team_renormalize hx hy D hD hω c e hc hk s h
      rw [distExec_renormalize D s c e, step _ a2]
      have i := ih' _ a1 (a4.trans hs)
      rw [a3, a5] at i
      exact i
    | evolve c e =>
      obtain ⟨a1, a2, a3, a4, a5⟩ := team_evolve hx hy D hD hcx hω c e hc hk s h hs
      rw [step _ a2]
      obtain ⟨i1, i2, i3, i4⟩ := ih' _ a1 a3
      rw [a4] at i3 i4
      exact ⟨i1, i2, ⟨_, a5, i3⟩, i4⟩

/-- A script on ranks that are not initialised. -/
theorem team_meanField_new (cs : List (Call F 1 pD ℝ)) (hcs : ∀ c ∈ cs, Sensible nx ny c ∧ KnownNames c) (A : Site → ATensor (Fin 1) (Fin pD) ℝ)
    (s : Ranks 1 pD ℝ) (h : MeanTeam D.ws nx ny s) (hs : s.initialized = false) (hb : s.bonds = buildBondList nx ny)
    (hv : netVec (s.nets 0) = siteVec A) :
    MeanTeam D.ws nx ny (distRun D cs s).1 ∧ (distRun D cs s).2 = none ∧
      MeanField nx ny (evolutions cs) (buildBondList nx ny) (startVec A (evolutions cs)) (netVec ((distRun D cs s).1.nets 0)) ∧
      (distRun D cs s).1.bonds = bondsAfter (evolutions cs) (buildBondList nx ny) := by
  induction cs generalizing s with
  | nil => exact ⟨h, rfl, fun x _ => congrFun hv x, hb⟩
  | cons c cs ih =>
    obtain ⟨hc, hk⟩ := hcs c (by simp)
    have ih' := ih fun c hc => hcs c (by simp [hc])
    have step : ∀ r : Ranks 1 pD ℝ × Option PyErr, r.2 = none → Set.andThen r (distRun D cs) = distRun D cs r.1 := by
      rintro ⟨s, x⟩ rfl
      rfl
    have e0 : distRun D (c :: cs) s = Set.andThen (distExec D s c) (distRun D cs) := rfl
    cases c with
    | setChi chi =>
      obtain ⟨g1, ⟨⟨e1, e2, f, hw⟩, -, φ, hp⟩, g3⟩ := h
      rw [e0]
      exact ih' _ ⟨fun r hr => (by
        show { s.nets r with chi := chi } = { s.nets 0 with chi := chi }
        rw [g1 r hr]), ⟨⟨e1, e2, f, hw.site, hw.corner, hw.edge⟩, hc, φ, hp.unit, hp.site, hp.corner, hp.edge⟩, g3⟩ hs hb hv
    | renormalize c =>
      have e : Evolution 1 pD ℝ := ⟨0, 0, ⟨fun _ => 0, fun _ => none⟩, fun _ _ _ _ _ _ => 0⟩
      obtain ⟨a1, a2, a3, a4, a5⟩ := team_renormalize hx hy D hD hω c e hc hk s h
      rw [e0, distExec_renormalize D s c e, step _ a2]
      exact ih' _ a1 (a4.trans hs) (a5.trans hb) (a3.trans hv)
    | evolve c e =>
      obtain ⟨k1, k2, -⟩ := distInit_ok D (by omega) (by omega) hD e.start s h.sync
      obtain ⟨w1, -, -, w4⟩ := id hD
      have hn0 : (distInitSites D e.start s).nets 0 = freshNet nx ny (s.nets 0).chi e.start := by
        obtain ⟨f1, f2, -⟩ := h.2.1.fit
        show freshNet (s.nets 0).nx (s.nets 0).ny (s.nets 0).chi (D.own 0 e.start) = _
        rw [w4 0 (by omega), show (s.nets 0).nx = nx from f1, show (s.nets 0).ny = ny from f2]
      have hm : MeanTeam D.ws nx ny (distInitSites D e.start s) := by
        refine ⟨k1.1, ?_, k1.2.2⟩
        show MeanNet nx ny ((distInitSites D e.start s).nets 0)
        rw [hn0]
        exact meanNet_fresh (by omega) (by omega) h.2.1.chi _ hc.2.2
      have hb' : (distInitSites D e.start s).bonds = buildBondList nx ny := by
        obtain ⟨f1, f2, -⟩ := h.2.1.fit
        show buildBondList (s.nets 0).nx (s.nets 0).ny = _
        rw [show (s.nets 0).nx = nx from f1, show (s.nets 0).ny = ny from f2]
      have i := team_meanField hx hy D hD hcx hω (.evolve c e :: cs) hcs (distInitSites D e.start s) hm rfl
      have e1 : distRun D (.evolve c e :: cs) s = distRun D (.evolve c e :: cs) (distInitSites D e.start s) := by
        show Set.andThen (distExec D s (.evolve c e)) (distRun D cs) = Set.andThen (distExec D (distInitSites D e.start s) (.evolve c e)) (distRun D cs)
        rw [distExec_evolve_init D s c e hs]
      rw [hb', hn0] at i
      rw [e1]
      exact i

omit hω hcx in
theorem team_new {chi : ℕ} (hchi : 0 < chi) (A : Site → ATensor (Fin 1) (Fin pD) ℝ) (hA : ∀ s, InCell nx ny s → A s ≠ 0) :
    MeanTeam D.ws nx ny (distNew D nx ny chi A) ∧ netVec ((distNew D nx ny chi A).nets 0) = siteVec A := by
  obtain ⟨k1, -⟩ := distNew_ok D (by omega) (by omega) hD chi A
  obtain ⟨w1, -, -, w4⟩ := hD
  have hn0 : (distNew D nx ny chi A).nets 0 = freshNet nx ny chi A := by
    show freshNet nx ny chi (D.own 0 A) = _
    rw [w4 0 (by omega)]
  refine ⟨⟨k1.1, ?_, k1.2.2⟩, by rw [hn0]; rfl⟩
  show MeanNet nx ny ((distNew D nx ny chi A).nets 0)
  rw [hn0]
  exact meanNet_fresh (by omega) (by omega) hchi A hA

/-- What is true after a script. -/
theorem team_run {chi : ℕ} (hchi : 0 < chi) (A : Site → ATensor (Fin 1) (Fin pD) ℝ) (hA : ∀ s, InCell nx ny s → A s ≠ 0)
    (cs : List (Call F 1 pD ℝ)) (hcs : ∀ c ∈ cs, Sensible nx ny c ∧ KnownNames c) :
    let r := distRun D cs (distNew D nx ny chi A)
    MeanTeam D.ws nx ny r.1 ∧ r.2 = none ∧
      MeanField nx ny (evolutions cs) (buildBondList nx ny) (startVec A (evolutions cs)) (netVec (r.1.nets 0)) ∧
      r.1.bonds = bondsAfter (evolutions cs) (buildBondList nx ny) :=
  team_meanField_new hx hy D hD hcx hω cs hcs A _ (team_new hx hy D hD hchi A hA).1 rfl rfl (team_new hx hy D hD hchi A hA).2

/-- **C117 (mean-field theory).** Real dtype, bond dimension one, cells from 2 × 2, numbers of ranks that can share the work, both kinds of projectors,
although the ranks compute half of them from tensors that a single process would have replaced: a script raises on no rank, the ranks stay equal, and the
product states they hold are those of time-dependent mean-field theory. -/
theorem C117_refines {chi : ℕ} (hchi : 0 < chi) (A : Site → ATensor (Fin 1) (Fin pD) ℝ) (hA : ∀ s, InCell nx ny s → A s ≠ 0)
    (cs : List (Call F 1 pD ℝ)) (hcs : ∀ c ∈ cs, Sensible nx ny c ∧ KnownNames c) :
    let r := distRun D cs (distNew D nx ny chi A)
    r.2 = none ∧ ∀ k < D.ws, r.1.nets k = r.1.nets 0 ∧
      MeanField nx ny (evolutions cs) (buildBondList nx ny) (startVec A (evolutions cs)) (siteVec (siteTensors (bare (r.1.nets k)))) := by
  intro r
  obtain ⟨h1, h2, h3, -⟩ := team_run hx hy D hD hcx hω hchi A hA cs hcs
  refine ⟨h2, fun k hk => ⟨h1.1 k hk, ?_⟩⟩
  rw [show r.1.nets k = r.1.nets 0 from h1.1 k hk]
  exact h3

/-- **C117 (values).** Every one-site and two-site value a rank measures is the one of the product of the site tensors it holds. -/
theorem C117_values {chi : ℕ} (hchi : 0 < chi) (A : Site → ATensor (Fin 1) (Fin pD) ℝ) (hA : ∀ s, InCell nx ny s → A s ≠ 0)
    (cs : List (Call F 1 pD ℝ)) (hcs : ∀ c ∈ cs, Sensible nx ny c ∧ KnownNames c) :
    let r := distRun D cs (distNew D nx ny chi A)
    ∀ k < D.ws, let v := siteVec (siteTensors (bare (r.1.nets k)))
    ∀ x, InCell nx ny x → v x ≠ 0 ∧
      (∀ O : Matrix (Fin pD) (Fin pD) ℝ, siteVal (r.1.nets k) x O = .ok (qform Oᵀ (v x) / normSq (v x))) ∧
      ∀ (j : Fin 4) (init : Fin pD → Fin pD → Fin pD → Fin pD → ℝ) (O : Matrix (Fin pD × Fin pD) (Fin pD × Fin pD) ℝ),
        bondVal init (r.1.nets k) ⟨x, neighbour nx ny x j.val, j.val⟩ (fun k1 k2 b1 b2 => O (k1, k2) (b1, b2)) =
          .ok (qform Oᵀ (fun p => v x p.1 * v (neighbour nx ny x j.val) p.2) /
            normSq fun p : Fin pD × Fin pD => v x p.1 * v (neighbour nx ny x j.val) p.2) := by
  intro r k hk v x hxc
  have h1 := (team_run hx hy D hD hcx hω hchi A hA cs hcs).1
  have hn : MeanNet nx ny (r.1.nets k) := by
    rw [show r.1.nets k = r.1.nets 0 from h1.1 k hk]
    exact h1.2.1
  exact ⟨hn.vec_ne hxc, meanNet_values (by omega) (by omega) hn hxc⟩

/-- **C117 (processes).** Where no step of the theory has a choice, as with small time steps (C111), every rank measures what a single process measures
that makes the same calls of `evolve` with any other settings: projectors, update, solver, library, random numbers, boundary dimensions and sweeps. -/
theorem C117_processes (M : Machine F' 1 ℝ) (hM : M.cx = false) (hωM : DrawsNonzero M.ω) {chi chi' : ℕ} (hchi : 0 < chi) (hchi' : 0 < chi')
    (A : Site → ATensor (Fin 1) (Fin pD) ℝ) (hA : ∀ s, InCell nx ny s → A s ≠ 0) (cs : List (Call F 1 pD ℝ)) (cs' : List (Call F' 1 pD ℝ))
    (hcs : ∀ c ∈ cs, Sensible nx ny c ∧ KnownNames c) (hcs' : ∀ c ∈ cs', Sensible nx ny c ∧ KnownNames c)
    (he : evolutions cs' = evolutions cs) (hT : NoChoice nx ny (evolutions cs) (buildBondList nx ny) (startVec A (evolutions cs))) :
    ∀ k < D.ws, ∀ init init' model, Session.measure init model ((distRun D cs (distNew D nx ny chi A)).1.view k) =
      Session.measure init' model (runCatching M cs' (new nx ny chi' A)) := by
  intro k hk init init' model
  obtain ⟨h1, -, h3, h4⟩ := team_run hx hy D hD hcx hω hchi A hA cs hcs
  have n0 := mean_new (pD := pD) (show 0 < nx by omega) (show 0 < ny by omega) hchi' A hA
  obtain ⟨f2, b2⟩ := run_meanField_new hx hy M hM hωM cs' hcs' A _ n0 rfl rfl (netVec_fresh nx ny chi' A)
  rw [he] at f2 b2
  have hs := mean_run hx hy M hM hωM cs' (fun c hc => (hcs' c hc).1) _ n0
  have hf := C111_unique _ _ (fun b hb => hb) _ _ _ _ (fun _ _ => ⟨1, one_ne_zero, (one_smul _ _).symm⟩) hT f2 h3
  have hv : (distRun D cs (distNew D nx ny chi A)).1.view k = (distRun D cs (distNew D nx ny chi A)).1.view 0 := by
    unfold Ranks.view
    rw [h1.1 k hk]
  rw [hv]
  exact measure_same hx hy hs h1.2 (h4.trans b2.symm) hf init' init model

/-- **C117 (energy).** The energy every rank returns is the one of the state it holds, on every finite lattice made of copies of the cell, and never
below the lowest one. -/
theorem C117_energy [NeZero N] (σ : Bond → Equiv.Perm (Fin N)) {chi : ℕ} (hchi : 0 < chi) (A : Site → ATensor (Fin 1) (Fin pD) ℝ)
    (hA : ∀ s, InCell nx ny s → A s ≠ 0) (cs : List (Call F 1 pD ℝ)) (hcs : ∀ c ∈ cs, Sensible nx ny c ∧ KnownNames c)
    (m : ModelTerms (Fin pD) ℝ) (model : MeasModel (Fin pD → Fin pD → ℝ) (Fin pD → Fin pD → Fin pD → Fin pD → ℝ)) (hmm : Measures m model)
    (hcl : Meas.Clean model (buildSiteList nx ny) (buildBondList nx ny)) (init : Fin pD → Fin pD → Fin pD → Fin pD → ℝ) (E₀ : ℝ)
    (hE : IsGroundEnergy (latticeHamiltonian hx hy σ m) E₀) :
    let r := distRun D cs (distNew D nx ny chi A)
    ∃ d, ∀ k < D.ws, Session.measure init model (r.1.view k) = .ok d ∧
      let ψ := latticeState (nx := nx) (ny := ny) σ (siteTensors (bare (r.1.nets k)))
      ψ ≠ 0 ∧ d.get? "Energy" = some (energyOf (latticeHamiltonian hx hy σ m) ψ / (N * nx * ny : ℕ)) ∧
        E₀ / (N * nx * ny : ℕ) ≤ energyOf (latticeHamiltonian hx hy σ m) ψ / (N * nx * ny : ℕ) := by
  intro r
  have h1 := (team_run hx hy D hD hcx hω hchi A hA cs hcs).1
  have hn : MeanNet nx ny (r.1.nets 0) := h1.2.1
  obtain ⟨hψ, d, e1, e2⟩ := energy_of_values hx hy σ (r.1.view 0) h1.2 (fun x hxc => ⟨hn.vec_ne hxc, meanNet_values (by omega) (by omega) hn hxc⟩) m model hmm hcl init
  refine ⟨d, fun k hk => ?_⟩
  have hk0 : r.1.nets k = r.1.nets 0 := h1.1 k hk
  have hv : r.1.view k = r.1.view 0 := by
    unfold Ranks.view
    rw [hk0]
  rw [hv, hk0]
  exact ⟨e1, hψ, e2, div_le_div_of_nonneg_right (hE _ hψ) (Nat.cast_nonneg _)⟩

end calls

/-! ### The hypotheses are met -/

/-- Non-vacuity: two ranks with either kind of projectors, updates and random numbers that are one; one process with other settings. -/
example (hx : 2 ≤ nx) (hy : 2 ≤ ny) (la la' : Lapack ℝ) (fo : Als.FloatOps ℝ) (svd svd' : String) (method method' : Als.Solver) (n : ℕ) (dtau : ℝ)
    (m : ModelTerms (Fin 2) ℝ) (hsm : SmallStep nx ny ⟨dtau, n, m, fun s _ _ _ _ => neel s⟩) (init : Fin 2 → Fin 2 → Fin 2 → Fin 2 → ℝ)
    (model : MeasModel (Fin 2 → Fin 2 → ℝ) (Fin 2 → Fin 2 → Fin 2 → Fin 2 → ℝ)) :
    let D : Team ℝ 1 2 ℝ := ⟨2, la, fo, id, fun _ _ _ _ _ _ _ _ => 1, false, fun _ A => A⟩
    let M : Machine ℝ 1 ℝ := ⟨la', fo, id, fun _ _ _ _ _ _ _ => 1, false⟩
    ∀ k < 2, Session.measure init model ((distRun D (startScript svd method n dtau (fun s _ _ _ _ => neel s) m)
        (distNew D nx ny 3 fun s _ _ _ _ => neel s)).1.view k) =
      Session.measure init model (runCatching M (startScript svd' method' n dtau (fun s _ _ _ _ => neel s) m) (new nx ny 7 fun s _ _ _ _ => neel s)) := by
  intro D M k hk
  refine C117_processes (nx := nx) (ny := ny) hx hy D ⟨le_rfl, Or.inl rfl, Or.inl rfl, fun _ _ _ => rfl⟩ rfl (fun _ _ => ones_drawn) M rfl ones_drawn
    (Nat.succ_pos 2) (Nat.succ_pos 6) (fun s _ _ _ _ => neel s) (fun s _ => neel_tensor_ne s) (startScript svd method n dtau (fun s _ _ _ _ => neel s) m)
    (startScript svd' method' n dtau (fun s _ _ _ _ => neel s) m) (startScript_ok _ _ _ _ _ neel_tensor_ne _)
    (startScript_ok _ _ _ _ _ neel_tensor_ne _) rfl ?_ k hk init init model
  refine C111_small _ (fun e he => ?_) _ (fun b hb => hb) _ fun s _ => ?_
  · simp only [startScript, evolutions, List.mem_cons, List.not_mem_nil, or_false] at he
    rcases he with rfl | rfl
    · exact hsm
    · exact hsm
  · exact siteVec_ne (neel_tensor_ne s)

end AceTN
