import Verif.Lemmas.DistMove
import Verif.Props.Session

/-! Calls on several ranks. -/

set_option autoImplicit false
set_option linter.unusedSectionVars false

namespace AceTN.Session

open _root_.AceTN.Spec

variable {𝕜 F : Type} [RCLike 𝕜] {bD pD nx ny N : ℕ}

/-! ### Distributed sweeps and bond updates -/

theorem serialOf_mem {ms : List ((ℕ × ℕ) ⊕ (ℕ × ℕ))} {m : (ℕ × ℕ) ⊕ (ℕ × ℕ)} (h : m ∈ ms) :
    (pairOf m).1 ∈ serialOf ms ∧ (pairOf m).2 ∈ serialOf ms := by
  induction ms with
  | nil => cases h
  | cons m' ms ih =>
    rw [serialOf_cons]
    rcases List.mem_cons.1 h with rfl | h
    · exact ⟨List.mem_cons_self, List.mem_cons_of_mem _ List.mem_cons_self⟩
    · exact ⟨List.mem_cons_of_mem _ (List.mem_cons_of_mem _ (ih h).1), List.mem_cons_of_mem _ (List.mem_cons_of_mem _ (ih h).2)⟩

theorem serialOf_length (ms : List ((ℕ × ℕ) ⊕ (ℕ × ℕ))) : (serialOf ms).length = 2 * ms.length := by
  induction ms with
  | nil => rfl
  | cons m ms ih =>
    rw [serialOf_cons, List.length_cons, List.length_cons, List.length_cons, ih]
    omega

/-- The random numbers of a single process that does the moves of the ranks one after the other. -/
def aloneDraws {B : Type} [Fintype B] (ws nx ny : ℕ) (ω : ℕ → ℕ → Draws B 𝕜) (t : ℕ) : Draws B 𝕜 := mixDraws ws nx ny fun r => ω r (t / 2)

theorem ctmrgDist_ok (hx : 0 < nx) (hy : 0 < ny) (st : ProjSettings 𝕜) (pk : ProjKind) (ws : ℕ) (hws : 2 ≤ ws) (s1 : SharingWorks ws nx)
    (s2 : SharingWorks ws ny) (ω : ℕ → ℕ → Draws (Fin bD) 𝕜) (n t : ℕ) (nets : ℕ → Net (Ten (Fin bD) (Fin pD) 𝕜))
    (net : Net (Ten (Fin bD) (Fin pD) 𝕜)) (h : FitNet nx ny net) (hs : InSync ws nets net) :
    ∃ ns n', ctmrgDistDrawn st pk ws ω t n nets = .ok ns ∧ InSync ws ns n' ∧ FitNet nx ny n' ∧ n'.A = net.A ∧
      (pk = .half → ctmrgDrawn st .half (aloneDraws ws nx ny ω) (2 * t) n net = .ok n') := by
  induction n generalizing t nets net with
  | zero => exact ⟨nets, net, rfl, hs, h, rfl, fun _ => rfl⟩
  | succ n ih =>
    obtain ⟨rfl, rfl, f, hw⟩ := h
    have h0 := hs 0 (by omega)
    obtain ⟨ns, n1, f', e, g1, g2, g3, g4, g5, g6⟩ := runDist_ok st pk ws hws ω (sweepMovesDist net.nx net.ny) t nets net f hw hx hy s1 s2 hs
      (fun m hm => by
        obtain ⟨m1, m2⟩ := serialOf_mem hm
        rw [serialOf_sweep] at m1 m2
        exact ⟨valid_of_range _ (sweepMoves_range hx hy _ m1), valid_of_range _ (sweepMoves_range hx hy _ m2)⟩)
    obtain ⟨ns', n2, e', i1, i2, i3, i4⟩ := ih (t + (sweepMovesDist net.nx net.ny).length) ns n1 ⟨g3, g4, f', g2⟩ g1
    refine ⟨ns', n2, ?_, i1, i2, i3.trans g5, fun hp => ?_⟩
    · show (runDistDrawn st pk ws ω t (sweepMovesDist (nets 0).nx (nets 0).ny) nets >>= fun nets' =>
        ctmrgDistDrawn st pk ws ω (t + (sweepMovesDist (nets 0).nx (nets 0).ny).length) n nets') = _
      rw [h0, e]
      exact e'
    · have q := g6 hp
      rw [serialOf_sweep] at q
      have q' := i4 hp
      have hl := serialOf_length (sweepMovesDist net.nx net.ny)
      rw [serialOf_sweep] at hl
      rw [Nat.mul_add, ← hl] at q'
      show (runDrawn st .half (aloneDraws ws net.nx net.ny ω) (2 * t) (sweepMoves net.nx net.ny) net >>= fun net' =>
        ctmrgDrawn st .half (aloneDraws ws net.nx net.ny ω) (2 * t + (sweepMoves net.nx net.ny).length) n net') = _
      rw [show runDrawn st .half (aloneDraws ws net.nx net.ny ω) (2 * t) (sweepMoves net.nx net.ny) net = .ok n1 from q]
      exact q'

/-- The absorption of a bond by one process and by several. -/
theorem absorb_valid {b : Bond} (hb : b ∈ buildBondList nx ny) :
    ∃ m, absorbMovesDist b = [m] ∧ (pairOf m).1.Valid nx ny ∧ (pairOf m).2.Valid nx ny ∧
      (absorbMoves b = [(pairOf m).1, (pairOf m).2] ∨ ∃ y1 y2, m = .inr (y1, y2) ∧ absorbMoves b = [(pairOf m).2, (pairOf m).1]) := by
  obtain ⟨c1, c2⟩ := C02_bond_ends_in_cell nx ny b hb
  rw [mem_buildSiteList] at c1 c2
  obtain ⟨-, hk, -⟩ := ((C02_bond_list nx ny).2.2 b).1 hb
  obtain ⟨s1, s2, k⟩ := b
  dsimp only at c1 c2 hk
  rcases hk with rfl | rfl
  · exact ⟨.inl (s1.1, s2.1), rfl, c1.1, c2.1, Or.inl rfl⟩
  · exact ⟨.inr (s2.2, s1.2), rfl, c2.2, c1.2, Or.inr ⟨_, _, rfl, rfl⟩⟩

variable [NeZero bD] [NeZero pD]

/-- The update of a bond on networks that are equal. -/
theorem distBondStep_ok (hx : 0 < nx) (hy : 0 < ny) (st : ProjSettings 𝕜) (pk : ProjKind) (ws : ℕ) (hws : 2 ≤ ws) (s1 : SharingWorks ws nx)
    (s2 : SharingWorks ws ny) (ω : ℕ → ℕ → Draws (Fin bD) 𝕜) (la : Lapack 𝕜) (fo : Als.FloatOps F) (rep : ℝ → F) (cfg : Full.Settings F)
    (gates : Bond → Fin pD → Fin pD → Fin pD → Fin pD → 𝕜) (s : (ℕ → Net (Ten (Fin bD) (Fin pD) 𝕜)) × ℕ) {b : Bond}
    (hb : b ∈ buildBondList nx ny) (h : FitNet nx ny (s.1 0)) (hs : InSync ws s.1 (s.1 0)) :
    let r := Full.distBondStep st pk ws ω la fo rep cfg gates s b
    InSync ws r.1.1 (r.1.1 0) ∧ FitNet nx ny (r.1.1 0) ∧ (cfg.als_method = .pinv → r.2 = none) ∧
      (pk = .half → Full.fullBondStep st .half (aloneDraws ws nx ny ω) la fo rep cfg none gates (s.1 0, 2 * s.2) b =
        ((r.1.1 0, 2 * r.1.2), r.2)) := by
  obtain ⟨nets, t⟩ := s
  dsimp only at h hs
  intro r
  cases hq : Full.numUpdate la fo rep cfg none gates (nets 0) b with
  | none =>
    have e : r = ((nets, t), some .runtimeError) := by
      show Full.distBondStep st pk ws ω la fo rep cfg gates (nets, t) b = _
      unfold Full.distBondStep
      dsimp only
      rw [hq]
    rw [e]
    refine ⟨hs, h, fun hp => ?_, fun _ => ?_⟩
    · obtain ⟨rfl, rfl, f, hw⟩ := h
      obtain ⟨q, hq'⟩ := numUpdate_returns hw hx hy hb la fo rep cfg hp none gates
      rw [hq] at hq'
      cases hq'
    · unfold Full.fullBondStep
      dsimp only
      rw [hq]
  | some q =>
    cases q with
    | error x =>
      have e : r = ((nets, t), some x) := by
        show Full.distBondStep st pk ws ω la fo rep cfg gates (nets, t) b = _
        unfold Full.distBondStep
        dsimp only
        rw [hq]
      rw [e]
      refine ⟨hs, h, fun hp => ?_, fun _ => ?_⟩
      · obtain ⟨rfl, rfl, f, hw⟩ := h
        obtain ⟨q, hq'⟩ := numUpdate_returns hw hx hy hb la fo rep cfg hp none gates
        rw [hq] at hq'
        cases hq'
      · unfold Full.fullBondStep
        dsimp only
        rw [hq]
    | ok q =>
      obtain ⟨a1, a2⟩ := q
      obtain ⟨m, hm, v1, v2, hab⟩ := absorb_valid hb
      set net := writeSite (writeSite (nets 0) b.s1 a1) b.s2 a2 with hnet
      obtain ⟨e1, e2, f, hw⟩ := h
      have n1 : net.nx = nx := e1
      have n2 : net.ny = ny := e2
      have hw' : Wired net f := wired_write (wired_write hw _ _) _ _
      have hs' : InSync ws (fun r => writeSite (writeSite (nets r) b.s1 a1) b.s2 a2) net := fun r hr => by
        dsimp only
        rw [hs r hr]
      clear_value net
      obtain ⟨ns, n, f', g, g1, g2, g3, g4, g5, g6⟩ := runDist_ok st pk ws hws ω [m] t _ net f hw' (n1 ▸ hx) (n2 ▸ hy) (n1 ▸ s1) (n2 ▸ s2) hs'
        (fun m' hm' => by rw [List.mem_singleton.1 hm', n1, n2]; exact ⟨v1, v2⟩)
      have e : r = ((ns, t + 1), none) := by
        show Full.distBondStep st pk ws ω la fo rep cfg gates (nets, t) b = _
        unfold Full.distBondStep
        dsimp only
        rw [hq]
        dsimp only
        rw [hm, g]
        rfl
      have h0 := g1 0 (by omega)
      rw [e]
      refine ⟨?_, ?_, fun _ => rfl, fun hp => ?_⟩
      · dsimp only
        rw [h0]
        exact g1
      · dsimp only
        rw [h0]
        exact ⟨g3.trans n1, g4.trans n2, f', g2⟩
      · have g6' := g6 hp
        rw [n1, n2, serialOf_cons] at g6'
        have key : runDrawn st .half (aloneDraws ws nx ny ω) (2 * t) (absorbMoves b) net = .ok n ∧ (absorbMoves b).length = 2 := by
          rcases hab with hab | ⟨y1, y2, rfl, hab⟩
          · rw [hab]
            exact ⟨g6', rfl⟩
          · rw [hab]
            refine ⟨?_, rfl⟩
            rw [← g6']
            simp only [runDrawn, Move.run_eq, bind, Except.bind, serialOf]
            unfold aloneDraws
            rw [show 2 * t / 2 = t by omega, show (2 * t + 1) / 2 = t by omega]
            exact congrArg Except.ok (up_down_comm_half _ y1 y2 net)
        unfold Full.fullBondStep
        dsimp only
        rw [hq]
        dsimp only
        rw [← hnet, key.1, key.2]
        dsimp only
        rw [h0]
        rfl

/-! ### Calls -/

/-- All ranks hold the same object, whose tensors fit together. -/
def Sync (ws nx ny : ℕ) (s : Ranks bD pD 𝕜) : Prop := InSync ws s.nets (s.nets 0) ∧ Sound nx ny (s.view 0)

/-- Numbers of ranks between which the work can be shared (C13), which create the same site tensors. -/
def Team.Works (D : Team F bD pD 𝕜) (nx ny : ℕ) : Prop :=
  2 ≤ D.ws ∧ SharingWorks D.ws nx ∧ SharingWorks D.ws ny ∧ ∀ r < D.ws, ∀ A, D.own r A = A

/-- A single process that does the work of the ranks. -/
def Team.alone (D : Team F bD pD 𝕜) (nx ny : ℕ) : Machine F bD 𝕜 := ⟨D.la, D.fo, D.rep, aloneDraws D.ws nx ny D.ω, D.cx⟩

/-- The object of such a process. -/
def Ranks.alone (s : Ranks bD pD 𝕜) : State bD pD 𝕜 := ⟨s.nets 0, s.bonds, s.initialized, 2 * s.moves⟩

variable (D : Team F bD pD 𝕜)

theorem distSweeps_ok (hx : 0 < nx) (hy : 0 < ny) (hD : D.Works nx ny) (c : Config F) (pk : ProjKind) (k : Set.SvdKind) (s : Ranks bD pD 𝕜)
    (h : Sync D.ws nx ny s) : ∃ s', distSweeps D c pk k s = (s', none) ∧ Sync D.ws nx ny s' ∧ (s'.nets 0).A = (s.nets 0).A ∧
      s'.initialized = s.initialized ∧ s'.bonds = s.bonds ∧ (pk = .half → sweeps (D.alone nx ny) c .half k s.alone = (s'.alone, none)) := by
  obtain ⟨w1, w2, w3, -⟩ := hD
  obtain ⟨ns, n, e, h1, h2, h3, h4⟩ := ctmrgDist_ok hx hy (c.proj D.first k) pk D.ws w1 w2 w3 D.ω c.sweeps s.moves s.nets (s.nets 0) h.2.1 h.1
  have h0 := h1 0 (by omega)
  refine ⟨{ s with nets := ns, moves := s.moves + c.sweeps * (sweepMovesDist (s.nets 0).nx (s.nets 0).ny).length }, ?_, ⟨?_, ?_, h.2.2⟩, ?_, rfl,
    rfl, fun hp => ?_⟩
  · unfold distSweeps
    rw [e]
  · dsimp only
    rw [h0]
    exact h1
  · show FitNet nx ny (ns 0)
    rw [h0]
    exact h2
  · dsimp only
    rw [h0, h3]
  · have h4' := h4 hp
    have hl := serialOf_length (sweepMovesDist (s.nets 0).nx (s.nets 0).ny)
    rw [serialOf_sweep] at hl
    unfold sweeps
    rw [show ctmrgDrawn (c.proj (D.alone nx ny) k) .half (D.alone nx ny).ω s.alone.moves c.sweeps s.alone.net = .ok n from h4']
    dsimp only [Ranks.alone]
    rw [hl, h0]
    refine Prod.ext ?_ rfl
    dsimp only
    congr 1
    ring

theorem distInit_ok (hx : 0 < nx) (hy : 0 < ny) (hD : D.Works nx ny) (start : Site → ATensor (Fin bD) (Fin pD) 𝕜) (s : Ranks bD pD 𝕜)
    (h : Sync D.ws nx ny s) : Sync D.ws nx ny (distInitSites D start s) ∧
      siteTensors (bare ((distInitSites D start s).nets 0)) = start ∧ initSites start s.alone = (distInitSites D start s).alone := by
  obtain ⟨w1, -, -, w4⟩ := hD
  have h0 : (distInitSites D start s).nets 0 = freshNet (s.nets 0).nx (s.nets 0).ny (s.nets 0).chi start := by
    show freshNet (s.nets 0).nx (s.nets 0).ny (s.nets 0).chi (D.own 0 start) = _
    rw [w4 0 (by omega)]
  have hs : Sound nx ny ((distInitSites D start s).view 0) := by
    have := initSites_sound hx hy start (s.view 0) h.2
    refine ⟨?_, this.2⟩
    show FitNet nx ny ((distInitSites D start s).nets 0)
    rw [h0]
    exact this.1
  refine ⟨⟨fun r hr => ?_, hs⟩, ?_, ?_⟩
  · rw [h0]
    show freshNet (s.nets r).nx (s.nets r).ny (s.nets r).chi (D.own r start) = _
    rw [w4 r hr, h.1 r hr]
  · rw [h0]
    rfl
  · unfold Ranks.alone
    rw [h0]
    rfl

theorem distFullLoop_ok (hx : 0 < nx) (hy : 0 < ny) (hD : D.Works nx ny) (c : Config F) (e : Evolution bD pD 𝕜) (pk : ProjKind) (k : Set.SvdKind)
    (s : Ranks bD pD 𝕜) (h : Sync D.ws nx ny s) :
    let r := (distComp D c e).fullLoop pk k s
    Sync D.ws nx ny r.1 ∧ r.1.initialized = s.initialized ∧ (c.update.als_method = .pinv → r.2 = none) ∧
      (pk = .half → (comp (D.alone nx ny) c e).fullLoop .half k s.alone = (r.1.alone, r.2)) := by
  intro r
  obtain ⟨w1, w2, w3, -⟩ := hD
  have hmem : ∀ b ∈ s.bonds, b ∈ buildBondList nx ny := fun b hb => h.2.mem.1 hb
  have hstep := fun (t : (ℕ → Net (Ten (Fin bD) (Fin pD) 𝕜)) × ℕ) b (hb : b ∈ buildBondList nx ny) (hs : InSync D.ws t.1 (t.1 0) ∧ FitNet nx ny (t.1 0)) =>
    distBondStep_ok hx hy (c.proj D.first k) pk D.ws w1 w2 w3 D.ω D.la D.fo D.rep c.update (twoSiteGate e.model e.dtau) t hb hs.2 hs.1
  have inv := evolveLoop_inv (fun t : (ℕ → Net (Ten (Fin bD) (Fin pD) 𝕜)) × ℕ => InSync D.ws t.1 (t.1 0) ∧ FitNet nx ny (t.1 0))
    (· ∈ buildBondList nx ny) (fun t b hb hs => ⟨(hstep t b hb hs).1, (hstep t b hb hs).2.1⟩) e.steps s.bonds hmem (s.nets, s.moves) ⟨h.1, h.2.1⟩
  refine ⟨⟨inv.1, inv.2, ?_⟩, rfl, fun hp => ?_, fun hp => ?_⟩
  · exact bonds_after (Full.distBondStep (c.proj D.first k) pk D.ws D.ω D.la D.fo D.rep c.update (twoSiteGate e.model e.dtau)) e.steps s.bonds h.2.2 (s.nets, s.moves)
  · exact evolveLoop_noraise (fun t : (ℕ → Net (Ten (Fin bD) (Fin pD) 𝕜)) × ℕ => InSync D.ws t.1 (t.1 0) ∧ FitNet nx ny (t.1 0))
      (· ∈ buildBondList nx ny) (fun t b hb hs => ⟨⟨(hstep t b hb hs).1, (hstep t b hb hs).2.1⟩, (hstep t b hb hs).2.2.1 hp⟩) e.steps s.bonds hmem
      (s.nets, s.moves) ⟨h.1, h.2.1⟩
  · obtain ⟨i1, i2, i3⟩ := evolveLoop_rel
      (Full.distBondStep (c.proj D.first k) pk D.ws D.ω D.la D.fo D.rep c.update (twoSiteGate e.model e.dtau))
      (Full.fullBondStep (c.proj D.first k) .half (aloneDraws D.ws nx ny D.ω) D.la D.fo D.rep c.update none (twoSiteGate e.model e.dtau))
      (fun t u => (InSync D.ws t.1 (t.1 0) ∧ FitNet nx ny (t.1 0)) ∧ u = (t.1 0, 2 * t.2)) (fun _ _ => True) (· ∈ buildBondList nx ny)
      (fun t u b hR hb _ => by
        obtain ⟨hR, rfl⟩ := hR
        obtain ⟨j1, j2, -, j4⟩ := hstep t b hb hR
        rw [j4 hp]
        exact ⟨rfl, ⟨j1, j2⟩, rfl⟩) e.steps s.bonds hmem (s.nets, s.moves) (s.nets 0, 2 * s.moves) ⟨⟨h.1, h.2.1⟩, rfl⟩ (along_true _ _ _)
    refine Prod.ext ?_ i2
    show State.mk _ _ _ _ = State.mk _ _ _ _
    congr 1
    · exact congrArg Prod.fst i3.2
    · exact congrArg Prod.snd i3.2

theorem distSimpleLoop_ok (hx : 0 < nx) (hy : 0 < ny) (hD : D.Works nx ny) (c : Config F) (e : Evolution bD pD 𝕜)
    (s : Ranks bD pD 𝕜) (h : Sync D.ws nx ny s) :
    let r := (distComp D c e).simpleLoop s
    Sync D.ws nx ny r.1 ∧ r.1.initialized = s.initialized ∧ (D.cx = false → r.2 = none) ∧
      (comp (D.alone nx ny) c e).simpleLoop s.alone = (r.1.alone, r.2) := by
  intro r
  obtain ⟨w1, w2, w3, -⟩ := hD
  obtain ⟨q1, q2, q3⟩ := simpleLoop_sound hx hy D.first c e (s.view 0) h.2
  have hr : r.2 = (Simple.numEvolve D.la D.cx (twoSiteGate e.model e.dtau) e.steps (s.bonds, s.nets 0)).2.2 := by
    show (List.range D.ws).findSome? (fun k => (Simple.numEvolve D.la D.cx (twoSiteGate e.model e.dtau) e.steps (s.bonds, s.nets k)).2.2) = _
    have : ∀ (l : List ℕ), l ≠ [] → (∀ k ∈ l, k < D.ws) →
        l.findSome? (fun k => (Simple.numEvolve D.la D.cx (twoSiteGate e.model e.dtau) e.steps (s.bonds, s.nets k)).2.2) =
          (Simple.numEvolve D.la D.cx (twoSiteGate e.model e.dtau) e.steps (s.bonds, s.nets 0)).2.2 := by
      intro l
      induction l with
      | nil => intro h; exact absurd rfl h
      | cons k l ih =>
        intro _ hl
        rw [List.findSome?_cons, h.1 k (hl k List.mem_cons_self)]
        cases hq : (Simple.numEvolve D.la D.cx (twoSiteGate e.model e.dtau) e.steps (s.bonds, s.nets 0)).2.2 with
        | some x => rfl
        | none =>
          cases l with
          | nil => rfl
          | cons k' l =>
            exact (ih (by simp) fun j hj => hl j (List.mem_cons_of_mem _ hj)).trans hq
    exact this _ (by simp; omega) fun k hk => List.mem_range.1 hk
  refine ⟨⟨fun k hk => ?_, q1⟩, rfl, fun hc => ?_, ?_⟩
  · show (Simple.numEvolve D.la D.cx (twoSiteGate e.model e.dtau) e.steps (s.bonds, s.nets k)).2.1 =
      (Simple.numEvolve D.la D.cx (twoSiteGate e.model e.dtau) e.steps (s.bonds, s.nets 0)).2.1
    rw [h.1 k hk]
  · rw [hr]
    exact q3 hc
  · exact Prod.ext rfl hr.symm

theorem distRenormalize_ok (hx : 0 < nx) (hy : 0 < ny) (hD : D.Works nx ny) (c : Config F) (e : Evolution bD pD 𝕜) (s : Ranks bD pD 𝕜)
    (h : Sync D.ws nx ny s) :
    let r := Set.renormalize (distComp D c e) c.strings s
    Sync D.ws nx ny r.1 ∧ (r.1.nets 0).A = (s.nets 0).A ∧ r.1.initialized = s.initialized ∧ r.1.bonds = s.bonds ∧
      ((setCalculate c.strings.projectors).isOk → r.2 = none) ∧
      (setCalculate c.strings.projectors = .ok .half → Set.renormalize (comp (D.alone nx ny) c e) c.strings s.alone = (r.1.alone, r.2)) := by
  intro r
  cases hp : setCalculate c.strings.projectors with
  | error x =>
    have hr : r = (s, some x) := by
      show Set.renormalize (distComp D c e) c.strings s = _
      unfold Set.renormalize
      rw [hp]
    rw [hr]
    exact ⟨h, rfl, rfl, rfl, fun h => (by cases h), fun h => (by cases h)⟩
  | ok pk =>
    obtain ⟨s', e', h1, h2, h3, h4, h5⟩ := distSweeps_ok D hx hy hD c pk (Set.svdKind c.strings.svdType) s h
    have hr : r = (s', none) := by
      show Set.renormalize (distComp D c e) c.strings s = _
      unfold Set.renormalize
      rw [hp]
      exact e'
    rw [hr]
    refine ⟨h1, h2, h3, h4, fun _ => rfl, fun hh => ?_⟩
    unfold Set.renormalize
    rw [hp]
    cases hh
    exact h5 rfl

theorem distEvolveFn_ok (hx : 0 < nx) (hy : 0 < ny) (hD : D.Works nx ny) (c : Config F) (e : Evolution bD pD 𝕜) (s : Ranks bD pD 𝕜)
    (h : Sync D.ws nx ny s) :
    let r := Set.evolveFn (distComp D c e) c.strings s
    Sync D.ws nx ny r.1 ∧ r.1.initialized = s.initialized ∧
      ((setCalculate c.strings.projectors).isOk → SafeUpdate D.first c → r.2 = none) ∧
      (setCalculate c.strings.projectors = .ok .half → Set.evolveFn (comp (D.alone nx ny) c e) c.strings s.alone = (r.1.alone, r.2)) := by
  intro r
  have hr : r = Set.evolveFn (distComp D c e) c.strings s := rfl
  clear_value r
  unfold Set.evolveFn at hr ⊢
  cases hu : createTensorUpdater c.strings.updateType with
  | error x =>
    rw [hu] at hr
    rw [hr]
    refine ⟨h, rfl, fun _ hs => ?_, fun _ => rfl⟩
    rcases hs with ⟨h1, -⟩ | ⟨h1, -⟩ <;> rw [h1] at hu <;> cases hu
  | ok u =>
    rw [hu] at hr
    cases u with
    | simple =>
      obtain ⟨q1, q2, q3, q4⟩ := distSimpleLoop_ok D hx hy hD c e s h
      dsimp only at hr
      rw [hr]
      refine ⟨q1, q2, fun _ hs => ?_, fun _ => q4⟩
      rcases hs with ⟨h1, -⟩ | ⟨-, h2⟩
      · rw [h1] at hu
        cases hu
      · exact q3 h2
    | full =>
      dsimp only at hr ⊢
      cases hp : setCalculate c.strings.projectors with
      | error x =>
        rw [hp] at hr
        rw [hr]
        exact ⟨h, rfl, fun h => (by cases h), fun h => (by cases h)⟩
      | ok pk =>
        obtain ⟨q1, q2, q3, q4⟩ := distFullLoop_ok D hx hy hD c e pk (Set.svdKind c.strings.svdType) s h
        rw [hp] at hr
        dsimp only at hr
        rw [hr]
        refine ⟨q1, q2, fun _ hs => ?_, fun hh => ?_⟩
        · rcases hs with ⟨-, h2⟩ | ⟨h1, -⟩
          · exact q3 h2
          · rw [h1] at hu
            cases hu
        · cases hh
          exact q4 rfl

theorem distExec_renormalize (s : Ranks bD pD 𝕜) (c : Config F) (e : Evolution bD pD 𝕜) :
    distExec D s (.renormalize c) = Set.renormalize (distComp D c e) c.strings s := rfl

theorem distExec_evolve (s : Ranks bD pD 𝕜) (c : Config F) (e : Evolution bD pD 𝕜) (hs : s.initialized = true) :
    distExec D s (.evolve c e) = Set.andThen (Set.andThen (Set.renormalize (distComp D c e) c.strings s)
      (Set.evolveFn (distComp D c e) c.strings)) (Set.renormalize (distComp D c e) c.strings) := by
  show Set.evolve (distComp D c e) c.strings s.initialized s = _
  rw [hs]
  rfl

theorem distExec_evolve_init (s : Ranks bD pD 𝕜) (c : Config F) (e : Evolution bD pD 𝕜) (hs : s.initialized = false) :
    distExec D s (.evolve c e) = distExec D (distInitSites D e.start s) (.evolve c e) := by
  show Set.evolve (distComp D c e) c.strings s.initialized s = Set.evolve (distComp D c e) c.strings true (distInitSites D e.start s)
  rw [hs]
  rfl

/-- Calls with the half-system projectors. -/
def HalfCall : Call F bD pD 𝕜 → Prop
  | .setChi _ => True
  | .renormalize c => setCalculate c.strings.projectors = .ok .half
  | .evolve c _ => setCalculate c.strings.projectors = .ok .half

theorem andThen_pair {S S' : Type} {P : S → Prop} {τ : S → S'} {r : S × Option PyErr} {f : S → S × Option PyErr} {f' : S' → S' × Option PyErr}
    (h : P r.1) (hf : ∀ s, P s → f' (τ s) = (τ (f s).1, (f s).2)) :
    Set.andThen (τ r.1, r.2) f' = (τ (Set.andThen r f).1, (Set.andThen r f).2) := by
  obtain ⟨s, e⟩ := r
  cases e with
  | none => exact hf s h
  | some e => rfl

/-- A call keeps the ranks in step, and with the half-system projectors it does what a single process does. -/
theorem distExec_ok (hx : 0 < nx) (hy : 0 < ny) (hD : D.Works nx ny) (s : Ranks bD pD 𝕜) (h : Sync D.ws nx ny s) (c : Call F bD pD 𝕜) :
    Sync D.ws nx ny (distExec D s c).1 ∧
      (HalfCall c → exec (D.alone nx ny) s.alone c = ((distExec D s c).1.alone, (distExec D s c).2)) := by
  have hev : ∀ (c : Config F) (e : Evolution bD pD 𝕜) (s : Ranks bD pD 𝕜), Sync D.ws nx ny s → s.initialized = true →
      Sync D.ws nx ny (distExec D s (.evolve c e)).1 ∧ (setCalculate c.strings.projectors = .ok .half →
        exec (D.alone nx ny) s.alone (.evolve c e) = ((distExec D s (.evolve c e)).1.alone, (distExec D s (.evolve c e)).2)) := by
    intro c e s h hs
    rw [distExec_evolve D s c e hs, exec_evolve (D.alone nx ny) s.alone c e hs]
    have r1 := fun s h => distRenormalize_ok (nx := nx) (ny := ny) D hx hy hD c e s h
    have r2 := fun s h => distEvolveFn_ok (nx := nx) (ny := ny) D hx hy hD c e s h
    have keep : ∀ {r : Ranks bD pD 𝕜 × Option PyErr} {f : Ranks bD pD 𝕜 → Ranks bD pD 𝕜 × Option PyErr}, Sync D.ws nx ny r.1 →
        (∀ s, Sync D.ws nx ny s → Sync D.ws nx ny (f s).1) → Sync D.ws nx ny (Set.andThen r f).1 := by
      intro r f h hf
      obtain ⟨s, e⟩ := r
      cases e with
      | none => exact hf s h
      | some e => exact h
    have k1 := keep (r1 s h).1 fun s h => (r2 s h).1
    refine ⟨keep k1 fun s h => (r1 s h).1, fun hp => ?_⟩
    rw [(r1 s h).2.2.2.2.2 hp, andThen_pair (P := Sync D.ws nx ny) (τ := Ranks.alone) (r1 s h).1 fun s h => (r2 s h).2.2.2 hp,
      andThen_pair (P := Sync D.ws nx ny) (τ := Ranks.alone) k1 fun s h => (r1 s h).2.2.2.2.2 hp]
  cases c with
  | setChi chi =>
    obtain ⟨h1, ⟨e1, e2, f, hw⟩, h2⟩ := h
    refine ⟨⟨fun r hr => ?_, ⟨e1, e2, f, hw.site, hw.corner, hw.edge⟩, h2⟩, fun _ => rfl⟩
    show { s.nets r with chi := chi } = { s.nets 0 with chi := chi }
    rw [h1 r hr]
  | renormalize c =>
    have e : Evolution bD pD 𝕜 := ⟨0, 0, ⟨fun _ => 0, fun _ => none⟩, fun _ _ _ _ _ _ => 0⟩
    rw [distExec_renormalize D s c e, exec_renormalize _ _ c e]
    have := distRenormalize_ok D hx hy hD c e s h
    exact ⟨this.1, this.2.2.2.2.2⟩
  | evolve c e =>
    cases hs : s.initialized with
    | true => exact hev c e s h hs
    | false =>
      obtain ⟨h1, -, h3⟩ := distInit_ok D hx hy hD e.start s h
      rw [distExec_evolve_init D s c e hs, exec_evolve_init _ s.alone c e hs, h3]
      exact hev c e _ h1 rfl

/-- What can be called. -/
theorem distCalls (hx : 0 < nx) (hy : 0 < ny) (hD : D.Works nx ny) (s : Ranks bD pD 𝕜) (hs : Sync D.ws nx ny s) :
    (∀ chi', (distExec D s (.setChi chi')).2 = none) ∧
    (∀ c, KnownProjectors c → (distExec D s (.renormalize c)).2 = none) ∧
    ∀ c e, KnownProjectors c → SafeUpdate D.first c → (distExec D s (.evolve c e)).2 = none := by
  refine ⟨fun _ => rfl, fun c hc => ?_, fun c e hc hu => ?_⟩
  · rw [distExec_renormalize D s c ⟨0, 0, ⟨fun _ => 0, fun _ => none⟩, fun _ _ _ _ _ _ => 0⟩]
    exact (distRenormalize_ok D hx hy hD c _ s hs).2.2.2.2.1 (setCalculate_known hc)
  · have key : ∀ s : Ranks bD pD 𝕜, Sync D.ws nx ny s → s.initialized = true → (distExec D s (.evolve c e)).2 = none := by
      intro s hs hi
      rw [distExec_evolve D s c e hi]
      obtain ⟨r1, -, -, -, r2, -⟩ := distRenormalize_ok D hx hy hD c e s hs
      replace r2 := r2 (setCalculate_known hc)
      rcases hr : Set.renormalize (distComp D c e) c.strings s with ⟨s1, x⟩
      rw [hr] at r1 r2
      cases r2
      obtain ⟨hsd, -, hf, -⟩ := distEvolveFn_ok D hx hy hD c e s1 r1
      replace hf := hf (setCalculate_known hc) hu
      show (Set.andThen (Set.evolveFn (distComp D c e) c.strings s1) _).2 = none
      rcases hr2 : Set.evolveFn (distComp D c e) c.strings s1 with ⟨s2, x⟩
      rw [hr2] at hf hsd
      cases hf
      exact (distRenormalize_ok D hx hy hD c e s2 hsd).2.2.2.2.1 (setCalculate_known hc)
    cases hi : s.initialized with
    | true => exact key s hs hi
    | false =>
      rw [distExec_evolve_init D s c e hi]
      exact key _ (distInit_ok D hx hy hD e.start s hs).1 rfl

theorem distNew_ok (hx : 0 < nx) (hy : 0 < ny) (hD : D.Works nx ny) (chi : ℕ) (A : Site → ATensor (Fin bD) (Fin pD) 𝕜) :
    Sync D.ws nx ny (distNew D nx ny chi A) ∧ (distNew D nx ny chi A).alone = new nx ny chi A := by
  obtain ⟨w1, -, -, w4⟩ := hD
  have h0 := w4 0 (by omega)
  refine ⟨⟨fun r hr => ?_, fitNet_fresh hx hy _ _, Or.inl rfl⟩, ?_⟩
  · show freshNet nx ny chi (D.own r A) = freshNet nx ny chi (D.own 0 A)
    rw [w4 r hr, h0]
  · unfold distNew Ranks.alone new
    dsimp only
    rw [h0]

theorem distRun_ok (hx : 0 < nx) (hy : 0 < ny) (hD : D.Works nx ny) (cs : List (Call F bD pD 𝕜)) (s : Ranks bD pD 𝕜)
    (h : Sync D.ws nx ny s) : Sync D.ws nx ny (distRun D cs s).1 ∧
      ((∀ c ∈ cs, HalfCall c) → run (D.alone nx ny) cs s.alone = ((distRun D cs s).1.alone, (distRun D cs s).2)) := by
  induction cs generalizing s with
  | nil => exact ⟨h, fun _ => rfl⟩
  | cons c cs ih =>
    obtain ⟨h1, h2⟩ := distExec_ok D hx hy hD s h c
    constructor
    · show Sync D.ws nx ny (Set.andThen (distExec D s c) (distRun D cs)).1
      rcases he : distExec D s c with ⟨s', x⟩
      rw [he] at h1
      cases x with
      | some x => exact h1
      | none => exact (ih s' h1).1
    · intro hh
      show Set.andThen (exec (D.alone nx ny) s.alone c) (run (D.alone nx ny) cs) = _
      rw [h2 (hh c List.mem_cons_self)]
      exact andThen_pair (P := Sync D.ws nx ny) (τ := Ranks.alone) h1 fun s h => (ih s h).2 fun c hc => hh c (List.mem_cons_of_mem _ hc)

end AceTN.Session
