import Verif.Model.Session
import Verif.Props.Truncation
import Verif.Props.MeasureAverages

/-! Calls of an `Ipeps` object keep its tensors fitting together. -/

set_option autoImplicit false
set_option linter.unusedSectionVars false

namespace AceTN.Session

open _root_.AceTN.Spec

variable {𝕜 F : Type} [RCLike 𝕜] {bD pD nx ny N : ℕ}

/-- An object whose tensors fit together and whose bond list is the one of the lattice, perhaps reversed. -/
def Sound (nx ny : ℕ) (s : State bD pD 𝕜) : Prop :=
  FitNet nx ny s.net ∧ (s.bonds = buildBondList nx ny ∨ s.bonds = (buildBondList nx ny).reverse)

theorem Sound.mem {s : State bD pD 𝕜} (h : Sound nx ny s) {b : Bond} : b ∈ s.bonds ↔ b ∈ buildBondList nx ny := by
  rcases h.2 with e | e
  · rw [e]
  · rw [e, List.mem_reverse]

theorem Sound.perm {s : State bD pD 𝕜} (h : Sound nx ny s) : s.bonds.Perm (buildBondList nx ny) := by
  rcases h.2 with e | e
  · rw [e]
  · rw [e]
    exact List.reverse_perm _

section simple

open Simple

variable [NeZero bD] [NeZero pD]

/-- Tables of weights of a real dtype. -/
def RealTable (bl : List Bond) (lt : LambdaTensors (Weight bD)) : Prop :=
  ∃ ws : List (Bond × Weight bD), (∀ p ∈ ws, p.2.cx = false) ∧
    lt = ws.foldl (fun l p => l.setItem p.1 p.2) (LambdaTensors.init bl (ones bD false))

theorem RealTable.set {bl : List Bond} {lt : LambdaTensors (Weight bD)} (h : RealTable bl lt) (b : Bond) (v : Fin bD → ℝ) :
    RealTable bl (lt.setItem b ⟨false, v⟩) := by
  obtain ⟨ws, hws, rfl⟩ := h
  refine ⟨ws ++ [(b, ⟨false, v⟩)], fun p hp => ?_, by rw [List.foldl_append]; rfl⟩
  rcases List.mem_append.1 hp with h | h
  · exact hws p h
  · rw [List.mem_singleton.1 h]

theorem RealTable.weights {bl : List Bond} (hbl : bl.Perm (buildBondList nx ny)) {lt : LambdaTensors (Weight bD)} (h : RealTable bl lt) (s : Site)
    (hs : InCell nx ny s) : ∃ W, Weights lt s W ∧ ∀ d < 4, (W d).cx = false := by
  have key : ∀ d, d < 4 → ∃ w, lt.get s d = .ok w ∧ w.cx = false := by
    intro d hd
    obtain ⟨ws, hws, rfl⟩ := h
    obtain ⟨b, ⟨hb, hE⟩, _⟩ := C03_unique_bond_per_side nx ny s hs d hd
    refine ⟨_, C03_weight_lookup nx ny bl hbl _ ws s hs d hd b hb hE, ?_⟩
    clear hE
    unfold LambdaTensors.lastAssigned
    induction ws using List.reverseRecOn with
    | nil => rfl
    | append_singleton ws p ih =>
      rw [List.foldl_append, List.foldl_cons, List.foldl_nil]
      split_ifs
      · exact hws p (by simp)
      · exact ih fun q hq => hws q (by simp [hq])
  have : Nonempty (Weight bD) := ⟨ones bD false⟩
  choose! w hw using key
  exact ⟨w, fun d hd => (hw d hd).1, fun d hd => (hw d hd).2⟩

/-- Whatever the tensors are, a simple update with weights of a real dtype does not raise. -/
theorem bondTensors_returns {bl : List Bond} (hbl : bl.Perm (buildBondList nx ny)) (la : Lapack 𝕜) {lt : LambdaTensors (Weight bD)}
    (h : RealTable bl lt) (gate : Fin pD → Fin pD → Fin pD → Fin pD → 𝕜) {b : Bond} (hb : b ∈ buildBondList nx ny)
    (a1 a2 : ATensor (Fin bD) (Fin pD) 𝕜) : ∃ q, bondTensors la lt none gate b a1 a2 = .ok q := by
  obtain ⟨c1, c2⟩ := C02_bond_ends_in_cell nx ny b hb
  rw [mem_buildSiteList] at c1 c2
  obtain ⟨W1, hW1, r1⟩ := h.weights hbl b.s1 c1
  obtain ⟨W2, hW2, r2⟩ := h.weights hbl b.s2 c2
  unfold bondTensors
  rw [absorb_eq lt a1 b.s1 b.k W1 hW1, absorb_eq lt a2 b.s2 _ W2 hW2]
  set s := splitBond la gate (bondPermute b.k (weighted (fun d => (W1 d).v) b.k a1))
    (bondPermute b.k (weighted (fun d => (W2 d).v) ((b.k + 2) % 4) a2)) with hs
  have e1 := strip_eq lt (bondPermute (4 - b.k) s.1) b.s1 b.k W1 hW1 fun d hd _ => r1 d hd
  have e2 := strip_eq lt (bondPermute (4 - b.k) s.2.1) b.s2 ((b.k + 2) % 4) W2 hW2 fun d hd _ => r2 d hd
  show ∃ q, (strip lt (bondPermute (4 - b.k) s.1) b.s1 b.k >>= fun a1 =>
      strip lt (bondPermute (4 - b.k) s.2.1) b.s2 ((b.k + 2) % 4) >>= fun a2 => pure (a1, a2, s.2.2)) = .ok q
  rw [e1, e2]
  exact ⟨_, rfl⟩

theorem numBondStep_fit (hx : 0 < nx) (hy : 0 < ny) (la : Lapack 𝕜) (gates : Bond → Fin pD → Fin pD → Fin pD → Fin pD → 𝕜)
    (s : Net (Ten (Fin bD) (Fin pD) 𝕜) × LambdaTensors (Weight bD)) (h : FitNet nx ny s.1) (b : Bond) :
    FitNet nx ny (numBondStep la gates s b).1.1 := by
  unfold numBondStep
  split
  · split
    · exact h
    · obtain ⟨rfl, rfl, f, hw⟩ := h
      exact ⟨rfl, rfl, f, wired_write (wired_write hw _ _) _ _⟩
  · exact h

theorem numBondStep_returns {bl : List Bond} (hbl : bl.Perm (buildBondList nx ny)) (la : Lapack 𝕜)
    (gates : Bond → Fin pD → Fin pD → Fin pD → Fin pD → 𝕜) (s : Net (Ten (Fin bD) (Fin pD) 𝕜) × LambdaTensors (Weight bD)) (h : FitNet nx ny s.1)
    (ht : RealTable bl s.2) {b : Bond} (hb : b ∈ buildBondList nx ny) :
    RealTable bl (numBondStep la gates s b).1.2 ∧ (numBondStep la gates s b).2 = none := by
  obtain ⟨c1, c2⟩ := C02_bond_ends_in_cell _ _ b hb
  rw [mem_buildSiteList] at c1 c2
  obtain ⟨rfl, rfl, f, hw⟩ := h
  obtain ⟨a1, h1⟩ := hw.site _ c1
  obtain ⟨a2, h2⟩ := hw.site _ c2
  obtain ⟨⟨b1, b2, lambda⟩, hq⟩ := bondTensors_returns hbl la ht (gates b) hb a1 a2
  have e : numBondStep la gates s b = ((writeSite (writeSite s.1 b.s1 b1) b.s2 b2, s.2.setItem b ⟨false, lambda⟩), none) := by
    unfold numBondStep
    rw [h1, h2]
    dsimp only
    rw [hq]
  rw [e]
  exact ⟨ht.set b lambda, rfl⟩

end simple

variable [NeZero bD] [NeZero pD]

/-- Sweeps return, keep the tensors fitting together, and leave the site tensors as they are. -/
theorem sweeps_sound (hx : 0 < nx) (hy : 0 < ny) (M : Machine F bD 𝕜) (c : Config F) (pk : ProjKind) (k : Set.SvdKind) (s : State bD pD 𝕜)
    (h : Sound nx ny s) : ∃ s', sweeps M c pk k s = (s', none) ∧ Sound nx ny s' ∧ s'.net.A = s.net.A ∧ s'.initialized = s.initialized ∧
      s'.bonds = s.bonds := by
  obtain ⟨n, e, h1, h2⟩ := h.1.sweeps hx hy (c.proj M k) pk M.ω s.moves c.sweeps
  refine ⟨{ s with net := n, moves := s.moves + c.sweeps * (sweepMoves s.net.nx s.net.ny).length }, ?_, ⟨h1, h.2⟩, h2, rfl, rfl⟩
  unfold sweeps
  rw [e]

theorem initSites_sound (hx : 0 < nx) (hy : 0 < ny) (start : Site → ATensor (Fin bD) (Fin pD) 𝕜) (s : State bD pD 𝕜) (h : Sound nx ny s) :
    Sound nx ny (initSites start s) := by
  obtain ⟨⟨e1, e2, -⟩, -⟩ := h
  unfold initSites Sound
  dsimp only
  rw [e1, e2]
  exact ⟨fitNet_fresh hx hy _ _, Or.inl rfl⟩

theorem bonds_after {S : Type} (upd : S → Bond → S × Option PyErr) (n : ℕ) (bl : List Bond)
    (h : bl = buildBondList nx ny ∨ bl = (buildBondList nx ny).reverse) (s : S) :
    (evolveLoop upd n bl s).1 = buildBondList nx ny ∨ (evolveLoop upd n bl s).1 = (buildBondList nx ny).reverse := by
  rcases C05_list_invariant upd n bl s with e | e <;> rcases h with h | h <;> rw [e, h]
  · exact Or.inl rfl
  · exact Or.inr rfl
  · exact Or.inr rfl
  · exact Or.inl (List.reverse_reverse _)

theorem fullLoop_sound (hx : 0 < nx) (hy : 0 < ny) (M : Machine F bD 𝕜) (c : Config F) (e : Evolution bD pD 𝕜) (pk : ProjKind) (k : Set.SvdKind)
    (s : State bD pD 𝕜) (h : Sound nx ny s) :
    Sound nx ny ((comp M c e).fullLoop pk k s).1 ∧ ((comp M c e).fullLoop pk k s).1.initialized = s.initialized ∧
      (c.update.als_method = .pinv → ((comp M c e).fullLoop pk k s).2 = none) := by
  have hmem : ∀ b ∈ s.bonds, b ∈ buildBondList nx ny := fun b hb => h.mem.1 hb
  have hstep := fun (t : Net (Ten (Fin bD) (Fin pD) 𝕜) × ℕ) b (hb : b ∈ buildBondList nx ny) (hs : FitNet nx ny t.1) =>
    hs.step hx hy (c.proj M k) pk M.ω M.la M.fo M.rep c.update none (twoSiteGate e.model e.dtau) hb
  refine ⟨⟨?_, ?_⟩, rfl, fun hp => ?_⟩
  · exact evolveLoop_inv (fun t : Net (Ten (Fin bD) (Fin pD) 𝕜) × ℕ => FitNet nx ny t.1) (· ∈ buildBondList nx ny)
      (fun t b hb hs => (hstep t b hb hs).1) e.steps s.bonds hmem (s.net, s.moves) h.1
  · exact bonds_after _ _ _ h.2 _
  · exact evolveLoop_noraise (fun t : Net (Ten (Fin bD) (Fin pD) 𝕜) × ℕ => FitNet nx ny t.1) (· ∈ buildBondList nx ny)
      (fun t b hb hs => ⟨(hstep t b hb hs).1, (hstep t b hb hs).2 hp⟩) e.steps s.bonds hmem (s.net, s.moves) h.1

theorem simpleLoop_sound (hx : 0 < nx) (hy : 0 < ny) (M : Machine F bD 𝕜) (c : Config F) (e : Evolution bD pD 𝕜) (s : State bD pD 𝕜)
    (h : Sound nx ny s) :
    Sound nx ny ((comp M c e).simpleLoop s).1 ∧ ((comp M c e).simpleLoop s).1.initialized = s.initialized ∧
      (M.cx = false → ((comp M c e).simpleLoop s).2 = none) := by
  have hmem : ∀ b ∈ s.bonds, b ∈ buildBondList nx ny := fun b hb => h.mem.1 hb
  refine ⟨⟨?_, ?_⟩, rfl, fun hp => ?_⟩
  · exact evolveLoop_inv (fun t : Net (Ten (Fin bD) (Fin pD) 𝕜) × LambdaTensors (Simple.Weight bD) => FitNet nx ny t.1) (· ∈ buildBondList nx ny)
      (fun t b _ hs => numBondStep_fit hx hy M.la (twoSiteGate e.model e.dtau) t hs b) e.steps s.bonds hmem (s.net, _) h.1
  · exact bonds_after (Simple.numBondStep M.la (twoSiteGate e.model e.dtau)) e.steps s.bonds h.2
      (s.net, LambdaTensors.init s.bonds (Simple.ones bD M.cx))
  · refine evolveLoop_noraise (fun t : Net (Ten (Fin bD) (Fin pD) 𝕜) × LambdaTensors (Simple.Weight bD) => FitNet nx ny t.1 ∧ RealTable s.bonds t.2)
      (· ∈ buildBondList nx ny) (fun t b hb hs => ?_) e.steps s.bonds hmem (s.net, _) ⟨h.1, [], by simp, by rw [hp]; rfl⟩
    obtain ⟨h1, h2⟩ := numBondStep_returns h.perm M.la (twoSiteGate e.model e.dtau) t hs.1 hs.2 hb
    exact ⟨⟨numBondStep_fit hx hy M.la (twoSiteGate e.model e.dtau) t hs.1 b, h1⟩, h2⟩

/-- Everything an object needs for its calls is kept by them, also if they raise. -/
theorem evolveFn_sound (hx : 0 < nx) (hy : 0 < ny) (M : Machine F bD 𝕜) (c : Config F) (e : Evolution bD pD 𝕜) (s : State bD pD 𝕜)
    (h : Sound nx ny s) :
    Sound nx ny (Set.evolveFn (comp M c e) c.strings s).1 ∧ (Set.evolveFn (comp M c e) c.strings s).1.initialized = s.initialized := by
  unfold Set.evolveFn
  cases createTensorUpdater c.strings.updateType with
  | error x => exact ⟨h, rfl⟩
  | ok u =>
    cases u with
    | simple => exact ⟨(simpleLoop_sound hx hy M c e s h).1, (simpleLoop_sound hx hy M c e s h).2.1⟩
    | full =>
      dsimp only
      cases setCalculate c.strings.projectors with
      | error x => exact ⟨h, rfl⟩
      | ok pk => exact ⟨(fullLoop_sound hx hy M c e pk _ s h).1, (fullLoop_sound hx hy M c e pk _ s h).2.1⟩

theorem renormalize_sound (hx : 0 < nx) (hy : 0 < ny) (M : Machine F bD 𝕜) (c : Config F) (e : Evolution bD pD 𝕜) (s : State bD pD 𝕜)
    (h : Sound nx ny s) : Sound nx ny (Set.renormalize (comp M c e) c.strings s).1 ∧
      (Set.renormalize (comp M c e) c.strings s).1.net.A = s.net.A ∧
      (Set.renormalize (comp M c e) c.strings s).1.initialized = s.initialized ∧
      ((setCalculate c.strings.projectors).isOk → (Set.renormalize (comp M c e) c.strings s).2 = none) := by
  unfold Set.renormalize
  cases setCalculate c.strings.projectors with
  | error x => exact ⟨h, rfl, rfl, fun h => by cases h⟩
  | ok pk =>
    obtain ⟨s', e', h1, h2, h3, -⟩ := sweeps_sound hx hy M c pk (Set.svdKind c.strings.svdType) s h
    have e'' : (comp M c e).sweeps pk (Set.svdKind c.strings.svdType) s = (s', none) := e'
    dsimp only
    rw [e'']
    exact ⟨h1, h2, h3, fun _ => rfl⟩

theorem exec_renormalize (M : Machine F bD 𝕜) (s : State bD pD 𝕜) (c : Config F) (e : Evolution bD pD 𝕜) :
    exec M s (.renormalize c) = Set.renormalize (comp M c e) c.strings s := rfl

/-- A call of `evolve` in an initialised object. -/
theorem exec_evolve (M : Machine F bD 𝕜) (s : State bD pD 𝕜) (c : Config F) (e : Evolution bD pD 𝕜) (hs : s.initialized = true) :
    exec M s (.evolve c e) = Set.andThen (Set.andThen (Set.renormalize (comp M c e) c.strings s) (Set.evolveFn (comp M c e) c.strings))
      (Set.renormalize (comp M c e) c.strings) := by
  show Set.evolve (comp M c e) c.strings s.initialized s = _
  rw [hs]
  rfl

/-- The first call of `evolve` initialises the site tensors. -/
theorem exec_evolve_init (M : Machine F bD 𝕜) (s : State bD pD 𝕜) (c : Config F) (e : Evolution bD pD 𝕜) (hs : s.initialized = false) :
    exec M s (.evolve c e) = exec M (initSites e.start s) (.evolve c e) := by
  show Set.evolve (comp M c e) c.strings s.initialized s = Set.evolve (comp M c e) c.strings true (initSites e.start s)
  rw [hs]
  rfl

theorem andThen_sound {r : State bD pD 𝕜 × Option PyErr} {f : State bD pD 𝕜 → State bD pD 𝕜 × Option PyErr} (h : Sound nx ny r.1)
    (hf : ∀ s, Sound nx ny s → Sound nx ny (f s).1) : Sound nx ny (Set.andThen r f).1 := by
  obtain ⟨s, e⟩ := r
  cases e with
  | none => exact hf s h
  | some e => exact h

theorem exec_sound (hx : 0 < nx) (hy : 0 < ny) (M : Machine F bD 𝕜) (s : State bD pD 𝕜) (h : Sound nx ny s) (c : Call F bD pD 𝕜) :
    Sound nx ny (exec M s c).1 := by
  have hev : ∀ (c : Config F) (e : Evolution bD pD 𝕜) (s : State bD pD 𝕜), Sound nx ny s → s.initialized = true →
      Sound nx ny (exec M s (.evolve c e)).1 := by
    intro c e s h hs
    rw [exec_evolve M s c e hs]
    exact andThen_sound (andThen_sound (renormalize_sound hx hy M c e s h).1 fun s h => (evolveFn_sound hx hy M c e s h).1)
      fun s h => (renormalize_sound hx hy M c e s h).1
  cases c with
  | setChi chi =>
    obtain ⟨⟨e1, e2, f, hw⟩, h2⟩ := h
    exact ⟨⟨e1, e2, f, hw.site, hw.corner, hw.edge⟩, h2⟩
  | renormalize c =>
    rw [exec_renormalize M s c ⟨0, 0, ⟨fun _ => 0, fun _ => none⟩, fun _ _ _ _ _ _ => 0⟩]
    exact (renormalize_sound hx hy M c _ s h).1
  | evolve c e =>
    cases hs : s.initialized with
    | true => exact hev c e s h hs
    | false =>
      rw [exec_evolve_init M s c e hs]
      exact hev c e _ (initSites_sound hx hy e.start s h) rfl

theorem new_sound (hx : 0 < nx) (hy : 0 < ny) (chi : ℕ) (A : Site → ATensor (Fin bD) (Fin pD) 𝕜) : Sound nx ny (new nx ny chi A) :=
  ⟨fitNet_fresh hx hy chi A, Or.inl rfl⟩

theorem runCatching_sound (hx : 0 < nx) (hy : 0 < ny) (M : Machine F bD 𝕜) (cs : List (Call F bD pD 𝕜)) (s : State bD pD 𝕜) (h : Sound nx ny s) :
    Sound nx ny (runCatching M cs s) := by
  induction cs generalizing s with
  | nil => exact h
  | cons c cs ih => exact ih _ (exec_sound hx hy M s h c)

theorem run_sound (hx : 0 < nx) (hy : 0 < ny) (M : Machine F bD 𝕜) (cs : List (Call F bD pD 𝕜)) (s : State bD pD 𝕜) (h : Sound nx ny s) :
    Sound nx ny (run M cs s).1 := by
  induction cs generalizing s with
  | nil => exact h
  | cons c cs ih => exact andThen_sound (exec_sound hx hy M s h c) ih

/-! ### Simple updates -/

theorem siteTensors_write {X : Type} {net : Net (Ten (Fin bD) (Fin pD) 𝕜)} {net' : NetT (Fin bD) (Fin pD) X 𝕜}
    (h : siteTensors (bare net) = siteTensors net') (x : Site) (a : ATensor (Fin bD) (Fin pD) 𝕜) :
    siteTensors (bare (writeSite net x a)) = siteTensors (setA net' x a) := by
  funext y
  have hy := congrFun h y
  unfold siteTensors at hy ⊢
  by_cases e : y = x
  · subst e
    rw [bare_A (show (writeSite net y a).A y = .site a from if_pos rfl), setA, if_pos rfl]
  · rw [bare_congr (show (writeSite net x a).A y = net.A y from if_neg e), setA, if_neg e]
    exact hy

/-- What the simple update of a session has in common with that of `Model/SimpleEvolve.lean`. -/
def SimpleAlike {X : Type} (nx ny : ℕ) (s : Net (Ten (Fin bD) (Fin pD) 𝕜) × LambdaTensors (Simple.Weight bD))
    (s' : NetT (Fin bD) (Fin pD) X 𝕜 × LambdaTensors (Simple.Weight bD)) : Prop :=
  FitNet nx ny s.1 ∧ siteTensors (bare s.1) = siteTensors s'.1 ∧ s.2 = s'.2

theorem simpleStep_alike {X : Type} (hx : 0 < nx) (hy : 0 < ny) (la : Lapack 𝕜) (gates : Bond → Fin pD → Fin pD → Fin pD → Fin pD → 𝕜)
    (s : Net (Ten (Fin bD) (Fin pD) 𝕜) × LambdaTensors (Simple.Weight bD))
    (s' : NetT (Fin bD) (Fin pD) X 𝕜 × LambdaTensors (Simple.Weight bD)) (b : Bond) (h : SimpleAlike nx ny s s')
    (hb : b ∈ buildBondList nx ny) :
    (Simple.bondStep la (fun _ => none) gates s' b).2 = (Simple.numBondStep la gates s b).2 ∧
      SimpleAlike nx ny (Simple.numBondStep la gates s b).1 (Simple.bondStep la (fun _ => none) gates s' b).1 := by
  obtain ⟨net, lt⟩ := s
  obtain ⟨net', lt'⟩ := s'
  have hfit := numBondStep_fit hx hy la gates (net, lt) h.1 b
  obtain ⟨hf, hA, hl⟩ := h
  dsimp only at hf hA hl
  subst hl
  obtain ⟨c1, c2⟩ := C02_bond_ends_in_cell _ _ b hb
  rw [mem_buildSiteList] at c1 c2
  obtain ⟨rfl, rfl, f, hw⟩ := hf
  obtain ⟨a1, h1⟩ := hw.site _ c1
  obtain ⟨a2, h2⟩ := hw.site _ c2
  have g1 : (net' b.s1).A = a1 := (congrFun hA b.s1).symm.trans (bare_A h1)
  have g2 : (net' b.s2).A = a2 := (congrFun hA b.s2).symm.trans (bare_A h2)
  cases hq : Simple.bondTensors la lt none (gates b) b a1 a2 with
  | error e =>
    have e1 : Simple.numBondStep la gates (net, lt) b = ((net, lt), some e) := by
      unfold Simple.numBondStep
      dsimp only
      rw [h1, h2]
      dsimp only
      rw [hq]
    have e2 : Simple.bondStep la (fun _ => none) gates (net', lt) b = ((net', lt), some e) := by
      unfold Simple.bondStep Simple.bondUpdate
      dsimp only
      rw [g1, g2, hq]
      rfl
    rw [e1] at hfit ⊢
    rw [e2]
    exact ⟨rfl, hfit, hA, rfl⟩
  | ok q =>
    obtain ⟨b1, b2, lambda⟩ := q
    have e1 : Simple.numBondStep la gates (net, lt) b = ((writeSite (writeSite net b.s1 b1) b.s2 b2, lt.setItem b ⟨false, lambda⟩), none) := by
      unfold Simple.numBondStep
      dsimp only
      rw [h1, h2]
      dsimp only
      rw [hq]
    have e2 : Simple.bondStep la (fun _ => none) gates (net', lt) b = ((storePair net' b.s1 b.s2 b1 b2, lt.setItem b ⟨false, lambda⟩), none) := by
      unfold Simple.bondStep Simple.bondUpdate
      dsimp only
      rw [g1, g2, hq]
      rfl
    rw [e1] at hfit ⊢
    rw [e2]
    exact ⟨rfl, hfit, siteTensors_write (siteTensors_write hA _ _) _ _, rfl⟩

theorem along_true {S : Type} (upd : S → Bond → S × Option PyErr) (l : List Bond) (s : S) : Along (fun _ _ => True) upd l s := by
  induction l generalizing s with
  | nil => trivial
  | cons b l ih => exact ⟨trivial, ih _⟩

/-- Simple updates of a session are those of `Model/SimpleEvolve.lean`. -/
theorem numEvolve_alike {X : Type} (hx : 0 < nx) (hy : 0 < ny) (la : Lapack 𝕜) (cx : Bool) (gates : Bond → Fin pD → Fin pD → Fin pD → Fin pD → 𝕜)
    (steps : ℕ) (net : Net (Ten (Fin bD) (Fin pD) 𝕜)) (net' : NetT (Fin bD) (Fin pD) X 𝕜) (h : FitNet nx ny net)
    (hA : siteTensors (bare net) = siteTensors net') (bl : List Bond) (hbl : ∀ b ∈ bl, b ∈ buildBondList nx ny) :
    let r := Simple.numEvolve la cx gates steps (bl, net)
    let r' := Simple.evolve la cx (fun _ => none) gates steps (bl, net')
    r.1 = r'.1 ∧ siteTensors (bare r.2.1) = siteTensors r'.2.1 ∧ r.2.2 = r'.2.2 := by
  intro r r'
  obtain ⟨h1, h2, h3⟩ := evolveLoop_rel (Simple.numBondStep la gates) (Simple.bondStep la (fun _ => none) gates) (SimpleAlike (X := X) nx ny)
    (fun _ _ => True) (fun b => b ∈ buildBondList nx ny)
    (fun s s' b hR hb _ => simpleStep_alike hx hy la gates s s' b hR hb) steps bl hbl
    (net, LambdaTensors.init bl (Simple.ones bD cx)) (net', LambdaTensors.init bl (Simple.ones bD cx)) ⟨h, hA, rfl⟩ (along_true _ _ _)
  exact ⟨h1.symm, h3.2.1, h2.symm⟩

theorem renormalize_bonds (hx : 0 < nx) (hy : 0 < ny) (M : Machine F bD 𝕜) (c : Config F) (e : Evolution bD pD 𝕜) (s : State bD pD 𝕜)
    (h : Sound nx ny s) : (Set.renormalize (comp M c e) c.strings s).1.bonds = s.bonds := by
  unfold Set.renormalize
  cases setCalculate c.strings.projectors with
  | error x => rfl
  | ok pk =>
    obtain ⟨s', e', -, -, -, h5⟩ := sweeps_sound hx hy M c pk (Set.svdKind c.strings.svdType) s h
    have e'' : (comp M c e).sweeps pk (Set.svdKind c.strings.svdType) s = (s', none) := e'
    dsimp only
    rw [e'']
    exact h5

end AceTN.Session
