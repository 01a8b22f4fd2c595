import Verif.Lemmas.MeanSession
import Verif.Lemmas.ProductEnergy
import Verif.Props.Session

/-!
C110: with bond dimension one everything a session measures is exact, and the energy is one of the lattice.
-/

set_option autoImplicit false
set_option linter.unusedSectionVars false

namespace AceTN

open Matrix Spec Full Session
open scoped Matrix.Norms.L2Operator

variable {F : Type} {pD nx ny N : ℕ} [NeZero pD]

/-! ### Calls -/

/-- Settings of the projectors that keep at least the largest singular value. -/
def Spec.CutsBelowOne (c : Config F) : Prop := 0 ≤ c.cutoff ∧ c.cutoff < 1

/-- Settings of the full update with which one equation has a solution. -/
def Spec.SolvableUpdate (cfg : Full.Settings F) : Prop :=
  SolvesOne cfg.als_method cfg.als_epsilon ∧ 0 < cfg.positive_approx_cutoff ∧
    (cfg.use_gauge_fix = true → cfg.gauge_fix_atol < Real.sqrt cfg.positive_approx_cutoff)

/-- A call with sensible arguments: a positive boundary dimension, settings as above, and site tensors to start from that are not zero. -/
def Spec.Sensible (nx ny : ℕ) : Call F 1 pD ℝ → Prop
  | .setChi chi => 0 < chi
  | .renormalize c => CutsBelowOne c
  | .evolve c e => CutsBelowOne c ∧ (c.strings.updateType = "full" → SolvableUpdate c.update) ∧ ∀ s, InCell nx ny s → e.start s ≠ 0

/-- What every sensible call keeps. -/
def MeanState (nx ny : ℕ) (s : State 1 pD ℝ) : Prop :=
  MeanNet nx ny s.net ∧ (s.bonds = buildBondList nx ny ∨ s.bonds = (buildBondList nx ny).reverse)

theorem MeanState.sound {s : State 1 pD ℝ} (h : MeanState nx ny s) : Sound nx ny s := ⟨h.1.fit, h.2⟩

/-- What is measured on such an object. -/
theorem MeanState.values (hx : 0 < nx) (hy : 0 < ny) {s : State 1 pD ℝ} (hs : MeanState nx ny s) :
    let v := siteVec (siteTensors (bare s.net))
    ∀ x, InCell nx ny x → v x ≠ 0 ∧
      (∀ O : Matrix (Fin pD) (Fin pD) ℝ, siteVal s.net x O = .ok (qform Oᵀ (v x) / normSq (v x))) ∧
      ∀ (k : Fin 4) (init : Fin pD → Fin pD → Fin pD → Fin pD → ℝ) (O : Matrix (Fin pD × Fin pD) (Fin pD × Fin pD) ℝ),
        bondVal init s.net ⟨x, neighbour nx ny x k.val, k.val⟩ (fun k1 k2 b1 b2 => O (k1, k2) (b1, b2)) =
          .ok (qform Oᵀ (fun p => v x p.1 * v (neighbour nx ny x k.val) p.2) /
            normSq fun p : Fin pD × Fin pD => v x p.1 * v (neighbour nx ny x k.val) p.2) := by
  intro v x hxc
  obtain ⟨⟨r, er, h1⟩, h2⟩ := C68_values _ _ (hs.1.rdms hx hy) x hxc
  refine ⟨?_, fun O => ?_, fun k init O => ?_⟩
  · obtain ⟨a, ha, hne⟩ := hs.1.site hxc
    intro h0
    apply hne
    funext l u r d p
    have := congrFun h0 p
    unfold v siteVec siteTensors at this
    rw [bare_A ha] at this
    simp only [Subsingleton.elim _ (0 : Fin 1)]
    exact this
  · unfold siteVal
    rw [er]
    exact congrArg Except.ok (h1 O)
  · obtain ⟨r, er, h⟩ := h2 k init
    unfold bondVal
    rw [er]
    exact congrArg Except.ok (h O)

section calls

variable (hx : 2 ≤ nx) (hy : 2 ≤ ny) (M : Machine F 1 ℝ) (hM : M.cx = false) (hω : DrawsNonzero M.ω)

include hx hy hω

theorem mean_sweeps (c : Config F) (hc : CutsBelowOne c) (pk : ProjKind) (k : Set.SvdKind) (s : State 1 pD ℝ) (h : MeanState nx ny s) :
    MeanState nx ny (Session.sweeps M c pk k s).1 ∧ (Session.sweeps M c pk k s).2 = none := by
  have hx0 : 0 < nx := by omega
  have hy0 : 0 < ny := by omega
  obtain ⟨hn, hb⟩ := h
  obtain ⟨e1, e2, -⟩ := id hn.fit
  obtain ⟨net', e, h'⟩ := MeanNet.moves (st := c.proj M k) (pk := pk) hc.1 hc.2 hω hx0 hy0 hn (AceTN.sweeps nx ny c.sweeps) s.moves
    fun m hm => valid_of_range m (sweeps_range hx0 hy0 _ m hm)
  have e' : ctmrgDrawn (c.proj M k) pk M.ω s.moves c.sweeps s.net = .ok net' := by
    rw [ctmrgDrawn_eq, e1, e2]
    exact e
  unfold Session.sweeps
  rw [e']
  exact ⟨⟨h', hb⟩, rfl⟩

theorem mean_renormalize (c : Config F) (e : Evolution 1 pD ℝ) (hc : CutsBelowOne c) (s : State 1 pD ℝ) (h : MeanState nx ny s) :
    MeanState nx ny (Set.renormalize (Session.comp M c e) c.strings s).1 ∧
      (KnownProjectors c → (Set.renormalize (Session.comp M c e) c.strings s).2 = none) := by
  unfold Set.renormalize
  cases hp : setCalculate c.strings.projectors with
  | error x =>
    refine ⟨h, fun hk => ?_⟩
    have := setCalculate_known hk
    rw [hp] at this
    cases this
  | ok pk => exact ⟨(mean_sweeps hx hy M hω c hc pk _ s h).1, fun _ => (mean_sweeps hx hy M hω c hc pk _ s h).2⟩

include hM

theorem mean_evolveFn (c : Config F) (e : Evolution 1 pD ℝ) (hc : CutsBelowOne c) (hu : c.strings.updateType = "full" → SolvableUpdate c.update)
    (s : State 1 pD ℝ) (h : MeanState nx ny s) :
    MeanState nx ny (Set.evolveFn (Session.comp M c e) c.strings s).1 ∧
      (KnownProjectors c → (createTensorUpdater c.strings.updateType).isOk → (Set.evolveFn (Session.comp M c e) c.strings s).2 = none) := by
  have hmem : ∀ b ∈ s.bonds, b ∈ buildBondList nx ny := fun b hb => h.sound.mem.1 hb
  unfold Set.evolveFn
  cases hup : createTensorUpdater c.strings.updateType with
  | error x => exact ⟨h, fun _ hk => by cases hk⟩
  | ok u =>
    cases u with
    | simple =>
      have hstep := fun (t : Net (Ten (Fin 1) (Fin pD) ℝ) × LambdaTensors (Simple.Weight 1)) b (hb : b ∈ buildBondList nx ny)
          (ht : MeanNet nx ny t.1 ∧ AllOnes nx ny t.2) => MeanNet.simpleStep hx hy M.la e.model e.dtau t ht.1 ht.2 hb
      have h0 : MeanNet nx ny s.net ∧ AllOnes nx ny (LambdaTensors.init s.bonds (Simple.ones 1 M.cx)) := by
        refine ⟨h.1, ⟨s.bonds, _, [], h.sound.perm, rfl⟩, fun x hs d hd w hw => ?_⟩
        obtain ⟨b, ⟨hb, hE⟩, -⟩ := C03_unique_bond_per_side nx ny x hs d hd
        have h' := C03_weight_lookup nx ny s.bonds h.sound.perm (Simple.ones 1 M.cx) [] x hs d hd b hb hE
        rw [hM] at h'
        rw [hM] at hw
        exact (Except.ok.inj (h'.symm.trans hw)).symm
      refine ⟨⟨?_, ?_⟩, fun _ _ => ?_⟩
      · exact (evolveLoop_inv (upd := Simple.numBondStep M.la (twoSiteGate e.model e.dtau))
          (fun t : Net (Ten (Fin 1) (Fin pD) ℝ) × LambdaTensors (Simple.Weight 1) => MeanNet nx ny t.1 ∧ AllOnes nx ny t.2)
          (· ∈ buildBondList nx ny) (fun t b hb ht => ⟨(hstep t b hb ht).1, (hstep t b hb ht).2.1⟩) e.steps s.bonds hmem (s.net, _) h0).1
      · exact bonds_after (Simple.numBondStep M.la (twoSiteGate e.model e.dtau)) e.steps s.bonds h.2 _
      · exact evolveLoop_noraise (upd := Simple.numBondStep M.la (twoSiteGate e.model e.dtau))
          (fun t : Net (Ten (Fin 1) (Fin pD) ℝ) × LambdaTensors (Simple.Weight 1) => MeanNet nx ny t.1 ∧ AllOnes nx ny t.2)
          (· ∈ buildBondList nx ny) (fun t b hb ht => ⟨⟨(hstep t b hb ht).1, (hstep t b hb ht).2.1⟩, (hstep t b hb ht).2.2⟩) e.steps s.bonds hmem
          (s.net, _) h0
    | full =>
      have hfull : c.strings.updateType = "full" := by
        unfold createTensorUpdater at hup
        split_ifs at hup with h1 h2
        · exact h1
        · cases hup
      obtain ⟨u1, u2, u3⟩ := hu hfull
      dsimp only
      cases hp : setCalculate c.strings.projectors with
      | error x =>
        refine ⟨h, fun hk => ?_⟩
        have := setCalculate_known hk
        rw [hp] at this
        cases this
      | ok pk =>
        have hstep := fun (t : Net (Ten (Fin 1) (Fin pD) ℝ) × ℕ) b (hb : b ∈ buildBondList nx ny) (ht : MeanNet nx ny t.1) =>
          MeanNet.fullStep (st := c.proj M (Set.svdKind c.strings.svdType)) (pk := pk) hc.1 hc.2 hω hx hy M.la M.fo M.rep c.update u1 u2 u3 e.model
            e.dtau t ht hb
        refine ⟨⟨?_, ?_⟩, fun _ _ => ?_⟩
        · exact evolveLoop_inv (fun t : Net (Ten (Fin 1) (Fin pD) ℝ) × ℕ => MeanNet nx ny t.1) (· ∈ buildBondList nx ny)
            (fun t b hb ht => (hstep t b hb ht).1) e.steps s.bonds hmem (s.net, s.moves) h.1
        · exact bonds_after _ _ _ h.2 _
        · exact evolveLoop_noraise (fun t : Net (Ten (Fin 1) (Fin pD) ℝ) × ℕ => MeanNet nx ny t.1) (· ∈ buildBondList nx ny)
            hstep e.steps s.bonds hmem (s.net, s.moves) h.1

omit hx hy hM hω in
theorem mean_andThen {r : State 1 pD ℝ × Option PyErr} {f : State 1 pD ℝ → State 1 pD ℝ × Option PyErr} {K : Prop}
    (h : MeanState nx ny r.1 ∧ (K → r.2 = none)) (hf : ∀ s, MeanState nx ny s → MeanState nx ny (f s).1 ∧ (K → (f s).2 = none)) :
    MeanState nx ny (Set.andThen r f).1 ∧ (K → (Set.andThen r f).2 = none) := by
  obtain ⟨s, e⟩ := r
  cases e with
  | none => exact hf s h.1
  | some e => exact h

/-- The settings name projectors and an update that exist. -/
def Spec.KnownNames : Call F 1 pD ℝ → Prop
  | .setChi _ => True
  | .renormalize c => KnownProjectors c
  | .evolve c _ => KnownProjectors c ∧ (createTensorUpdater c.strings.updateType).isOk

theorem mean_exec (c : Call F 1 pD ℝ) (hc : Sensible nx ny c) (s : State 1 pD ℝ) (h : MeanState nx ny s) :
    MeanState nx ny (exec M s c).1 ∧ (KnownNames c → (exec M s c).2 = none) := by
  have hev : ∀ (c : Config F) (e : Evolution 1 pD ℝ) (s : State 1 pD ℝ), CutsBelowOne c → (c.strings.updateType = "full" → SolvableUpdate c.update) →
      MeanState nx ny s → s.initialized = true → MeanState nx ny (exec M s (.evolve c e)).1 ∧
        (KnownNames (.evolve c e : Call F 1 pD ℝ) → (exec M s (.evolve c e)).2 = none) := by
    intro c e s hc hu h hs
    rw [exec_evolve M s c e hs]
    refine mean_andThen (mean_andThen ?_ fun s h => ?_) fun s h => ?_
    · exact ⟨(mean_renormalize hx hy M hω c e hc s h).1, fun hk => (mean_renormalize hx hy M hω c e hc s h).2 hk.1⟩
    · exact ⟨(mean_evolveFn hx hy M hM hω c e hc hu s h).1, fun hk => (mean_evolveFn hx hy M hM hω c e hc hu s h).2 hk.1 hk.2⟩
    · exact ⟨(mean_renormalize hx hy M hω c e hc s h).1, fun hk => (mean_renormalize hx hy M hω c e hc s h).2 hk.1⟩
  cases c with
  | setChi chi =>
    obtain ⟨⟨⟨e1, e2, f, hw⟩, -, φ, hp⟩, h2⟩ := h
    exact ⟨⟨⟨⟨e1, e2, f, hw.site, hw.corner, hw.edge⟩, hc, φ, hp.unit, hp.site, hp.corner, hp.edge⟩, h2⟩, fun _ => rfl⟩
  | renormalize c =>
    rw [exec_renormalize M s c ⟨0, 0, ⟨fun _ => 0, fun _ => none⟩, fun _ _ _ _ _ _ => 0⟩]
    exact mean_renormalize hx hy M hω c _ hc s h
  | evolve c e =>
    obtain ⟨h1, h2, h3⟩ := hc
    cases hs : s.initialized with
    | true => exact hev c e s h1 h2 h hs
    | false =>
      rw [exec_evolve_init M s c e hs]
      refine hev c e _ h1 h2 ?_ rfl
      obtain ⟨⟨e1, e2, -⟩, hc, -⟩ := h.1
      unfold initSites MeanState
      dsimp only
      rw [e1, e2]
      exact ⟨meanNet_fresh (by omega) (by omega) hc _ h3, Or.inl rfl⟩

theorem mean_run (cs : List (Call F 1 pD ℝ)) (hcs : ∀ c ∈ cs, Sensible nx ny c) (s : State 1 pD ℝ) (h : MeanState nx ny s) :
    MeanState nx ny (runCatching M cs s) := by
  induction cs generalizing s with
  | nil => exact h
  | cons c cs ih => exact ih (fun c hc => hcs c (by simp [hc])) _ (mean_exec hx hy M hM hω c (hcs c (by simp)) s h).1

omit hx hy hM hω in
theorem mean_new (hx : 0 < nx) (hy : 0 < ny) {chi : ℕ} (hchi : 0 < chi) (A : Site → ATensor (Fin 1) (Fin pD) ℝ)
    (hA : ∀ s, InCell nx ny s → A s ≠ 0) : MeanState nx ny (new nx ny chi A) :=
  ⟨meanNet_fresh hx hy hchi A hA, Or.inl rfl⟩

/-- **C110 (values).** Real dtype, bond dimension one, every cell from 2 × 2, every model, boundary dimension, number of steps and sweeps, kind of
projector, solver and library: after any sequence of calls of `set_chi`, `renormalize` and `evolve` with sensible arguments, the site tensors are
not zero, and every one-site and two-site value measured is the one of the product of the site tensors the object has at that time. -/
theorem C110_values {chi : ℕ} (hchi : 0 < chi) (A : Site → ATensor (Fin 1) (Fin pD) ℝ) (hA : ∀ s, InCell nx ny s → A s ≠ 0)
    (cs : List (Call F 1 pD ℝ)) (hcs : ∀ c ∈ cs, Sensible nx ny c) :
    let s := runCatching M cs (new nx ny chi A)
    let v := siteVec (siteTensors (bare s.net))
    ∀ x, InCell nx ny x → v x ≠ 0 ∧
      (∀ O : Matrix (Fin pD) (Fin pD) ℝ, siteVal s.net x O = .ok (qform Oᵀ (v x) / normSq (v x))) ∧
      ∀ (k : Fin 4) (init : Fin pD → Fin pD → Fin pD → Fin pD → ℝ) (O : Matrix (Fin pD × Fin pD) (Fin pD × Fin pD) ℝ),
        bondVal init s.net ⟨x, neighbour nx ny x k.val, k.val⟩ (fun k1 k2 b1 b2 => O (k1, k2) (b1, b2)) =
          .ok (qform Oᵀ (fun p => v x p.1 * v (neighbour nx ny x k.val) p.2) /
            normSq fun p : Fin pD × Fin pD => v x p.1 * v (neighbour nx ny x k.val) p.2) := by
  exact (mean_run hx hy M hM hω cs hcs _ (mean_new (by omega) (by omega) hchi A hA)).values (by omega) (by omega)

/-- **C110 (no exceptions).** After such calls the next one does not raise if its settings name projectors and an update that exist; for the full
update with both solvers. -/
theorem C110_returns {chi : ℕ} (hchi : 0 < chi) (A : Site → ATensor (Fin 1) (Fin pD) ℝ) (hA : ∀ s, InCell nx ny s → A s ≠ 0)
    (cs : List (Call F 1 pD ℝ)) (hcs : ∀ c ∈ cs, Sensible nx ny c) (c : Call F 1 pD ℝ) (hc : Sensible nx ny c) (hk : KnownNames c) :
    (exec M (runCatching M cs (new nx ny chi A)) c).2 = none :=
  (mean_exec hx hy M hM hω c hc _ (mean_run hx hy M hM hω cs hcs _ (mean_new (by omega) (by omega) hchi A hA))).2 hk

end calls

/-! ### The energy -/

/-- The Hamiltonian `measure` uses is the one of the model. -/
def Spec.Measures (m : ModelTerms (Fin pD) ℝ) (model : MeasModel (Fin pD → Fin pD → ℝ) (Fin pD → Fin pD → Fin pD → Fin pD → ℝ)) : Prop :=
  (∀ s, model.one_site_hamiltonian s = (m.one s).map fun h i j => h i j) ∧
    ∀ b, model.two_site_hamiltonian b = fun k1 k2 b1 b2 => m.two b (k1, k2) (b1, b2)

theorem latticeState_one {P : Type} (σ : Bond → Equiv.Perm (Fin N)) (A : Site → ATensor (Fin 1) P ℝ) :
    latticeState (nx := nx) (ny := ny) σ A = productState fun v => siteVec A (v.2.1, v.2.2) := by
  funext p
  unfold latticeState netState productState
  rw [Fintype.sum_subsingleton _ fun _ => 0]
  rfl

theorem energy_product_bond (hx : 2 ≤ nx) (hy : 2 ≤ ny) (σ : Bond → Equiv.Perm (Fin N)) (v : Site → Fin pD → ℝ)
    (hv : ∀ s, InCell nx ny s → v s ≠ 0) (b : Bond) (hb : b ∈ buildBondList nx ny) (O : Matrix (Fin pD × Fin pD) (Fin pD × Fin pD) ℝ) :
    energyOf ((coveringOps hx hy σ).placement.pair b O) (productState fun w : BigSite nx ny N => v (w.2.1, w.2.2)) =
      N * (qform O (fun p => v b.s1 p.1 * v b.s2 p.2) / normSq fun p : Fin pD × Fin pD => v b.s1 p.1 * v b.s2 p.2) := by
  have hw : ∀ w : BigSite nx ny N, v (w.2.1, w.2.2) ≠ 0 := fun w => hv _ ⟨w.2.1.2, w.2.2.2⟩
  obtain ⟨c1, c2⟩ := C02_bond_ends_in_cell nx ny b hb
  rw [mem_buildSiteList] at c1 c2
  simp only [LatticeOps.placement, LinearMap.sum_apply, AlgHom.toLinearMap_apply]
  rw [energyOf_sum]
  have key : ∀ c : Fin N, energyOf ((coveringOps hx hy σ).on c b O) (productState fun w : BigSite nx ny N => v (w.2.1, w.2.2)) =
      qform O (fun p => v b.s1 p.1 * v b.s2 p.2) / normSq fun p : Fin pD × Fin pD => v b.s1 p.1 * v b.s2 p.2 := by
    intro c
    rw [coveringOps_on hx hy σ b hb, energy_pair (fun e => place_ne hx hy b hb (congrArg Prod.snd e)) _ _ hw, RCLike.re_to_real]
    simp only [place_val hx hy _ c1, place_val hx hy _ c2]
  rw [Finset.sum_congr rfl fun c _ => key c, Finset.sum_const, Finset.card_univ, Fintype.card_fin, nsmul_eq_mul]

theorem energy_product_site (hx : 2 ≤ nx) (hy : 2 ≤ ny) (σ : Bond → Equiv.Perm (Fin N)) (v : Site → Fin pD → ℝ)
    (hv : ∀ s, InCell nx ny s → v s ≠ 0) (s : Site) (hs : InCell nx ny s) (O : Matrix (Fin pD) (Fin pD) ℝ) :
    energyOf ((coveringOps (P := Fin pD) (𝕜 := ℝ) hx hy σ).placement.site s O) (productState fun w : BigSite nx ny N => v (w.2.1, w.2.2)) =
      N * (qform O (v s) / normSq (v s)) := by
  have hw : ∀ w : BigSite nx ny N, v (w.2.1, w.2.2) ≠ 0 := fun w => hv _ ⟨w.2.1.2, w.2.2.2⟩
  have e0 : (coveringOps (P := Fin pD) (𝕜 := ℝ) hx hy σ).placement.site s O = ∑ c, (Trot.siteMatAt (c, place hx hy s) O : Matrix (BigSite nx ny N → Fin pD) _ ℝ) := by
    show (∑ c, Trot.placeOne (c, place hx hy s)) O = _
    rw [LinearMap.sum_apply]
    rfl
  rw [e0, energyOf_sum]
  have key : ∀ c : Fin N, energyOf (Trot.siteMatAt (c, place hx hy s) O) (productState fun w : BigSite nx ny N => v (w.2.1, w.2.2)) =
      qform O (v s) / normSq (v s) := by
    intro c
    obtain ⟨b, hb, e⟩ : ∃ b ∈ buildBondList nx ny, b.s1 = s :=
      ⟨⟨s, neighbour nx ny s 2, 2⟩, ((C02_bond_list nx ny).2.2 _).2 ⟨hs, Or.inl rfl, rfl⟩, rfl⟩
    rw [energy_site (j := (c, place hx hy b.s2)) (fun e' => place_ne hx hy b hb (by rw [e]; exact congrArg Prod.snd e')) _ _ hw, RCLike.re_to_real]
    simp only [place_val hx hy _ hs]
  rw [Finset.sum_congr rfl fun c _ => key c, Finset.sum_const, Finset.card_univ, Fintype.card_fin, nsmul_eq_mul]

/-- The energy of a product state of a lattice made of copies of the cell. -/
theorem energy_product (hx : 2 ≤ nx) (hy : 2 ≤ ny) (σ : Bond → Equiv.Perm (Fin N)) (m : ModelTerms (Fin pD) ℝ) (v : Site → Fin pD → ℝ)
    (hv : ∀ s, InCell nx ny s → v s ≠ 0) :
    energyOf (latticeHamiltonian hx hy σ m) (productState fun w : BigSite nx ny N => v (w.2.1, w.2.2)) =
      N * (((buildBondList nx ny).map fun b => qform (m.two b)ᵀ (fun p => v b.s1 p.1 * v b.s2 p.2) / normSq fun p : Fin pD × Fin pD => v b.s1 p.1 * v b.s2 p.2).sum +
        ((buildSiteList nx ny).map fun s => ((m.one s).map fun h => qform hᵀ (v s) / normSq (v s)).getD 0).sum) := by
  unfold latticeHamiltonian cellHamiltonian
  rw [energyOf_add, energyOf_listSum, energyOf_listSum, mul_add, List.map_map, List.map_map, ← List.sum_map_mul_left, ← List.sum_map_mul_left]
  refine congrArg₂ (· + ·) (congrArg List.sum (List.map_congr_left fun b hb => ?_)) (congrArg List.sum (List.map_congr_left fun s hs => ?_))
  · exact energy_product_bond hx hy σ v hv b hb _
  · have hs' := mem_buildSiteList.1 hs
    cases e : m.one s with
    | none =>
      simp only [Function.comp_apply, ModelTerms.transposed, e, Option.map_none, Option.getD_none, mul_zero]
      exact energyOf_zero _
    | some h =>
      simp only [Function.comp_apply, ModelTerms.transposed, e, Option.map_some, Option.getD_some]
      exact energy_product_site hx hy σ v hv s hs' _

/-- The energy of an object whose values are those of a product state. -/
theorem energy_of_values [NeZero N] (hx : 2 ≤ nx) (hy : 2 ≤ ny) (σ : Bond → Equiv.Perm (Fin N)) (s : State 1 pD ℝ) (hs : MeanState nx ny s)
    (hval : ∀ x, InCell nx ny x → siteVec (siteTensors (bare s.net)) x ≠ 0 ∧
      (∀ O : Matrix (Fin pD) (Fin pD) ℝ, siteVal s.net x O =
        .ok (qform Oᵀ (siteVec (siteTensors (bare s.net)) x) / normSq (siteVec (siteTensors (bare s.net)) x))) ∧
      ∀ (k : Fin 4) (init : Fin pD → Fin pD → Fin pD → Fin pD → ℝ) (O : Matrix (Fin pD × Fin pD) (Fin pD × Fin pD) ℝ),
        bondVal init s.net ⟨x, neighbour nx ny x k.val, k.val⟩ (fun k1 k2 b1 b2 => O (k1, k2) (b1, b2)) =
          .ok (qform Oᵀ (fun p => siteVec (siteTensors (bare s.net)) x p.1 * siteVec (siteTensors (bare s.net)) (neighbour nx ny x k.val) p.2) /
            normSq fun p : Fin pD × Fin pD => siteVec (siteTensors (bare s.net)) x p.1 * siteVec (siteTensors (bare s.net)) (neighbour nx ny x k.val) p.2))
    (m : ModelTerms (Fin pD) ℝ) (model : MeasModel (Fin pD → Fin pD → ℝ) (Fin pD → Fin pD → Fin pD → Fin pD → ℝ)) (hmm : Measures m model)
    (hcl : Meas.Clean model (buildSiteList nx ny) (buildBondList nx ny)) (init : Fin pD → Fin pD → Fin pD → Fin pD → ℝ) :
    let ψ := latticeState (nx := nx) (ny := ny) σ (siteTensors (bare s.net))
    ψ ≠ 0 ∧ ∃ d, Session.measure init model s = .ok d ∧
      d.get? "Energy" = some (energyOf (latticeHamiltonian hx hy σ m) ψ / (N * nx * ny : ℕ)) := by
  intro ψ
  have hx0 : 0 < nx := by omega
  have hy0 : 0 < ny := by omega
  have hv : ∀ x, InCell nx ny x → siteVec (siteTensors (bare s.net)) x ≠ 0 := fun x hx => (hval x hx).1
  have hψ : ψ = productState fun w : BigSite nx ny N => siteVec (siteTensors (bare s.net)) (w.2.1, w.2.2) := latticeState_one σ _
  obtain ⟨r1, r2, e1, e2⟩ := rdms_exist hx0 hy0 s hs.sound init
  obtain ⟨d, hd, hE, -⟩ := measure_of_rdms hx0 hy0 s hs.sound init model hcl r1 r2 e1 e2
  refine ⟨?_, d, hd, ?_⟩
  · intro h0
    have h1 := stateNorm_product fun w : BigSite nx ny N => siteVec (siteTensors (bare s.net)) (w.2.1, w.2.2)
    rw [← hψ, h0] at h1
    have h2 : 0 < ∏ w : BigSite nx ny N, normSq (siteVec (siteTensors (bare s.net)) (w.2.1, w.2.2)) :=
      Finset.prod_pos fun w _ => normSq_pos (hv _ ⟨w.2.1.2, w.2.2.2⟩)
    rw [← h1] at h2
    simp [stateNorm] at h2
  · rw [hE, hψ, energy_product hx hy σ m _ hv]
    congr 1
    unfold energyPerSite
    have hlen : (buildSiteList nx ny).length = nx * ny := (C01_site_list nx ny).2.1
    have hN : (N : ℝ) ≠ 0 := Nat.cast_ne_zero.2 (NeZero.ne N)
    rw [hlen, mul_assoc N nx ny, Nat.cast_mul N, mul_div_mul_left _ _ hN, add_comm]
    congr 2
    · congr 1
      refine List.map_congr_left fun b hb => ?_
      obtain ⟨i1, i2, i3⟩ := ((C02_bond_list nx ny).2.2 b).1 hb
      have hk4 : b.k < 4 := by omega
      have hb' : b = ⟨b.s1, neighbour nx ny b.s1 b.k, b.k⟩ := by
        rw [← i3]
      have h := (hval b.s1 i1).2.2 ⟨b.k, hk4⟩ init (m.two b)
      dsimp only at h
      rw [← i3] at h
      unfold bondVal at h
      rw [show (⟨b.s1, b.s2, b.k⟩ : Bond) = b from rfl, e2 b hb] at h
      rw [hmm.2 b]
      exact Except.ok.inj h
    · congr 1
      refine List.map_congr_left fun x hx => ?_
      rw [mem_buildSiteList] at hx
      unfold siteEnergy
      rw [hmm.1 x]
      cases m.one x with
      | none => rfl
      | some h =>
        have h' := (hval x hx).2.1 h
        unfold siteVal at h'
        rw [e1 x hx] at h'
        exact Except.ok.inj h'

/-- **C110 (energy).** So the energy per site that `measure` returns is, exactly, the energy of the state of the object on every finite lattice made
of copies of the cell, divided by the number of sites. -/
theorem C110_energy [NeZero N] (hx : 2 ≤ nx) (hy : 2 ≤ ny) (σ : Bond → Equiv.Perm (Fin N)) (M : Machine F 1 ℝ) (hM : M.cx = false)
    (hω : DrawsNonzero M.ω) {chi : ℕ} (hchi : 0 < chi) (A : Site → ATensor (Fin 1) (Fin pD) ℝ) (hA : ∀ s, InCell nx ny s → A s ≠ 0)
    (cs : List (Call F 1 pD ℝ)) (hcs : ∀ c ∈ cs, Sensible nx ny c) (m : ModelTerms (Fin pD) ℝ)
    (model : MeasModel (Fin pD → Fin pD → ℝ) (Fin pD → Fin pD → Fin pD → Fin pD → ℝ)) (hmm : Measures m model)
    (hcl : Meas.Clean model (buildSiteList nx ny) (buildBondList nx ny)) (init : Fin pD → Fin pD → Fin pD → Fin pD → ℝ) :
    let s := runCatching M cs (new nx ny chi A)
    let ψ := latticeState (nx := nx) (ny := ny) σ (siteTensors (bare s.net))
    ψ ≠ 0 ∧ ∃ d, Session.measure init model s = .ok d ∧
      d.get? "Energy" = some (energyOf (latticeHamiltonian hx hy σ m) ψ / (N * nx * ny : ℕ)) := by
  intro s ψ
  exact energy_of_values hx hy σ s (mean_run hx hy M hM hω cs hcs _ (mean_new (by omega) (by omega) hchi A hA)) (C110_values hx hy M hM hω hchi A hA cs hcs)
    m model hmm hcl init

/-- **C110 (variational).** It is never below the lowest energy of such a lattice per site. -/
theorem C110_variational [NeZero N] (hx : 2 ≤ nx) (hy : 2 ≤ ny) (σ : Bond → Equiv.Perm (Fin N)) (M : Machine F 1 ℝ) (hM : M.cx = false)
    (hω : DrawsNonzero M.ω) {chi : ℕ} (hchi : 0 < chi) (A : Site → ATensor (Fin 1) (Fin pD) ℝ) (hA : ∀ s, InCell nx ny s → A s ≠ 0)
    (cs : List (Call F 1 pD ℝ)) (hcs : ∀ c ∈ cs, Sensible nx ny c) (m : ModelTerms (Fin pD) ℝ)
    (model : MeasModel (Fin pD → Fin pD → ℝ) (Fin pD → Fin pD → Fin pD → Fin pD → ℝ)) (hmm : Measures m model)
    (hcl : Meas.Clean model (buildSiteList nx ny) (buildBondList nx ny)) (init : Fin pD → Fin pD → Fin pD → Fin pD → ℝ) (E₀ : ℝ)
    (hE : IsGroundEnergy (latticeHamiltonian hx hy σ m) E₀) :
    ∃ d E, Session.measure init model (runCatching M cs (new nx ny chi A)) = .ok d ∧ d.get? "Energy" = some E ∧ E₀ / (N * nx * ny : ℕ) ≤ E := by
  obtain ⟨hψ, d, h1, h2⟩ := C110_energy hx hy σ M hM hω hchi A hA cs hcs m model hmm hcl init
  exact ⟨d, _, h1, h2, div_le_div_of_nonneg_right (hE _ hψ) (Nat.cast_nonneg _)⟩

/-! ### Non-vacuity -/

/-- Settings as in the documentation, with either update. -/
noncomputable def exampleConfig (svd update : String) (method : Als.Solver) : Config ℝ :=
  ⟨⟨none, svd, update⟩, 10, 1e-12, 2, 2, ⟨true, 1e-12, 1e-12, 100, 1e-15, method, 1e-12⟩⟩

theorem exampleConfig_ok (svd update : String) (method : Als.Solver) :
    CutsBelowOne (exampleConfig svd update method) ∧ SolvableUpdate (exampleConfig svd update method).update := by
  refine ⟨⟨?_, ?_⟩, ?_, ?_, fun _ => Real.lt_sqrt_of_sq_lt ?_⟩
  all_goals dsimp only [exampleConfig]
  · norm_num
  · norm_num
  · cases method
    · exact .inl ⟨rfl, by norm_num⟩
    · exact .inr ⟨rfl, by norm_num⟩
  · norm_num
  · norm_num

/-- A script with both updates, whatever the models it evolves with. -/
noncomputable def exampleScript (svd : String) (method : Als.Solver) (chi n : ℕ) (dtau : ℝ) (m m' : ModelTerms (Fin 2) ℝ) : List (Call ℝ 1 2 ℝ) :=
  [.evolve (exampleConfig svd "full" method) ⟨dtau, n, m, fun s => (plusNet s).A⟩, .setChi (chi + 1), .renormalize (exampleConfig svd "full" method),
    .evolve (exampleConfig svd "simple" method) ⟨dtau, n, m', fun s => (plusNet s).A⟩]

theorem plusNet_ne (s : Site) : (plusNet s).A ≠ 0 := fun h => one_ne_zero (α := ℝ) (congrFun (congrFun (congrFun (congrFun (congrFun h 0) 0) 0) 0) 0)

theorem exampleScript_ok (svd : String) (method : Als.Solver) (chi n : ℕ) (dtau : ℝ) (m m' : ModelTerms (Fin 2) ℝ) :
    ∀ c ∈ exampleScript svd method chi n dtau m m', Sensible nx ny c ∧ KnownNames c := by
  intro c hc
  simp only [exampleScript, List.mem_cons, List.not_mem_nil, or_false] at hc
  rcases hc with rfl | rfl | rfl | rfl
  · exact ⟨⟨(exampleConfig_ok _ _ _).1, fun _ => (exampleConfig_ok _ _ _).2, fun s _ => plusNet_ne s⟩, .inl rfl, rfl⟩
  · exact ⟨Nat.succ_pos chi, trivial⟩
  · exact ⟨(exampleConfig_ok _ _ _).1, .inl rfl⟩
  · exact ⟨⟨(exampleConfig_ok _ _ _).1, fun _ => (exampleConfig_ok _ _ _).2, fun s _ => plusNet_ne s⟩, .inl rfl, rfl⟩

/-- The measured energy of a field, at the end of that script, is at least `-1` per site. -/
example [NeZero N] (hx : 2 ≤ nx) (hy : 2 ≤ ny) (la : Lapack ℝ) (fo : Als.FloatOps ℝ) (svd : String) (method : Als.Solver) (chi n : ℕ) (dtau : ℝ)
    (m m' : ModelTerms (Fin 2) ℝ) (init : Fin 2 → Fin 2 → Fin 2 → Fin 2 → ℝ) :
    let M : Machine ℝ 1 ℝ := ⟨la, fo, id, fun _ _ _ _ _ _ _ => 1, false⟩
    let model : MeasModel (Fin 2 → Fin 2 → ℝ) (Fin 2 → Fin 2 → Fin 2 → Fin 2 → ℝ) :=
      { one_site_observables := fun _ => [], two_site_observables := fun _ => []
        one_site_hamiltonian := fun s => (fieldTerms.one s).map fun h i j => h i j
        two_site_hamiltonian := fun b k1 k2 b1 b2 => fieldTerms.two b (k1, k2) (b1, b2) }
    ∃ d E, Session.measure init model (runCatching M (exampleScript svd method chi n dtau m m') (new nx ny 1 fun s => (plusNet s).A)) = .ok d ∧
      d.get? "Energy" = some E ∧ fieldGround nx ny N / (N * nx * ny : ℕ) ≤ E := by
  intro M model
  refine C110_variational hx hy (fun _ => Equiv.refl _) M rfl (fun t key q hq h => ?_) one_pos _ (fun s _ => plusNet_ne s) _
    (fun c hc => (exampleScript_ok svd method chi n dtau m m' c hc).1) fieldTerms model ⟨fun _ => rfl, fun _ => rfl⟩ ?_ init _
    (field_overlaps hx hy _ _ (plusNet_ones _)).1
  · exact one_ne_zero (α := ℝ) (congrFun (congrFun h (0, 0, 0)) ⟨0, by simp [clipRank]; omega⟩)
  · exact ⟨fun _ => by simp [PyDict.keys, model], fun _ => by simp [PyDict.keys, model], fun _ _ _ => Iff.rfl, fun _ _ _ _ _ => Iff.rfl,
      by simp [PyDict.keys, model], fun _ _ => by simp [PyDict.keys, model], fun _ _ k hk => by simp [PyDict.keys, model] at hk⟩

end AceTN
