import Verif.Lemmas.FieldMapUpdate
import Verif.Spec.DtypeSession
import Verif.Props.Rdm

/-!
Sessions and measurements commute with a conversion of the dtype.
-/

set_option autoImplicit false
set_option linter.unusedSectionVars false

namespace AceTN

open Spec Session

section compose

variable {σ τ : Type} (c : σ → τ)

/-- The result of a call with the state converted. -/
def mapResult (r : σ × Option PyErr) : τ × Option PyErr := (c r.1, r.2)

theorem andThen_map (r : σ × Option PyErr) (f : σ → σ × Option PyErr) (f' : τ → τ × Option PyErr) (hf : ∀ s, f' (c s) = mapResult c (f s)) :
    Set.andThen (mapResult c r) f' = mapResult c (Set.andThen r f) := by
  rcases r with ⟨s, _ | e⟩
  · exact hf s
  · rfl

theorem settings_evolve_map (k : Set.Comp σ) (k' : Set.Comp τ) (st : Set.Settings) (hi : ∀ s, k'.initSites (c s) = c (k.initSites s))
    (hs : ∀ p q s, k'.sweeps p q (c s) = mapResult c (k.sweeps p q s)) (hf : ∀ p q s, k'.fullLoop p q (c s) = mapResult c (k.fullLoop p q s))
    (hn : st.updateType ≠ "simple") (i : Bool) (s : σ) : Set.evolve k' st i (c s) = mapResult c (Set.evolve k st i s) := by
  have hr : ∀ s, Set.renormalize k' st (c s) = mapResult c (Set.renormalize k st s) := by
    intro s
    unfold Set.renormalize
    cases setCalculate st.projectors with
    | error e => rfl
    | ok p => exact hs _ _ _
  have he : ∀ s, Set.evolveFn k' st (c s) = mapResult c (Set.evolveFn k st s) := by
    intro s
    unfold Set.evolveFn createTensorUpdater
    by_cases h : st.updateType = "full"
    · rw [if_pos h]
      cases setCalculate st.projectors with
      | error e => rfl
      | ok p => exact hf _ _ _
    · rw [if_neg h, if_neg hn]
      rfl
  unfold Set.evolve
  have e : (if i then c s else k'.initSites (c s)) = c (if i then s else k.initSites s) := by
    cases i
    · exact hi s
    · rfl
  dsimp only
  rw [e, hr, andThen_map c _ _ _ he, andThen_map c _ _ _ hr]

end compose

section session

variable {𝕜 𝕜' F : Type} [RCLike 𝕜] [RCLike 𝕜'] (φ : 𝕜 →⋆ₐ[ℝ] 𝕜') {bD pD : ℕ} [NeZero bD] [NeZero pD]

theorem mapState_new (nx ny chi : ℕ) (A : Site → ATensor (Fin bD) (Fin pD) 𝕜) :
    mapState φ (Session.new nx ny chi A) = Session.new nx ny chi (mapSiteTensors φ A) := by
  unfold mapState Session.new mapSiteTensors
  dsimp only
  rw [hom_freshNet]

theorem proj_follows {M : Machine F bD 𝕜} {M' : Machine F bD 𝕜'} (h : MachineFollows φ M M') (c : Config F) (k : Set.SvdKind) :
    SameSettings φ (c.proj M k) (c.proj M' k) := ⟨h.la, rfl, rfl, rfl, rfl⟩

theorem hom_sweeps {M : Machine F bD 𝕜} {M' : Machine F bD 𝕜'} (h : MachineFollows φ M M') (c : Config F) (pk : ProjKind) (k : Set.SvdKind)
    (s : State bD pD 𝕜) : sweeps M' c pk k (mapState φ s) = mapResult (mapState φ) (sweeps M c pk k s) := by
  unfold sweeps
  rw [h.ω]
  rw [show ctmrgDrawn (c.proj M' k) pk (fun t => mapDraws φ (M.ω t)) (mapState φ s).moves c.sweeps (mapState φ s).net =
    (ctmrgDrawn (c.proj M k) pk M.ω s.moves c.sweeps s.net).map (mapNet (mapTen φ)) from
      hom_ctmrgDrawn φ (proj_follows φ h c k) pk M.ω s.moves c.sweeps s.net]
  cases ctmrgDrawn (c.proj M k) pk M.ω s.moves c.sweeps s.net <;> rfl

theorem hom_exec {M : Machine F bD 𝕜} {M' : Machine F bD 𝕜'} (h : MachineFollows φ M M') (s : State bD pD 𝕜) (c : Call F bD pD 𝕜)
    (hc : NotSimple c) : exec M' (mapState φ s) (mapCall φ c) = mapResult (mapState φ) (exec M s c) := by
  cases c with
  | setChi chi => rfl
  | renormalize c =>
    unfold exec mapCall
    dsimp only
    cases setCalculate c.strings.projectors with
    | error e => rfl
    | ok k => exact hom_sweeps φ h c k _ s
  | evolve c e =>
    refine settings_evolve_map (mapState φ) (comp M c e) (comp M' c (mapEvolution φ e)) c.strings ?_ (hom_sweeps φ h c) ?_ hc s.initialized s
    · intro s
      unfold comp initSites mapState mapEvolution mapSiteTensors
      dsimp only
      rw [hom_freshNet]
      rfl
    · intro p q s
      unfold comp mapEvolution
      dsimp only
      rw [show twoSiteGate (mapTerms φ e.model) e.dtau = fun b p q r s => φ (twoSiteGate e.model e.dtau b p q r s) from
        funext fun b => hom_twoSiteGate φ e.model e.dtau b, h.ω, h.fo, h.rep]
      have e1 := hom_fullEvolve φ h.la (proj_follows φ h c q) p M.ω M.fo M.rep c.update none (twoSiteGate e.model e.dtau) e.steps s.bonds s.net s.moves
      rw [Option.map_none] at e1
      rw [show Full.fullEvolve (c.proj M' q) p (fun t => mapDraws φ (M.ω t)) M'.la M.fo M.rep c.update none
        (fun b p q r s => φ (twoSiteGate e.model e.dtau b p q r s)) e.steps ((mapState φ s).bonds, (mapState φ s).net, (mapState φ s).moves) = _ from e1]
      rfl

theorem hom_session {M : Machine F bD 𝕜} {M' : Machine F bD 𝕜'} (h : MachineFollows φ M M') (cs : List (Call F bD pD 𝕜))
    (hc : ∀ c ∈ cs, NotSimple c) (s : State bD pD 𝕜) :
    Session.run M' (cs.map (mapCall φ)) (mapState φ s) = mapResult (mapState φ) (Session.run M cs s) := by
  induction cs generalizing s with
  | nil => rfl
  | cons c cs ih =>
    rw [List.map_cons]
    unfold Session.run
    rw [hom_exec φ h s c (hc c List.mem_cons_self)]
    exact andThen_map _ _ _ _ (ih fun c hm => hc c (List.mem_cons_of_mem _ hm))

end session

/-! ### Measurements -/

section measure

variable {O₁ O₂ O₁' O₂' : Type}

theorem addAll_map {O O' : Type} (g : O → O') (v : O → ℝ) (v' : O' → ℝ) (hv : ∀ o, v' (g o) = v o) (obs : PyDict String O) (ave : PyDict String ℝ) :
    Meas.addAll v' (obs.map fun o => (o.1, g o.2)) ave = Meas.addAll v obs ave := by
  unfold Meas.addAll
  rw [List.foldlM_map]
  simp only [hv]

theorem calculate_map {S O O' : Type} (g : O → O') (places : List S) (first : S) (obs : S → PyDict String O) (e : S → ℝ) (v : S → O → ℝ)
    (v' : S → O' → ℝ) (hv : ∀ s o, v' s (g o) = v s o) (ave : PyDict String ℝ) :
    Meas.calculate places first (fun s => (obs s).map fun o => (o.1, g o.2)) e v' ave = Meas.calculate places first obs e v ave := by
  unfold Meas.calculate
  have hk : ∀ s, PyDict.keys ((obs s).map fun o => (o.1, g o.2)) = PyDict.keys (obs s) := by
    intro s
    unfold PyDict.keys
    rw [List.map_map]
    rfl
  dsimp only
  rw [hk]
  simp only [addAll_map g (v _) (v' _) (hv _)]

theorem meas_map (g1 : O₁ → O₁') (g2 : O₂ → O₂') (m : MeasModel O₁ O₂) (v1 : Site → O₁ → ℝ) (v2 : Bond → O₂ → ℝ) (v1' : Site → O₁' → ℝ)
    (v2' : Bond → O₂' → ℝ) (h1 : ∀ s o, v1' s (g1 o) = v1 s o) (h2 : ∀ b o, v2' b (g2 o) = v2 b o) (sites : List Site) (bonds : List Bond) :
    Meas.measure (⟨fun s => (m.one_site_observables s).map fun o => (o.1, g1 o.2), fun b => (m.two_site_observables b).map fun o => (o.1, g2 o.2),
      fun s => (m.one_site_hamiltonian s).map g1, fun b => g2 (m.two_site_hamiltonian b)⟩ : MeasModel O₁' O₂') v1' v2' sites bonds =
      Meas.measure m v1 v2 sites bonds := by
  unfold Meas.measure
  dsimp only
  rw [calculate_map g1 sites (0, 0) m.one_site_observables _ v1 v1' h1]
  simp only [calculate_map g2 bonds _ m.two_site_observables _ v2 v2' h2, h2]
  congr 2
  funext s
  cases m.one_site_hamiltonian s with
  | none => rfl
  | some h => exact h1 s h

variable {𝕜 𝕜' : Type} [RCLike 𝕜] [RCLike 𝕜'] (φ : 𝕜 →⋆ₐ[ℝ] 𝕜') {bD pD : ℕ} [NeZero bD] [NeZero pD]

theorem numBondRdm_init (init init' : Fin pD → Fin pD → Fin pD → Fin pD → 𝕜) (net : Net (Ten (Fin bD) (Fin pD) 𝕜)) (b : Bond) :
    numBondRdm init net b = numBondRdm init' net b := by
  unfold numBondRdm
  simp only [C32_bond_rdm]

theorem hom_bondRdm' (init : Fin pD → Fin pD → Fin pD → Fin pD → 𝕜) (init' : Fin pD → Fin pD → Fin pD → Fin pD → 𝕜')
    (net : Net (Ten (Fin bD) (Fin pD) 𝕜)) (b : Bond) :
    numBondRdm init' (mapNet (mapTen φ) net) b = (numBondRdm init net b).map fun ρ p q r s => φ (ρ p q r s) := by
  rw [numBondRdm_init init' fun p q r s => φ (init p q r s)]
  exact hom_bondRdm φ init net b

theorem hom_siteVal (net : Net (Ten (Fin bD) (Fin pD) 𝕜)) (s : Site) (op : Fin pD → Fin pD → 𝕜) :
    siteVal (mapNet (mapTen φ) net) s (fun p q => φ (op p q)) = siteVal net s op := by
  unfold siteVal
  rw [hom_siteRdm]
  cases numSiteRdm net s with
  | error e => rfl
  | ok ρ =>
    show Except.ok _ = Except.ok _
    rw [hom_measureOneSite, hom_siteNorm]

theorem hom_bondVal (init : Fin pD → Fin pD → Fin pD → Fin pD → 𝕜) (init' : Fin pD → Fin pD → Fin pD → Fin pD → 𝕜')
    (net : Net (Ten (Fin bD) (Fin pD) 𝕜)) (b : Bond) (op : Fin pD → Fin pD → Fin pD → Fin pD → 𝕜) :
    bondVal init' (mapNet (mapTen φ) net) b (fun p q r s => φ (op p q r s)) = bondVal init net b op := by
  unfold bondVal
  rw [hom_bondRdm' φ init]
  cases numBondRdm init net b with
  | error e => rfl
  | ok ρ =>
    show Except.ok _ = Except.ok _
    rw [hom_measureTwoSite, hom_bondNorm]

theorem forIn_congr_step {α ε : Type} (l : List α) (f g : α → PUnit → Except ε (ForInStep PUnit)) (h : ∀ a u, f a u = g a u) :
    forIn l PUnit.unit f = forIn l PUnit.unit g := by
  have : f = g := by
    funext a u
    exact h a u
  rw [this]

theorem hom_measure (init : Fin pD → Fin pD → Fin pD → Fin pD → 𝕜) (init' : Fin pD → Fin pD → Fin pD → Fin pD → 𝕜')
    (m : MeasModel (Fin pD → Fin pD → 𝕜) (Fin pD → Fin pD → Fin pD → Fin pD → 𝕜)) (s : State bD pD 𝕜) :
    Session.measure init' (mapObservables φ m) (mapState φ s) = Session.measure init m s := by
  have e1 : ∀ x, ((numSiteRdm (mapNet (mapTen φ) s.net) x >>= fun _ => pure (ForInStep.yield PUnit.unit)) : Except PyErr (ForInStep PUnit)) =
      (numSiteRdm s.net x >>= fun _ => pure (ForInStep.yield PUnit.unit)) := by
    intro x
    rw [hom_siteRdm]
    cases numSiteRdm s.net x <;> rfl
  have e2 : ∀ b, ((numBondRdm init' (mapNet (mapTen φ) s.net) b >>= fun _ => pure (ForInStep.yield PUnit.unit)) : Except PyErr (ForInStep PUnit)) =
      (numBondRdm init s.net b >>= fun _ => pure (ForInStep.yield PUnit.unit)) := by
    intro b
    rw [hom_bondRdm' φ init]
    cases numBondRdm init s.net b <;> rfl
  have e3 := meas_map (fun (o : Fin pD → Fin pD → 𝕜) p q => φ (o p q)) (fun (o : Fin pD → Fin pD → Fin pD → Fin pD → 𝕜) p q r s => φ (o p q r s)) m
    (fun x op => (siteVal s.net x op).toOption.getD 0) (fun b op => (bondVal init s.net b op).toOption.getD 0)
    (fun x op => (siteVal (mapNet (mapTen φ) s.net) x op).toOption.getD 0)
    (fun b op => (bondVal init' (mapNet (mapTen φ) s.net) b op).toOption.getD 0)
    (fun x op => by rw [hom_siteVal]) (fun b op => by rw [hom_bondVal φ init]) (buildSiteList s.net.nx s.net.ny) s.bonds
  unfold Session.measure
  show (forIn (buildSiteList s.net.nx s.net.ny) PUnit.unit fun x _ => (numSiteRdm (mapNet (mapTen φ) s.net) x >>= fun _ => pure (ForInStep.yield PUnit.unit))) >>=
    (fun _ => (forIn s.bonds PUnit.unit fun b _ => (numBondRdm init' (mapNet (mapTen φ) s.net) b >>= fun _ => pure (ForInStep.yield PUnit.unit))) >>=
      fun _ => Meas.measure (mapObservables φ m) (fun x op => (siteVal (mapNet (mapTen φ) s.net) x op).toOption.getD 0)
        (fun b op => (bondVal init' (mapNet (mapTen φ) s.net) b op).toOption.getD 0) (buildSiteList s.net.nx s.net.ny) s.bonds) = _
  rw [forIn_congr_step _ _ _ fun x _ => e1 x, forIn_congr_step _ _ _ fun b _ => e2 b]
  rw [show Meas.measure (mapObservables φ m) _ _ _ _ = _ from e3]

end measure

end AceTN
