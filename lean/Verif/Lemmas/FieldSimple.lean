import Verif.Lemmas.FieldSession

/-!
The simple update commutes with a conversion of the entries, as long as both weights are real or both complex.
-/

set_option autoImplicit false
set_option linter.unusedSectionVars false

namespace AceTN

open Spec Session

namespace Simple

variable {𝕜 𝕜' : Type} [RCLike 𝕜] [RCLike 𝕜'] (φ : 𝕜 →⋆ₐ[ℝ] 𝕜') {bD : ℕ}

section weights

variable {P : Type}

theorem hom_absorbWeight (lt : LambdaTensors (Weight bD)) (s : Site) (x d : ℕ) :
    absorbWeight (𝕜 := 𝕜') lt s x d = (absorbWeight (𝕜 := 𝕜) lt s x d).map fun w i => φ (w i) := by
  unfold absorbWeight
  cases lt.get s d with
  | error e => rfl
  | ok w =>
    by_cases h : d ≠ x
    · show (if d ≠ x then _ else _) = Except.map _ (if d ≠ x then _ else _)
      rw [if_pos h, if_pos h]
      exact congrArg Except.ok (funext fun i => (hom_real φ _).symm)
    · show (if d ≠ x then _ else _) = Except.map _ (if d ≠ x then _ else _)
      rw [if_neg h, if_neg h]
      exact congrArg Except.ok (funext fun i => (map_one φ).symm)

theorem hom_stripWeight (lt : LambdaTensors (Weight bD)) (s : Site) (x d : ℕ) :
    stripWeight (𝕜 := 𝕜') lt s x d = (stripWeight (𝕜 := 𝕜) lt s x d).map fun w i => φ (w i) := by
  unfold stripWeight
  cases lt.get s d with
  | error e => rfl
  | ok w =>
    by_cases h : d ≠ x
    · obtain ⟨c, v⟩ := w
      show (if d ≠ x then _ else _) = Except.map _ (if d ≠ x then _ else _)
      rw [if_pos h, if_pos h]
      cases c
      · show Except.ok _ = Except.ok _
        congr 1
        funext i
        exact (hom_real φ _).symm
      · rfl
    · show (if d ≠ x then _ else _) = Except.map _ (if d ≠ x then _ else _)
      rw [if_neg h, if_neg h]
      exact congrArg Except.ok (funext fun i => (map_one φ).symm)

theorem hom_applyWeights (l u r d : Fin bD → 𝕜) (a : ATensor (Fin bD) P 𝕜) :
    applyWeights (fun i => φ (l i)) (fun i => φ (u i)) (fun i => φ (r i)) (fun i => φ (d i)) (fun l u r d p => φ (a l u r d p)) =
      fun i j k m p => φ (applyWeights l u r d a i j k m p) := by
  funext i j k m p
  unfold applyWeights
  simp only [map_mul]

theorem hom_absorb (lt : LambdaTensors (Weight bD)) (a : ATensor (Fin bD) P 𝕜) (s : Site) (x : ℕ) :
    absorb lt (fun l u r d p => φ (a l u r d p)) s x = (absorb lt a s x).map fun a l u r d p => φ (a l u r d p) := by
  unfold absorb
  rw [hom_absorbWeight φ lt s x 0, hom_absorbWeight φ lt s x 1, hom_absorbWeight φ lt s x 2, hom_absorbWeight φ lt s x 3]
  cases absorbWeight (𝕜 := 𝕜) lt s x 0 <;> [rfl; skip]
  cases absorbWeight (𝕜 := 𝕜) lt s x 1 <;> [rfl; skip]
  cases absorbWeight (𝕜 := 𝕜) lt s x 2 <;> [rfl; skip]
  cases absorbWeight (𝕜 := 𝕜) lt s x 3 <;> [rfl; skip]
  exact congrArg Except.ok (hom_applyWeights φ _ _ _ _ a)

theorem hom_strip (lt : LambdaTensors (Weight bD)) (a : ATensor (Fin bD) P 𝕜) (s : Site) (x : ℕ) :
    strip lt (fun l u r d p => φ (a l u r d p)) s x = (strip lt a s x).map fun a l u r d p => φ (a l u r d p) := by
  unfold strip
  rw [hom_stripWeight φ lt s x 0, hom_stripWeight φ lt s x 1, hom_stripWeight φ lt s x 2, hom_stripWeight φ lt s x 3]
  cases stripWeight (𝕜 := 𝕜) lt s x 0 <;> [rfl; skip]
  cases stripWeight (𝕜 := 𝕜) lt s x 1 <;> [rfl; skip]
  cases stripWeight (𝕜 := 𝕜) lt s x 2 <;> [rfl; skip]
  cases stripWeight (𝕜 := 𝕜) lt s x 3 <;> [rfl; skip]
  exact congrArg Except.ok (hom_applyWeights φ _ _ _ _ a)

end weights

section update

variable {la : Lapack 𝕜} {la' : Lapack 𝕜'} (h : LibraryFollows φ la la')

include h

theorem hom_splitReduced {N P : Type} [Fintype N] [DecidableEq N] [Fintype P] [DecidableEq P]
    (hb : bD ≤ min (Fintype.card (N × P)) (Fintype.card (N × P))) (a1r a2r : N → Fin bD → P → 𝕜) (gate : P → P → P → P → 𝕜) :
    splitReduced la' hb (fun y u p => φ (a1r y u p)) (fun y u p => φ (a2r y u p)) (fun p q r s => φ (gate p q r s)) =
      ((fun y u p => φ ((splitReduced la hb a1r a2r gate).1 y u p)), (fun y u p => φ ((splitReduced la hb a1r a2r gate).2.1 y u p)),
        (splitReduced la hb a1r a2r gate).2.2) := by
  have e : (Matrix.of fun (i j : N × P) => ∑ p, ∑ q, (∑ u, φ (a1r i.1 u p) * φ (a2r j.1 u q)) * φ (gate p q i.2 j.2)) =
      (Matrix.of fun (i j : N × P) => ∑ p, ∑ q, (∑ u, a1r i.1 u p * a2r j.1 u q) * gate p q i.2 j.2).map φ := by
    ext i j
    show (∑ p, ∑ q, (∑ u, φ (a1r i.1 u p) * φ (a2r j.1 u q)) * φ (gate p q i.2 j.2)) = φ (∑ p, ∑ q, (∑ u, a1r i.1 u p * a2r j.1 u q) * gate p q i.2 j.2)
    hom_tac
  unfold splitReduced
  dsimp only
  rw [e, h.svd]
  simp only [Matrix.map_apply, map_mul, hom_real]

theorem hom_splitBond {P : Type} [Fintype P] [DecidableEq P] [NeZero bD] [Nonempty P] (gate : P → P → P → P → 𝕜) (a1 a2 : ATensor (Fin bD) P 𝕜) :
    splitBond la' (fun p q r s => φ (gate p q r s)) (fun l u r d p => φ (a1 l u r d p)) (fun l u r d p => φ (a2 l u r d p)) =
      ((fun l u r d p => φ ((splitBond la gate a1 a2).1 l u r d p)), (fun l u r d p => φ ((splitBond la gate a1 a2).2.1 l u r d p)),
        (splitBond la gate a1 a2).2.2) := by
  unfold splitBond
  dsimp only
  rw [hom_decompose φ h]
  rw [show splitReduced la' bD_le (mapDecomp φ (decompose la a1 a2)).a1r (mapDecomp φ (decompose la a1 a2)).a2r (fun p q r s => φ (gate p q r s)) = _ from
    hom_splitReduced φ h bD_le (decompose la a1 a2).a1r (decompose la a1 a2).a2r gate]
  dsimp only
  rw [show recompose (mapDecomp φ (decompose la a1 a2)).a1q _ (mapDecomp φ (decompose la a1 a2)).a2q _ = _ from
    hom_recompose φ (decompose la a1 a2).a1q (decompose la a1 a2).a2q _ _]

/-- The result of a bond update converted. -/
def mapTriple {P : Type} (t : ATensor (Fin bD) P 𝕜 × ATensor (Fin bD) P 𝕜 × (Fin bD → ℝ)) :
    ATensor (Fin bD) P 𝕜' × ATensor (Fin bD) P 𝕜' × (Fin bD → ℝ) :=
  (fun l u r d p => φ (t.1 l u r d p), fun l u r d p => φ (t.2.1 l u r d p), t.2.2)

theorem hom_bondTensors {P : Type} [Fintype P] [DecidableEq P] [NeZero bD] [Nonempty P] (lt : LambdaTensors (Weight bD)) (gate : P → P → P → P → 𝕜)
    (b : Bond) (a1 a2 : ATensor (Fin bD) P 𝕜) :
    bondTensors la' lt none (fun p q r s => φ (gate p q r s)) b (fun l u r d p => φ (a1 l u r d p)) (fun l u r d p => φ (a2 l u r d p)) =
      (bondTensors la lt none gate b a1 a2).map (mapTriple φ) := by
  have hp : ∀ (k : ℤ) (a : ATensor (Fin bD) P 𝕜), bondPermute k (fun l u r d p => φ (a l u r d p)) = fun l u r d p => φ (bondPermute k a l u r d p) :=
    fun k a => hom_bondPermute φ k a
  unfold bondTensors
  rw [hom_absorb φ lt a1, hom_absorb φ lt a2]
  cases absorb lt a1 b.s1 b.k with
  | error e => rfl
  | ok c1 =>
    cases absorb lt a2 b.s2 ((b.k + 2) % 4) with
    | error e => rfl
    | ok c2 =>
      simp only [Except.map, bind, Except.bind, hp, hom_splitBond φ h, hom_strip φ lt]
      cases strip lt (bondPermute (4 - b.k) (splitBond la gate (bondPermute b.k c1) (bondPermute b.k c2)).1) b.s1 b.k with
      | error e => rfl
      | ok d1 =>
        dsimp only
        cases strip lt (bondPermute (4 - b.k) (splitBond la gate (bondPermute b.k c1) (bondPermute b.k c2)).2.1) b.s2 ((b.k + 2) % 4) <;> rfl

theorem hom_numBondStep {pD : ℕ} [NeZero bD] [NeZero pD] (gates : Bond → Fin pD → Fin pD → Fin pD → Fin pD → 𝕜)
    (s : Net (Ten (Fin bD) (Fin pD) 𝕜) × LambdaTensors (Weight bD)) (b : Bond) :
    numBondStep la' (fun b p q r s => φ (gates b p q r s)) (mapNet (mapTen φ) s.1, s.2) b =
      ((mapNet (mapTen φ) (numBondStep la gates s b).1.1, (numBondStep la gates s b).1.2), (numBondStep la gates s b).2) := by
  unfold numBondStep
  show (match (generalizing := false) mapTen φ (s.1.A b.s1), mapTen φ (s.1.A b.s2) with
    | .site a1, .site a2 =>
      match (generalizing := false) Simple.bondTensors la' s.2 none (fun p q r s => φ (gates b p q r s)) b a1 a2 with
      | .error e => ((mapNet (mapTen φ) s.1, s.2), some e)
      | .ok (a1, a2, lambda) => ((writeSite (writeSite (mapNet (mapTen φ) s.1) b.s1 a1) b.s2 a2, s.2.setItem b ⟨false, lambda⟩), none)
    | _, _ => ((mapNet (mapTen φ) s.1, s.2), some PyErr.runtimeError)) = _
  cases s.1.A b.s1 <;> cases s.1.A b.s2 <;> try rfl
  rename_i a1 a2
  dsimp only [mapTen]
  rw [hom_bondTensors φ h]
  cases bondTensors la s.2 none (gates b) b a1 a2 with
  | error e => rfl
  | ok t =>
    obtain ⟨c1, c2, w⟩ := t
    dsimp only [Except.map, mapTriple]
    rw [hom_writeSite, hom_writeSite]

theorem hom_numEvolve {pD : ℕ} [NeZero bD] [NeZero pD] (cx : Bool) (gates : Bond → Fin pD → Fin pD → Fin pD → Fin pD → 𝕜) (steps : ℕ)
    (bl : List Bond) (net : Net (Ten (Fin bD) (Fin pD) 𝕜)) :
    numEvolve la' cx (fun b p q r s => φ (gates b p q r s)) steps (bl, mapNet (mapTen φ) net) =
      ((numEvolve la cx gates steps (bl, net)).1, mapNet (mapTen φ) (numEvolve la cx gates steps (bl, net)).2.1,
        (numEvolve la cx gates steps (bl, net)).2.2) := by
  unfold numEvolve evolveCall
  dsimp only
  rw [show evolveLoop (numBondStep la' fun b p q r s => φ (gates b p q r s)) steps bl (mapNet (mapTen φ) net, LambdaTensors.init bl (ones bD cx)) = _ from
    evolveLoop_map (fun s => (mapNet (mapTen φ) s.1, s.2)) _ _ (hom_numBondStep φ h gates) steps bl (net, LambdaTensors.init bl (ones bD cx))]

end update

end Simple

/-! ### Sessions with any updates -/

section compose

variable {σ τ : Type} (c : σ → τ)

theorem settings_evolve_map_all (k : Set.Comp σ) (k' : Set.Comp τ) (st : Set.Settings) (hi : ∀ s, k'.initSites (c s) = c (k.initSites s))
    (hs : ∀ p q s, k'.sweeps p q (c s) = mapResult c (k.sweeps p q s)) (hf : ∀ p q s, k'.fullLoop p q (c s) = mapResult c (k.fullLoop p q s))
    (hn : ∀ s, k'.simpleLoop (c s) = mapResult c (k.simpleLoop s)) (i : Bool) (s : σ) :
    Set.evolve k' st i (c s) = mapResult c (Set.evolve k st i s) := by
  by_cases h : st.updateType = "simple"
  · have hr : ∀ s, Set.renormalize k' st (c s) = mapResult c (Set.renormalize k st s) := by
      intro s
      unfold Set.renormalize
      cases setCalculate st.projectors with
      | error e => rfl
      | ok p => exact hs _ _ _
    have he : ∀ s, Set.evolveFn k' st (c s) = mapResult c (Set.evolveFn k st s) := by
      intro s
      unfold Set.evolveFn createTensorUpdater
      rw [h, if_neg (by decide), if_pos rfl]
      exact hn s
    unfold Set.evolve
    have e : (if i then c s else k'.initSites (c s)) = c (if i then s else k.initSites s) := by
      cases i
      · exact hi s
      · rfl
    dsimp only
    rw [e, hr, andThen_map c _ _ _ he, andThen_map c _ _ _ hr]
  · exact settings_evolve_map c k k' st hi hs hf h i s

end compose

section session

variable {𝕜 𝕜' F : Type} [RCLike 𝕜] [RCLike 𝕜'] (φ : 𝕜 →⋆ₐ[ℝ] 𝕜') {bD pD : ℕ} [NeZero bD] [NeZero pD]

theorem hom_exec_all {M : Machine F bD 𝕜} {M' : Machine F bD 𝕜'} (h : MachineFollows φ M M') (hx : M'.cx = M.cx) (s : State bD pD 𝕜)
    (c : Call F bD pD 𝕜) : exec M' (mapState φ s) (mapCall φ c) = mapResult (mapState φ) (exec M s c) := by
  by_cases hc : NotSimple c
  · exact hom_exec φ h s c hc
  cases c with
  | setChi chi => exact absurd trivial hc
  | renormalize c => exact absurd trivial hc
  | evolve c e =>
    have hu : c.strings.updateType = "simple" := not_not.1 hc
    have hg : twoSiteGate (mapTerms φ e.model) e.dtau = fun b p q r s => φ (twoSiteGate e.model e.dtau b p q r s) :=
      funext fun b => hom_twoSiteGate φ e.model e.dtau b
    refine settings_evolve_map_all (mapState φ) (comp M c e) (comp M' c (mapEvolution φ e)) c.strings ?_ (hom_sweeps φ h c) ?_ ?_ s.initialized s
    · intro s
      unfold comp initSites mapState mapEvolution mapSiteTensors
      dsimp only
      rw [hom_freshNet]
      rfl
    · intro p q s
      unfold comp mapEvolution
      dsimp only
      rw [hg, h.ω, h.fo, h.rep]
      have e1 := hom_fullEvolve φ h.la (proj_follows φ h c q) p M.ω M.fo M.rep c.update none (twoSiteGate e.model e.dtau) e.steps s.bonds s.net s.moves
      rw [Option.map_none] at e1
      rw [show Full.fullEvolve (c.proj M' q) p (fun t => mapDraws φ (M.ω t)) M'.la M.fo M.rep c.update none
        (fun b p q r s => φ (twoSiteGate e.model e.dtau b p q r s)) e.steps ((mapState φ s).bonds, (mapState φ s).net, (mapState φ s).moves) = _ from e1]
      rfl
    · intro s
      unfold comp mapEvolution
      dsimp only
      rw [hg, hx, show Simple.numEvolve M'.la M.cx (fun b p q r s => φ (twoSiteGate e.model e.dtau b p q r s)) e.steps
        ((mapState φ s).bonds, (mapState φ s).net) = _ from Simple.hom_numEvolve φ h.la M.cx (twoSiteGate e.model e.dtau) e.steps s.bonds s.net]
      rfl

theorem hom_session_all {M : Machine F bD 𝕜} {M' : Machine F bD 𝕜'} (h : MachineFollows φ M M') (hx : M'.cx = M.cx) (cs : List (Call F bD pD 𝕜))
    (s : State bD pD 𝕜) : Session.run M' (cs.map (mapCall φ)) (mapState φ s) = mapResult (mapState φ) (Session.run M cs s) := by
  induction cs generalizing s with
  | nil => rfl
  | cons c cs ih =>
    rw [List.map_cons]
    unfold Session.run
    rw [hom_exec_all φ h hx s c]
    exact andThen_map _ _ _ _ ih

end session

end AceTN
