import Verif.Lemmas.FieldRun
import Verif.Lemmas.FieldSession
import Verif.Props.SvdChoice
import Verif.Props.Session
import Verif.Props.SimpleUpdate
import Mathlib.Analysis.Complex.Basic

/-!
# C105: real data in a complex dtype

A session with real tensors, models and observables stored in a complex dtype, compared to the same session in the real dtype.  `φ` is the
conversion (`ofRealHom`); everything holds for complex conjugation as well.
-/

set_option autoImplicit false

namespace AceTN

open _root_.AceTN.Spec Session

variable {𝕜 𝕜' F : Type} [RCLike 𝕜] [RCLike 𝕜'] (φ : 𝕜 →⋆ₐ[ℝ] 𝕜') {bD pD : ℕ} [NeZero bD] [NeZero pD]

/-- **C105 (sessions, partial).** Every cell, all tensors, models, settings, random numbers, and every library of the complex dtype that returns
on matrices with real entries what the real one returns: a session without simple updates raises the same exceptions and leaves the same
tensors, bond order and count of moves behind, and measurements return the same averages.  (The statement for all sessions is false,
`C105_violated_simple`; libraries that return other factors are the subject of `C105_any_library`.) -/
theorem C105_session_partial {M : Machine F bD 𝕜} {M' : Machine F bD 𝕜'} (h : MachineFollows φ M M') (nx ny chi : ℕ)
    (A : Site → ATensor (Fin bD) (Fin pD) 𝕜) (cs : List (Call F bD pD 𝕜)) (hc : ∀ c ∈ cs, NotSimple c) :
    let r := Session.run M cs (new nx ny chi A)
    let r' := Session.run M' (cs.map (mapCall φ)) (new nx ny chi (mapSiteTensors φ A))
    r'.1 = mapState φ r.1 ∧ r'.2 = r.2 ∧
    ∀ (init : Fin pD → Fin pD → Fin pD → Fin pD → 𝕜) (init' : Fin pD → Fin pD → Fin pD → Fin pD → 𝕜')
      (m : MeasModel (Fin pD → Fin pD → 𝕜) (Fin pD → Fin pD → Fin pD → Fin pD → 𝕜)),
      Session.measure init' (mapObservables φ m) r'.1 = Session.measure init m r.1 := by
  intro r r'
  have e : r' = mapResult (mapState φ) r := by
    have := hom_session φ h cs hc (new nx ny chi A)
    rw [mapState_new] at this
    exact this
  refine ⟨congrArg Prod.fst e, congrArg Prod.snd e, fun init init' m => ?_⟩
  rw [congrArg Prod.fst e]
  exact hom_measure φ init init' m r.1

omit [NeZero bD] in
/-- **C105 (libraries).** For every real process there is such a complex one. -/
theorem C105_library (M : Machine F bD 𝕜) : ∃ M' : Machine F bD 𝕜', MachineFollows φ M M' ∧ M'.cx = true := by
  obtain ⟨la', hl⟩ := exists_follows φ M.la
  exact ⟨⟨la', M.fo, M.rep, fun t => mapDraws φ (M.ω t), true⟩, ⟨hl, rfl, rfl, rfl⟩, rfl⟩

/-- **C105 (gates).** The gates are the same. -/
theorem C105_gates (m : ModelTerms (Fin pD) 𝕜) (dtau : ℝ) (b : Bond) (p q r s : Fin pD) :
    twoSiteGate (mapTerms φ m) dtau b p q r s = φ (twoSiteGate m dtau b p q r s) := by
  rw [hom_twoSiteGate]

/-- **C105 (any library).** Every library and all random numbers of the complex dtype, any number of sweeps from real tensors: if the
singular values of the real run drop where they are cut off and the decompositions are exact (C73), the measured values are those of the
real run. -/
theorem C105_any_library (st : ProjSettings 𝕜) (st' : ProjSettings 𝕜') (pk : ProjKind) (hr : st.fullRank = true) (hcut : st'.cutoff = st.cutoff)
    (h0 : 0 ≤ st.cutoff) (ω : ℕ → Draws (Fin bD) 𝕜) (ω' : ℕ → Draws (Fin bD) 𝕜') (n t t' : ℕ) (net : Net (Ten (Fin bD) (Fin pD) 𝕜))
    (f : Site → ℕ → ℕ) (hw : Wired net f) (hx : 0 < net.nx) (hy : 0 < net.ny)
    (hd : DropRun st pk ω t (List.replicate n (sweepMoves net.nx net.ny)).flatten net)
    (hf' : SvdRun st' pk ω' t' (List.replicate n (sweepMoves net.nx net.ny)).flatten (mapNet (mapTen φ) net)) :
    ∃ net1 net2, ctmrgDrawn st pk ω t n net = .ok net1 ∧ ctmrgDrawn st' pk ω' t' n (mapNet (mapTen φ) net) = .ok net2 ∧
      ∀ s, InCell net1.nx net1.ny s →
        (∀ op, siteVal net2 s (fun p q => φ (op p q)) = siteVal net1 s op) ∧
        ∀ (k : Fin 4) init init' op, bondVal init' net2 ⟨s, neighbour net1.nx net1.ny s k.val, k.val⟩ (fun p q r s => φ (op p q r s)) =
          bondVal init net1 ⟨s, neighbour net1.nx net1.ny s k.val, k.val⟩ op := by
  obtain ⟨la', hl⟩ := exists_follows φ st.la
  have hs : SameSettings φ st ⟨la', st.fullRank, st.cutoff, st.oversampling, st.niter⟩ := ⟨hl, rfl, rfl, rfl, rfl⟩
  obtain ⟨n1, n2, e1, e2, e3⟩ := C73_sweeps (⟨la', st.fullRank, st.cutoff, st.oversampling, st.niter⟩ : ProjSettings 𝕜') st' pk hcut h0
    (fun i => mapDraws φ (ω i)) ω' n t t' (mapNet (mapTen φ) net) f (wired_map φ hw) hx hy (hom_dropRun φ hs pk ω _ t net hd)
    (svdRun_full (st := ⟨la', st.fullRank, st.cutoff, st.oversampling, st.niter⟩) hr pk _ _ t _) hf'
  rw [hom_ctmrgDrawn φ hs] at e1
  cases hn : ctmrgDrawn st pk ω t n net with
  | error e =>
    rw [hn] at e1
    cases e1
  | ok net1 =>
    rw [hn] at e1
    cases e1
    refine ⟨net1, n2, rfl, e2, fun s hs => ?_⟩
    obtain ⟨⟨ρ, ρ', r1, r2, r3⟩, r4⟩ := C73_values _ _ e3 s hs
    refine ⟨fun op => ?_, fun k init init' op => ?_⟩
    · rw [← hom_siteVal φ net1]
      unfold siteVal
      rw [r1, r2]
      exact congrArg Except.ok (r3 _)
    · obtain ⟨ρ, ρ', r1, r2, r3⟩ := r4 k (fun p q r s => φ (init p q r s)) init'
      rw [← hom_bondVal φ init (fun p q r s => φ (init p q r s)) net1]
      unfold bondVal
      rw [show numBondRdm (fun p q r s => φ (init p q r s)) (mapNet (mapTen φ) net1) ⟨s, neighbour net1.nx net1.ny s k.val, k.val⟩ = _ from r1,
        show numBondRdm init' n2 ⟨s, neighbour net1.nx net1.ny s k.val, k.val⟩ = _ from r2]
      exact congrArg Except.ok (r3 _)

/-- The hypotheses hold: a complex process follows any real one through a session of full updates. -/
example (M : Machine F bD ℝ) (nx ny chi chi' : ℕ) (A : Site → ATensor (Fin bD) (Fin pD) ℝ) (c : Config F) (hc : c.strings.updateType = "full")
    (e e' : Evolution bD pD ℝ) : ∃ M' : Machine F bD ℂ, M'.cx = true ∧
      (Session.run M' ([.evolve c e, .setChi chi', .renormalize c, .evolve c e'].map (mapCall (ofRealHom ℂ))) (new nx ny chi (mapSiteTensors (ofRealHom ℂ) A))).1 =
        mapState (ofRealHom ℂ) (Session.run M [.evolve c e, .setChi chi', .renormalize c, .evolve c e'] (new nx ny chi A)).1 := by
  obtain ⟨M', h1, h2⟩ := C105_library (ofRealHom ℂ) M
  refine ⟨M', h2, (C105_session_partial (ofRealHom ℂ) h1 nx ny chi A _ ?_).1⟩
  intro k hk
  fin_cases hk
  · show c.strings.updateType ≠ "simple"
    rw [hc]
    decide
  · trivial
  · trivial
  · show c.strings.updateType ≠ "simple"
    rw [hc]
    decide

/-- The hypotheses hold for any number of sweeps on any network of real product sites, with bonds of any dimension, and every library for
complex matrices. -/
example (st : ProjSettings ℝ) (st' : ProjSettings ℂ) (pk : ProjKind) (hf : st.fullRank = true) (hf' : st'.fullRank = true)
    (hcut : st'.cutoff = st.cutoff) (h0 : 0 ≤ st.cutoff) (ω : ℕ → Draws (Fin bD) ℝ) (ω' : ℕ → Draws (Fin bD) ℂ) (n t t' nx ny chi : ℕ)
    (hx : 0 < nx) (hy : 0 < ny) (g : Site → Fin 4 → Fin bD → ℝ) (v : Site → Fin pD → ℝ) :
    ∃ net1 net2, ctmrgDrawn st pk ω t n (freshNet nx ny chi fun s => prodSite (g s 0) (g s 1) (g s 2) (g s 3) (v s)) = .ok net1 ∧
      ctmrgDrawn st' pk ω' t' n (freshNet nx ny chi (mapSiteTensors (ofRealHom ℂ) fun s => prodSite (g s 0) (g s 1) (g s 2) (g s 3) (v s))) = .ok net2 ∧
      ∀ s, InCell net1.nx net1.ny s → ∀ op, siteVal net2 s (fun p q => ofRealHom ℂ (op p q)) = siteVal net1 s op := by
  obtain ⟨n1, n2, e1, e2, e3⟩ := C105_any_library (ofRealHom ℂ) st st' pk hf hcut h0 ω ω' n t t'
    (freshNet nx ny chi fun s => prodSite (g s 0) (g s 1) (g s 2) (g s 3) (v s)) _ (fresh_wired _ hx hy) hx hy
    ((factored_fresh nx ny chi _ fun _ => prodSite_prod _ _ _ _ _).dropRun st h0 pk ω _ t) (svdRun_full hf' pk ω' _ t' _)
  refine ⟨n1, n2, e1, ?_, fun s hs => (e3 s hs).1⟩
  rw [← e2, hom_freshNet]
  rfl

/-! ### The simple update -/

/-- The intended statement: no session can tell the complex dtype from the real one. -/
def Spec.DtypeInvisible : Prop :=
  ∀ (F : Type) (bD pD : ℕ) [NeZero bD] [NeZero pD] (M : Machine F bD ℝ) (M' : Machine F bD ℂ), MachineFollows (ofRealHom ℂ) M M' → M.cx = false →
    M'.cx = true → ∀ (nx ny chi : ℕ) (A : Site → ATensor (Fin bD) (Fin pD) ℝ) (cs : List (Call F bD pD ℝ)), 0 < nx → 0 < ny →
    (Session.run M' (cs.map (mapCall (ofRealHom ℂ))) (new nx ny chi (mapSiteTensors (ofRealHom ℂ) A))).2 =
      (Session.run M cs (new nx ny chi A)).2

/-- **C105 (violated by the simple update).** Every cell, all real tensors, models, settings with projectors that exist, libraries and random
numbers: the first evolution with the simple update returns in the real dtype and raises in the complex one, for the same real data. -/
theorem C105_violated_simple {nx ny : ℕ} (hx : 0 < nx) (hy : 0 < ny) (M : Machine F bD 𝕜) (M' : Machine F bD 𝕜') (hM : M.cx = false)
    (hM' : M'.cx = true) (chi : ℕ) (A : Site → ATensor (Fin bD) (Fin pD) 𝕜) (c : Config F) (e : Evolution bD pD 𝕜) (hp : KnownProjectors c)
    (hu : c.strings.updateType = "simple") (hn : 0 < e.steps) :
    (Session.run M [.evolve c e] (new nx ny chi A)).2 = none ∧
    (Session.run M' [.evolve c (mapEvolution φ e)] (new nx ny chi (mapSiteTensors φ A))).2 = some .runtimeError := by
  have hrun : ∀ {𝕜 : Type} [RCLike 𝕜] (M : Machine F bD 𝕜) (s : State bD pD 𝕜) (c : Call F bD pD 𝕜), (Session.run M [c] s).2 = (exec M s c).2 := by
    intro 𝕜 _ M s c
    unfold Session.run
    rcases exec M s c with ⟨s', _ | e⟩ <;> rfl
  rw [hrun, hrun]
  refine ⟨(C88_returns hx hy M chi A []).2.2.1 c e hp (.inr ⟨hu, hM⟩), ?_⟩
  obtain ⟨-, -, h3⟩ := C88_simple (X := Fin 1) hx hy M' chi (mapSiteTensors φ A) [] c (mapEvolution φ e) hp hu
    (fun s => ⟨(mapEvolution φ e).start s, fun _ _ _ => 0, fun _ _ _ _ _ => 0⟩) rfl
  refine h3.trans ?_
  show (Simple.evolve M'.la M'.cx (fun _ => none) (twoSiteGate (mapEvolution φ e).model (mapEvolution φ e).dtau) e.steps (buildBondList nx ny, _)).2.2 = _
  obtain ⟨k, hk⟩ := Nat.exists_eq_succ_of_ne_zero hn.ne'
  rw [hk, hM']
  cases hb : buildBondList nx ny with
  | nil =>
    have hl := length_buildBondList nx ny
    rw [hb] at hl
    exact absurd hl.symm (Nat.mul_pos (Nat.mul_pos two_pos hx) hy).ne'
  | cons b bl =>
    have hm : b ∈ buildBondList nx ny := by
      rw [hb]
      exact List.mem_cons_self
    unfold Simple.evolve evolveCall evolveLoop bondPass Simple.bondStep Simple.bondUpdate
    dsimp only
    rw [← hb, C40_violated_complex M'.la none _ nx ny b hm]
    rfl

/-- **C105 (violated).** So the dtype can be told. -/
theorem C105_violated : ¬ DtypeInvisible := by
  intro h
  obtain ⟨la⟩ := nonempty_lapack (𝕜 := ℝ)
  let M : Machine ℝ 1 ℝ := ⟨la, ⟨fun a b => a - b, fun a => |a|, fun a b => a / b, fun a b => decide (a < b)⟩, id, fun _ _ _ _ _ => 0, false⟩
  obtain ⟨M', h1, h2⟩ := C105_library (ofRealHom ℂ) M
  let c : Config ℝ := ⟨⟨none, "full-rank", "simple"⟩, 1, 0, 0, 0, ⟨false, 0, 0, 0, 0, .pinv, 0⟩⟩
  let e : Evolution 1 2 ℝ := ⟨1, 1, ⟨fun _ => 0, fun _ => none⟩, fun _ _ _ _ _ _ => 1⟩
  have h3 := h ℝ 1 2 M M' h1 rfl h2 2 2 1 (fun _ _ _ _ _ _ => 1) [.evolve c e] two_pos two_pos
  obtain ⟨h4, h5⟩ := C105_violated_simple (ofRealHom ℂ) two_pos two_pos M M' rfl h2 1 (fun _ _ _ _ _ _ => 1) c e (.inl rfl) rfl one_pos
  rw [h4] at h3
  rw [show [Call.evolve c e].map (mapCall (ofRealHom ℂ)) = [.evolve c (mapEvolution (ofRealHom ℂ) e)] from rfl, h5] at h3
  cases h3

end AceTN
