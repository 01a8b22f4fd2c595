import Verif.Lemmas.SessionChi
import Verif.Props.Session

/-!
# C88: boundary dimensions and settings of sessions

What `set_chi` and the settings in `config.ctmrg` do in scripts of calls.
-/

set_option autoImplicit false

namespace AceTN

open _root_.AceTN.Spec Session

variable {𝕜 F : Type} [RCLike 𝕜] {bD pD nx ny N : ℕ} [NeZero bD] [NeZero pD]

/-- The boundary dimension a script asks for: that of the last `set_chi`, or that of the configuration. -/
def Spec.askedChi (chi : ℕ) : List (Call F bD pD 𝕜) → ℕ
  | [] => chi
  | .setChi chi' :: cs => askedChi chi' cs
  | _ :: cs => askedChi chi cs

theorem runCatching_chi (hx : 0 < nx) (hy : 0 < ny) (M : Machine F bD 𝕜) (cs : List (Call F bD pD 𝕜)) (s : State bD pD 𝕜) (h : Sound nx ny s) :
    (runCatching M cs s).net.chi = askedChi s.net.chi cs := by
  induction cs generalizing s with
  | nil => rfl
  | cons c cs ih =>
    have e := ih _ (exec_sound hx hy M s h c)
    cases c with
    | setChi chi => exact e
    | renormalize c =>
      refine e.trans (congrArg (askedChi · cs) ?_)
      exact (renormalize_cap hx hy M c ⟨0, 0, ⟨fun _ => 0, fun _ => none⟩, fun _ _ _ _ _ _ => 0⟩ s h).1
    | evolve c x => exact e.trans (congrArg (askedChi · cs) (exec_chi hx hy M s h c x).1)

/-- **C88 (boundary dimensions of a session).** Every cell, all tensors, dtypes, models, settings, libraries and random numbers, after any
sequence of calls, also such that raised exceptions: a call of `renormalize` or `evolve` with at least one sweep that returns leaves corner and
edge tensors none of whose dimensions is larger than the boundary dimension last asked for, by `set_chi` or by the configuration. -/
theorem C88_chi (hx : 0 < nx) (hy : 0 < ny) (M : Machine F bD 𝕜) (chi : ℕ) (A : Site → ATensor (Fin bD) (Fin pD) 𝕜)
    (cs : List (Call F bD pD 𝕜)) (c : Config F) (hc : 0 < c.sweeps) :
    let s := runCatching M cs (new nx ny chi A)
    ((exec M s (.renormalize c)).2 = none → Capped (askedChi chi cs) (exec M s (.renormalize c)).1.net) ∧
    ∀ e, (exec M s (.evolve c e)).2 = none → Capped (askedChi chi cs) (exec M s (.evolve c e)).1.net := by
  intro s
  have hs : Sound nx ny s := runCatching_sound hx hy M cs _ (new_sound hx hy chi A)
  have hchi : s.net.chi = askedChi chi cs := runCatching_chi hx hy M cs _ (new_sound hx hy chi A)
  clear_value s
  rw [← hchi]
  exact ⟨fun h => (renormalize_cap hx hy M c ⟨0, 0, ⟨fun _ => 0, fun _ => none⟩, fun _ _ _ _ _ _ => 0⟩ s hs).2 hc h,
    fun e h => (exec_chi hx hy M s hs c e).2 hc h⟩

/-- The settings of the projectors that a configuration asks for. -/
def Spec.askedSettings (M : Machine F bD 𝕜) (c : Config F) : ProjSettings 𝕜 where
  la := M.la
  fullRank := decide (c.strings.svdType = "full-rank")
  cutoff := c.cutoff
  oversampling := c.oversampling
  niter := c.niter

/-- The projectors that a configuration asks for. -/
def Spec.askedProjectors (c : Config F) : ProjKind := if c.strings.projectors = some "half-system" then .half else .full

theorem setCalculate_asked {c : Config F} (h : KnownProjectors c) : setCalculate c.strings.projectors = .ok (askedProjectors c) := by
  unfold setCalculate askedProjectors
  rcases h with h | h | h <;> rw [h] <;> rfl

omit [NeZero bD] in
theorem proj_asked (M : Machine F bD 𝕜) (c : Config F) : c.proj M (Set.svdKind c.strings.svdType) = askedSettings M c := by
  unfold Config.proj askedSettings Set.svdKind
  congr 1
  by_cases h : c.strings.svdType = "full-rank"
  · rw [if_pos h, decide_eq_true h]; rfl
  · rw [if_neg h, decide_eq_false h]; rfl

/-- **C88 (settings of a session).** Every cell, all tensors, dtypes, models, libraries and random numbers, after any sequence of calls:
`renormalize` does the sweeps of the configuration with its projectors and its settings of the truncation, and changes nothing but the boundary
tensors; `evolve` with the full update does, between two such renormalisations, the bond updates and absorbing moves with the same
settings and the gates of the model and the time step, in the order of the bond list; in the first call all of this starts from the tensors
of the model's initial state. -/
theorem C88_settings (hx : 0 < nx) (hy : 0 < ny) (M : Machine F bD 𝕜) (chi : ℕ) (A : Site → ATensor (Fin bD) (Fin pD) 𝕜)
    (cs : List (Call F bD pD 𝕜)) (c : Config F) (hp : KnownProjectors c) :
    let s := runCatching M cs (new nx ny chi A)
    (∃ n, ctmrgDrawn (askedSettings M c) (askedProjectors c) M.ω s.moves c.sweeps s.net = .ok n ∧
      (exec M s (.renormalize c)).1.net = n ∧ n.A = s.net.A ∧ (exec M s (.renormalize c)).1.bonds = s.bonds ∧
      (exec M s (.renormalize c)).1.initialized = s.initialized ∧ (exec M s (.renormalize c)).2 = none) ∧
    ∀ e, c.strings.updateType = "full" →
      let s0 := if s.initialized then s else ⟨freshNet nx ny (askedChi chi cs) e.start, buildBondList nx ny, true, s.moves⟩
      let s1 := (exec M s0 (.renormalize c)).1
      let r := Full.fullEvolve (askedSettings M c) (askedProjectors c) M.ω M.la M.fo M.rep c.update none (twoSiteGate e.model e.dtau) e.steps
        (s1.bonds, s1.net, s1.moves)
      let s2 : State bD pD 𝕜 := ⟨r.2.1.1, r.1, true, r.2.1.2⟩
      (r.2.2 = none → exec M s (.evolve c e) = exec M s2 (.renormalize c)) ∧
      ∀ x, r.2.2 = some x → exec M s (.evolve c e) = (s2, some x) := by
  intro s
  have hs : Sound nx ny s := runCatching_sound hx hy M cs _ (new_sound hx hy chi A)
  have hchi : s.net.chi = askedChi chi cs := runCatching_chi hx hy M cs _ (new_sound hx hy chi A)
  clear_value s
  have hk := setCalculate_asked hp
  refine ⟨?_, fun e hu => ?_⟩
  · obtain ⟨n, h1, -, h3⟩ := hs.1.sweeps hx hy (askedSettings M c) (askedProjectors c) M.ω s.moves c.sweeps
    have e : exec M s (.renormalize c) = ({ s with net := n, moves := s.moves + c.sweeps * (sweepMoves s.net.nx s.net.ny).length }, none) := by
      unfold exec
      dsimp only
      rw [hk]
      unfold Session.sweeps
      dsimp only
      rw [proj_asked, h1]
    rw [e]
    exact ⟨n, h1, rfl, h3, rfl, rfl, rfl⟩
  · have key : ∀ s : State bD pD 𝕜, Sound nx ny s → s.initialized = true →
        let s1 := (exec M s (.renormalize c)).1
        let r := Full.fullEvolve (askedSettings M c) (askedProjectors c) M.ω M.la M.fo M.rep c.update none (twoSiteGate e.model e.dtau) e.steps
          (s1.bonds, s1.net, s1.moves)
        let s2 : State bD pD 𝕜 := ⟨r.2.1.1, r.1, true, r.2.1.2⟩
        (r.2.2 = none → exec M s (.evolve c e) = exec M s2 (.renormalize c)) ∧
        ∀ x, r.2.2 = some x → exec M s (.evolve c e) = (s2, some x) := by
      intro s hs hi s1 r s2
      have he := exec_evolve M s c e hi
      obtain ⟨-, -, q3, q4⟩ := renormalize_sound hx hy M c e s hs
      replace q4 := q4 (setCalculate_known hp)
      have hs1 : s1 = (Set.renormalize (comp M c e) c.strings s).1 := rfl
      have hf : Set.evolveFn (comp M c e) c.strings s1 = (s2, r.2.2) := by
        unfold Set.evolveFn
        rw [hu]
        show (match setCalculate c.strings.projectors with | .error e => (s1, some e) | .ok k => (comp M c e).fullLoop k _ s1) = _
        rw [hk]
        show (_, _) = _
        rw [proj_asked]
        refine Prod.ext ?_ rfl
        show State.mk _ _ _ _ = State.mk _ _ _ _
        rw [hs1, q3, hi, ← hs1]
      rw [show Set.renormalize (comp M c e) c.strings s = (s1, none) from Prod.ext rfl q4] at he
      have he' : exec M s (.evolve c e) = Set.andThen (Set.evolveFn (comp M c e) c.strings s1) (Set.renormalize (comp M c e) c.strings) := he
      rw [he', hf]
      exact ⟨fun h => by rw [h]; rfl, fun x h => by rw [h]; rfl⟩
    cases hi : s.initialized with
    | true => exact key s hs hi
    | false =>
      rw [exec_evolve_init M s c e hi]
      have := key _ (initSites_sound hx hy e.start s hs) rfl
      obtain ⟨⟨e1, e2, -⟩, -⟩ := hs
      have e0 : initSites e.start s = ⟨freshNet nx ny (askedChi chi cs) e.start, buildBondList nx ny, true, s.moves⟩ := by
        unfold initSites
        rw [e1, e2, hchi]
      rw [e0] at this ⊢
      exact this

section example_

/-- A script that asks for a smaller boundary dimension and renormalises: it returns. -/
example (hx : 0 < nx) (hy : 0 < ny) (M : Machine F bD 𝕜) (A : Site → ATensor (Fin bD) (Fin pD) 𝕜) (c : Config F) :
    ∃ c' : Config F, KnownProjectors c' ∧ 0 < c'.sweeps ∧ c'.strings.updateType = "full" ∧
      askedChi 40 ([.renormalize c, .setChi 20, .renormalize c] : List (Call F bD pD 𝕜)) = 20 ∧
      (exec M (runCatching M [.renormalize c, .setChi 20, .renormalize c] (new nx ny 40 A)) (.renormalize c')).2 = none := by
  refine ⟨{ c with strings := { c.strings with projectors := none, updateType := "full" }, sweeps := 1 }, Or.inl rfl, one_pos, rfl, rfl, ?_⟩
  exact (C88_returns hx hy M 40 A _).2.1 _ (Or.inl rfl)

end example_

end AceTN
