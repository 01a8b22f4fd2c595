import Verif.Model.Settings

/-! C58: invalid settings. -/

set_option autoImplicit false

namespace AceTN.Set
variable {σ : Type}

/-- C58, projector type: exactly `None`, "full-system" and "half-system" are accepted by `renormalize`; every other
value raises `ValueError` and leaves the network as it was. -/
theorem C58_projectors (c : Comp σ) (st : Settings) (s : σ) :
    (st.projectors = none ∨ st.projectors = some "full-system" →
      renormalize c st s = c.sweeps .full (svdKind st.svdType) s) ∧
    (st.projectors = some "half-system" → renormalize c st s = c.sweeps .half (svdKind st.svdType) s) ∧
    (st.projectors ∉ [none, some "full-system", some "half-system"] → renormalize c st s = (s, some .valueError)) := by
  unfold renormalize setCalculate
  refine ⟨fun h => ?_, fun h => ?_, fun h => ?_⟩
  · rw [if_pos h]
  · rw [if_neg (by rw [h]; decide), if_pos h]
  · simp only [List.mem_cons, List.not_mem_nil, or_false, not_or] at h
    rw [if_neg (by tauto), if_neg h.2.2]

/-- C58: an invalid projector type makes `evolve` raise for either update type. -/
theorem C58_projectors_evolve (c : Comp σ) (st : Settings) (b : Bool) (s : σ)
    (h : st.projectors ∉ [none, some "full-system", some "half-system"]) :
    evolve c st b s = (if b then s else c.initSites s, some .valueError) := by
  simp only [evolve, (C58_projectors c st _).2.2 h, andThen]

/-- C58 with "leaves the network unchanged": a call of `evolve` with an unknown update type raises and returns the
network as it was. -/
def Spec.UpdateTypeRejected (c : Comp σ) : Prop :=
  ∀ (st : Settings) (b : Bool) (s : σ), st.updateType ≠ "full" → st.updateType ≠ "simple" →
    (evolve c st b s).2 ≠ none ∧ (evolve c st b s).1 = s

/-- C58 fails: with an unknown update type `evolve` raises only after it has initialised and renormalized the network. -/
theorem C58_violated_update_type :
    ¬ Spec.UpdateTypeRejected (σ := ℕ) ⟨fun s => s + 100, fun _ _ s => (s + 1, none), fun _ _ s => (s, none),
      fun s => (s, none)⟩ := by
  intro h
  have := (h ⟨none, "rsvd", "ful"⟩ false 0 (by decide) (by decide)).2
  exact absurd this (by decide)

/-- C58, what holds: with an unknown update type `evolve` always raises, and no bond update happens; the state is that
of the initialisation and the first renormalization.  Missing: that the network is unchanged (false, above). -/
theorem C58_update_type_partial (c : Comp σ) (st : Settings) (b : Bool) (s : σ) (h1 : st.updateType ≠ "full")
    (h2 : st.updateType ≠ "simple") :
    (evolve c st b s).2 ≠ none ∧ (evolve c st b s).1 = (renormalize c st (if b then s else c.initSites s)).1 := by
  simp only [evolve]
  generalize renormalize c st (if b then s else c.initSites s) = r
  obtain ⟨s', e⟩ := r
  cases e with
  | some e => simp [andThen]
  | none => simp [andThen, evolveFn, createTensorUpdater, h1, h2]

/-- C58 fails for the SVD type: an unknown one is never rejected, it silently selects the randomised SVD. -/
theorem C58_violated_svd_type (c : Comp σ) (p : Option String) (u t : String) (h : t ≠ "full-rank") (b : Bool) (s : σ) :
    evolve c ⟨p, t, u⟩ b s = evolve c ⟨p, "rsvd", u⟩ b s ∧
    renormalize c ⟨p, t, u⟩ s = renormalize c ⟨p, "rsvd", u⟩ s := by
  have e : svdKind t = svdKind "rsvd" := by simp [svdKind, h]
  have hr : ∀ s : σ, renormalize c ⟨p, t, u⟩ s = renormalize c ⟨p, "rsvd", u⟩ s := by
    intro s; simp only [renormalize, e]
  have he : ∀ s : σ, evolveFn c ⟨p, t, u⟩ s = evolveFn c ⟨p, "rsvd", u⟩ s := by
    intro s; simp only [evolveFn, e]
  refine ⟨?_, hr s⟩
  simp only [evolve, hr, funext hr, funext he]

example : (some "half" : Option String) ∉ [none, some "full-system", some "half-system"] := by decide

/-! ## C63 -/

section
variable {M : Type}

/-- What a call of `evolve` that succeeds has done: the given model, or else the configured one, was used; the site tensors
were initialised unless they had been; then came, each without an exception, a renormalization, the bond updates
and a renormalization of the evolved network, whose result is what the call leaves behind. -/
def Spec.Completed (factory : Except PyErr M) (c : M → Comp σ) (st : Settings) (model : Option M) (initialised : Bool)
    (s s' : σ) : Prop :=
  ∃ m s1 s2, (model = some m ∨ model = none ∧ factory = .ok m) ∧
    renormalize (c m) st (if initialised then s else (c m).initSites s) = (s1, none) ∧
    evolveFn (c m) st s1 = (s2, none) ∧ renormalize (c m) st s2 = (s', none)

/-- **C63 (order).** A call of `evolve` that returns has renormalized the boundary, performed the bond updates and
renormalized the boundary of the evolved network, in this order and nothing else. -/
theorem C63_order (factory : Except PyErr M) (hasParams : M → Bool) (c : M → Comp σ) (st : Settings)
    (model : Option M) (initialised : Bool) (s s' : σ)
    (h : ipepsEvolve factory hasParams c st model initialised s = (s', none)) :
    Spec.Completed factory c st model initialised s s' := by
  have key : ∀ m, (if hasParams m then evolve (c m) st initialised s
      else (if initialised then s else (c m).initSites s, some .attributeError)) = (s', none) →
      ∃ s1 s2, renormalize (c m) st (if initialised then s else (c m).initSites s) = (s1, none) ∧
        evolveFn (c m) st s1 = (s2, none) ∧ renormalize (c m) st s2 = (s', none) := by
    intro m h
    split at h
    · unfold evolve at h
      dsimp only at h
      rcases hr : renormalize (c m) st (if initialised then s else (c m).initSites s) with ⟨s1, _ | e⟩
      · rw [hr] at h
        simp only [andThen] at h
        rcases he : evolveFn (c m) st s1 with ⟨s2, _ | e⟩
        · rw [he] at h
          exact ⟨s1, s2, rfl, he, h⟩
        · rw [he] at h; simp at h
      · rw [hr] at h; simp [andThen] at h
    · simp at h
  unfold ipepsEvolve at h
  cases model with
  | some m =>
    obtain ⟨s1, s2, h⟩ := key m h
    exact ⟨m, s1, s2, .inl rfl, h⟩
  | none =>
    cases hf : factory with
    | error e => rw [hf] at h; simp at h
    | ok m =>
      rw [hf] at h
      obtain ⟨s1, s2, h⟩ := key m h
      exact ⟨m, s1, s2, .inr ⟨rfl, rfl⟩, h⟩

/-- The intended statement: whenever these steps succeed, so does the call, with their result. -/
def Spec.EvolveWorks : Prop :=
  ∀ (σ M : Type) (factory : Except PyErr M) (hasParams : M → Bool) (c : M → Comp σ) (st : Settings) (model : Option M)
    (initialised : Bool) (s s' : σ), Spec.Completed factory c st model initialised s s' →
    ipepsEvolve factory hasParams c st model initialised s = (s', none)

/-- **C63 (partial).** It holds for models with parameters.  Missing: models without, see `C63_violated`. -/
theorem C63_works_partial (factory : Except PyErr M) (hasParams : M → Bool) (c : M → Comp σ) (st : Settings)
    (model : Option M) (initialised : Bool) (s s' : σ) (hp : ∀ m, hasParams m = true)
    (h : Spec.Completed factory c st model initialised s s') :
    ipepsEvolve factory hasParams c st model initialised s = (s', none) := by
  obtain ⟨m, s1, s2, hm, h1, h2, h3⟩ := h
  have hc : ipepsEvolve factory hasParams c st model initialised s = evolve (c m) st initialised s := by
    rcases hm with rfl | ⟨rfl, h⟩
    · simp [ipepsEvolve, hp m]
    · simp [ipepsEvolve, h, hp m]
  rw [hc]
  unfold evolve
  dsimp only
  rw [h1]
  simp only [andThen]
  rw [h2]
  exact h3

/-- **C63 (violated).** A model whose parameters are `None` (the default) cannot be evolved: the start message raises. -/
theorem C63_violated : ¬ Spec.EvolveWorks := by
  intro h
  have := h ℕ Unit (.ok ()) (fun _ => false) (fun _ => ⟨id, fun _ _ s => (s, none), fun _ _ s => (s, none), fun s => (s, none)⟩)
    ⟨none, "full-rank", "simple"⟩ none true 0 0 ⟨(), 0, 0, .inr ⟨rfl, rfl⟩, rfl, rfl, rfl⟩
  exact absurd (congrArg Prod.snd this) (by decide)

/-- **C63 (errors).** Without a usable model the call raises and touches nothing.  If one of the three steps raises, the
call raises the same exception and the later steps do not happen. -/
theorem C63_errors (factory : Except PyErr M) (hasParams : M → Bool) (c : M → Comp σ) (st : Settings)
    (initialised : Bool) (s : σ) :
    (∀ e, factory = .error e → ipepsEvolve factory hasParams c st none initialised s = (s, some e)) ∧
    ∀ m, hasParams m = true → ∀ (s1 s2 s3 : σ) (e : PyErr),
      let r := ipepsEvolve factory hasParams c st (some m) initialised s
      let s0 := if initialised then s else (c m).initSites s
      (renormalize (c m) st s0 = (s1, some e) → r = (s1, some e)) ∧
      (renormalize (c m) st s0 = (s1, none) → evolveFn (c m) st s1 = (s2, some e) → r = (s2, some e)) ∧
      (renormalize (c m) st s0 = (s1, none) → evolveFn (c m) st s1 = (s2, none) →
        renormalize (c m) st s2 = (s3, some e) → r = (s3, some e)) := by
  refine ⟨fun e he => by simp [ipepsEvolve, he], fun m hp s1 s2 s3 e => ?_⟩
  have hr : ipepsEvolve factory hasParams c st (some m) initialised s = evolve (c m) st initialised s := by
    simp [ipepsEvolve, hp]
  dsimp only
  rw [hr]
  unfold evolve
  dsimp only
  refine ⟨fun h => by rw [h]; rfl, fun h1 h2 => ?_, fun h1 h2 h3 => ?_⟩
  · rw [h1]
    simp only [andThen]
    rw [h2]
  · rw [h1]
    simp only [andThen]
    rw [h2]
    exact h3

/-- Non-vacuity: a run that adds one at every renormalization, ten in the loop, a hundred at initialisation. -/
example : Spec.Completed (σ := ℕ) (M := Unit) (.error .valueError)
    (fun _ => ⟨(· + 100), fun _ _ s => (s + 1, none), fun _ _ s => (s + 10, none), fun s => (s + 10, none)⟩)
    ⟨some "half-system", "rsvd", "full"⟩ (some ()) false 0 112 := ⟨(), 101, 111, .inl rfl, rfl, rfl, rfl⟩

end

end AceTN.Set
