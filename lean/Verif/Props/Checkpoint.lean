import Verif.Lemmas.Checkpoint

/-!
# C89: checkpoints

Scripts that save their object, load it again, perhaps in another process, and go on.
-/

set_option autoImplicit false

namespace AceTN

open _root_.AceTN.Spec Session NormedSpace
open scoped Matrix.Norms.L2Operator

variable {𝕜 F : Type} [RCLike 𝕜] {bD pD nx ny N : ℕ} [NeZero bD] [NeZero pD]

/-! ### Nothing gets out of shape, and files keep what was saved -/

theorem disk_exec (w : Shell F bD pD 𝕜) (f : String) (c : Command F bD pD 𝕜) :
    ((w.exec c).1.disk f).isSome = true ↔ c = .save f ∨ (w.disk f).isSome = true := by
  cases c with
  | call c => simp [Shell.exec]
  | save g =>
    show (((w.save g).1).disk f).isSome = true ↔ _
    rw [save_eq]
    dsimp only
    by_cases h : f = g
    · subst h
      simp
    · rw [if_neg h]
      simp [Ne.symm h]
  | load g =>
    show (((w.load g).1).disk f).isSome = true ↔ _
    unfold Shell.load
    cases w.disk g <;> simp
  | restart M chi A => simp [Shell.exec]

theorem disk_runCatching (cs : List (Command F bD pD 𝕜)) (w : Shell F bD pD 𝕜) (f : String) :
    ((Shell.runCatching cs w).disk f).isSome = true ↔ .save f ∈ cs ∨ (w.disk f).isSome = true := by
  induction cs generalizing w with
  | nil => simp [Shell.runCatching]
  | cons c cs ih =>
    show ((Shell.runCatching cs (w.exec c).1).disk f).isSome = true ↔ _
    rw [ih, disk_exec, List.mem_cons]
    constructor
    · rintro (h | h | h)
      · exact Or.inl (Or.inr h)
      · exact Or.inl (Or.inl h.symm)
      · exact Or.inr h
    · rintro ((h | h) | h)
      · exact Or.inr (Or.inl h.symm)
      · exact Or.inl h
      · exact Or.inr (Or.inr h)

theorem disk_kept (cs : List (Command F bD pD 𝕜)) (w : Shell F bD pD 𝕜) (f : String) (h : .save f ∉ cs) :
    (Shell.runCatching cs w).disk f = w.disk f := by
  induction cs generalizing w with
  | nil => rfl
  | cons c cs ih =>
    rw [List.mem_cons, not_or] at h
    show (Shell.runCatching cs (w.exec c).1).disk f = _
    rw [ih _ h.2]
    cases c with
    | call c => rfl
    | save g =>
      show ((w.save g).1).disk f = _
      rw [save_eq]
      exact if_neg fun e => h.1 (by rw [e])
    | load g =>
      show ((w.load g).1).disk f = _
      unfold Shell.load
      cases w.disk g <;> rfl
    | restart M chi A => rfl

/-- **C89 (sessions with files return).** Every cell, all tensors, dtypes, models, settings, libraries and random numbers: after any sequence of
calls, saves, loads and new processes, with exceptions that are caught, `save` does not raise, `load` raises exactly if no file of that name has
been saved, and the other calls return as in C88. -/
theorem C89_returns (hx : 0 < nx) (hy : 0 < ny) (M : Machine F bD 𝕜) (chi : ℕ) (A : Site → ATensor (Fin bD) (Fin pD) 𝕜)
    (cs : List (Command F bD pD 𝕜)) :
    let w := Shell.runCatching cs (Shell.start nx ny M chi A)
    (∀ f, (w.exec (.save f)).2 = none) ∧
    (∀ f, (w.exec (.load f)).2 = none ↔ .save f ∈ cs) ∧
    (∀ chi', (w.exec (.call (.setChi chi'))).2 = none) ∧
    (∀ c, KnownProjectors c → (w.exec (.call (.renormalize c))).2 = none) ∧
    ∀ c e, KnownProjectors c → SafeUpdate w.machine c → (w.exec (.call (.evolve c e))).2 = none := by
  intro w
  have hw : SoundShell nx ny w := (SoundShell.start hx hy M chi A).runCatching hx hy cs
  have hd := fun f => disk_runCatching cs (Shell.start nx ny M chi A) f
  obtain ⟨h1, h2, h3⟩ := sound_calls hx hy w.machine w.obj hw.1
  refine ⟨fun f => ?_, fun f => ?_, h1, h2, h3⟩
  · show (w.save f).2 = none
    rw [save_eq]
  · have hf := hd f
    rw [or_iff_left (by simp [Shell.start])] at hf
    rw [← hf]
    show (w.load f).2 = none ↔ (w.disk f).isSome = true
    unfold Shell.load
    cases w.disk f <;> simp

/-- **C89 (round trip).** Every cell, all tensors, dtypes, settings: after any commands, `save(f)` leaves the object as it is, except that it counts
as initialised from then on.  After any further commands, also in other processes with other boundary dimensions, that do not save to the same
file, `load(f)` does not raise and brings back the site tensors, corners and edges of every site, all density matrices, and the energy and the
averages that `measure` gives for every model whose dictionaries are as in C48. -/
theorem C89_round_trip (hx : 0 < nx) (hy : 0 < ny) (M : Machine F bD 𝕜) (chi : ℕ) (A : Site → ATensor (Fin bD) (Fin pD) 𝕜)
    (cs cs' : List (Command F bD pD 𝕜)) (f : String) (hf : .save f ∉ cs') :
    let w := Shell.runCatching cs (Shell.start nx ny M chi A)
    let r := (Shell.runCatching cs' (w.exec (.save f)).1).exec (.load f)
    (w.exec (.save f)).1.obj = { w.obj with initialized := true } ∧
    r.2 = none ∧ r.1.obj.initialized = true ∧
    (∀ x, InCell nx ny x → r.1.obj.net.A x = w.obj.net.A x ∧ r.1.obj.net.B x = w.obj.net.B x ∧
      numSiteRdm r.1.obj.net x = numSiteRdm w.obj.net x) ∧
    (∀ b ∈ buildBondList nx ny, ∀ init, numBondRdm init r.1.obj.net b = numBondRdm init w.obj.net b) ∧
    ∀ init model, Meas.Clean model (buildSiteList nx ny) (buildBondList nx ny) →
      ∃ d d', Session.measure init model w.obj = .ok d ∧ Session.measure init model r.1.obj = .ok d' ∧
        d'.get? "Energy" = d.get? "Energy" ∧
        (∀ name ∈ (model.one_site_observables (0, 0)).keys, d'.get? name = d.get? name) ∧
        ∀ b ∈ buildBondList nx ny, ∀ name ∈ (model.two_site_observables b).keys, d'.get? name = d.get? name := by
  intro w r
  have hw : SoundShell nx ny w := (SoundShell.start hx hy M chi A).runCatching hx hy cs
  have hw1 : SoundShell nx ny (w.exec (.save f)).1 := hw.exec hx hy _
  have hw2 : SoundShell nx ny (Shell.runCatching cs' (w.exec (.save f)).1) := hw1.runCatching hx hy cs'
  have hw3 : SoundShell nx ny r.1 := hw2.exec hx hy _
  have hd : (Shell.runCatching cs' (w.exec (.save f)).1).disk f = some w.obj.net := by
    rw [disk_kept _ _ _ hf]
    show ((w.save f).1).disk f = _
    rw [save_eq]
    exact if_pos rfl
  have hr : r = ({ Shell.runCatching cs' (w.exec (.save f)).1 with
      obj := { (Shell.runCatching cs' (w.exec (.save f)).1).obj with
        net := loadNet w.obj.net (Shell.runCatching cs' (w.exec (.save f)).1).obj.net
        initialized := true } }, none) := by
    show (Shell.runCatching cs' (w.exec (.save f)).1).load f = _
    unfold Shell.load
    rw [hd]
  have hT : SameTensors nx ny w.obj.net r.1.obj.net := by
    rw [hr]
    exact loadNet_same hw.1.1 _
  refine ⟨?_, by rw [hr], by rw [hr], fun x hx' => ⟨(hT x hx').1, (hT x hx').2, hT.site hx'⟩, fun b hb init => hT.bond hb init, fun init model hcl => ?_⟩
  · show ((w.save f).1).obj = _
    rw [save_eq]
  · obtain ⟨ρ₁, ρ₂, e1, e2⟩ := rdms_exist hx hy w.obj hw.1 init
    obtain ⟨d, d1, d2, d3, d4⟩ := measure_of_rdms hx hy w.obj hw.1 init model hcl ρ₁ ρ₂ e1 e2
    obtain ⟨d', d1', d2', d3', d4'⟩ := measure_of_rdms hx hy r.1.obj hw3.1 init model hcl ρ₁ ρ₂ (fun x hx' => (hT.site hx').trans (e1 x hx'))
      fun b hb => (hT.bond hb init).trans (e2 b hb)
    exact ⟨d, d', d1, d1', d2'.trans d2.symm, fun name hn => (d3' name hn).trans (d3 name hn).symm,
      fun b hb name hn => (d4' b hb name hn).trans (d4 b hb name hn).symm⟩

/-! ### What a script with checkpoints ends with -/

/-- What a script is meant to do.  `evolve m T start`: evolve for the imaginary time `T` with the model `m`, from the product state `start` if
the object is new. -/
inductive Spec.Aim (bD pD : ℕ) (𝕜 : Type)
  | evolve (m : ModelTerms (Fin pD) 𝕜) (T : ℝ) (start : Site → ATensor (Fin bD) (Fin pD) 𝕜)
  | save (f : String)
  | load (f : String)
  | restart (A : Site → ATensor (Fin bD) (Fin pD) 𝕜)

/-- The state of the lattice, whether the object counts as initialised, and the states in the files. -/
structure Spec.Ideal (nx ny N pD : ℕ) (𝕜 : Type) where
  ψ : (BigSite nx ny N → Fin pD) → 𝕜
  initialized : Bool
  files : String → Option ((BigSite nx ny N → Fin pD) → 𝕜)

/-- What an aim does to the state of the lattice. -/
noncomputable def Spec.Ideal.next (hx : 2 ≤ nx) (hy : 2 ≤ ny) (σ : Bond → Equiv.Perm (Fin N)) (I : Ideal nx ny N pD 𝕜) :
    Aim bD pD 𝕜 → Ideal nx ny N pD 𝕜
  | .evolve m T start =>
    { I with
      ψ := (exp ((-(T : 𝕜)) • latticeHamiltonian hx hy σ m)).mulVec (if I.initialized then I.ψ else latticeState σ start)
      initialized := true }
  | .save f => { I with initialized := true, files := fun g => if g = f then some I.ψ else I.files g }
  | .load f => { I with initialized := true, ψ := (I.files f).getD 0 }
  | .restart A => { I with initialized := false, ψ := latticeState σ A }

/-- The commands make the evolutions of the aims with time steps of at most `δ`, and the saves, loads and new processes of the aims, in that
order; `set_chi` and `renormalize` may be called anywhere. -/
def Spec.Pursues (δ : ℝ) : List (Command F bD pD 𝕜) → List (Aim bD pD 𝕜) → Prop
  | [], as => as = []
  | .call (.setChi _) :: cs, as => Pursues δ cs as
  | .call (.renormalize _) :: cs, as => Pursues δ cs as
  | .call (.evolve _ e) :: cs, as => ∃ T as', as = .evolve e.model T e.start :: as' ∧ 0 ≤ e.dtau ∧ e.dtau ≤ δ ∧ e.steps * e.dtau = T ∧ Pursues δ cs as'
  | .save f :: cs, as => ∃ as', as = .save f :: as' ∧ Pursues δ cs as'
  | .load f :: cs, as => ∃ as', as = .load f :: as' ∧ Pursues δ cs as'
  | .restart _ _ A :: cs, as => ∃ as', as = .restart A :: as' ∧ Pursues δ cs as'

omit [NeZero bD] [NeZero pD] in
theorem Spec.Pursues.mono {δ δ' : ℝ} (h : δ ≤ δ') {cs : List (Command F bD pD 𝕜)} {as : List (Aim bD pD 𝕜)} (hf : Pursues δ cs as) :
    Pursues δ' cs as := by
  induction cs generalizing as with
  | nil => exact hf
  | cons c cs ih =>
    cases c with
    | call c =>
      cases c with
      | setChi chi => exact ih (as := as) hf
      | renormalize c => exact ih (as := as) hf
      | evolve c e =>
        obtain ⟨T, as', e1, e2, e3, e4, e5⟩ := hf
        exact ⟨T, as', e1, e2, e3.trans h, e4, ih e5⟩
    | save f =>
      obtain ⟨as', e1, e2⟩ := hf
      exact ⟨as', e1, ih e2⟩
    | load f =>
      obtain ⟨as', e1, e2⟩ := hf
      exact ⟨as', e1, ih e2⟩
    | restart M chi A =>
      obtain ⟨as', e1, e2⟩ := hf
      exact ⟨as', e1, ih e2⟩

/-- The sum of the errors of all bond updates of a script (C87). -/
noncomputable def Spec.commandError (hx : 2 ≤ nx) (hy : 2 ≤ ny) (σ : Bond → Equiv.Perm (Fin N)) :
    List (Command F bD pD 𝕜) → Shell F bD pD 𝕜 → ℝ
  | [], _ => 0
  | .call c :: cs, w => callError hx hy σ w.machine w.obj c + commandError hx hy σ cs (w.exec (.call c)).1
  | c :: cs, w => commandError hx hy σ cs (w.exec c).1

theorem commandError_nonneg (hx : 2 ≤ nx) (hy : 2 ≤ ny) (σ : Bond → Equiv.Perm (Fin N)) (cs : List (Command F bD pD 𝕜)) (w : Shell F bD pD 𝕜) :
    0 ≤ commandError hx hy σ cs w := by
  induction cs generalizing w with
  | nil => exact le_rfl
  | cons c cs ih =>
    cases c with
    | call c => exact add_nonneg (callError_nonneg hx hy σ _ _ c) (ih _)
    | save f => exact ih _
    | load f => exact ih _
    | restart M chi A => exact ih _

/-- A process that is within `d` of what is aimed at. -/
def Near (σ : Bond → Equiv.Perm (Fin N)) (d : ℝ) (w : Shell F bD pD 𝕜) (I : Ideal nx ny N pD 𝕜) : Prop :=
  SoundShell nx ny w ∧ w.obj.initialized = I.initialized ∧ rayDist (stateOf σ w.obj) I.ψ ≤ d ∧
    ∀ f saved, w.disk f = some saved → ∃ φ, I.files f = some φ ∧ rayDist (latticeState σ (siteTensors (bare saved))) φ ≤ d

omit [NeZero bD] [NeZero pD] in
theorem Near.mono {σ : Bond → Equiv.Perm (Fin N)} {d d' : ℝ} (h : d ≤ d') {w : Shell F bD pD 𝕜} {I : Ideal nx ny N pD 𝕜} (hn : Near σ d w I) :
    Near σ d' w I := by
  obtain ⟨h1, h2, h3, h4⟩ := hn
  refine ⟨h1, h2, h3.trans h, fun f saved hf => ?_⟩
  obtain ⟨φ, e1, e2⟩ := h4 f saved hf
  exact ⟨φ, e1, e2.trans h⟩

theorem shell_run_none {c : Command F bD pD 𝕜} {cs : List (Command F bD pD 𝕜)} {w : Shell F bD pD 𝕜} (h : (Shell.run (c :: cs) w).2 = none) :
    (w.exec c).2 = none ∧ Shell.run (c :: cs) w = Shell.run cs (w.exec c).1 := by
  have e : Shell.run (c :: cs) w = match w.exec c with
    | (w, some e) => (w, some e)
    | (w, none) => Shell.run cs w := rfl
  rw [e] at h ⊢
  rcases hc : w.exec c with ⟨w', x⟩
  rw [hc] at h
  cases x with
  | some x => cases h
  | none => exact ⟨rfl, rfl⟩

theorem shell_run_ok {c : Command F bD pD 𝕜} {cs : List (Command F bD pD 𝕜)} {w w' : Shell F bD pD 𝕜} (h : w.exec c = (w', none)) :
    Shell.run (c :: cs) w = Shell.run cs w' := by
  have e : Shell.run (c :: cs) w = match w.exec c with
    | (w, some e) => (w, some e)
    | (w, none) => Shell.run cs w := rfl
  rw [e, h]

/-- One evolution, near what is aimed at. -/
theorem near_evolve (hx : 2 ≤ nx) (hy : 2 ≤ ny) (σ : Bond → Equiv.Perm (Fin N)) (I : Ideal nx ny N pD 𝕜) (m : ModelTerms (Fin pD) 𝕜)
    (hm : Uniform nx ny m) (T : ℝ) (start : Site → ATensor (Fin bD) (Fin pD) 𝕜) (d' : ℝ) (hd' : 0 < d') :
    ∃ d : ℝ, 0 < d ∧ d ≤ d' ∧ ∀ (w : Shell F bD pD 𝕜) (c : Config F) (e : Evolution bD pD 𝕜), Near σ d w I → e.model = m → e.start = start →
      0 ≤ e.dtau → e.dtau ≤ d → e.steps * e.dtau = T → (w.exec (.call (.evolve c e))).2 = none →
      callError hx hy σ w.machine w.obj (.evolve c e) ≤ d →
      Near σ d' (w.exec (.call (.evolve c e))).1 (I.next hx hy σ (.evolve m T start)) := by
  have hx0 : 0 < nx := by omega
  have hy0 : 0 < ny := by omega
  obtain ⟨K, C, hK⟩ := evolve_step (F := F) (bD := bD) hx hy σ m hm T
  set U := exp ((-(T : 𝕜)) • latticeHamiltonian hx hy σ m) with hU
  set ψ := if I.initialized then I.ψ else latticeState σ start with hψ
  set L := (|K| + 2 * |C|) * (stateNorm ψ + 1) + ‖U‖ + 1 with hL
  have hL0 : 0 < L := by
    have := stateNorm_nonneg ψ
    positivity
  refine ⟨min 1 (min d' (d' / L)), by positivity, (min_le_right _ _).trans (min_le_left _ _), ?_⟩
  set d := min 1 (min d' (d' / L)) with hd
  have d0 : 0 < d := by positivity
  have d1 : d ≤ 1 := min_le_left _ _
  have d2 : d ≤ d' := (min_le_right _ _).trans (min_le_left _ _)
  have d3 : d * L ≤ d' := by
    have := (min_le_right _ _).trans (min_le_right _ _) |>.trans_eq' hd
    rwa [le_div_iff₀ hL0] at this
  rintro w c e ⟨hw, hi, hn, hf⟩ rfl rfl h0 h1 hT hok herr
  -- in an initialised object
  have key : ∀ s : State bD pD 𝕜, Sound nx ny s → s.initialized = true → rayDist (stateOf σ s) ψ ≤ d →
      (exec w.machine s (.evolve c e)).2 = none → callError hx hy σ w.machine s (.evolve c e) ≤ d →
      (exec w.machine s (.evolve c e)).1.initialized = true ∧ rayDist (stateOf σ (exec w.machine s (.evolve c e)).1) (U.mulVec ψ) ≤ d' := by
    intro s hs hi hn hok herr
    obtain ⟨i1, i2⟩ := hK w.machine s c e hs hi rfl h0 hT hok
    refine ⟨i1, ?_⟩
    set x := callError hx hy σ w.machine s (.evolve c e) with hx'
    have hc0 : 0 ≤ x := callError_nonneg hx hy σ w.machine s _
    have x2 : Real.exp x - 1 ≤ 2 * x := by
      have := Real.abs_exp_sub_one_le (x := x) (by rw [abs_of_nonneg hc0]; linarith)
      rw [abs_of_nonneg hc0] at this
      exact (le_abs_self _).trans this
    have x3 : 0 ≤ Real.exp x - 1 := by linarith [Real.one_le_exp hc0]
    have b1 : K * e.dtau ^ 2 ≤ |K| * d := by
      have : e.dtau ^ 2 ≤ d := by nlinarith
      calc K * e.dtau ^ 2 ≤ |K| * e.dtau ^ 2 := mul_le_mul_of_nonneg_right (le_abs_self _) (by positivity)
        _ ≤ |K| * d := mul_le_mul_of_nonneg_left this (abs_nonneg _)
    have b2 : C * (Real.exp x - 1) ≤ |C| * (2 * d) := by
      calc C * (Real.exp x - 1) ≤ |C| * (Real.exp x - 1) := mul_le_mul_of_nonneg_right (le_abs_self _) x3
        _ ≤ |C| * (2 * d) := mul_le_mul_of_nonneg_left (by linarith) (abs_nonneg _)
    have i3 : rayDist (stateOf σ (exec w.machine s (.evolve c e)).1) (U.mulVec (stateOf σ s)) ≤
        ((|K| + 2 * |C|) * d) * stateNorm (stateOf (nx := nx) (ny := ny) σ s) :=
      i2.trans (mul_le_mul_of_nonneg_right (by linarith) (stateNorm_nonneg _))
    have i4 := rayDist_step U _ _ ψ _ d (by positivity) i3 hn
    refine i4.trans (le_trans ?_ d3)
    have b3 : (|K| + 2 * |C|) * d * (stateNorm ψ + d) ≤ (|K| + 2 * |C|) * d * (stateNorm ψ + 1) :=
      mul_le_mul_of_nonneg_left (by linarith) (by positivity)
    rw [hL]
    nlinarith
  have hfiles : ∀ f saved, w.disk f = some saved → ∃ φ, I.files f = some φ ∧ rayDist (latticeState σ (siteTensors (bare saved))) φ ≤ d' := by
    intro f saved h
    obtain ⟨φ, e1, e2⟩ := hf f saved h
    exact ⟨φ, e1, e2.trans d2⟩
  have hout : (exec w.machine w.obj (.evolve c e)).1.initialized = true ∧
      rayDist (stateOf σ (exec w.machine w.obj (.evolve c e)).1) (U.mulVec ψ) ≤ d' := by
    cases hi' : w.obj.initialized with
    | true =>
      refine key w.obj hw.1 hi' ?_ hok herr
      rw [hψ, if_pos (hi.symm.trans hi')]
      exact hn
    | false =>
      have hok' : (exec w.machine w.obj (.evolve c e)).2 = none := hok
      rw [exec_evolve_init w.machine w.obj c e hi'] at hok' ⊢
      refine key _ (initSites_sound hx0 hy0 e.start w.obj hw.1) rfl ?_ hok' ?_
      · rw [hψ, if_neg (by rw [← hi, hi']; decide), rayDist_self one_pos]
        · exact d0.le
        · rw [RCLike.ofReal_one, one_smul]
          rfl
      · refine le_of_eq_of_le ?_ herr
        unfold callError
        dsimp only
        rw [if_pos (show (initSites e.start w.obj).initialized = true from rfl), if_neg (by rw [hi']; decide)]
  exact ⟨⟨exec_sound hx0 hy0 w.machine w.obj hw.1 _, hw.2⟩, hout.1, hout.2, hfiles⟩

/-- Calls that no aim speaks of. -/
theorem near_skip (hx : 0 < nx) (hy : 0 < ny) (σ : Bond → Equiv.Perm (Fin N)) (d : ℝ) (w : Shell F bD pD 𝕜) (I : Ideal nx ny N pD 𝕜)
    (h : Near σ d w I) : (∀ chi, Near σ d (w.exec (.call (.setChi chi))).1 I) ∧ ∀ c, Near σ d (w.exec (.call (.renormalize c))).1 I := by
  obtain ⟨h1, h2, h3, h4⟩ := h
  refine ⟨fun chi => ⟨h1.exec hx hy _, h2, h3, h4⟩, fun c => ?_⟩
  have q := renormalize_sound hx hy w.machine c ⟨0, 0, ⟨fun _ => 0, fun _ => none⟩, fun _ _ _ _ _ _ => 0⟩ w.obj h1.1
  exact ⟨h1.exec hx hy _, q.2.2.1.trans h2, (congrArg (fun φ => rayDist φ I.ψ) (stateOf_congr σ q.2.1)).trans_le h3, h4⟩

theorem script_near (hx : 2 ≤ nx) (hy : 2 ≤ ny) (σ : Bond → Equiv.Perm (Fin N)) (as : List (Aim bD pD 𝕜))
    (hm : ∀ m T start, .evolve m T start ∈ as → Uniform nx ny m) (I : Ideal nx ny N pD 𝕜) (ε : ℝ) (hε : 0 < ε) :
    ∃ δ : ℝ, 0 < δ ∧ ∀ (cs : List (Command F bD pD 𝕜)) (w : Shell F bD pD 𝕜), Near σ δ w I → Pursues δ cs as → (Shell.run cs w).2 = none →
      commandError hx hy σ cs w ≤ δ → Near σ ε (Shell.run cs w).1 (as.foldl (fun I a => I.next hx hy σ a) I) := by
  have hx0 : 0 < nx := by omega
  have hy0 : 0 < ny := by omega
  induction as generalizing I with
  | nil =>
    refine ⟨ε, hε, fun cs => ?_⟩
    induction cs with
    | nil => exact fun w h _ _ _ => h
    | cons c cs ih =>
      intro w h hp hr herr
      obtain ⟨o1, o2⟩ := shell_run_none hr
      rw [o2] at hr ⊢
      cases c with
      | call c =>
        have herr' : callError hx hy σ w.machine w.obj c + commandError hx hy σ cs (w.exec (.call c)).1 ≤ ε := herr
        have := callError_nonneg hx hy σ w.machine w.obj c
        cases c with
        | setChi chi => exact ih _ ((near_skip hx0 hy0 σ ε w I h).1 chi) hp hr (by linarith)
        | renormalize c => exact ih _ ((near_skip hx0 hy0 σ ε w I h).2 c) hp hr (by linarith)
        | evolve c e =>
          obtain ⟨T, as', e1, -⟩ := hp
          cases e1
      | save f => obtain ⟨as', e1, -⟩ := hp; cases e1
      | load f => obtain ⟨as', e1, -⟩ := hp; cases e1
      | restart M chi A => obtain ⟨as', e1, -⟩ := hp; cases e1
  | cons a as ih =>
    obtain ⟨δ', hδ', hstep⟩ := ih (fun m T start h => hm m T start (List.mem_cons_of_mem _ h)) (I.next hx hy σ a)
    obtain ⟨δ, hδ, hδδ, hev⟩ : ∃ δ : ℝ, 0 < δ ∧ δ ≤ δ' ∧ ∀ (m : ModelTerms (Fin pD) 𝕜) (T : ℝ) (start : Site → ATensor (Fin bD) (Fin pD) 𝕜),
        a = .evolve m T start → ∀ (w : Shell F bD pD 𝕜) (c : Config F) (e : Evolution bD pD 𝕜), Near σ δ w I → e.model = m → e.start = start →
        0 ≤ e.dtau → e.dtau ≤ δ → e.steps * e.dtau = T → (w.exec (.call (.evolve c e))).2 = none →
        callError hx hy σ w.machine w.obj (.evolve c e) ≤ δ →
        Near σ δ' (w.exec (.call (.evolve c e))).1 (I.next hx hy σ a) := by
      cases a with
      | evolve m T start =>
        obtain ⟨δ, h1, h2, h3⟩ := near_evolve (F := F) hx hy σ I m (hm m T start List.mem_cons_self) T start δ' hδ'
        refine ⟨δ, h1, h2, fun m' T' start' he => ?_⟩
        cases he
        exact h3
      | save f => exact ⟨δ', hδ', le_rfl, fun _ _ _ he => by cases he⟩
      | load f => exact ⟨δ', hδ', le_rfl, fun _ _ _ he => by cases he⟩
      | restart A => exact ⟨δ', hδ', le_rfl, fun _ _ _ he => by cases he⟩
    refine ⟨δ, hδ, fun cs => ?_⟩
    induction cs with
    | nil => exact fun w _ hp => by cases hp
    | cons c cs ih =>
      intro w h hp hr herr
      obtain ⟨o1, o2⟩ := shell_run_none hr
      rw [o2] at hr ⊢
      have hs1 := h.1.exec hx0 hy0 c
      cases c with
      | call c =>
        have herr' : callError hx hy σ w.machine w.obj c + commandError hx hy σ cs (w.exec (.call c)).1 ≤ δ := herr
        have h0 := callError_nonneg hx hy σ w.machine w.obj c
        have h0' := commandError_nonneg hx hy σ cs (w.exec (.call c)).1
        cases c with
        | setChi chi => exact ih _ ((near_skip hx0 hy0 σ δ w I h).1 chi) hp hr (by linarith)
        | renormalize c => exact ih _ ((near_skip hx0 hy0 σ δ w I h).2 c) hp hr (by linarith)
        | evolve c e =>
          obtain ⟨T, as', e1, e2, e3, e4, e5⟩ := hp
          obtain ⟨rfl, rfl⟩ := List.cons.inj e1
          exact hstep cs _ (hev e.model T e.start rfl w c e h rfl rfl e2 e3 e4 o1 (by linarith)) (e5.mono hδδ) hr (by linarith)
      | save f =>
        obtain ⟨as', e1, e2⟩ := hp
        obtain ⟨rfl, rfl⟩ := List.cons.inj e1
        refine hstep cs _ ?_ (e2.mono hδδ) hr (le_trans herr hδδ)
        obtain ⟨h1, h2, h3, h4⟩ := h
        have he : w.exec (.save f) = w.save f := rfl
        rw [he, save_eq] at hs1 ⊢
        refine ⟨hs1, rfl, h3.trans hδδ, fun g saved hg => ?_⟩
        show ∃ φ, (if g = f then some I.ψ else I.files g) = some φ ∧ _
        dsimp only at hg
        by_cases hgf : g = f
        · rw [if_pos hgf] at hg ⊢
          cases hg
          exact ⟨_, rfl, h3.trans hδδ⟩
        · rw [if_neg hgf] at hg ⊢
          obtain ⟨φ, k1, k2⟩ := h4 g saved hg
          exact ⟨φ, k1, k2.trans hδδ⟩
      | load f =>
        obtain ⟨as', e1, e2⟩ := hp
        obtain ⟨rfl, rfl⟩ := List.cons.inj e1
        refine hstep cs _ ?_ (e2.mono hδδ) hr (le_trans herr hδδ)
        obtain ⟨h1, h2, h3, h4⟩ := h
        have he : w.exec (.load f) = w.load f := rfl
        rw [he] at hs1 o1 ⊢
        unfold Shell.load at hs1 o1 ⊢
        cases hd : w.disk f with
        | none => rw [hd] at o1; cases o1
        | some saved =>
          rw [hd] at hs1
          obtain ⟨φ, k1, k2⟩ := h4 f saved hd
          refine ⟨hs1, rfl, ?_, fun g saved' hg => ?_⟩
          · show rayDist (latticeState σ (siteTensors (bare (loadNet saved w.obj.net)))) ((I.files f).getD 0) ≤ δ'
            rw [k1, (loadNet_same (h1.2 f saved hd) w.obj.net).state σ]
            exact k2.trans hδδ
          · obtain ⟨φ', k1', k2'⟩ := h4 g saved' hg
            exact ⟨φ', k1', k2'.trans hδδ⟩
      | restart M chi A =>
        obtain ⟨as', e1, e2⟩ := hp
        obtain ⟨rfl, rfl⟩ := List.cons.inj e1
        refine hstep cs _ ?_ (e2.mono hδδ) hr (le_trans herr hδδ)
        obtain ⟨h1, h2, h3, h4⟩ := h
        refine ⟨hs1, rfl, ?_, fun g saved' hg => ?_⟩
        · show rayDist (latticeState σ A) (latticeState σ A) ≤ δ'
          rw [rayDist_self one_pos (by rw [RCLike.ofReal_one, one_smul])]
          exact hδ'.le
        · obtain ⟨φ', k1', k2'⟩ := h4 g saved' hg
          exact ⟨φ', k1', k2'.trans hδδ⟩

/-- **C89 (evolution with checkpoints).** Every finite lattice covering the cell, all dtypes: for every list of aims, models with one-site terms
everywhere or nowhere, every start and every accuracy there is a tolerance such that every script that pursues the aims with time steps within the
tolerance, whatever its settings are and however often it changes the boundary dimension or renormalises, does not raise, and has errors of its
bond updates that sum up to no more than the tolerance, ends with the state of the lattice that the aims ask for, up to a positive factor and the
accuracy: a file brings back the state that was saved, in the same process or another. -/
theorem C89_evolution (hx : 2 ≤ nx) (hy : 2 ≤ ny) (σ : Bond → Equiv.Perm (Fin N)) (as : List (Aim bD pD 𝕜))
    (hm : ∀ m T start, .evolve m T start ∈ as → Uniform nx ny m) (A : Site → ATensor (Fin bD) (Fin pD) 𝕜) (ε : ℝ) (hε : 0 < ε) :
    ∃ δ : ℝ, 0 < δ ∧ ∀ (M : Machine F bD 𝕜) (chi : ℕ) (cs : List (Command F bD pD 𝕜)), Pursues δ cs as →
      (Shell.run cs (Shell.start nx ny M chi A)).2 = none → commandError hx hy σ cs (Shell.start nx ny M chi A) ≤ δ →
      rayDist (stateOf σ (Shell.run cs (Shell.start nx ny M chi A)).1.obj)
        (as.foldl (fun I a => I.next hx hy σ a) (⟨latticeState σ A, false, fun _ => none⟩ : Ideal nx ny N pD 𝕜)).ψ ≤ ε := by
  obtain ⟨δ, hδ, h⟩ := script_near (F := F) hx hy σ as hm ⟨latticeState σ A, false, fun _ => none⟩ ε hε
  refine ⟨δ, hδ, fun M chi cs hp hr herr => (h cs _ ?_ hp hr herr).2.2.1⟩
  refine ⟨SoundShell.start (by omega) (by omega) M chi A, rfl, ?_, fun _ _ hf => by cases hf⟩
  show rayDist (latticeState σ A) (latticeState σ A) ≤ δ
  rw [rayDist_self one_pos (by rw [RCLike.ofReal_one, one_smul])]
  exact hδ.le

/-- A run of several processes: the first evolves and saves, every other one loads the file of the one before, evolves and saves. -/
def Spec.relay (f : String) (A start : Site → ATensor (Fin bD) (Fin pD) 𝕜) : Plan pD 𝕜 → List (Aim bD pD 𝕜)
  | [] => []
  | p :: ps => [.evolve p.1 p.2 start, .save f] ++ ps.flatMap fun q => [.restart A, .load f, .evolve q.1 q.2 start, .save f]

omit [NeZero bD] [NeZero pD] in
/-- **C89 (resuming).** What the aims of such a run ask for is what the evolutions give one after the other, as in one process. -/
theorem C89_resume (hx : 2 ≤ nx) (hy : 2 ≤ ny) (σ : Bond → Equiv.Perm (Fin N)) (f : String) (A start : Site → ATensor (Fin bD) (Fin pD) 𝕜)
    (p : ModelTerms (Fin pD) 𝕜 × ℝ) (ps : Plan pD 𝕜) :
    ((relay f A start (p :: ps)).foldl (fun (I : Ideal nx ny N pD 𝕜) a => I.next hx hy σ a) ⟨latticeState σ A, false, fun _ => none⟩).ψ =
      (planOperator hx hy σ (p :: ps)).mulVec (latticeState σ start) := by
  have key : ∀ (ps : Plan pD 𝕜) (I : Ideal nx ny N pD 𝕜), I.files f = some I.ψ →
      ((ps.flatMap fun q => [Aim.restart A, .load f, .evolve q.1 q.2 start, .save f]).foldl (fun (I : Ideal nx ny N pD 𝕜) a => I.next hx hy σ a) I).ψ =
        (planOperator hx hy σ ps).mulVec I.ψ := by
    intro ps
    induction ps with
    | nil =>
      intro I _
      exact (Matrix.one_mulVec _).symm
    | cons q ps ih =>
      intro I hI
      rw [List.flatMap_cons, List.foldl_append, ih]
      · show (planOperator hx hy σ ps).mulVec ((exp ((-(q.2 : 𝕜)) • latticeHamiltonian hx hy σ q.1)).mulVec ((I.files f).getD 0)) =
          (planOperator hx hy σ ps * exp ((-(q.2 : 𝕜)) • latticeHamiltonian hx hy σ q.1)).mulVec I.ψ
        rw [hI, Matrix.mulVec_mulVec]
        rfl
      · exact if_pos rfl
  unfold relay
  rw [List.foldl_append, key]
  · show (planOperator hx hy σ ps).mulVec ((exp ((-(p.2 : 𝕜)) • latticeHamiltonian hx hy σ p.1)).mulVec (latticeState σ start)) =
      (planOperator hx hy σ ps * exp ((-(p.2 : 𝕜)) • latticeHamiltonian hx hy σ p.1)).mulVec (latticeState σ start)
    rw [Matrix.mulVec_mulVec]
  · exact if_pos rfl

/-! ### The hypotheses are met -/

/-- Non-vacuity: for all times and tolerances there is a run of two processes in a field that pursues the aims of `C89_resume`, does not raise
and has no errors. -/
example [NeZero N] (hx : 2 ≤ nx) (hy : 2 ≤ ny) (σ : Bond → Equiv.Perm (Fin N)) (M M' : Machine ℝ 2 ℝ) (c : Config ℝ) (hp : KnownProjectors c)
    (hu : c.strings.updateType = "full") (ha : c.update.als_method = .pinv) (he : c.update.als_epsilon = 0)
    (hcut : 0 < c.update.positive_approx_cutoff) (hatol : c.update.gauge_fix_atol < Real.sqrt c.update.positive_approx_cutoff)
    (T₁ T₂ δ : ℝ) (h1 : 0 ≤ T₁) (h2 : 0 ≤ T₂) (hδ : 0 < δ) (chi chi' : ℕ) (A : Site → ATensor (Fin 2) (Fin 2) ℝ) (f : String) :
    Uniform nx ny fieldTerms ∧ ∃ cs : List (Command ℝ 2 2 ℝ),
      Pursues δ cs (relay f A (fun s => (ghzNet s).A) [(fieldTerms, T₁), (fieldTerms, T₂)]) ∧
      (Shell.run cs (Shell.start nx ny M chi A)).2 = none ∧ commandError hx hy σ cs (Shell.start nx ny M chi A) = 0 := by
  have hx0 : 0 < nx := by omega
  have hy0 : 0 < ny := by omega
  have hn : ∀ T : ℝ, 0 ≤ T → ∃ n : ℕ, 0 ≤ T / n ∧ T / n ≤ δ ∧ n * (T / n) = T := by
    intro T hT
    refine ⟨⌈T / δ⌉₊ + 1, by positivity, ?_, by field_simp⟩
    rw [div_le_iff₀ (by positivity)]
    have := Nat.le_ceil (T / δ)
    rw [div_le_iff₀ hδ] at this
    push_cast
    nlinarith
  obtain ⟨n₁, a1, a2, a3⟩ := hn T₁ h1
  obtain ⟨n₂, b1, b2, b3⟩ := hn T₂ h2
  set e₁ : Evolution 2 2 ℝ := ⟨T₁ / n₁, n₁, fieldTerms, fun s => (ghzNet s).A⟩ with he₁
  set e₂ : Evolution 2 2 ℝ := ⟨T₂ / n₂, n₂, fieldTerms, fun s => (ghzNet s).A⟩ with he₂
  refine ⟨Or.inl fun _ _ => rfl, [.call (.evolve c e₁), .save f, .restart M' chi' A, .load f, .call (.evolve c e₂), .save f],
    ⟨T₁, _, rfl, a1, a2, a3, _, rfl, _, rfl, _, rfl, T₂, _, rfl, b1, b2, b3, _, rfl, rfl⟩, ?_⟩
  have hc : ∀ e : Evolution 2 2 ℝ, e = e₁ ∨ e = e₂ → ∀ x ∈ [Call.evolve c e], FieldCall x := by
    rintro e he' x hx'
    rw [List.mem_singleton.1 hx']
    rcases he' with rfl | rfl <;> exact ⟨hp, hu, ha, he, hcut, hatol, rfl, rfl⟩
  obtain ⟨r1, r2, r3⟩ := field_script hx hy σ M _ (hc e₁ (Or.inl rfl)) _ (new_sound hx0 hy0 chi A) fun h => by cases h
  have hs1 := exec_sound hx0 hy0 M _ (new_sound hx0 hy0 chi A) (.evolve c e₁)
  have hone : ∀ (M : Machine ℝ 2 ℝ) (x : Call ℝ 2 2 ℝ) (s : State 2 2 ℝ), run M [x] s = exec M s x := by
    intro M x s
    show Set.andThen (exec M s x) _ = _
    rcases exec M s x with ⟨s', _ | _⟩ <;> rfl
  rw [hone] at r1 r3
  have hce : ∀ (M : Machine ℝ 2 ℝ) (x : Call ℝ 2 2 ℝ) (s : State 2 2 ℝ), scriptError hx hy σ M [x] s = callError hx hy σ M s x :=
    fun M x s => add_zero _
  rw [hce] at r2
  have hi1 : (exec M (new nx ny chi A) (.evolve c e₁)).1.initialized = true := by
    obtain ⟨K, C, hst⟩ := evolve_step (F := ℝ) (bD := 2) hx hy σ fieldTerms (Or.inl fun _ _ => rfl) T₁
    rw [exec_evolve_init M (new nx ny chi A) c e₁ rfl] at r1 ⊢
    exact (hst M _ c e₁ (initSites_sound hx0 hy0 e₁.start _ (new_sound hx0 hy0 chi A)) rfl rfl a1 a3 r1).1
  set s₁ := (exec M (new nx ny chi A) (.evolve c e₁)).1 with hs₁
  set w₁ : Shell ℝ 2 2 ℝ := ⟨M, s₁, fun _ => none⟩ with hw₁
  have k1 : (Shell.start nx ny M chi A).exec (.call (.evolve c e₁)) = (w₁, none) := Prod.ext rfl r1
  set w₂ : Shell ℝ 2 2 ℝ := ⟨M, { s₁ with initialized := true }, fun g => if g = f then some s₁.net else none⟩ with hw₂
  have k2 : w₁.exec (.save f) = (w₂, none) := save_eq w₁ f
  obtain ⟨e1, e2, -⟩ := hs1.1
  set w₃ : Shell ℝ 2 2 ℝ := ⟨M', new s₁.net.nx s₁.net.ny chi' A, w₂.disk⟩ with hw₃
  have k3 : w₂.exec (.restart M' chi' A) = (w₃, none) := rfl
  set s₄ : State 2 2 ℝ := { w₃.obj with net := loadNet s₁.net w₃.obj.net, initialized := true } with hs₄
  set w₄ : Shell ℝ 2 2 ℝ := ⟨M', s₄, w₂.disk⟩ with hw₄
  have k4 : w₃.exec (.load f) = (w₄, none) := by
    show w₃.load f = _
    unfold Shell.load
    rw [show w₃.disk f = some s₁.net from if_pos rfl]
  have hsd₃ : Sound nx ny w₃.obj := by
    show Sound nx ny (new s₁.net.nx s₁.net.ny chi' A)
    rw [e1, e2]
    exact new_sound hx0 hy0 chi' A
  have hsd₄ : Sound nx ny s₄ := ⟨loadNet_fit hs1.1 hsd₃.1, hsd₃.2⟩
  have hne : stateOf (nx := nx) (ny := ny) σ s₄ ≠ 0 := by
    show latticeState σ (siteTensors (bare (loadNet s₁.net w₃.obj.net))) ≠ 0
    rw [(loadNet_same hs1.1 _).state σ]
    exact r3 hi1
  obtain ⟨t1, t2, -⟩ := field_script hx hy σ M' _ (hc e₂ (Or.inr rfl)) s₄ hsd₄ fun _ => hne
  rw [hone] at t1
  rw [hce] at t2
  set w₅ : Shell ℝ 2 2 ℝ := ⟨M', (exec M' s₄ (.evolve c e₂)).1, w₂.disk⟩ with hw₅
  have k5 : w₄.exec (.call (.evolve c e₂)) = (w₅, none) := Prod.ext rfl t1
  constructor
  · rw [shell_run_ok k1, shell_run_ok k2, shell_run_ok k3, shell_run_ok k4, shell_run_ok k5, shell_run_ok (c := .save f) (save_eq w₅ f)]
    rfl
  · show callError hx hy σ M (new nx ny chi A) (.evolve c e₁) + commandError hx hy σ _ ((Shell.start nx ny M chi A).exec (.call (.evolve c e₁))).1 = 0
    rw [r2, zero_add, k1]
    show commandError hx hy σ _ (w₁.exec (.save f)).1 = 0
    rw [k2]
    show commandError hx hy σ _ (w₂.exec (.restart M' chi' A)).1 = 0
    rw [k3]
    show commandError hx hy σ _ (w₃.exec (.load f)).1 = 0
    rw [k4]
    show callError hx hy σ M' s₄ (.evolve c e₂) + commandError hx hy σ [.save f] (w₄.exec (.call (.evolve c e₂))).1 = 0
    rw [t2, zero_add]
    rfl

end AceTN
