import Verif.Props.DistSession
import Verif.Props.NeelSession

/-! C115: distributed sessions at bond dimension one. -/

set_option autoImplicit false
set_option linter.unusedSectionVars false

namespace AceTN
open Spec Full Session Pauli

variable {F F' : Type} {pD nx ny N : ℕ} [NeZero pD]

/-- Scripts of such calls do not raise, so that there is nothing to catch. -/
theorem run_mean (hx : 2 ≤ nx) (hy : 2 ≤ ny) (M : Machine F 1 ℝ) (hM : M.cx = false) (hω : DrawsNonzero M.ω) (cs : List (Call F 1 pD ℝ))
    (hcs : ∀ c ∈ cs, Sensible nx ny c ∧ KnownNames c) (s : State 1 pD ℝ) (hs : MeanState nx ny s) : run M cs s = (runCatching M cs s, none) := by
  induction cs generalizing s with
  | nil => rfl
  | cons c cs ih =>
    obtain ⟨h1, h2⟩ := mean_exec hx hy M hM hω c (hcs c (by simp)).1 s hs
    have h3 := h2 (hcs c (by simp)).2
    have h4 := ih (fun c hc => hcs c (by simp [hc])) _ h1
    show Set.andThen (exec M s c) (run M cs) = (runCatching M cs (exec M s c).1, none)
    rcases he : exec M s c with ⟨s', x⟩
    rw [he] at h3 h4
    cases h3
    exact h4

/-- **C115 (ranks and one process).** Real dtype, bond dimension one, cells from 2 × 2, numbers of ranks that can share the work, half-system
projectors: a script of sensible calls raises on no rank, and every rank ends with the object, and gets from `measure` the dictionary, of one
process that runs the script with the random numbers of the ranks. -/
theorem C115_serial (hx : 2 ≤ nx) (hy : 2 ≤ ny) (D : Team F 1 pD ℝ) (hD : D.Works nx ny) (hcx : D.cx = false) (hω : ∀ r < D.ws, DrawsNonzero (D.ω r)) :
    ∃ ω, DrawsNonzero ω ∧ ∀ (chi : ℕ) (A : Site → ATensor (Fin 1) (Fin pD) ℝ) (cs : List (Call F 1 pD ℝ)), 0 < chi → (∀ s, InCell nx ny s → A s ≠ 0) →
      (∀ c ∈ cs, Sensible nx ny c ∧ KnownNames c ∧ ChoosesHalf c) →
      let r := distRun D cs (distNew D nx ny chi A)
      let s := runCatching ⟨D.la, D.fo, D.rep, ω, D.cx⟩ cs (new nx ny chi A)
      r.2 = none ∧ ∀ k < D.ws, r.1.nets k = s.net ∧ r.1.bonds = s.bonds ∧ ∀ init model, Session.measure init model (r.1.view k) = Session.measure init model s := by
  obtain ⟨ω, h1, h2⟩ := C90_half_serial (by omega) (by omega) D hD
  have hω' : DrawsNonzero ω := fun t key q hq => by
    obtain ⟨r, hr, e⟩ := h1 t key
    rw [e]
    exact hω r hr _ _ _ hq
  refine ⟨ω, hω', fun chi A cs hchi hA hcs => ?_⟩
  intro r s
  obtain ⟨h3, h4⟩ := h2 chi A cs fun c hc => (hcs c hc).2.2
  rw [run_mean hx hy _ hcx hω' cs (fun c hc => ⟨(hcs c hc).1, (hcs c hc).2.1⟩) _ (mean_new (by omega) (by omega) hchi A hA)] at h3 h4
  refine ⟨h3.symm, fun k hk => ?_⟩
  obtain ⟨e1, e2, -, e3⟩ := h4 k hk
  exact ⟨e1.symm, e2.symm, e3⟩

/-- **C115 (the number of processes does not matter).** If moreover no step of mean-field theory has a choice, as with small time steps (C111), every
rank measures what a single process measures that makes the same calls of `evolve` with other settings, projectors, updates, libraries, random numbers and
boundary dimensions. -/
theorem C115_processes (hx : 2 ≤ nx) (hy : 2 ≤ ny) (D : Team F 1 pD ℝ) (hD : D.Works nx ny) (hcx : D.cx = false) (hω : ∀ r < D.ws, DrawsNonzero (D.ω r))
    (M : Machine F' 1 ℝ) (hM : M.cx = false) (hωM : DrawsNonzero M.ω) {chi chi' : ℕ} (hchi : 0 < chi) (hchi' : 0 < chi')
    (A : Site → ATensor (Fin 1) (Fin pD) ℝ) (hA : ∀ s, InCell nx ny s → A s ≠ 0) (cs : List (Call F 1 pD ℝ)) (cs' : List (Call F' 1 pD ℝ))
    (hcs : ∀ c ∈ cs, Sensible nx ny c ∧ KnownNames c ∧ ChoosesHalf c) (hcs' : ∀ c ∈ cs', Sensible nx ny c ∧ KnownNames c)
    (he : evolutions cs' = evolutions cs) (hT : NoChoice nx ny (evolutions cs) (buildBondList nx ny) (startVec A (evolutions cs))) :
    let r := distRun D cs (distNew D nx ny chi A)
    r.2 = none ∧ ∀ k < D.ws, ∀ init init' model, Session.measure init model (r.1.view k) = Session.measure init' model (runCatching M cs' (new nx ny chi' A)) := by
  intro r
  obtain ⟨ω, h1, h2⟩ := C115_serial hx hy D hD hcx hω
  obtain ⟨h3, h4⟩ := h2 chi A cs hchi hA hcs
  refine ⟨h3, fun k hk init init' model => ((h4 k hk).2.2 init model).trans ?_⟩
  exact ((C111_settings hx hy ⟨D.la, D.fo, D.rep, ω, D.cx⟩ M hcx hM h1 hωM hchi hchi' A hA cs cs' (fun c hc => ⟨(hcs c hc).1, (hcs c hc).2.1⟩) hcs' he hT).2.2.2
    init init' model).symm

/-- **C115 (energy).** The energy every rank returns is the one of the state it holds, on every finite lattice made of copies of the cell, and never
below the lowest one. -/
theorem C115_energy [NeZero N] (hx : 2 ≤ nx) (hy : 2 ≤ ny) (σ : Bond → Equiv.Perm (Fin N)) (D : Team F 1 pD ℝ) (hD : D.Works nx ny) (hcx : D.cx = false)
    (hω : ∀ r < D.ws, DrawsNonzero (D.ω r)) {chi : ℕ} (hchi : 0 < chi) (A : Site → ATensor (Fin 1) (Fin pD) ℝ)
    (hA : ∀ s, InCell nx ny s → A s ≠ 0) (cs : List (Call F 1 pD ℝ)) (hcs : ∀ c ∈ cs, Sensible nx ny c ∧ KnownNames c ∧ ChoosesHalf c)
    (m : ModelTerms (Fin pD) ℝ) (model : MeasModel (Fin pD → Fin pD → ℝ) (Fin pD → Fin pD → Fin pD → Fin pD → ℝ)) (hmm : Measures m model)
    (hcl : Meas.Clean model (buildSiteList nx ny) (buildBondList nx ny)) (init : Fin pD → Fin pD → Fin pD → Fin pD → ℝ) (E₀ : ℝ)
    (hE : IsGroundEnergy (latticeHamiltonian hx hy σ m) E₀) :
    let r := distRun D cs (distNew D nx ny chi A)
    ∃ d, ∀ k < D.ws, Session.measure init model (r.1.view k) = .ok d ∧
      let ψ := latticeState (nx := nx) (ny := ny) σ (siteTensors (bare (r.1.nets k)))
      ψ ≠ 0 ∧ d.get? "Energy" = some (energyOf (latticeHamiltonian hx hy σ m) ψ / (N * nx * ny : ℕ)) ∧
        E₀ / (N * nx * ny : ℕ) ≤ energyOf (latticeHamiltonian hx hy σ m) ψ / (N * nx * ny : ℕ) := by
  intro r
  obtain ⟨ω, h1, h2⟩ := C115_serial hx hy D hD hcx hω
  obtain ⟨h3, h4⟩ := h2 chi A cs hchi hA hcs
  obtain ⟨hψ, d, e1, e2⟩ := C110_energy hx hy σ ⟨D.la, D.fo, D.rep, ω, D.cx⟩ hcx h1 hchi A hA cs (fun c hc => (hcs c hc).1) m model hmm hcl init
  refine ⟨d, fun k hk => ⟨((h4 k hk).2.2 init model).trans e1, ?_⟩⟩
  have hnet : r.1.nets k = (runCatching ⟨D.la, D.fo, D.rep, ω, D.cx⟩ cs (new nx ny chi A)).net := (h4 k hk).1
  rw [hnet]
  exact ⟨hψ, e2, div_le_div_of_nonneg_right (hE _ hψ) (Nat.cast_nonneg _)⟩

/-- **C115 (built-in model).** The Heisenberg model on any number of ranks: the Néel state stays and every rank measures its values. -/
theorem C115_neel (hx : 2 ≤ nx) (hy : 2 ≤ ny) (D : Team F 1 2 ℝ) (hD : D.Works nx ny) (hcx : D.cx = false) (hω : ∀ r < D.ws, DrawsNonzero (D.ω r))
    {chi : ℕ} (hchi : 0 < chi) (A : Site → ATensor (Fin 1) (Fin 2) ℝ) (hA : ∀ s, InCell nx ny s → A s 0 0 0 0 = neel s) (cs : List (Call F 1 2 ℝ))
    (hcs : ∀ c ∈ cs, Sensible nx ny c ∧ KnownNames c ∧ ChoosesHalf c) (hm : ∀ e ∈ evolutions cs, ∃ params, Pauli.heisenbergTerms params = .ok e.model)
    (hs : ∀ e ∈ evolutions cs, ∀ s, InCell nx ny s → e.start s 0 0 0 0 = neel s) (params : PyDict String ℝ) {J : ℝ}
    (hJ : params.get? "J" = some J) (init : Fin 2 → Fin 2 → Fin 2 → Fin 2 → ℝ) :
    ∃ model d, Pauli.heisenbergMeas params = .ok model ∧
      (∀ k < D.ws, Session.measure init model ((distRun D cs (distNew D nx ny chi A)).1.view k) = .ok d) ∧
      d.get? "Energy" = some (J / 4 * ((buildBondList nx ny).map bondSign).sum / (nx * ny)) ∧ d.get? "sx" = some 0 ∧ d.get? "sz" = some 1 := by
  obtain ⟨ω, h1, h2⟩ := C115_serial hx hy D hD hcx hω
  have hA0 : ∀ s, InCell nx ny s → A s ≠ 0 := fun s hsc => tensor_ne (hA s hsc) (by rw [neel_spin]; exact spinVec_ne _)
  obtain ⟨h3, h4⟩ := h2 chi A cs hchi hA0 hcs
  obtain ⟨model, d, e1, e2, e3⟩ := C114_neel hx hy ⟨D.la, D.fo, D.rep, ω, D.cx⟩ hcx h1 hchi A hA cs (fun c hc => ⟨(hcs c hc).1, (hcs c hc).2.1⟩) hm hs params hJ init
  exact ⟨model, d, e1, fun k hk => ((h4 k hk).2.2 init model).trans e2, e3⟩

/-! ### The hypotheses are met -/

/-- Settings as in the documentation, with either update and half-system projectors. -/
noncomputable def halfConfig (svd update : String) (method : Als.Solver) : Config ℝ :=
  { exampleConfig svd update method with strings := ⟨some "half-system", svd, update⟩ }

/-- A script with both updates and small time steps. -/
noncomputable def halfScript (svd : String) (method : Als.Solver) (n : ℕ) (dtau : ℝ) (m : ModelTerms (Fin 2) ℝ) : List (Call ℝ 1 2 ℝ) :=
  [.evolve (halfConfig svd "full" method) ⟨dtau, n, m, fun s _ _ _ _ => neel s⟩, .setChi 4, .renormalize (halfConfig svd "full" method),
    .evolve (halfConfig svd "simple" method) ⟨dtau, n, m, fun s _ _ _ _ => neel s⟩]

theorem neel_tensor_ne (s : Site) : (fun _ _ _ _ => neel s : ATensor (Fin 1) (Fin 2) ℝ) ≠ 0 :=
  tensor_ne (u := neel s) rfl (by rw [neel_spin]; exact spinVec_ne _)

theorem halfScript_ok (svd : String) (method : Als.Solver) (n : ℕ) (dtau : ℝ) (m : ModelTerms (Fin 2) ℝ) :
    ∀ c ∈ halfScript svd method n dtau m, Sensible nx ny c ∧ KnownNames c ∧ ChoosesHalf c := by
  intro c hc
  simp only [halfScript, List.mem_cons, List.not_mem_nil, or_false] at hc
  rcases hc with rfl | rfl | rfl | rfl
  · exact ⟨⟨(exampleConfig_ok svd "full" method).1, fun _ => (exampleConfig_ok svd "full" method).2, fun s _ => neel_tensor_ne s⟩, ⟨.inr (.inr rfl), rfl⟩, rfl⟩
  · exact ⟨Nat.succ_pos 3, trivial, trivial⟩
  · exact ⟨(exampleConfig_ok svd "full" method).1, .inr (.inr rfl), rfl⟩
  · exact ⟨⟨(exampleConfig_ok svd "full" method).1, fun _ => (exampleConfig_ok svd "full" method).2, fun s _ => neel_tensor_ne s⟩, ⟨.inr (.inr rfl), rfl⟩, rfl⟩

/-- Non-vacuity: two ranks with the Heisenberg model, on every cell. -/
example (hx : 2 ≤ nx) (hy : 2 ≤ ny) (la : Lapack ℝ) (fo : Als.FloatOps ℝ) (svd : String) (method : Als.Solver) (n : ℕ) (dtau J : ℝ)
    (init : Fin 2 → Fin 2 → Fin 2 → Fin 2 → ℝ) :
    let D : Team ℝ 1 2 ℝ := ⟨2, la, fo, id, fun _ _ _ _ _ _ _ _ => 1, false, fun _ A => A⟩
    ∃ m model d, Pauli.heisenbergTerms [("J", J)] = .ok m ∧ Pauli.heisenbergMeas [("J", J)] = .ok model ∧
      (∀ k < 2, Session.measure init model
        ((distRun D (halfScript svd method n dtau m) (distNew D nx ny 3 fun s _ _ _ _ => neel s)).1.view k) = .ok d) ∧ d.get? "sz" = some 1 := by
  intro D
  have hJ : PyDict.get? [("J", J)] "J" = some J := by simp [PyDict.get?]
  obtain ⟨model, d, h1, h2, -, -, h3⟩ := C115_neel (nx := nx) (ny := ny) hx hy D ⟨le_rfl, Or.inl rfl, Or.inl rfl, fun _ _ _ => rfl⟩ rfl (fun _ _ => ones_drawn)
    (Nat.succ_pos 2) (fun s _ _ _ _ => neel s) (fun _ _ => rfl) (halfScript svd method n dtau _) (halfScript_ok _ _ _ _ _) (fun e he => by
      simp only [halfScript, evolutions, List.mem_cons, List.not_mem_nil, or_false] at he
      rcases he with rfl | rfl
      · exact ⟨_, (C114_heisenberg_terms hJ).1⟩
      · exact ⟨_, (C114_heisenberg_terms hJ).1⟩) (fun e he => by
      simp only [halfScript, evolutions, List.mem_cons, List.not_mem_nil, or_false] at he
      rcases he with rfl | rfl
      · exact fun _ _ => rfl
      · exact fun _ _ => rfl) [("J", J)] hJ init
  exact ⟨_, model, d, (C114_heisenberg_terms hJ).1, h1, h2, h3⟩

/-- Non-vacuity: two ranks that evolve with half-system projectors and both updates measure what one process does that makes the same two calls of
`evolve` with other settings; `dtau = 0` is a small time step of every model. -/
example (hx : 2 ≤ nx) (hy : 2 ≤ ny) (la la' : Lapack ℝ) (fo : Als.FloatOps ℝ) (svd svd' : String) (method method' : Als.Solver) (n : ℕ) (dtau : ℝ)
    (m : ModelTerms (Fin 2) ℝ) (hsm : SmallStep nx ny ⟨dtau, n, m, fun s _ _ _ _ => neel s⟩) (init : Fin 2 → Fin 2 → Fin 2 → Fin 2 → ℝ)
    (model : MeasModel (Fin 2 → Fin 2 → ℝ) (Fin 2 → Fin 2 → Fin 2 → Fin 2 → ℝ)) :
    let D : Team ℝ 1 2 ℝ := ⟨2, la, fo, id, fun _ _ _ _ _ _ _ _ => 1, false, fun _ A => A⟩
    let M : Machine ℝ 1 ℝ := ⟨la', fo, id, fun _ _ _ _ _ _ _ => 1, false⟩
    ∀ k < 2, Session.measure init model ((distRun D (halfScript svd method n dtau m) (distNew D nx ny 3 fun s _ _ _ _ => neel s)).1.view k) =
      Session.measure init model (runCatching M (startScript svd' method' n dtau (fun s _ _ _ _ => neel s) m) (new nx ny 7 fun s _ _ _ _ => neel s)) := by
  intro D M k hk
  refine (C115_processes (nx := nx) (ny := ny) hx hy D ⟨le_rfl, Or.inl rfl, Or.inl rfl, fun _ _ _ => rfl⟩ rfl (fun _ _ => ones_drawn) M rfl ones_drawn
    (Nat.succ_pos 2) (Nat.succ_pos 6) (fun s _ _ _ _ => neel s) (fun s _ => neel_tensor_ne s) (halfScript svd method n dtau m)
    (startScript svd' method' n dtau (fun s _ _ _ _ => neel s) m) (halfScript_ok _ _ _ _ _) (startScript_ok _ _ _ _ _ neel_tensor_ne _) rfl ?_).2 k hk init init model
  refine C111_small _ (fun e he => ?_) _ (fun b hb => hb) _ fun s _ => ?_
  · simp only [halfScript, evolutions, List.mem_cons, List.not_mem_nil, or_false] at he
    rcases he with rfl | rfl
    · exact hsm
    · exact hsm
  · exact siteVec_ne (neel_tensor_ne s)

end AceTN
