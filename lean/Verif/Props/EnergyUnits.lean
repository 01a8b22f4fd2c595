import Verif.Model.Session
import Verif.Props.MeasureAverages
import Verif.Props.Models
import Verif.Props.Measure
import Verif.Props.TrotterOrder

/-! C107: only the product of the time step and the Hamiltonian matters. -/

set_option autoImplicit false

namespace AceTN

open Spec Matrix

variable {𝕜 F : Type} [RCLike 𝕜] {P : Type} [Fintype P] [DecidableEq P]

/-- The second model has the terms of the first, multiplied with `κ`. -/
structure Spec.ScaledTerms (κ : ℝ) (m m' : ModelTerms P 𝕜) : Prop where
  two : ∀ b, m'.two b = (κ : 𝕜) • m.two b
  one : ∀ s, m'.one s = (m.one s).map fun h => (κ : 𝕜) • h

omit [Fintype P] in
theorem bondHam_scaled {κ : ℝ} {m m' : ModelTerms P 𝕜} (h : ScaledTerms κ m m') (b : Bond) : bondHam m' b = (κ : 𝕜) • bondHam m b := by
  unfold bondHam
  rw [h.one, h.one, h.two]
  cases m.one b.s1 with
  | none => rfl
  | some x =>
    cases m.one b.s2 with
    | none => rfl
    | some y =>
      dsimp only [Option.map_some]
      rw [Matrix.smul_kronecker, Matrix.kronecker_smul]
      simp only [smul_add, smul_smul, mul_comm (0.25 : 𝕜)]

/-- **C107 (gates).** The gates of `κ H` with time steps of `dtau / κ` are those of `H` with `dtau`. -/
theorem C107_gates {κ : ℝ} {m m' : ModelTerms P 𝕜} (h : ScaledTerms κ m m') {dtau dtau' : ℝ} (ht : dtau' * κ = dtau) :
    twoSiteGate m' dtau' = twoSiteGate m dtau := by
  funext b p q r s
  unfold twoSiteGate calculateGate
  rw [bondHam_scaled h, smul_smul, ← ht]
  push_cast
  rw [neg_mul]

/-! ### Sessions -/

section session

variable {bD pD : ℕ} [NeZero bD] [NeZero pD]

open Session

/-- Two calls that agree up to the units of the energy, which may be different from call to call. -/
inductive Spec.SameUpToUnits : Call F bD pD 𝕜 → Call F bD pD 𝕜 → Prop
  | setChi (chi : ℕ) : SameUpToUnits (.setChi chi) (.setChi chi)
  | renormalize (c : Session.Config F) : SameUpToUnits (.renormalize c) (.renormalize c)
  | evolve (c : Session.Config F) (dtau dtau' κ : ℝ) (steps : ℕ) (m m' : ModelTerms (Fin pD) 𝕜) (start : Site → ATensor (Fin bD) (Fin pD) 𝕜)
      (hm : ScaledTerms κ m m') (ht : dtau' * κ = dtau) : SameUpToUnits (.evolve c ⟨dtau, steps, m, start⟩) (.evolve c ⟨dtau', steps, m', start⟩)

theorem exec_units (M : Machine F bD 𝕜) (s : State bD pD 𝕜) {c c' : Call F bD pD 𝕜} (h : SameUpToUnits c c') : exec M s c' = exec M s c := by
  cases h with
  | setChi => rfl
  | renormalize => rfl
  | evolve c dtau dtau' κ steps m m' start hm ht =>
    have e : Session.comp M c ⟨dtau', steps, m', start⟩ = comp M c ⟨dtau, steps, m, start⟩ := by
      unfold Session.comp
      simp only [C107_gates hm ht]
    show Set.evolve (Session.comp M c ⟨dtau', steps, m', start⟩) c.strings s.initialized s = Set.evolve (Session.comp M c ⟨dtau, steps, m, start⟩) c.strings s.initialized s
    rw [e]

/-- **C107 (sessions).** Two scripts whose calls agree up to the units of the energy leave the same object behind, to the last tensor, and
raise the same exception or none, with any library, random numbers, update and solver. -/
theorem C107_session (M : Machine F bD 𝕜) {cs cs' : List (Call F bD pD 𝕜)} (h : List.Forall₂ SameUpToUnits cs cs') (s : State bD pD 𝕜) :
    run M cs' s = run M cs s ∧ runCatching M cs' s = runCatching M cs s := by
  induction h generalizing s with
  | nil => exact ⟨rfl, rfl⟩
  | cons h _ ih =>
    constructor
    · show Set.andThen (exec M s _) (run M _) = Set.andThen (exec M s _) (run M _)
      rw [exec_units M s h]
      congr 1
      funext s
      exact (ih s).1
    · show runCatching M _ (exec M s _).1 = runCatching M _ (exec M s _).1
      rw [exec_units M s h]
      exact (ih _).2

/-! ### The energy -/

omit [NeZero bD] [NeZero pD] in
theorem siteVal_scaled (net : Net (Ten (Fin bD) (Fin pD) 𝕜)) (s : Site) (κ : ℝ) (op : Fin pD → Fin pD → 𝕜) :
    (siteVal net s fun p q => (κ : 𝕜) * op p q).toOption.getD 0 = κ * (siteVal net s op).toOption.getD 0 := by
  unfold siteVal
  cases numSiteRdm net s with
  | error e => exact (mul_zero κ).symm
  | ok ρ =>
    show measureOneSite ρ (fun p q => (κ : 𝕜) * op p q) / siteNorm ρ = κ * (measureOneSite ρ op / siteNorm ρ)
    rw [← mul_div_assoc]
    congr 1
    unfold measureOneSite
    rw [← RCLike.re_ofReal_mul]
    congr 1
    simp only [Finset.mul_sum]
    refine Finset.sum_congr rfl fun p _ => Finset.sum_congr rfl fun q _ => ?_
    ring

omit [NeZero bD] [NeZero pD] in
theorem bondVal_scaled (init : Fin pD → Fin pD → Fin pD → Fin pD → 𝕜) (net : Net (Ten (Fin bD) (Fin pD) 𝕜)) (b : Bond) (κ : ℝ)
    (op : Fin pD → Fin pD → Fin pD → Fin pD → 𝕜) :
    (bondVal init net b fun p q p' q' => (κ : 𝕜) * op p q p' q').toOption.getD 0 = κ * (bondVal init net b op).toOption.getD 0 := by
  unfold bondVal
  cases numBondRdm init net b with
  | error e => exact (mul_zero κ).symm
  | ok ρ =>
    show measureTwoSite ρ (fun p q p' q' => (κ : 𝕜) * op p q p' q') / bondNorm ρ = κ * (measureTwoSite ρ op / bondNorm ρ)
    rw [← mul_div_assoc]
    congr 1
    unfold measureTwoSite
    rw [← RCLike.re_ofReal_mul]
    congr 1
    simp only [Finset.mul_sum]
    refine Finset.sum_congr rfl fun p _ => Finset.sum_congr rfl fun q _ => Finset.sum_congr rfl fun r _ => Finset.sum_congr rfl fun s _ => ?_
    ring

omit [NeZero bD] [NeZero pD] in
/-- **C107 (energy).** `measure` of one object with a Hamiltonian and with `κ` times the Hamiltonian (and the same observables) raises the
same exception, or the second energy is `κ` times the first and all other values are the same. -/
theorem C107_measure (init : Fin pD → Fin pD → Fin pD → Fin pD → 𝕜)
    (model model' : MeasModel (Fin pD → Fin pD → 𝕜) (Fin pD → Fin pD → Fin pD → Fin pD → 𝕜)) (κ : ℝ)
    (ho1 : model'.one_site_observables = model.one_site_observables) (ho2 : model'.two_site_observables = model.two_site_observables)
    (h1 : ∀ s, model'.one_site_hamiltonian s = (model.one_site_hamiltonian s).map fun (h : Fin pD → Fin pD → 𝕜) p q => (κ : 𝕜) * h p q)
    (h2 : ∀ b, model'.two_site_hamiltonian b = fun p q p' q' => (κ : 𝕜) * model.two_site_hamiltonian b p q p' q')
    (s : State bD pD 𝕜) (hb : s.bonds ≠ []) (hcl : Meas.Clean model (buildSiteList s.net.nx s.net.ny) s.bonds) :
    (∃ e, Session.measure init model s = .error e ∧ Session.measure init model' s = .error e) ∨
    ∃ d d', Session.measure init model s = .ok d ∧ Session.measure init model' s = .ok d' ∧
      (∀ name, name ≠ "Energy" → d'.get? name = d.get? name) ∧ ∃ E, d.get? "Energy" = some E ∧ d'.get? "Energy" = some (κ * E) := by
  have hcl' : Meas.Clean model' (buildSiteList s.net.nx s.net.ny) s.bonds := by
    constructor <;> (first | rw [ho1] | skip) <;> (first | rw [ho2] | skip)
    exacts [hcl.nodup1, hcl.nodup2, hcl.same1, hcl.same2, hcl.energy1, hcl.energy2, hcl.disjoint]
  obtain ⟨d, k1, k2, k3, k4, k5⟩ := Meas.C48_partial model (fun x op => (siteVal s.net x op).toOption.getD 0)
    (fun b op => (bondVal init s.net b op).toOption.getD 0) _ s.bonds hb hcl
  obtain ⟨d', k1', k2', k3', k4', k5'⟩ := Meas.C48_partial model' (fun x op => (siteVal s.net x op).toOption.getD 0)
    (fun b op => (bondVal init s.net b op).toOption.getD 0) _ s.bonds hb hcl'
  rw [ho1] at k3' k5'
  rw [ho2] at k4' k5'
  unfold Session.measure
  dsimp only
  rw [k1, k1']
  generalize (forIn (buildSiteList s.net.nx s.net.ny) PUnit.unit fun x _ => _ : Except PyErr PUnit) = r1
  generalize (forIn s.bonds PUnit.unit fun x _ => _ : Except PyErr PUnit) = r2
  cases r1 with
  | error e => exact .inl ⟨e, rfl, rfl⟩
  | ok _ =>
    cases r2 with
    | error e => exact .inl ⟨e, rfl, rfl⟩
    | ok _ =>
      refine .inr ⟨d, d', rfl, rfl, fun name hne => ?_, _, k2, ?_⟩
      · by_cases m1 : name ∈ (model.one_site_observables (0, 0)).keys
        · rw [k3 name m1, k3' name m1]
        · by_cases m2 : ∃ b ∈ s.bonds, name ∈ (model.two_site_observables b).keys
          · obtain ⟨b, hbm, hbn⟩ := m2
            rw [k4 b hbm name hbn, k4' b hbm name hbn]
          · push Not at m2
            rw [k5 name hne m1 m2, k5' name hne m1 m2]
      · rw [k2']
        congr 1
        unfold energyPerSite
        have es : ∀ x, siteEnergy model' (fun x op => (siteVal s.net x op).toOption.getD 0) x =
            κ * siteEnergy model (fun x op => (siteVal s.net x op).toOption.getD 0) x := by
          intro x
          unfold siteEnergy
          rw [h1 x]
          cases model.one_site_hamiltonian x with
          | none => exact (mul_zero κ).symm
          | some h => exact siteVal_scaled s.net x κ h
        have eb : ∀ b, (bondVal init s.net b (model'.two_site_hamiltonian b)).toOption.getD 0 =
            κ * (bondVal init s.net b (model.two_site_hamiltonian b)).toOption.getD 0 := by
          intro b
          rw [h2 b]
          exact bondVal_scaled init s.net b κ _
        rw [List.map_congr_left fun x _ => es x, List.map_congr_left fun b _ => eb b, List.sum_map_mul_left, List.sum_map_mul_left, ← mul_add,
          mul_div_assoc]

/-! ### The built-in models -/

omit [Fintype P] [DecidableEq P] [NeZero bD] [NeZero pD] in
/-- **C107 (built-in models).** Multiplying the couplings `jz` and `hx` of the Ising model, or `J` of the Heisenberg model, multiplies the
Hamiltonian. -/
theorem C107_couplings (cx : Bool) (κ : ℝ) (params params' : PyDict String ℝ)
    (h : ∀ name ∈ ["jz", "hx", "J"], params'.get? name = (params.get? name).map fun v => κ * v) :
    (Pauli.isingOneSite (𝕜 := 𝕜) params').map (fun H => H.mat) = (Pauli.isingOneSite (𝕜 := 𝕜) params).map (fun H => (κ : 𝕜) • H.mat) ∧
    (Pauli.isingTwoSite (𝕜 := 𝕜) cx params').map (fun H => H.mat) = (Pauli.isingTwoSite (𝕜 := 𝕜) cx params).map (fun H => (κ : 𝕜) • H.mat) ∧
    (Pauli.heisenbergTwoSite (𝕜 := 𝕜) cx params').map (fun H => H.mat) =
      (Pauli.heisenbergTwoSite (𝕜 := 𝕜) cx params).map (fun H => (κ : 𝕜) • H.mat) := by
  have hp : ∀ name ∈ ["jz", "hx", "J"], Pauli.param params' name = (Pauli.param params name).map fun v => κ * v := by
    intro name hn
    unfold Pauli.param
    rw [h name hn]
    cases params.get? name <;> rfl
  refine ⟨?_, ?_, ?_⟩
  · unfold Pauli.isingOneSite
    rw [hp "hx" (by simp)]
    cases Pauli.param params "hx" with
    | error e => rfl
    | ok v =>
      show Except.ok _ = Except.ok _
      congr 1
      simp only [Pauli.smul, smul_smul]
      congr 1
      push_cast
      ring
  · unfold Pauli.isingTwoSite
    rw [hp "jz" (by simp)]
    cases Pauli.param params "jz" with
    | error e => rfl
    | ok v =>
      show Except.ok _ = Except.ok _
      congr 1
      ext i j
      unfold Pauli.mul
      dsimp only
      simp only [Pauli.smul, Pauli.kron, Matrix.smul_apply, smul_eq_mul]
      rw [mul_left_comm (κ : 𝕜)]
      congr 1
      push_cast
      ring
  · unfold Pauli.heisenbergTwoSite
    rw [hp "J" (by simp)]
    cases Pauli.param params "J" with
    | error e => rfl
    | ok v =>
      show Except.ok _ = Except.ok _
      congr 1
      simp only [Pauli.smul, smul_smul]
      congr 1
      push_cast
      ring

/-! ### The hypotheses are met -/

/-- Ising spins with couplings `jz` and `hx`. -/
noncomputable def unitTerms (jz hx : ℝ) : ModelTerms (Fin 2) ℝ where
  two _ := (-jz) • Matrix.diagonal fun i => if i.1 = i.2 then 1 else -1
  one _ := some ((-hx) • !![0, 1; 1, 0])

/-- The same for `measure`. -/
noncomputable def unitMeas (jz hx : ℝ) : MeasModel (Fin 2 → Fin 2 → ℝ) (Fin 2 → Fin 2 → Fin 2 → Fin 2 → ℝ) where
  one_site_observables _ := [("sx", !![0, 1; 1, 0])]
  two_site_observables _ := [("zz", fun p q p' q' => if p = p' ∧ q = q' then (if p = q then 1 else -1) else 0)]
  one_site_hamiltonian _ := some fun p q => -hx * (!![0, 1; 1, 0] : Matrix (Fin 2) (Fin 2) ℝ) p q
  two_site_hamiltonian _ := fun p q p' q' => -jz * (if p = p' ∧ q = q' then (if p = q then 1 else -1) else 0)

/-- Couplings `(1, 2.5)` and steps of 0.01, or couplings `(100, 250)` and steps of 0.0001. -/
example (M : Machine F bD ℝ) (c : Session.Config F) (start : Site → ATensor (Fin bD) (Fin 2) ℝ) (s : State bD 2 ℝ) :
    run M [.renormalize c, .evolve c ⟨0.0001, 100, unitTerms 100 250, start⟩, .setChi 20, .renormalize c] s =
      run M [.renormalize c, .evolve c ⟨0.01, 100, unitTerms 1 2.5, start⟩, .setChi 20, .renormalize c] s :=
  (C107_session M (.cons (.renormalize c) (.cons (.evolve c 0.01 0.0001 100 100 _ _ start
    ⟨fun b => by simp only [unitTerms, smul_smul]; norm_num, fun s => by simp only [unitTerms, Option.map_some, smul_smul]; norm_num⟩ (by norm_num))
    (.cons (.setChi 20) (.cons (.renormalize c) .nil)))) s).1

omit [NeZero bD] in
example (init : Fin 2 → Fin 2 → Fin 2 → Fin 2 → ℝ) (s : State bD 2 ℝ) (hb : s.bonds ≠ []) (κ : ℝ) (d : PyDict String ℝ)
    (h : Session.measure init (unitMeas 1 2.5) s = .ok d) :
    ∃ d' E, Session.measure init (unitMeas (κ * 1) (κ * 2.5)) s = .ok d' ∧ d.get? "Energy" = some E ∧ d'.get? "Energy" = some (κ * E) := by
  obtain ⟨e, h1, -⟩ | ⟨d1, d', h1, h2, -, E, h3, h4⟩ := C107_measure init (unitMeas 1 2.5) (unitMeas (κ * 1) (κ * 2.5)) κ rfl rfl
    (fun s => by
      simp only [unitMeas, Option.map_some]
      congr 1
      funext p q
      simp [mul_assoc])
    (fun b => by
      funext p q p' q'
      simp [unitMeas]) s hb
    ⟨fun _ => by simp [unitMeas, PyDict.keys], fun _ => by simp [unitMeas, PyDict.keys], fun _ _ _ => Iff.rfl, fun _ _ _ _ _ => Iff.rfl,
      by simp [unitMeas, PyDict.keys], fun _ _ => by simp [unitMeas, PyDict.keys],
      fun _ _ k hk => by simp [unitMeas, PyDict.keys] at hk ⊢; subst hk; decide⟩
  · exact absurd (h.symm.trans h1) (by simp)
  · obtain rfl := Except.ok.inj (h.symm.trans h1)
    exact ⟨d', E, h2, h3, h4⟩

example (κ : ℝ) : ∀ name ∈ ["jz", "hx", "J"], PyDict.get? [("jz", κ * 1), ("hx", κ * 2.5)] name =
    (PyDict.get? [("jz", 1), ("hx", (2.5 : ℝ))] name).map fun v => κ * v := by
  intro name hn
  simp only [List.mem_cons, List.not_mem_nil, or_false] at hn
  rcases hn with rfl | rfl | rfl <;> simp [PyDict.get?]

end session

end AceTN
