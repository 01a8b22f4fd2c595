import Verif.Props.Descent

/-!
C119 for the built-in Ising model: from spins up, a transverse field lowers the energy.
-/

set_option autoImplicit false

namespace AceTN

open Matrix Kronecker Spec Full Session Filter Topology

variable {nx ny : ℕ}

theorem meanEnergy_ising (jz h : ℝ) (v : Site → Fin 2 → ℝ) :
    meanEnergy nx ny ⟨fun _ => (-jz) • (sigmaZ ⊗ₖ sigmaZ), fun _ => some ((-h) • sigmaX)⟩ v =
      ((buildBondList nx ny).map fun b => -jz * (polZ (v b.s1) * polZ (v b.s2))).sum + ((buildSiteList nx ny).map fun s => -h * polX (v s)).sum := by
  unfold meanEnergy
  refine congrArg₂ (· + ·) (congrArg List.sum (List.map_congr_left fun b _ => ?_)) (congrArg List.sum (List.map_congr_left fun s _ => ?_))
  · unfold polZ
    rw [normSq_pair, normSq_two, normSq_two, div_mul_div_comm, ← mul_div_assoc]
    congr 1
    simp [qform, Fintype.sum_prod_type, Fin.sum_univ_two, sigmaZ]
    ring
  · simp only [Option.map_some, Option.getD_some]
    unfold polX
    rw [normSq_two, ← mul_div_assoc]
    congr 1
    simp [qform, Fin.sum_univ_two, sigmaX]
    ring

theorem ising_hermitian (jz h : ℝ) : (⟨fun _ => (-jz) • (sigmaZ ⊗ₖ sigmaZ), fun _ => some ((-h) • sigmaX)⟩ : ModelTerms (Fin 2) ℝ).Hermitian := by
  refine ⟨fun b => ?_, fun s k hk => ?_⟩
  · ext ⟨a, b⟩ ⟨c, d⟩
    fin_cases a <;> fin_cases b <;> fin_cases c <;> fin_cases d <;> simp [sigmaZ]
  · cases hk
    ext i j
    fin_cases i <;> fin_cases j <;> simp [sigmaX]

/-- Tilting one spin in either sense. -/
theorem ising_tilt (jz h : ℝ) (s : Site) (t : ℝ) :
    let m : ModelTerms (Fin 2) ℝ := ⟨fun _ => (-jz) • (sigmaZ ⊗ₖ sigmaZ), fun _ => some ((-h) • sigmaX)⟩
    let E := fun t : ℝ => meanEnergy nx ny m (Function.update (fun _ => ![1, 0]) s (![1, 0] + t • ![0, 1]))
    E t - E (-t) = (buildSiteList nx ny).count s * (-h * (4 * t / (1 + t ^ 2))) := by
  intro m E
  have hz : ∀ x, polZ (Function.update (fun _ => ![1, 0]) s (![1, 0] + t • ![0, 1]) x) =
      polZ (Function.update (fun _ : Site => ![1, 0]) s (![1, 0] + (-t) • ![0, 1]) x) := fun x => by
    by_cases hxs : x = s
    · subst hxs
      simp [polZ]
    · simp [Function.update_of_ne hxs]
  simp only [E, m, meanEnergy_ising, hz]
  rw [add_sub_add_left_eq_sub, List.sum_map_eq_nsmul_single s, List.sum_map_eq_nsmul_single s]
  · simp only [Function.update_self, nsmul_eq_mul]
    have e : -h * polX (![1, 0] + t • ![0, 1]) - -h * polX (![1, 0] + (-t) • ![0, 1]) = -h * (4 * t / (1 + t ^ 2)) := by
      simp [polX]
      ring
    rw [← mul_sub, e]
    congr!
  · intro a ha _
    simp [Function.update_of_ne ha, polX]
  · intro a ha _
    simp [Function.update_of_ne ha, polX]

theorem ising_up_moves (hx : 2 ≤ nx) (hy : 2 ≤ ny) (jz : ℝ) {h : ℝ} (hh : h ≠ 0) :
    ¬ StationaryEnergy nx ny ⟨fun _ => (-jz) • (sigmaZ ⊗ₖ sigmaZ), fun _ => some ((-h) • sigmaX)⟩ fun _ => ![1, 0] := by
  intro hst
  have hc : InCell nx ny (0, 0) := ⟨by show 0 < nx; omega, by show 0 < ny; omega⟩
  have h1 := hst (0, 0) hc ![0, 1]
  have h1' : HasDerivAt (fun t : ℝ => meanEnergy nx ny ⟨fun _ => (-jz) • (sigmaZ ⊗ₖ sigmaZ), fun _ => some ((-h) • sigmaX)⟩
      (Function.update (fun _ => ![1, 0]) (0, 0) (![1, 0] + (-t) • ![0, 1]))) 0 0 := by
    have h0 : HasDerivAt (fun t : ℝ => -t) (-1) 0 := (hasDerivAt_id' (0 : ℝ)).fun_neg
    have h1n := h1
    rw [← neg_zero] at h1n
    have := HasDerivAt.comp (0 : ℝ) (h₂ := fun t : ℝ => meanEnergy nx ny ⟨fun _ => (-jz) • (sigmaZ ⊗ₖ sigmaZ), fun _ => some ((-h) • sigmaX)⟩
      (Function.update (fun _ => ![1, 0]) (0, 0) (![1, 0] + t • ![0, 1]))) (h := fun t : ℝ => -t) (h₂' := 0) (by simpa using h1) h0
    rw [zero_mul] at this
    exact this
  have h2 := h1.sub h1'
  rw [sub_zero] at h2
  have h3 : HasDerivAt (fun t : ℝ => (buildSiteList nx ny).count (0, 0) * (-h * (4 * t / (1 + t ^ 2)))) 0 0 :=
    h2.congr_of_eventuallyEq (.of_forall fun t => (ising_tilt jz h (0, 0) t).symm)
  have h4 : HasDerivAt (fun t : ℝ => 4 * t / (1 + t ^ 2)) 4 0 := by
    have := ((hasDerivAt_id' (0 : ℝ)).const_mul 4).fun_div (((hasDerivAt_id' (0 : ℝ)).fun_pow 2).const_add 1) (by norm_num)
    norm_num at this
    exact this
  have h5 := h3.unique ((h4.const_mul (-h)).const_mul ((buildSiteList nx ny).count (0, 0) : ℝ))
  have h6 : 0 < (buildSiteList nx ny).count (0, 0) := List.count_pos_iff.2 (mem_buildSiteList.2 hc)
  have h7 : ((buildSiteList nx ny).count (0, 0) : ℝ) ≠ 0 := (Nat.cast_pos.2 h6).ne'
  exact mul_ne_zero h7 (mul_ne_zero (neg_ne_zero.2 hh) (by norm_num)) h5.symm

theorem ising_up_energy (hx : 2 ≤ nx) (hy : 2 ≤ ny) (jz h : ℝ) :
    meanEnergy nx ny ⟨fun _ => (-jz) • (sigmaZ ⊗ₖ sigmaZ), fun _ => some ((-h) • sigmaX)⟩ (fun _ => ![1, 0]) / ((nx * ny : ℕ) : ℝ) = -2 * jz := by
  have hpos : (0 : ℝ) < (nx * ny : ℕ) := Nat.cast_pos.2 (Nat.mul_pos (by omega) (by omega))
  rw [meanEnergy_ising, div_eq_iff hpos.ne']
  simp [polX, polZ, length_buildBondList]
  ring

/-- **C119 (Ising model).** The built-in Ising model in a transverse field, parameters of either sign, from spins up: before the evolution `measure` returns
`-2 jz` as the energy, and after any calls of `evolve` with sufficiently short steps, at least one, a smaller value, in one process and on every rank. -/
theorem C119_ising (hx : 2 ≤ nx) (hy : 2 ≤ ny) (params : PyDict String ℝ) {jz h : ℝ} (hj : params.get? "jz" = some jz) (hh : params.get? "hx" = some h)
    (h0 : h ≠ 0) (xs : List (ℕ × ℝ)) (hxs : ∀ x ∈ xs, x.2 ≠ 0) (hn : 0 < scaledTime xs) :
    ∃ m model, Pauli.isingTerms params = .ok m ∧ Pauli.isingMeas params = .ok model ∧
      (∀ (chi : ℕ) (A : Site → ATensor (Fin 1) (Fin 2) ℝ) (init : Fin 2 → Fin 2 → Fin 2 → Fin 2 → ℝ), 0 < chi → (∀ s, siteVec A s = ![1, 0]) →
        ∃ d, Session.measure init model (new nx ny chi A) = .ok d ∧ d.get? "Energy" = some (-2 * jz)) ∧
      ∃ τ₀ : ℝ, 0 < τ₀ ∧ ∀ (F : Type) (chi : ℕ) (A : Site → ATensor (Fin 1) (Fin 2) ℝ) (cs : List (Call F 1 2 ℝ)) (τ : ℝ)
        (init : Fin 2 → Fin 2 → Fin 2 → Fin 2 → ℝ), 0 < chi → (∀ s, InCell nx ny s → A s ≠ 0) → (∀ c ∈ cs, Sensible nx ny c ∧ KnownNames c) →
        Scaled m τ xs (evolutions cs) → (∀ s, InCell nx ny s → startVec A (evolutions cs) s = ![1, 0]) → 0 < τ → τ < τ₀ →
        (∀ M : Machine F 1 ℝ, M.cx = false → DrawsNonzero M.ω →
          ∃ d E, Session.measure init model (runCatching M cs (new nx ny chi A)) = .ok d ∧ d.get? "Energy" = some E ∧ E < -2 * jz) ∧
          ∀ D : Team F 1 2 ℝ, D.Works nx ny → D.cx = false → (∀ r < D.ws, DrawsNonzero (D.ω r)) →
            ∃ d E, (∀ k < D.ws, Session.measure init model ((distRun D cs (distNew D nx ny chi A)).1.view k) = .ok d) ∧
              d.get? "Energy" = some E ∧ E < -2 * jz := by
  have hup := ising_up_energy hx hy jz h
  have hcl := ising_clean sigmaX sigmaZ (fun _ => some ((-h) • sigmaX)) (fun _ k1 k2 b1 b2 => ((-jz) • (sigmaZ ⊗ₖ sigmaZ)) (k1, k2) (b1, b2))
    (buildSiteList nx ny) (buildBondList nx ny)
  obtain ⟨e1, e2⟩ := C114_ising_terms hj hh
  refine ⟨_, _, e1, e2, fun chi A init hchi hA => ?_, ?_⟩
  · obtain ⟨d, h1, h2⟩ := C119_before hx hy hchi A (fun s _ h => by
      have := congrFun (hA s) 0
      simp [siteVec, h] at this) _ (ising_hermitian jz h) _ ⟨fun _ => rfl, fun _ => rfl⟩ hcl init
    exact ⟨d, h1, h2.trans (by rw [show siteVec A = fun _ => ![1, 0] from funext hA, hup])⟩
  · have := C119_descent hx hy _ (ising_hermitian jz h) (.inl fun _ _ => rfl) (fun _ => ![1, 0]) (fun s _ h => by simpa using congrFun h 0)
      (ising_up_moves hx hy jz h0) xs hxs hn _ ⟨fun _ => rfl, fun _ => rfl⟩ hcl
    rw [hup] at this
    exact this

theorem ising_bond_force (jz h : ℝ) (b : Bond) (s : Site) (hne : b.s1 ≠ b.s2) :
    bondForce ⟨fun _ => (-jz) • (sigmaZ ⊗ₖ sigmaZ), fun _ => some ((-h) • sigmaX)⟩ (fun _ => ![1, 0]) b s 1 =
      -h / 4 * ((if b.s1 = s then 1 else 0) + if b.s2 = s then 1 else 0) := by
  unfold bondForce bondImage bondHam
  by_cases e1 : s = b.s1
  · subst e1
    simp [Fin.sum_univ_two, hne.symm, sigmaZ, sigmaX]
    ring
  · by_cases e2 : s = b.s2
    · subst e2
      simp [Fin.sum_univ_two, hne, hne.symm, sigmaZ, sigmaX]
      ring
    · simp [e1, e2, Ne.symm e1, Ne.symm e2]

theorem ising_site_force (hx : 2 ≤ nx) (hy : 2 ≤ ny) (jz h : ℝ) {s : Site} (hs : InCell nx ny s) :
    siteForce nx ny ⟨fun _ => (-jz) • (sigmaZ ⊗ₖ sigmaZ), fun _ => some ((-h) • sigmaX)⟩ (fun _ => ![1, 0]) s 1 = -h := by
  unfold siteForce
  rw [List.map_congr_left fun b hb => ising_bond_force jz h b s (bond_ends_distinct nx ny hx hy b hb), List.sum_map_mul_left]
  rw [sum_ends nx ny fun x => if x = s then (1 : ℝ) else 0, List.sum_map_eq_nsmul_single s _ fun a ha _ => if_neg ha]
  trans -h / 4 * (4 * (buildSiteList nx ny).count s • if s = s then (1 : ℝ) else 0)
  · congr!
  · rw [List.count_eq_one_of_mem (nodup_buildSiteList nx ny) (mem_buildSiteList.2 hs)]
    simp

theorem ising_rate (hx : 2 ≤ nx) (hy : 2 ≤ ny) (jz h : ℝ) :
    pullRate nx ny ⟨fun _ => (-jz) • (sigmaZ ⊗ₖ sigmaZ), fun _ => some ((-h) • sigmaX)⟩ (fun _ => ![1, 0]) / (nx * ny : ℕ) = 2 * h ^ 2 := by
  have hpos : (0 : ℝ) < (nx * ny : ℕ) := Nat.cast_pos.2 (Nat.mul_pos (by omega) (by omega))
  unfold pullRate
  rw [Finset.sum_congr rfl fun s hs => show _ = h ^ 2 by
    rw [Finset.mem_product, Finset.mem_range, Finset.mem_range] at hs
    have := ising_site_force hx hy jz h hs
    simp only [across, Fin.sum_univ_two, this, Matrix.cons_val_zero, Matrix.cons_val_one]
    ring]
  rw [Finset.sum_const, Finset.card_product, Finset.card_range, Finset.card_range, nsmul_eq_mul, div_eq_iff hpos.ne']
  ring

/-- **C119 (Ising rate).** From spins up the measured energy per site falls at the rate `2 hx²`, whatever the coupling: it is `-2 jz - 2 hx² T` with `T` the
total imaginary time, up to an error that vanishes against the time step. -/
theorem C119_ising_rate (hx : 2 ≤ nx) (hy : 2 ≤ ny) (params : PyDict String ℝ) {jz h : ℝ} (hj : params.get? "jz" = some jz) (hh : params.get? "hx" = some h) :
    ∃ m model, Pauli.isingTerms params = .ok m ∧ Pauli.isingMeas params = .ok model ∧ ∀ (xs : List (ℕ × ℝ)) (ε : ℝ), (∀ x ∈ xs, x.2 ≠ 0) → 0 < ε →
      ∃ τ₀ : ℝ, 0 < τ₀ ∧ ∀ (F : Type) (chi : ℕ) (A : Site → ATensor (Fin 1) (Fin 2) ℝ) (cs : List (Call F 1 2 ℝ)) (τ : ℝ)
        (init : Fin 2 → Fin 2 → Fin 2 → Fin 2 → ℝ), 0 < chi → (∀ s, InCell nx ny s → A s ≠ 0) → (∀ c ∈ cs, Sensible nx ny c ∧ KnownNames c) →
        Scaled m τ xs (evolutions cs) → (∀ s, InCell nx ny s → startVec A (evolutions cs) s = ![1, 0]) → 0 < τ → τ < τ₀ →
        (∀ M : Machine F 1 ℝ, M.cx = false → DrawsNonzero M.ω →
          ∃ d E, Session.measure init model (runCatching M cs (new nx ny chi A)) = .ok d ∧ d.get? "Energy" = some E ∧
            |E - (-2 * jz - scaledTime xs * τ * (2 * h ^ 2))| ≤ ε * τ) ∧
          ∀ D : Team F 1 2 ℝ, D.Works nx ny → D.cx = false → (∀ r < D.ws, DrawsNonzero (D.ω r)) →
            ∃ d E, (∀ k < D.ws, Session.measure init model ((distRun D cs (distNew D nx ny chi A)).1.view k) = .ok d) ∧
              d.get? "Energy" = some E ∧ |E - (-2 * jz - scaledTime xs * τ * (2 * h ^ 2))| ≤ ε * τ := by
  have hcl := ising_clean sigmaX sigmaZ (fun _ => some ((-h) • sigmaX)) (fun _ k1 k2 b1 b2 => ((-jz) • (sigmaZ ⊗ₖ sigmaZ)) (k1, k2) (b1, b2))
    (buildSiteList nx ny) (buildBondList nx ny)
  obtain ⟨e1, e2⟩ := C114_ising_terms hj hh
  refine ⟨_, _, e1, e2, ?_⟩
  have := measured_rate hx hy _ (ising_hermitian jz h) (fun _ => ![1, 0]) _ ⟨fun _ => rfl, fun _ => rfl⟩ hcl _
    (rate_bound hx hy _ (ising_hermitian jz h) (.inl fun _ _ => rfl) (fun _ => ![1, 0]) (fun _ => ![1, 0]) (fun _ => 1)
      fun s _ => ⟨one_ne_zero, by simp [Fin.sum_univ_two], (one_smul ℝ _).symm⟩)
  rw [ising_rate hx hy, ising_up_energy hx hy] at this
  exact this

/-- Non-vacuity: a ferromagnet in a field, evolved by a script with the simple update. -/
example (hx : 2 ≤ nx) (hy : 2 ≤ ny) (la : Lapack ℝ) (fo : Als.FloatOps ℝ) (svd : String) (method : Als.Solver) (init : Fin 2 → Fin 2 → Fin 2 → Fin 2 → ℝ) :
    let M : Machine ℝ 1 ℝ := ⟨la, fo, id, fun _ _ _ _ _ _ _ => 1, false⟩
    ∃ m model, Pauli.isingTerms [("jz", 1), ("hx", 3)] = .ok m ∧ Pauli.isingMeas [("jz", 1), ("hx", 3)] = .ok model ∧
      ∃ τ₀ : ℝ, 0 < τ₀ ∧ ∀ dtau, 0 < dtau → dtau < τ₀ →
        ∃ d E, Session.measure init model (runCatching M [.evolve (exampleConfig svd "simple" method) ⟨dtau, 5, m, fun _ _ _ _ _ => ![1, 0]⟩]
          (new nx ny 3 fun s => (plusNet s).A)) = .ok d ∧ d.get? "Energy" = some E ∧ E < -2 := by
  intro M
  obtain ⟨m, model, e1, e2, -, τ₀, h0, h⟩ := C119_ising hx hy [("jz", 1), ("hx", 3)] (jz := 1) (h := 3) (by simp [PyDict.get?]) (by simp [PyDict.get?])
    (by norm_num) [(5, 1)] (by simp) (by simp [scaledTime])
  refine ⟨m, model, e1, e2, τ₀, h0, fun dtau h1 h2 => ?_⟩
  obtain ⟨d, E, k1, k2, k3⟩ := (h ℝ 3 (fun s => (plusNet s).A)
    [.evolve (exampleConfig svd "simple" method) ⟨dtau, 5, m, fun _ _ _ _ _ => ![1, 0]⟩] dtau init (Nat.succ_pos 2)
    (fun s _ => plusNet_ne s) (fun c hc => by
      rw [List.mem_singleton.1 hc]
      exact ⟨⟨(exampleConfig_ok _ _ _).1, fun _ => (exampleConfig_ok _ _ _).2, fun s _ h => by
        simpa using congrFun (congrFun (congrFun (congrFun (congrFun h 0) 0) 0) 0) 0⟩, .inl rfl, rfl⟩)
    (.cons ⟨rfl, (mul_one _).symm, rfl⟩ .nil) (fun _ _ => rfl) h1 h2).1 M rfl ones_drawn
  exact ⟨d, E, k1, k2, by linarith⟩

/-- Non-vacuity: the same script lowers the energy by about `90 dtau`. -/
example (hx : 2 ≤ nx) (hy : 2 ≤ ny) (la : Lapack ℝ) (fo : Als.FloatOps ℝ) (svd : String) (method : Als.Solver) (init : Fin 2 → Fin 2 → Fin 2 → Fin 2 → ℝ) :
    let M : Machine ℝ 1 ℝ := ⟨la, fo, id, fun _ _ _ _ _ _ _ => 1, false⟩
    ∃ m model, Pauli.isingTerms [("jz", 1), ("hx", 3)] = .ok m ∧ Pauli.isingMeas [("jz", 1), ("hx", 3)] = .ok model ∧
      ∃ τ₀ : ℝ, 0 < τ₀ ∧ ∀ dtau, 0 < dtau → dtau < τ₀ →
        ∃ d E, Session.measure init model (runCatching M [.evolve (exampleConfig svd "simple" method) ⟨dtau, 5, m, fun _ _ _ _ _ => ![1, 0]⟩]
          (new nx ny 3 fun s => (plusNet s).A)) = .ok d ∧ d.get? "Energy" = some E ∧ |E - (-2 - 90 * dtau)| ≤ 1 / 100 * dtau := by
  intro M
  obtain ⟨m, model, e1, e2, h⟩ := C119_ising_rate hx hy [("jz", 1), ("hx", 3)] (jz := 1) (h := 3) (by simp [PyDict.get?]) (by simp [PyDict.get?])
  obtain ⟨τ₀, h0, h⟩ := h [(5, 1)] (1 / 100) (by simp) (by norm_num)
  refine ⟨m, model, e1, e2, τ₀, h0, fun dtau h1 h2 => ?_⟩
  obtain ⟨d, E, k1, k2, k3⟩ := (h ℝ 3 (fun s => (plusNet s).A)
    [.evolve (exampleConfig svd "simple" method) ⟨dtau, 5, m, fun _ _ _ _ _ => ![1, 0]⟩] dtau init (Nat.succ_pos 2)
    (fun s _ => plusNet_ne s) (fun c hc => by
      rw [List.mem_singleton.1 hc]
      exact ⟨⟨(exampleConfig_ok _ _ _).1, fun _ => (exampleConfig_ok _ _ _).2, fun s _ h => by
        simpa using congrFun (congrFun (congrFun (congrFun (congrFun h 0) 0) 0) 0) 0⟩, .inl rfl, rfl⟩)
    (.cons ⟨rfl, (mul_one _).symm, rfl⟩ .nil) (fun _ _ => rfl) h1 h2).1 M rfl ones_drawn
  refine ⟨d, E, k1, k2, ?_⟩
  rw [show (-2 : ℝ) - 90 * dtau = -2 * 1 - scaledTime [(5, 1)] * dtau * (2 * 3 ^ 2) by simp [scaledTime]; ring]
  exact k3

end AceTN
