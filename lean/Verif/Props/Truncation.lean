import Verif.Lemmas.RayDist
import Verif.Props.FullRun

/-!
# C87: truncation errors add up

The state an evolution leaves differs from the state evolved in imaginary time by the splitting error and by the errors of its bond updates.
-/

set_option autoImplicit false

namespace AceTN
open Spec Trot NormedSpace
open scoped Matrix.Norms.L2Operator

section loop

variable {S : Type} (upd : S → Bond → S × Option PyErr)

theorem bondPass_ok_of_none (l : List Bond) (s : S) (h : (bondPass upd l s).2 = none) :
    bondPass upd l s = (l.foldl (fun s b => (upd s b).1) s, none) := by
  induction l generalizing s with
  | nil => rfl
  | cons b l ih =>
    unfold bondPass at h ⊢
    cases hu : upd s b with
    | mk s' e =>
      rw [hu] at h
      cases e with
      | some e => cases h
      | none =>
        rw [List.foldl_cons, hu]
        exact ih s' h

theorem evolveLoop_ok_of_none (n : ℕ) (bl : List Bond) (s : S) (h : (evolveLoop upd n bl s).2.2 = none) :
    (evolveLoop upd n bl s).2.1 = (schedule n bl).foldl (fun s b => (upd s b).1) s := by
  induction n generalizing bl s with
  | zero => simp [evolveLoop, schedule]
  | succ n ih =>
    unfold evolveLoop at h ⊢
    rw [schedule_succ, List.foldl_append]
    cases hu : bondPass upd bl s with
    | mk s' e =>
      rw [hu] at h
      cases e with
      | some e => cases h
      | none =>
        have h1 := bondPass_ok_of_none upd bl s (by rw [hu])
        rw [hu] at h1
        rw [← (Prod.mk.inj h1).1]
        exact ih _ _ h

theorem schedule_sum (f : Bond → ℝ) (n : ℕ) (bl : List Bond) : ((schedule n bl).map f).sum = n * (bl.map f).sum := by
  induction n generalizing bl with
  | zero => simp [schedule]
  | succ n ih =>
    rw [schedule_succ, List.map_append, List.sum_append, ih, List.map_reverse, List.sum_reverse]
    push_cast
    ring

end loop

variable {𝕜 : Type} [RCLike 𝕜] {P : Type} [Fintype P] [DecidableEq P] {nx ny N : ℕ}

section run

variable {B S : Type} [Fintype B]

/-- The error of one bond update: the distance, up to a positive factor, of the state of the lattice after it from the gate applied on every copy
of the bond to the state before, in units of the norm of the latter. -/
noncomputable def Spec.bondError (hx : 2 ≤ nx) (hy : 2 ≤ ny) (σ : Bond → Equiv.Perm (Fin N)) (gates : Bond → P → P → P → P → 𝕜)
    (A : S → Site → B → B → B → B → P → 𝕜) (upd : S → Bond → S × Option PyErr) (s : S) (b : Bond) : ℝ :=
  rayDist (latticeState σ (A (upd s b).1)) (((coveringOps hx hy σ).everywhere b (gateMatrix (gates b)).transpose).mulVec (latticeState σ (A s))) /
    stateNorm (latticeState (nx := nx) (ny := ny) σ (A s))

/-- The sum of the errors of a sequence of bond updates. -/
noncomputable def Spec.totalError (err : S → Bond → ℝ) (upd : S → Bond → S × Option PyErr) : List Bond → S → ℝ
  | [], _ => 0
  | b :: l, s => err s b + totalError err upd l (upd s b).1

theorem bondError_nonneg (hx : 2 ≤ nx) (hy : 2 ≤ ny) (σ : Bond → Equiv.Perm (Fin N)) (gates : Bond → P → P → P → P → 𝕜)
    (A : S → Site → B → B → B → B → P → 𝕜) (upd : S → Bond → S × Option PyErr) (s : S) (b : Bond) :
    0 ≤ bondError hx hy σ gates A upd s b := div_nonneg (rayDist_nonneg _ _) (stateNorm_nonneg _)

omit [Fintype B] [Fintype P] [DecidableEq P] in
theorem totalError_nonneg (err : S → Bond → ℝ) (he : ∀ s b, 0 ≤ err s b) (upd : S → Bond → S × Option PyErr) (l : List Bond) (s : S) :
    0 ≤ totalError err upd l s := by
  induction l generalizing s with
  | nil => exact le_rfl
  | cons b l ih => exact add_nonneg (he s b) (ih _)

theorem bondError_mul (hx : 2 ≤ nx) (hy : 2 ≤ ny) (σ : Bond → Equiv.Perm (Fin N)) (gates : Bond → P → P → P → P → 𝕜)
    (A : S → Site → B → B → B → B → P → 𝕜) (upd : S → Bond → S × Option PyErr) (s : S) (b : Bond) :
    rayDist (latticeState σ (A (upd s b).1)) (((coveringOps hx hy σ).everywhere b (gateMatrix (gates b)).transpose).mulVec (latticeState σ (A s))) =
      bondError hx hy σ gates A upd s b * stateNorm (latticeState (nx := nx) (ny := ny) σ (A s)) := by
  unfold bondError
  by_cases h : latticeState (nx := nx) (ny := ny) σ (A s) = 0
  · rw [h, Matrix.mulVec_zero, rayDist_zero, stateNorm_zero, mul_zero]
  · rw [div_mul_cancel₀ _ (stateNorm_pos h).ne']

/-- The norm of a gate. -/
theorem everywhere_norm [Nonempty P] (hx : 2 ≤ nx) (hy : 2 ≤ ny) (σ : Bond → Equiv.Perm (Fin N)) (m : ModelTerms P 𝕜) {dtau : ℝ} (hd : 0 ≤ dtau)
    (b : Bond) (hb : b ∈ buildBondList nx ny) :
    ‖(coveringOps hx hy σ).everywhere b (gateMatrix (twoSiteGate m dtau b)).transpose‖ ≤
      Real.exp (dtau * ‖(coveringOps hx hy σ).placement.pair b (bondHam m.transposed b)‖) := by
  let _ : NormedAlgebra ℝ (Matrix (BigSite nx ny N → P) (BigSite nx ny N → P) 𝕜) := NormedAlgebra.restrictScalars ℝ 𝕜 _
  rw [everywhere_gate _ m dtau b hb]
  have h := norm_expProd_le [(-(dtau : 𝕜)) • (coveringOps hx hy σ).placement.pair b (bondHam m.transposed b)]
  simp only [expProd, List.map_cons, List.map_nil, List.prod_cons, List.prod_nil, mul_one, normSum, List.sum_cons, List.sum_nil, add_zero] at h
  rwa [norm_smul, norm_neg, RCLike.norm_ofReal, abs_of_nonneg hd] at h

theorem foldl_error [Nonempty P] (hx : 2 ≤ nx) (hy : 2 ≤ ny) (σ : Bond → Equiv.Perm (Fin N)) (m : ModelTerms P 𝕜) {dtau : ℝ} (hd : 0 ≤ dtau)
    (A : S → Site → B → B → B → B → P → 𝕜) (upd : S → Bond → S × Option PyErr) (l : List Bond)
    (hl : ∀ b ∈ l, b ∈ buildBondList nx ny) (s : S) (U : Matrix (BigSite nx ny N → P) (BigSite nx ny N → P) 𝕜)
    (ψ : (BigSite nx ny N → P) → 𝕜) (a e : ℝ) (ha : stateNorm (U.mulVec ψ) ≤ a) (he : rayDist (latticeState σ (A s)) (U.mulVec ψ) ≤ e) :
    rayDist (latticeState σ (A (l.foldl (fun s b => (upd s b).1) s)))
        ((l.foldl (fun U b => (exactUpdate (coveringOps hx hy σ) m dtau U b).1) U).mulVec ψ) ≤
      Real.exp ((l.map fun b => dtau * ‖(coveringOps hx hy σ).placement.pair b (bondHam m.transposed b)‖).sum) *
        ((a + e) * Real.exp (totalError (bondError hx hy σ (twoSiteGate m dtau) A upd) upd l s) - a) := by
  induction l generalizing s U a e with
  | nil =>
    simp only [List.foldl_nil, List.map_nil, List.sum_nil, Real.exp_zero, totalError, one_mul, mul_one]
    linarith
  | cons b l ih =>
    have hb := hl b List.mem_cons_self
    set G := (coveringOps hx hy σ).everywhere b (gateMatrix (twoSiteGate m dtau b)).transpose with hG
    set g := Real.exp (dtau * ‖(coveringOps hx hy σ).placement.pair b (bondHam m.transposed b)‖) with hg
    set ε := bondError hx hy σ (twoSiteGate m dtau) A upd s b with hε
    have hε0 : 0 ≤ ε := bondError_nonneg hx hy σ _ A upd s b
    have hn : ‖G‖ ≤ g := everywhere_norm hx hy σ m hd b hb
    have hg1 : 1 ≤ g := Real.one_le_exp (mul_nonneg hd (norm_nonneg _))
    have ha0 : 0 ≤ a := (stateNorm_nonneg _).trans ha
    have he0 : 0 ≤ e := (rayDist_nonneg _ _).trans he
    have hUb : (exactUpdate (coveringOps hx hy σ) m dtau U b).1.mulVec ψ = G.mulVec (U.mulVec ψ) := by
      rw [Matrix.mulVec_mulVec]
      rfl
    have ha' : stateNorm ((exactUpdate (coveringOps hx hy σ) m dtau U b).1.mulVec ψ) ≤ g * a := by
      rw [hUb]
      exact (stateNorm_mulVec _ _).trans (mul_le_mul hn ha (stateNorm_nonneg _) (by positivity))
    have he' : rayDist (latticeState σ (A (upd s b).1)) ((exactUpdate (coveringOps hx hy σ) m dtau U b).1.mulVec ψ) ≤ ε * a + (ε + g) * e := by
      have hc : 0 < ε + g := by linarith
      have key : (rayDist (latticeState σ (A (upd s b).1)) (G.mulVec (U.mulVec ψ)) - ε * a) / (ε + g) ≤
          rayDist (latticeState σ (A s)) (U.mulVec ψ) := by
        refine le_rayDist _ _ fun κ hκ => ?_
        rw [div_le_iff₀ hc, sub_le_iff_le_add]
        set x := stateNorm ((κ : 𝕜) • latticeState σ (A s) - U.mulVec ψ) with hx'
        have hx0 : 0 ≤ x := stateNorm_nonneg _
        have h1 : rayDist (latticeState σ (A (upd s b).1)) ((κ : 𝕜) • G.mulVec (latticeState σ (A s))) ≤ ε * (κ * stateNorm (latticeState (nx := nx) (ny := ny) σ (A s))) := by
          refine (rayDist_smul _ _ hκ).trans (le_of_eq ?_)
          rw [bondError_mul hx hy σ (twoSiteGate m dtau) A upd s b]
          ring
        have h2 : κ * stateNorm (latticeState (nx := nx) (ny := ny) σ (A s)) ≤ a + x := by
          have h3 : κ * stateNorm (latticeState (nx := nx) (ny := ny) σ (A s)) = stateNorm ((κ : 𝕜) • latticeState (nx := nx) (ny := ny) σ (A s)) := by
            rw [stateNorm_smul, RCLike.norm_ofReal, abs_of_pos hκ]
          rw [h3, show (κ : 𝕜) • latticeState (nx := nx) (ny := ny) σ (A s) = U.mulVec ψ + ((κ : 𝕜) • latticeState σ (A s) - U.mulVec ψ) from
            (add_sub_cancel _ _).symm]
          exact (stateNorm_add_le _ _).trans (by linarith)
        have h4 : stateNorm ((κ : 𝕜) • G.mulVec (latticeState σ (A s)) - G.mulVec (U.mulVec ψ)) ≤ g * x := by
          rw [← Matrix.mulVec_smul, ← Matrix.mulVec_sub]
          exact (stateNorm_mulVec _ _).trans (mul_le_mul_of_nonneg_right hn hx0)
        have h5 := rayDist_triangle (latticeState σ (A (upd s b).1)) ((κ : 𝕜) • G.mulVec (latticeState σ (A s))) (G.mulVec (U.mulVec ψ))
        have h6 : ε * (κ * stateNorm (latticeState (nx := nx) (ny := ny) σ (A s))) ≤ ε * (a + x) := mul_le_mul_of_nonneg_left h2 hε0
        nlinarith
      rw [div_le_iff₀ hc, sub_le_iff_le_add] at key
      rw [hUb]
      have h7 : rayDist (latticeState σ (A s)) (U.mulVec ψ) * (ε + g) ≤ e * (ε + g) := mul_le_mul_of_nonneg_right he hc.le
      linarith
    refine (ih (fun b' hb' => hl b' (List.mem_cons_of_mem _ hb')) (upd s b).1 _ _ _ ha' he').trans ?_
    rw [List.map_cons, List.sum_cons, Real.exp_add]
    set D := Real.exp ((l.map fun b => dtau * ‖(coveringOps hx hy σ).placement.pair b (bondHam m.transposed b)‖).sum) with hD
    set t := totalError (bondError hx hy σ (twoSiteGate m dtau) A upd) upd l (upd s b).1 with ht
    have hD0 : 0 < D := Real.exp_pos _
    have ht0 : 0 < Real.exp t := Real.exp_pos _
    have htot : totalError (bondError hx hy σ (twoSiteGate m dtau) A upd) upd (b :: l) s = ε + t := rfl
    rw [htot, Real.exp_add]
    have h1 : 1 + ε ≤ Real.exp ε := by linarith [Real.add_one_le_exp ε]
    have h2 : g * a + (ε * a + (ε + g) * e) ≤ g * ((a + e) * Real.exp ε) := by
      have : g * ((a + e) * (1 + ε)) ≤ g * ((a + e) * Real.exp ε) :=
        mul_le_mul_of_nonneg_left (mul_le_mul_of_nonneg_left h1 (by linarith)) (by linarith)
      have h3 : ε * (a + e) ≤ g * (ε * (a + e)) := le_mul_of_one_le_left (mul_nonneg hε0 (by linarith)) hg1
      nlinarith
    have h3 : (g * a + (ε * a + (ε + g) * e)) * Real.exp t - g * a ≤ g * ((a + e) * Real.exp ε) * Real.exp t - g * a := by
      have := mul_le_mul_of_nonneg_right h2 ht0.le
      linarith
    calc D * ((g * a + (ε * a + (ε + g) * e)) * Real.exp t - g * a) ≤ D * (g * ((a + e) * Real.exp ε) * Real.exp t - g * a) :=
          mul_le_mul_of_nonneg_left h3 hD0.le
      _ = g * D * ((a + e) * (Real.exp ε * Real.exp t) - a) := by ring

/-- **C87.** For every model with one-site terms everywhere or nowhere, every finite lattice covering the cell and every total time there are
constants such that, for every number of steps and time step within that time, every updater and every start, a run that does not raise leaves a
state whose distance, up to a positive factor, from `exp(-n dtau H)` applied to the state at the start is at most the splitting error, of second
order in the time step, plus `C (exp ε - 1)`, `ε` being the sum of the errors of the bond updates of the run. -/
theorem C87_truncation [Nonempty P] (hx : 2 ≤ nx) (hy : 2 ≤ ny) (σ : Bond → Equiv.Perm (Fin N)) (m : ModelTerms P 𝕜)
    (hm : (∀ s, InCell nx ny s → (m.one s).isSome) ∨ (∀ s, InCell nx ny s → m.one s = none)) (T : ℝ) :
    ∃ K C : ℝ, ∀ (S : Type) (A : S → Site → B → B → B → B → P → 𝕜) (upd : S → Bond → S × Option PyErr) (bl : List Bond),
      bl = buildBondList nx ny ∨ bl = (buildBondList nx ny).reverse →
      ∀ (n : ℕ) (dtau : ℝ), 0 ≤ dtau → n * dtau ≤ T → ∀ s : S, (evolveLoop upd n bl s).2.2 = none →
        rayDist (latticeState σ (A (evolveLoop upd n bl s).2.1))
          ((exp ((-((n * dtau : ℝ) : 𝕜)) • cellHamiltonian nx ny (coveringOps hx hy σ).placement m.transposed)).mulVec (latticeState σ (A s))) ≤
        (K * dtau ^ 2 + C * (Real.exp (totalError (bondError hx hy σ (twoSiteGate m dtau) A upd) upd (schedule n bl) s) - 1)) *
          stateNorm (latticeState (nx := nx) (ny := ny) σ (A s)) := by
  obtain ⟨K, hK⟩ := C70_second_order (coveringOps (P := P) (𝕜 := 𝕜) hx hy σ) m T
  set h := ((buildBondList nx ny).map fun b => ‖(coveringOps hx hy σ).placement.pair b (bondHam m.transposed b)‖).sum with hh
  have h0 : 0 ≤ h := List.sum_nonneg (by simp only [List.mem_map]; rintro _ ⟨a, _, rfl⟩; exact norm_nonneg _)
  refine ⟨K, Real.exp (T * h), fun S A upd bl hbl n dtau hd hT s hok => ?_⟩
  have hmem : ∀ b ∈ bl, b ∈ buildBondList nx ny := by
    rcases hbl with rfl | rfl
    · exact fun _ h => h
    · exact fun _ h => List.mem_reverse.1 h
  have hk := (hK bl hbl n dtau hd hT 1).1
  rw [mul_one, C70_hamiltonian _ m hm, norm_one, mul_one] at hk
  rw [C05_schedule (exactUpdate (coveringOps hx hy σ) m dtau) (fun _ _ => rfl)] at hk
  rw [evolveLoop_ok_of_none upd n bl s hok]
  have hf := foldl_error hx hy σ m hd A upd (schedule n bl) (fun b hb => hmem b (mem_schedule hb)) s 1 (latticeState σ (A s))
    (stateNorm (latticeState (nx := nx) (ny := ny) σ (A s))) 0 (by rw [Matrix.one_mulVec])
    (le_of_eq (rayDist_self one_pos (by rw [Matrix.one_mulVec, RCLike.ofReal_one, one_smul])))
  rw [schedule_sum] at hf
  have hsum : (bl.map fun b => dtau * ‖(coveringOps hx hy σ).placement.pair b (bondHam m.transposed b)‖).sum = dtau * h := by
    rw [List.sum_map_mul_left, hh]
    rcases hbl with rfl | rfl
    · rfl
    · rw [List.map_reverse, List.sum_reverse]
  rw [hsum] at hf
  set x := totalError (bondError hx hy σ (twoSiteGate m dtau) A upd) upd (schedule n bl) s with hxe
  have hx0 : 0 ≤ x := totalError_nonneg _ (fun s b => bondError_nonneg hx hy σ _ A upd s b) upd _ _
  have hex : 0 ≤ Real.exp x - 1 := by linarith [Real.one_le_exp hx0]
  set ν := stateNorm (latticeState (nx := nx) (ny := ny) σ (A s)) with hν
  have hν0 : 0 ≤ ν := stateNorm_nonneg _
  have hexp : Real.exp (n * (dtau * h)) ≤ Real.exp (T * h) := Real.exp_le_exp.2 (by
    rw [← mul_assoc]
    exact mul_le_mul_of_nonneg_right hT h0)
  have htri := rayDist_triangle (latticeState (nx := nx) (ny := ny) σ (A ((schedule n bl).foldl (fun s b => (upd s b).1) s)))
    (((schedule n bl).foldl (fun U b => (exactUpdate (coveringOps hx hy σ) m dtau U b).1) 1).mulVec (latticeState σ (A s)))
    ((exp ((-((n * dtau : ℝ) : 𝕜)) • cellHamiltonian nx ny (coveringOps hx hy σ).placement m.transposed)).mulVec (latticeState σ (A s)))
  have hspl : stateNorm (((schedule n bl).foldl (fun U b => (exactUpdate (coveringOps hx hy σ) m dtau U b).1) 1).mulVec (latticeState σ (A s)) -
      (exp ((-((n * dtau : ℝ) : 𝕜)) • cellHamiltonian nx ny (coveringOps hx hy σ).placement m.transposed)).mulVec (latticeState σ (A s))) ≤
      K * dtau ^ 2 * ν := by
    rw [← Matrix.sub_mulVec]
    exact (stateNorm_mulVec _ _).trans (mul_le_mul_of_nonneg_right hk hν0)
  have h1 := mul_le_mul_of_nonneg_right hexp (mul_nonneg hex hν0)
  refine htri.trans ((add_le_add hf hspl).trans ?_)
  calc Real.exp (n * (dtau * h)) * ((ν + 0) * Real.exp x - ν) + K * dtau ^ 2 * ν
      = Real.exp (n * (dtau * h)) * ((Real.exp x - 1) * ν) + K * dtau ^ 2 * ν := by ring
    _ ≤ Real.exp (T * h) * ((Real.exp x - 1) * ν) + K * dtau ^ 2 * ν := by linarith
    _ = _ := by ring

/-- **C87 (no truncation).** A bond update that is exact up to a positive factor has no error, so C76 is the case of no truncation. -/
theorem C87_exact (hx : 2 ≤ nx) (hy : 2 ≤ ny) (σ : Bond → Equiv.Perm (Fin N)) (gates : Bond → P → P → P → P → 𝕜)
    (A : S → Site → B → B → B → B → P → 𝕜) (upd : S → Bond → S × Option PyErr) (l : List Bond) (hl : ∀ b ∈ l, b ∈ buildBondList nx ny) (s : S)
    (h : ExactRun gates A upd l s) : totalError (bondError hx hy σ gates A upd) upd l s = 0 := by
  induction l generalizing s with
  | nil => rfl
  | cons b l ih =>
    obtain ⟨⟨-, κ, hκ, he⟩, h3⟩ := h
    show _ + totalError _ _ _ _ = 0
    rw [ih (fun b' hb' => hl b' (List.mem_cons_of_mem _ hb')) _ h3, add_zero]
    unfold bondError
    rw [rayDist_self (inv_pos.2 (pow_pos hκ N)), zero_div]
    rw [C76_bond hx hy σ b (hl b List.mem_cons_self) _ _ _ _ he, smul_smul]
    push_cast
    rw [inv_mul_cancel₀ (pow_ne_zero _ (RCLike.ofReal_ne_zero.2 hκ.ne')), one_smul]

end run

/-! ### Programs -/

/-- The distance, up to positive factors, of the state of the network `net'` from the state of `net` evolved for the imaginary time `t` with the
Hamiltonian of the model is at most `ε` times the norm of the state of `net`. -/
def Spec.EvolvedWithin {B X Y : Type} [Fintype B] (hx : 2 ≤ nx) (hy : 2 ≤ ny) (σ : Bond → Equiv.Perm (Fin N))
    (m : ModelTerms P 𝕜) (net : NetT B P X 𝕜) (net' : NetT B P Y 𝕜) (t ε : ℝ) : Prop :=
  rayDist (latticeState σ (siteTensors net'))
    ((exp ((-(t : 𝕜)) • cellHamiltonian nx ny (coveringOps hx hy σ).placement m.transposed)).mulVec (latticeState σ (siteTensors net))) ≤
    ε * stateNorm (latticeState (nx := nx) (ny := ny) σ (siteTensors net))

section simple

open Simple

variable {X : Type} {bD : ℕ} [NeZero bD] [Nonempty P]

/-- The sum of the errors of the bond updates of `evolve` with the simple update. -/
noncomputable def Spec.simpleError (hx : 2 ≤ nx) (hy : 2 ≤ ny) (σ : Bond → Equiv.Perm (Fin N)) (m : ModelTerms P 𝕜) (la : Lapack 𝕜)
    (cx : Bool) (n : ℕ) (dtau : ℝ) (bl : List Bond) (net : NetT (Fin bD) P X 𝕜) : ℝ :=
  totalError (bondError hx hy σ (twoSiteGate m dtau) (fun st : NetT (Fin bD) P X 𝕜 × LambdaTensors (Weight bD) => siteTensors st.1)
    (Simple.bondStep la (fun _ => none) (twoSiteGate m dtau))) (Simple.bondStep la (fun _ => none) (twoSiteGate m dtau)) (schedule n bl)
    (net, LambdaTensors.init bl (ones bD cx))

/-- **C87 (simple update).** `evolve` with the simple update, real and complex dtypes, whatever is truncated: if it does not raise, the state it
leaves is the start evolved in imaginary time up to the splitting error and the errors of the bond updates. -/
theorem C87_simple (hx : 2 ≤ nx) (hy : 2 ≤ ny) (σ : Bond → Equiv.Perm (Fin N)) (m : ModelTerms P 𝕜)
    (hm : (∀ s, InCell nx ny s → (m.one s).isSome) ∨ (∀ s, InCell nx ny s → m.one s = none)) (T : ℝ) :
    ∃ K C : ℝ, ∀ (la : Lapack 𝕜) (cx : Bool) (bl : List Bond), bl = buildBondList nx ny ∨ bl = (buildBondList nx ny).reverse →
      ∀ (n : ℕ) (dtau : ℝ), 0 ≤ dtau → n * dtau ≤ T → ∀ net : NetT (Fin bD) P X 𝕜,
      let r := Simple.evolve la cx (fun _ => none) (twoSiteGate m dtau) n (bl, net)
      r.2.2 = none →
        EvolvedWithin hx hy σ m net r.2.1 (n * dtau) (K * dtau ^ 2 + C * (Real.exp (simpleError hx hy σ m la cx n dtau bl net) - 1)) := by
  obtain ⟨K, C, hK⟩ := C87_truncation (B := Fin bD) hx hy σ m hm T
  refine ⟨K, C, fun la cx bl hbl n dtau hd hT net => ?_⟩
  intro r hr
  exact hK (NetT (Fin bD) P X 𝕜 × LambdaTensors (Weight bD)) (fun st => siteTensors st.1) (Simple.bondStep la (fun _ => none) (twoSiteGate m dtau))
    bl hbl n dtau hd hT (net, LambdaTensors.init bl (ones bD cx)) hr

end simple

section full

open Full

variable {F : Type} {bD pD : ℕ} [NeZero bD] [NeZero pD]

/-- The sum of the errors of the bond updates of `evolve` with the full update. -/
noncomputable def Spec.fullError (hx : 2 ≤ nx) (hy : 2 ≤ ny) (σ : Bond → Equiv.Perm (Fin N)) (m : ModelTerms (Fin pD) 𝕜) (st : ProjSettings 𝕜)
    (pk : ProjKind) (ω : ℕ → Draws (Fin bD) 𝕜) (la : Lapack 𝕜) (fo : Als.FloatOps F) (rep : ℝ → F) (cfg : Settings F) (n : ℕ) (dtau : ℝ)
    (bl : List Bond) (s : Net (Ten (Fin bD) (Fin pD) 𝕜) × ℕ) : ℝ :=
  totalError (bondError hx hy σ (twoSiteGate m dtau) (fun s : Net (Ten (Fin bD) (Fin pD) 𝕜) × ℕ => siteTensors (bare s.1))
    (fullBondStep st pk ω la fo rep cfg none (twoSiteGate m dtau))) (fullBondStep st pk ω la fo rep cfg none (twoSiteGate m dtau)) (schedule n bl) s

/-- **C87 (full update).** Every program that initialises the boundary tensors, sweeps, evolves with the full update, sweeps again and measures,
real and complex dtypes, all settings, whatever is truncated: if the evolution does not raise, which with the pseudo-inverse it never does, the
rest does not either, and the state of the lattice at the end is the start evolved in imaginary time up to the splitting error and the errors of
the bond updates. -/
theorem C87_full (hx : 2 ≤ nx) (hy : 2 ≤ ny) (σ : Bond → Equiv.Perm (Fin N)) (m : ModelTerms (Fin pD) 𝕜)
    (hm : (∀ s, InCell nx ny s → (m.one s).isSome) ∨ (∀ s, InCell nx ny s → m.one s = none)) (T : ℝ) :
    ∃ K C : ℝ, ∀ (F : Type) (st : ProjSettings 𝕜) (pk : ProjKind) (ω : ℕ → Draws (Fin bD) 𝕜) (la : Lapack 𝕜) (fo : Als.FloatOps F) (rep : ℝ → F)
      (cfg : Settings F) (bl : List Bond), bl = buildBondList nx ny ∨ bl = (buildBondList nx ny).reverse →
      ∀ (n : ℕ) (dtau : ℝ), 0 ≤ dtau → n * dtau ≤ T → ∀ (chi : ℕ) (A : Site → ATensor (Fin bD) (Fin pD) 𝕜) (k k' t t' t'' : ℕ),
      ∃ net, ctmrgDrawn st pk ω t k (freshNet nx ny chi A) = .ok net ∧
      let r := fullEvolve st pk ω la fo rep cfg none (twoSiteGate m dtau) n (bl, net, t')
      (cfg.als_method = .pinv → r.2.2 = none) ∧
      (r.2.2 = none → ∃ net', ctmrgDrawn st pk ω t'' k' r.2.1.1 = .ok net' ∧ Readable nx ny net' ∧
        EvolvedWithin hx hy σ m (bare (freshNet nx ny chi A)) (bare net') (n * dtau)
          (K * dtau ^ 2 + C * (Real.exp (fullError hx hy σ m st pk ω la fo rep cfg n dtau bl (net, t')) - 1))) := by
  obtain ⟨K, C, hK⟩ := C87_truncation (B := Fin bD) hx hy σ m hm T
  refine ⟨K, C, fun F st pk ω la fo rep cfg bl hbl n dtau hd hT chi A k k' t t' t'' => ?_⟩
  have hmem : ∀ b ∈ bl, b ∈ buildBondList nx ny := by
    rcases hbl with rfl | rfl
    · exact fun _ h => h
    · exact fun _ h => List.mem_reverse.1 h
  have hx0 : 0 < nx := by omega
  have hy0 : 0 < ny := by omega
  obtain ⟨net, e, h, hnA⟩ := (fitNet_fresh hx0 hy0 chi A).sweeps hx0 hy0 st pk ω t k
  refine ⟨net, e, ?_⟩
  intro r
  have hstep := fun (s : Net (Ten (Fin bD) (Fin pD) 𝕜) × ℕ) b (hb : b ∈ buildBondList nx ny) (hs : FitNet nx ny s.1) =>
    hs.step hx0 hy0 st pk ω la fo rep cfg none (twoSiteGate m dtau) hb
  refine ⟨fun hp => evolveLoop_noraise (fun s : Net (Ten (Fin bD) (Fin pD) 𝕜) × ℕ => FitNet nx ny s.1) (· ∈ buildBondList nx ny)
    (fun s b hb hs => ⟨(hstep s b hb hs).1, (hstep s b hb hs).2 hp⟩) n bl hmem (net, t') h, fun hr => ?_⟩
  have h' : FitNet nx ny r.2.1.1 :=
    evolveLoop_inv (fun s : Net (Ten (Fin bD) (Fin pD) 𝕜) × ℕ => FitNet nx ny s.1) (· ∈ buildBondList nx ny)
      (fun s b hb hs => (hstep s b hb hs).1) n bl hmem (net, t') h
  obtain ⟨net', e', h'', hA'⟩ := h'.sweeps hx0 hy0 st pk ω t'' k'
  refine ⟨net', e', h''.readable hx0 hy0, ?_⟩
  have hb' : siteTensors (bare net') = siteTensors (bare r.2.1.1) := by
    funext s
    exact bare_congr (congrFun hA' s)
  have hb0 : siteTensors (bare (freshNet nx ny chi A)) = siteTensors (bare net) := by
    funext s
    exact bare_congr (congrFun hnA s).symm
  unfold EvolvedWithin
  rw [hb', hb0]
  exact hK (Net (Ten (Fin bD) (Fin pD) 𝕜) × ℕ) (fun s => siteTensors (bare s.1)) (fullBondStep st pk ω la fo rep cfg none (twoSiteGate m dtau))
    bl hbl n dtau hd hT (net, t') hr

end full

/-! ### Ground states -/

section ground

variable {B X : Type} [Fintype B]

/-- Networks whose state is close enough to the evolved start are close to a ground state. -/
theorem nearGround_within {Y : Type} (hx : 2 ≤ nx) (hy : 2 ≤ ny) (σ : Bond → Equiv.Perm (Fin N)) (m : ModelTerms P 𝕜) (hh : m.Hermitian) (E : ℝ)
    (net : NetT B P X 𝕜) (ho : OverlapsGround hx hy σ m E net) (K C : ℝ → ℝ) :
    ∃ g, GroundState hx hy σ m E g ∧ ∀ η : ℝ, 0 < η → ∃ T₀ : ℝ, ∀ T, T₀ ≤ T → ∃ δ : ℝ, 0 < δ ∧
      ∀ (n : ℕ) (dtau x : ℝ), 0 ≤ dtau → dtau ≤ δ → n * dtau = T → 0 ≤ x → x ≤ δ → ∀ net' : NetT B P Y 𝕜,
        EvolvedWithin hx hy σ m net net' (n * dtau) (K T * dtau ^ 2 + C T * (Real.exp x - 1)) → NearGround hx hy σ m g E η net' := by
  have hne := state_ne_zero_of_overlap hx hy σ m E net ho
  obtain ⟨hE, v, hv, hov⟩ := ho
  obtain ⟨g, g1, g2, hg⟩ := ground_reached _ (latticeHamiltonian_isHermitian hx hy σ m hh) E hE _ v hv hov
  refine ⟨g, ⟨g1, g2⟩, fun η hη => ?_⟩
  obtain ⟨T₀, hT₀⟩ := hg η hη
  refine ⟨T₀, fun T hT => ?_⟩
  obtain ⟨ε, hε, hφ⟩ := hT₀ T hT
  have hpos : 0 < |K T| + 2 * |C T| + 1 := by positivity
  refine ⟨min 1 (ε / 2 / (|K T| + 2 * |C T| + 1)), lt_min one_pos (by positivity), fun n dtau x h0 hd hn hx0 hxd net' hev => ?_⟩
  have hd1 : dtau ≤ 1 := hd.trans (min_le_left _ _)
  have hx1 : x ≤ 1 := hxd.trans (min_le_left _ _)
  have hk : K T * dtau ^ 2 + C T * (Real.exp x - 1) < ε := by
    have h2 : dtau * (|K T| + 2 * |C T| + 1) ≤ ε / 2 := (le_div_iff₀ hpos).1 (hd.trans (min_le_right _ _))
    have h3 : x * (|K T| + 2 * |C T| + 1) ≤ ε / 2 := (le_div_iff₀ hpos).1 (hxd.trans (min_le_right _ _))
    have h4 : dtau ^ 2 ≤ dtau := by nlinarith
    have h5 : Real.exp x - 1 ≤ 2 * x := by
      have := Real.abs_exp_sub_one_le (x := x) (by rwa [abs_of_nonneg hx0])
      rw [abs_of_nonneg hx0] at this
      exact (le_abs_self _).trans this
    have h6 : 0 ≤ Real.exp x - 1 := by linarith [Real.one_le_exp hx0]
    have a1 : K T * dtau ^ 2 ≤ |K T| * dtau := mul_le_mul (le_abs_self _) h4 (by positivity) (abs_nonneg _)
    have a2 : C T * (Real.exp x - 1) ≤ |C T| * (2 * x) := mul_le_mul (le_abs_self _) h5 h6 (abs_nonneg _)
    have a3 : |K T| * dtau ≤ ε / 2 - dtau := by nlinarith [abs_nonneg (C T), abs_nonneg (K T)]
    have a4 : |C T| * (2 * x) ≤ ε / 2 - x := by nlinarith [abs_nonneg (C T), abs_nonneg (K T)]
    by_cases hz : dtau = 0 ∧ x = 0
    · rw [hz.1, hz.2]
      simpa using hε
    · have : 0 < dtau ∨ 0 < x := by
        by_contra hc
        push Not at hc
        exact hz ⟨le_antisymm hc.1 h0, le_antisymm hc.2 hx0⟩
      rcases this with h | h <;> linarith
  rw [hn] at hev
  obtain ⟨κ, hκ, hlt⟩ := rayDist_lt _ _ (lt_of_le_of_lt hev (mul_lt_mul_of_pos_right hk (stateNorm_pos hne)))
  obtain ⟨r1, r2, r3⟩ := hφ _ κ hκ hlt.le
  exact ⟨r1, r2, hE _ r1, r3⟩

end ground

section ground_programs

open Full Simple

variable {bD : ℕ} [NeZero bD]

/-- **C87 (ground state, full update).** Hermitian model, any dtype, any settings, a start that is not orthogonal to the ground states: there is a
ground state such that for every accuracy there is a time after which, for every total time, every program with a time step and a sum of the
errors of its bond updates small enough for that time, whose evolution does not raise, ends within the accuracy of the ground state. -/
theorem C87_ground_full {pD : ℕ} [NeZero pD] (hx : 2 ≤ nx) (hy : 2 ≤ ny) (σ : Bond → Equiv.Perm (Fin N)) (m : ModelTerms (Fin pD) 𝕜)
    (hh : m.Hermitian) (hm : (∀ s, InCell nx ny s → (m.one s).isSome) ∨ (∀ s, InCell nx ny s → m.one s = none)) (E : ℝ) (chi : ℕ)
    (A : Site → ATensor (Fin bD) (Fin pD) 𝕜) (ho : OverlapsGround hx hy σ m E (bare (freshNet nx ny chi A))) :
    ∃ g, GroundState hx hy σ m E g ∧ ∀ η : ℝ, 0 < η → ∃ T₀ : ℝ, ∀ T, T₀ ≤ T → ∃ δ : ℝ, 0 < δ ∧
      ∀ (n : ℕ) (dtau : ℝ), 0 ≤ dtau → dtau ≤ δ → n * dtau = T →
      ∀ (F : Type) (st : ProjSettings 𝕜) (pk : ProjKind) (ω : ℕ → Draws (Fin bD) 𝕜) (la : Lapack 𝕜) (fo : Als.FloatOps F) (rep : ℝ → F)
      (cfg : Settings F) (bl : List Bond), bl = buildBondList nx ny ∨ bl = (buildBondList nx ny).reverse → ∀ k k' t t' t'' : ℕ,
      ∃ net, ctmrgDrawn st pk ω t k (freshNet nx ny chi A) = .ok net ∧
      let r := fullEvolve st pk ω la fo rep cfg none (twoSiteGate m dtau) n (bl, net, t')
      (r.2.2 = none → fullError hx hy σ m st pk ω la fo rep cfg n dtau bl (net, t') ≤ δ →
        ∃ net', ctmrgDrawn st pk ω t'' k' r.2.1.1 = .ok net' ∧ NearGround hx hy σ m g E η (bare net')) := by
  choose K C hK using C87_full (bD := bD) hx hy σ m hm
  obtain ⟨g, hg, hrun⟩ := nearGround_within (Y := Unit) hx hy σ m hh E (bare (freshNet nx ny chi A)) ho K C
  refine ⟨g, hg, fun η hη => ?_⟩
  obtain ⟨T₀, hT₀⟩ := hrun η hη
  refine ⟨T₀, fun T hT => ?_⟩
  obtain ⟨δ, hδ, hd⟩ := hT₀ T hT
  refine ⟨δ, hδ, fun n dtau h0 h1 hn F st pk ω la fo rep cfg bl hbl k k' t t' t'' => ?_⟩
  obtain ⟨net, e, -, h⟩ := hK T F st pk ω la fo rep cfg bl hbl n dtau h0 hn.le chi A k k' t t' t''
  refine ⟨net, e, ?_⟩
  intro r hr herr
  obtain ⟨net', e', -, h⟩ := h hr
  exact ⟨net', e', hd n dtau _ h0 h1 hn (totalError_nonneg _ (fun s b => bondError_nonneg hx hy σ _ _ _ s b) _ _ _) herr _ h⟩

/-- **C87 (ground state, simple update).** The same for `evolve` with the simple update. -/
theorem C87_ground_simple {X : Type} [Nonempty P] (hx : 2 ≤ nx) (hy : 2 ≤ ny) (σ : Bond → Equiv.Perm (Fin N)) (m : ModelTerms P 𝕜)
    (hh : m.Hermitian) (hm : (∀ s, InCell nx ny s → (m.one s).isSome) ∨ (∀ s, InCell nx ny s → m.one s = none)) (E : ℝ)
    (net : NetT (Fin bD) P X 𝕜) (ho : OverlapsGround hx hy σ m E net) :
    ∃ g, GroundState hx hy σ m E g ∧ ∀ η : ℝ, 0 < η → ∃ T₀ : ℝ, ∀ T, T₀ ≤ T → ∃ δ : ℝ, 0 < δ ∧
      ∀ (n : ℕ) (dtau : ℝ), 0 ≤ dtau → dtau ≤ δ → n * dtau = T →
      ∀ (la : Lapack 𝕜) (cx : Bool) (bl : List Bond), bl = buildBondList nx ny ∨ bl = (buildBondList nx ny).reverse →
      let r := Simple.evolve la cx (fun _ => none) (twoSiteGate m dtau) n (bl, net)
      r.2.2 = none → simpleError hx hy σ m la cx n dtau bl net ≤ δ → NearGround hx hy σ m g E η r.2.1 := by
  choose K C hK using C87_simple (X := X) (bD := bD) hx hy σ m hm
  obtain ⟨g, hg, hrun⟩ := nearGround_within (Y := X) hx hy σ m hh E net ho K C
  refine ⟨g, hg, fun η hη => ?_⟩
  obtain ⟨T₀, hT₀⟩ := hrun η hη
  refine ⟨T₀, fun T hT => ?_⟩
  obtain ⟨δ, hδ, hd⟩ := hT₀ T hT
  refine ⟨δ, hδ, fun n dtau h0 h1 hn la cx bl hbl => ?_⟩
  intro r hr herr
  exact hd n dtau _ h0 h1 hn (totalError_nonneg _ (fun s b => bondError_nonneg hx hy σ _ _ _ s b) _ _ _) herr _
    (hK T la cx bl hbl n dtau h0 hn.le net hr)

end ground_programs

/-! ### The hypotheses are met -/

section example_

open Full Simple

/-- Non-vacuity: in a field nothing is truncated, the errors are zero, and every program from `|00…0⟩ + |11…1⟩` reaches the ground state. -/
example [NeZero N] (hx : 2 ≤ nx) (hy : 2 ≤ ny) (σ : Bond → Equiv.Perm (Fin N)) (st : ProjSettings ℝ) (pk : ProjKind) (ω : ℕ → Draws (Fin 2) ℝ)
    (la : Lapack ℝ) (fo : Als.FloatOps ℝ) (cfg : Settings ℝ) (hc : cfg.als_method = .pinv) (he : cfg.als_epsilon = 0)
    (hcut : 0 < cfg.positive_approx_cutoff) (hatol : cfg.gauge_fix_atol < Real.sqrt cfg.positive_approx_cutoff) (n : ℕ) (dtau : ℝ) (chi k : ℕ) :
    OverlapsGround hx hy σ fieldTerms (fieldGround nx ny N) (bare (freshNet nx ny chi fun s => (ghzNet s).A)) ∧
    ∃ net, ctmrgDrawn st pk ω 0 k (freshNet nx ny chi fun s => (ghzNet s).A) = .ok net ∧
      (fullEvolve st pk ω la fo id cfg none (twoSiteGate fieldTerms dtau) n (buildBondList nx ny, net, 0)).2.2 = none ∧
      fullError hx hy σ fieldTerms st pk ω la fo id cfg n dtau (buildBondList nx ny) (net, 0) = 0 := by
  have ho := field_overlaps (nx := nx) (ny := ny) hx hy σ (bare (freshNet nx ny chi fun s => (ghzNet s).A)) (ghzNet_ones σ)
  have hx0 : 0 < nx := by omega
  have hy0 : 0 < ny := by omega
  obtain ⟨net, e, h, hnA⟩ := (fitNet_fresh hx0 hy0 chi fun s => (ghzNet s).A).sweeps hx0 hy0 st pk ω 0 k
  have hbare : siteTensors (bare net) = siteTensors (bare (freshNet nx ny chi fun s => (ghzNet s).A)) := by
    funext s
    exact bare_congr (congrFun hnA s)
  refine ⟨ho, net, e, ?_, ?_⟩
  · exact evolveLoop_noraise (fun s : Net (Ten (Fin 2) (Fin 2) ℝ) × ℕ => FitNet nx ny s.1) (· ∈ buildBondList nx ny)
      (fun s b hb hs => ⟨(hs.step hx0 hy0 st pk ω la fo id cfg none _ hb).1, (hs.step hx0 hy0 st pk ω la fo id cfg none _ hb).2 hc⟩)
      n _ (fun _ hb => hb) (net, 0) h
  · refine C87_exact hx hy σ _ _ _ _ (fun b hb => mem_schedule hb) _ (runFits_exact hx hy σ st pk ω la fo id cfg he hcut hatol fieldTerms dtau _
      (fun b hb => mem_schedule hb) (net, 0) h ?_ (field_runFits st pk ω la fo id cfg hc dtau _ _))
    show latticeState σ (siteTensors (bare net)) ≠ 0
    rw [hbare]
    exact state_ne_zero_of_overlap hx hy σ _ _ _ ho

end example_

end AceTN
