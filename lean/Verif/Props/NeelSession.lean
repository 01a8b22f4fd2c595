import Verif.Props.BuiltInSession
import Verif.Props.Models

/-! C114: sessions with the built-in Heisenberg model at bond dimension one. -/

set_option autoImplicit false
set_option linter.unusedSectionVars false

namespace AceTN
open Matrix Spec NormedSpace Full Session Pauli
open scoped Matrix.Norms.L2Operator Kronecker

variable {F : Type} {nx ny : ℕ}

theorem list_neg {ι : Type} (l : List ι) (f : ι → ℝ) : (l.map fun i => -f i).sum = -(l.map f).sum := by
  rw [← neg_one_mul, ← List.sum_map_mul_left]
  simp

theorem heisenberg_bound_of (hx : 2 ≤ nx) (hy : 2 ≤ ny) {s : State 1 2 ℝ} (hs : MeanState nx ny s)
    (params : PyDict String ℝ) {J : ℝ} (hJ : params.get? "J" = some J) (init : Fin 2 → Fin 2 → Fin 2 → Fin 2 → ℝ) :
    ∃ model d E mx mz, Pauli.heisenbergMeas params = .ok model ∧ Session.measure init model s = .ok d ∧
      d.get? "Energy" = some E ∧ d.get? "sx" = some mx ∧ d.get? "sz" = some mz ∧ |E| ≤ |J| / 2 ∧ mx ^ 2 + mz ^ 2 ≤ 1 := by
  obtain ⟨hv, d, hd, hE, hO⟩ := measured_of_mean hx hy hs _ (heisenberg_clean (fun s => (s.1 + s.2) % 2 = 0) sigmaX sigmaZ (-sigmaX) (-sigmaZ)
    (fun _ => none) (fun _ k1 k2 b1 b2 => ((J / 4) • (sigmaX ⊗ₖ sigmaX - sigmaY ⊗ₖ sigmaY + sigmaZ ⊗ₖ sigmaZ)) (k1, k2) (b1, b2)) _ _) init
  dsimp only at hv hd hE hO
  set v := siteVec (siteTensors (bare s.net)) with hvdef
  have hcirc : ∀ s, InCell nx ny s → polX (v s) ^ 2 + polZ (v s) ^ 2 = 1 := fun s hs => pol_circle (hv s hs)
  refine ⟨_, d, _, _, _, (C114_heisenberg_terms hJ).2, hd, hE, hO "sx" (by simp [PyDict.keys]), hO "sz" (by simp [PyDict.keys]), ?_, ?_⟩
  · unfold energyPerSite siteEnergy
    simp only [bondRatio_heisenberg, List.map_const', List.sum_replicate, smul_zero, zero_add]
    have hn : (0 : ℝ) < (buildSiteList nx ny).length := by
      rw [site_count]
      have : 0 < nx := by omega
      have : 0 < ny := by omega
      positivity
    have hlen : ((buildBondList nx ny).length : ℝ) = 2 * (buildSiteList nx ny).length := by
      rw [(C02_bond_list nx ny).1, site_count]
      push_cast
      ring
    have hb : ∀ b ∈ buildBondList nx ny, |J / 4 * (polX (v b.s1) * polX (v b.s2) + polZ (v b.s1) * polZ (v b.s2))| ≤ |J| / 4 := fun b hb => by
      obtain ⟨c1, c2⟩ := bond_cell hb
      have e : |polX (v b.s1) * polX (v b.s2) + polZ (v b.s1) * polZ (v b.s2)| ≤ 1 := by
        refine abs_le_of_sq_le_sq ?_ zero_le_one
        nlinarith [sq_nonneg (polX (v b.s1) * polZ (v b.s2) - polZ (v b.s1) * polX (v b.s2)), hcirc _ c1, hcirc _ c2]
      rw [abs_mul, abs_div, abs_of_pos (by norm_num : (0 : ℝ) < 4)]
      exact mul_le_of_le_one_right (by positivity) e
    rw [abs_div, abs_of_pos hn, div_le_iff₀ hn]
    have h1 := list_const_le (buildBondList nx ny) (-(|J| / 4)) _ fun b hbm => (abs_le.1 (hb b hbm)).1
    have h2 := list_const_le (buildBondList nx ny) (-(|J| / 4)) (fun b => -(J / 4 * (polX (v b.s1) * polX (v b.s2) + polZ (v b.s1) * polZ (v b.s2))))
      fun b hbm => neg_le_neg (abs_le.1 (hb b hbm)).2
    rw [list_neg] at h2
    rw [hlen] at h1 h2
    rw [abs_le]
    constructor <;> linarith
  · refine disc_average _ _ _ fun s hs => ?_
    have k := hcirc s (mem_buildSiteList.1 hs)
    unfold contribution
    by_cases hp : (s.1 + s.2) % 2 = 0
    · simp only [if_pos hp]
      have e1 := siteRatio_x 1 v s
      have e2 := siteRatio_z 1 v s
      rw [one_smul, one_mul] at e1 e2
      show siteRatio v s sigmaX ^ 2 + siteRatio v s sigmaZ ^ 2 = 1
      rw [e1, e2]
      exact k
    · simp only [if_neg hp]
      have e1 := siteRatio_x (-1) v s
      have e2 := siteRatio_z (-1) v s
      rw [neg_smul, one_smul, neg_mul, one_mul] at e1 e2
      show siteRatio v s (-sigmaX) ^ 2 + siteRatio v s (-sigmaZ) ^ 2 = 1
      rw [e1, e2, neg_sq, neg_sq]
      exact k

/-- **C114 (Heisenberg model, bounds).** Real dtype, bond dimension one, cells from 2 × 2, all couplings and any script, whatever models it evolves
with: the energy that `measure` returns for the built-in Heisenberg model is between `-|J|/2` and `|J|/2`, and the averages `sx` and `sz` are
in the unit disc. -/
theorem C114_heisenberg_bound (hx : 2 ≤ nx) (hy : 2 ≤ ny) (M : Machine F 1 ℝ) (hM : M.cx = false) (hω : DrawsNonzero M.ω) {chi : ℕ} (hchi : 0 < chi)
    (A : Site → ATensor (Fin 1) (Fin 2) ℝ) (hA : ∀ s, InCell nx ny s → A s ≠ 0) (cs : List (Call F 1 2 ℝ)) (hcs : ∀ c ∈ cs, Sensible nx ny c)
    (params : PyDict String ℝ) {J : ℝ} (hJ : params.get? "J" = some J) (init : Fin 2 → Fin 2 → Fin 2 → Fin 2 → ℝ) :
    ∃ model d E mx mz, Pauli.heisenbergMeas params = .ok model ∧ Session.measure init model (runCatching M cs (new nx ny chi A)) = .ok d ∧
      d.get? "Energy" = some E ∧ d.get? "sx" = some mx ∧ d.get? "sz" = some mz ∧ |E| ≤ |J| / 2 ∧ mx ^ 2 + mz ^ 2 ≤ 1 := by
  exact heisenberg_bound_of hx hy (mean_run hx hy M hM hω cs hcs _ (mean_new (by omega) (by omega) hchi A hA)) params hJ init

/-! ### The Néel state -/

/-- The term of the Heisenberg model on a bond. -/
noncomputable def heisenbergMatrix (J : ℝ) : Matrix (Fin 2 × Fin 2) (Fin 2 × Fin 2) ℝ := (J / 4) • (sigmaX ⊗ₖ sigmaX - sigmaY ⊗ₖ sigmaY + sigmaZ ⊗ₖ sigmaZ)

theorem heisenberg_eigen (J dtau e : ℝ) (v : Fin 2 × Fin 2 → ℝ) (h : ∀ j, ∑ i, v i * heisenbergMatrix J i j = e * v j) (j : Fin 2 × Fin 2) :
    v (0, 0) * calculateGate (heisenbergMatrix J) dtau (0, 0) j + v (0, 1) * calculateGate (heisenbergMatrix J) dtau (0, 1) j +
      (v (1, 0) * calculateGate (heisenbergMatrix J) dtau (1, 0) j + v (1, 1) * calculateGate (heisenbergMatrix J) dtau (1, 1) j) =
      Real.exp (-dtau * e) * v j := by
  have := vecMul_calculateGate (heisenbergMatrix J) e dtau v h j
  rw [Fintype.sum_prod_type] at this
  simpa only [Fin.sum_univ_two, RCLike.ofReal_real_eq_id, id] using this

/-- The gate on parallel spins. -/
theorem gate_parallel (J dtau : ℝ) (i : Fin 2) (j : Fin 2 × Fin 2) :
    calculateGate (heisenbergMatrix J) dtau (i, i) j = Real.exp (-dtau * (J / 4)) * if j = (i, i) then 1 else 0 := by
  have h := heisenberg_eigen J dtau (J / 4) (fun j => if j = (i, i) then 1 else 0) (fun ⟨a, b⟩ => by
    fin_cases i <;> fin_cases a <;> fin_cases b <;> simp [heisenbergMatrix, sigmaX, sigmaY, sigmaZ]) j
  fin_cases i
  · simpa using h
  · simpa using h

/-- The gate on antiparallel spins. -/
theorem gate_antiparallel (J dtau : ℝ) (i : Fin 2) (j : Fin 2 × Fin 2) :
    calculateGate (heisenbergMatrix J) dtau (i, 1 - i) j =
      (Real.exp (-dtau * (J / 4)) + Real.exp (-dtau * (-3 * J / 4))) / 2 * (if j = (i, 1 - i) then 1 else 0) +
        (Real.exp (-dtau * (J / 4)) - Real.exp (-dtau * (-3 * J / 4))) / 2 * if j = (1 - i, i) then 1 else 0 := by
  have h1 := heisenberg_eigen J dtau (J / 4) (fun j => if j.1 = j.2 then 0 else 1) (fun ⟨a, b⟩ => by
    fin_cases a <;> fin_cases b <;> simp [heisenbergMatrix, sigmaX, sigmaY, sigmaZ, Fintype.sum_prod_type, Fin.sum_univ_two] <;> ring) j
  have h2 := heisenberg_eigen J dtau (-3 * J / 4) (fun j => if j.1 = j.2 then 0 else if j.1 = 0 then 1 else -1) (fun ⟨a, b⟩ => by
    fin_cases a <;> fin_cases b <;> simp [heisenbergMatrix, sigmaX, sigmaY, sigmaZ, Fintype.sum_prod_type, Fin.sum_univ_two] <;> ring) j
  simp only [if_true, Fin.isValue, zero_ne_one, one_ne_zero, if_false, zero_mul, one_mul, zero_add, add_zero, neg_mul] at h1 h2
  obtain ⟨a, b⟩ := j
  fin_cases i <;> fin_cases a <;> fin_cases b <;> simp at h1 h2 ⊢ <;> linarith

/-- The nearest product to a superposition of two opposite states of two spins. -/
theorem bestProduct_antiparallel {T : Fin 2 → Fin 2 → ℝ} (h00 : T 0 0 = 0) (h11 : T 1 1 = 0) (hlt : |T 1 0| < |T 0 1|) {x y : Fin 2 → ℝ}
    (h : BestProduct T x y) : x 0 ≠ 0 ∧ x 1 = 0 ∧ y 0 = 0 ∧ y 1 ≠ 0 := by
  obtain ⟨κ, hκ, h⟩ := h
  have h0 := h ![T 0 1, 0] ![0, 1]
  simp only [Fin.sum_univ_two, h00, h11, Matrix.cons_val_zero, Matrix.cons_val_one, mul_zero, mul_one, sub_zero, sub_self] at h0
  set c := T 0 1
  set d := T 1 0
  set p := κ * (x 0 * y 1) with hp
  set q := κ * (x 1 * y 0) with hq
  have hpq : κ * (x 0 * y 0) * (κ * (x 1 * y 1)) = p * q := by rw [hp, hq]; ring
  have hsq : 2 * (|p| * |q|) ≤ (κ * (x 0 * y 0)) ^ 2 + (κ * (x 1 * y 1)) ^ 2 := by
    rw [← abs_mul, ← hpq, abs_mul, ← sq_abs (κ * (x 0 * y 0)), ← sq_abs (κ * (x 1 * y 1))]
    nlinarith [sq_nonneg (|κ * (x 0 * y 0)| - |κ * (x 1 * y 1)|)]
  have hcp : c * p ≤ |c| * |p| := (le_abs_self _).trans_eq (abs_mul _ _)
  have hdq : d * q ≤ |d| * |q| := (le_abs_self _).trans_eq (abs_mul _ _)
  have hq0 : q = 0 := by
    have h1 : (|p| + |q| - |c|) ^ 2 + 2 * ((|c| - |d|) * |q|) ≤ 0 := by
      nlinarith [sq_abs p, sq_abs q, sq_abs c]
    have h2 : (|c| - |d|) * |q| ≤ 0 := by nlinarith [sq_nonneg (|p| + |q| - |c|)]
    have h3 : |q| ≤ 0 := by
      by_contra hc
      push Not at hc
      exact absurd h2 (not_le.2 (mul_pos (sub_pos.2 hlt) hc))
    exact abs_nonpos_iff.1 h3
  rw [hq0] at h0
  have hpc : c - p = 0 := by
    have : (c - p) ^ 2 ≤ 0 := by nlinarith [sq_nonneg (κ * (x 0 * y 0)), sq_nonneg (κ * (x 1 * y 1))]
    exact pow_eq_zero_iff two_ne_zero |>.1 (le_antisymm this (sq_nonneg _))
  have hp00 : κ * (x 0 * y 0) = 0 := by
    have : (κ * (x 0 * y 0)) ^ 2 ≤ 0 := by nlinarith [sq_nonneg (c - p), sq_nonneg (κ * (x 1 * y 1))]
    exact pow_eq_zero_iff two_ne_zero |>.1 (le_antisymm this (sq_nonneg _))
  have hp11 : κ * (x 1 * y 1) = 0 := by
    have : (κ * (x 1 * y 1)) ^ 2 ≤ 0 := by nlinarith [sq_nonneg (c - p), sq_nonneg (κ * (x 0 * y 0))]
    exact pow_eq_zero_iff two_ne_zero |>.1 (le_antisymm this (sq_nonneg _))
  have hc0 : c ≠ 0 := fun h0 => by
    rw [h0, abs_zero] at hlt
    exact absurd hlt (not_lt.2 (abs_nonneg _))
  have hp0 : κ * (x 0 * y 1) ≠ 0 := by
    rw [← hp, ← sub_eq_zero.1 hpc]
    exact hc0
  have hx0 : x 0 ≠ 0 := fun h0 => hp0 (by rw [h0]; ring)
  have hy1 : y 1 ≠ 0 := fun h0 => hp0 (by rw [h0]; ring)
  refine ⟨hx0, ?_, ?_, hy1⟩
  · exact (mul_eq_zero.1 ((mul_eq_zero.1 hp11).resolve_left hκ.ne')).resolve_right hy1
  · exact (mul_eq_zero.1 ((mul_eq_zero.1 hp00).resolve_left hκ.ne')).resolve_left hx0

theorem BestProduct.swap {P : Type} [Fintype P] {T : P → P → ℝ} {x y : P → ℝ} (h : BestProduct T x y) : BestProduct (fun p q => T q p) y x := by
  obtain ⟨κ, hκ, h⟩ := h
  refine ⟨κ, hκ, fun f g => ?_⟩
  have := h g f
  rw [Finset.sum_comm] at this
  refine (le_of_eq ?_).trans (this.trans (le_of_eq ?_))
  · exact Finset.sum_congr rfl fun p _ => Finset.sum_congr rfl fun q _ => by rw [mul_comm (y p)]
  · rw [Finset.sum_comm]
    exact Finset.sum_congr rfl fun p _ => Finset.sum_congr rfl fun q _ => by rw [mul_comm (f p)]

/-- A spin up or down. -/
def spinVec (i : Fin 2) : Fin 2 → ℝ := fun p => if p = i then 1 else 0

theorem spinVec_ne (i : Fin 2) : spinVec i ≠ 0 := fun h => by
  have := congrFun h i
  simp [spinVec] at this

theorem pairAfter_spins (gate : Fin 2 → Fin 2 → Fin 2 → Fin 2 → ℝ) (i j : Fin 2) (a b : ℝ) (p q : Fin 2) :
    pairAfter gate (a • spinVec i) (b • spinVec j) p q = a * b * gate i j p q := by
  unfold pairAfter spinVec
  fin_cases i <;> fin_cases j <;> simp

theorem spins_step (J dtau : ℝ) {i j : Fin 2} {a b : ℝ} (ha : a ≠ 0) (hb : b ≠ 0) {x y : Fin 2 → ℝ}
    (h : BestProduct (fun p q => a * b * calculateGate (heisenbergMatrix J) dtau (i, j) (p, q)) x y) :
    (∃ c : ℝ, c ≠ 0 ∧ x = c • spinVec i) ∧ ∃ c : ℝ, c ≠ 0 ∧ y = c • spinVec j := by
  have hab := mul_ne_zero ha hb
  by_cases hij : j = i
  · subst hij
    have hE := (Real.exp_pos (-dtau * (J / 4))).ne'
    have e : (fun p q => a * b * calculateGate (heisenbergMatrix J) dtau (j, j) (p, q)) =
        fun p q => ((a * b * Real.exp (-dtau * (J / 4))) • spinVec j) p * spinVec j q := by
      funext p q
      rw [gate_parallel]
      simp only [spinVec, Pi.smul_apply, smul_eq_mul, Prod.mk.injEq]
      by_cases hp : p = j <;> by_cases hq : q = j <;> simp [hp, hq]
    rw [e] at h
    obtain ⟨⟨c, hc, h1⟩, h2⟩ := bestProduct_of_product (smul_ne_zero (mul_ne_zero hab hE) (spinVec_ne j)) (spinVec_ne j) h
    refine ⟨⟨_, mul_ne_zero hc (mul_ne_zero hab hE), ?_⟩, h2⟩
    rw [h1, smul_smul]
  · obtain rfl : j = 1 - i := by
      fin_cases i <;> fin_cases j <;> simp_all
    have hlt : |a * b * ((Real.exp (-dtau * (J / 4)) - Real.exp (-dtau * (-3 * J / 4))) / 2)| <
        |a * b * ((Real.exp (-dtau * (J / 4)) + Real.exp (-dtau * (-3 * J / 4))) / 2)| := by
      have h1 := Real.exp_pos (-dtau * (J / 4))
      have h2 := Real.exp_pos (-dtau * (-3 * J / 4))
      rw [abs_mul, abs_mul (a * b)]
      refine mul_lt_mul_of_pos_left ?_ (abs_pos.2 hab)
      rw [abs_of_pos (by positivity : 0 < (Real.exp (-dtau * (J / 4)) + Real.exp (-dtau * (-3 * J / 4))) / 2), abs_lt]
      constructor <;> linarith
    have hx : ∀ {z : Fin 2 → ℝ}, z 0 ≠ 0 → z 1 = 0 → ∃ c : ℝ, c ≠ 0 ∧ z = c • spinVec 0 := fun {z} h0 h1 => ⟨z 0, h0, by
      funext p
      fin_cases p <;> simp [spinVec, h1]⟩
    have hy : ∀ {z : Fin 2 → ℝ}, z 0 = 0 → z 1 ≠ 0 → ∃ c : ℝ, c ≠ 0 ∧ z = c • spinVec 1 := fun {z} h0 h1 => ⟨z 1, h1, by
      funext p
      fin_cases p <;> simp [spinVec, h0]⟩
    simp only [gate_antiparallel J dtau i] at h
    fin_cases i
    · obtain ⟨h1, h2, h3, h4⟩ := bestProduct_antiparallel (by simp) (by simp) (by simpa using hlt) h
      exact ⟨hx h1 h2, hy h3 h4⟩
    · obtain ⟨h1, h2, h3, h4⟩ := bestProduct_antiparallel (by simp) (by simp) (by simpa using hlt) (BestProduct.swap h)
      exact ⟨hy h3 h4, hx h1 h2⟩

/-- Every session that starts from spins up and down and uses Heisenberg models keeps them. -/
theorem spins_run (u : Site → Fin 2) {m : ModelTerms (Fin 2) ℝ} {J : ℝ} (h2 : ∀ b, m.two b = heisenbergMatrix J)
    (h1 : ∀ s, m.one s = none) (dtau : ℝ) {l : List Bond} (hl : ∀ b ∈ l, b ∈ buildBondList nx ny) {v w : Site → Fin 2 → ℝ}
    (hv : UpToFactors nx ny (fun s => spinVec (u s)) v) (hs : MeanRun nx ny (twoSiteGate m dtau) l v w) :
    UpToFactors nx ny (fun s => spinVec (u s)) w := by
  induction l generalizing v with
  | nil =>
    intro s hsc
    obtain ⟨c, hc, e⟩ := hv s hsc
    exact ⟨c, hc, (hs s hsc).trans e⟩
  | cons b l ih =>
    obtain ⟨v', ⟨hbest, hoff⟩, hrun⟩ := hs
    refine ih (fun b hb => hl b (by simp [hb])) ?_ hrun
    obtain ⟨c1, c2⟩ := bond_cell (hl b (by simp))
    obtain ⟨a1, ha1, e1⟩ := hv _ c1
    obtain ⟨a2, ha2, e2⟩ := hv _ c2
    have hH : AceTN.bondHam m b = heisenbergMatrix J := by
      unfold AceTN.bondHam
      rw [h1, h1, h2]
    have e : pairAfter (twoSiteGate m dtau b) (v b.s1) (v b.s2) =
        fun p q => a1 * a2 * calculateGate (heisenbergMatrix J) dtau (u b.s1, u b.s2) (p, q) := by
      funext p q
      rw [e1, e2, pairAfter_spins]
      unfold twoSiteGate
      rw [hH]
    rw [e] at hbest
    obtain ⟨k1, k2⟩ := spins_step J dtau ha1 ha2 hbest
    intro s hsc
    by_cases q1 : s = b.s1
    · rw [q1]
      exact k1
    by_cases q2 : s = b.s2
    · rw [q2]
      exact k2
    · rw [hoff s hsc q1 q2]
      exact hv s hsc

theorem spins_field (u : Site → Fin 2) (es : List (Evolution 1 2 ℝ))
    (hes : ∀ e ∈ es, ∃ J, (∀ b, e.model.two b = heisenbergMatrix J) ∧ ∀ s, e.model.one s = none) {bl : List Bond}
    (hbl : bl = buildBondList nx ny ∨ bl = (buildBondList nx ny).reverse) {v w : Site → Fin 2 → ℝ}
    (hv : UpToFactors nx ny (fun s => spinVec (u s)) v) (hs : MeanField nx ny es bl v w) : UpToFactors nx ny (fun s => spinVec (u s)) w := by
  induction es generalizing bl v with
  | nil =>
    intro s hsc
    obtain ⟨c, hc, e⟩ := hv s hsc
    exact ⟨c, hc, (hs s hsc).trans e⟩
  | cons e es ih =>
    obtain ⟨v', h1, h2⟩ := hs
    obtain ⟨J, m2, m1⟩ := hes e (by simp)
    have hbl' : listAfter e.steps bl = buildBondList nx ny ∨ listAfter e.steps bl = (buildBondList nx ny).reverse := by
      unfold listAfter
      split_ifs
      · exact hbl
      · rcases hbl with rfl | rfl
        · exact .inr rfl
        · exact .inl (List.reverse_reverse _)
    exact ih (fun e he => hes e (by simp [he])) hbl' (spins_run u m2 m1 e.dtau (fun b hb => bonds_of_list hbl b (mem_schedule hb)) hv h1) h2

theorem heisenberg_ok {params : PyDict String ℝ} {m : ModelTerms (Fin 2) ℝ} (h : Pauli.heisenbergTerms params = .ok m) :
    ∃ J, (∀ b, m.two b = heisenbergMatrix J) ∧ ∀ s, m.one s = none := by
  cases hJ : params.get? "J" with
  | none =>
    unfold Pauli.heisenbergTerms heisenbergTwoSite param at h
    rw [hJ] at h
    cases h
  | some J =>
    rw [(C114_heisenberg_terms hJ).1] at h
    rw [← Except.ok.inj h]
    exact ⟨J, fun _ => rfl, fun _ => rfl⟩

/-- The staggered sign of a bond of the Néel state of the cell: antiparallel bonds have `-1`. -/
def Spec.bondSign (b : Bond) : ℝ := if (b.s1.1 + b.s1.2) % 2 = (b.s2.1 + b.s2.2) % 2 then 1 else -1

theorem neel_spin (s : Site) : neel s = spinVec (if (s.1 + s.2) % 2 = 0 then 0 else 1) := by
  by_cases h : (s.1 + s.2) % 2 = 0
  · simp only [neel, h, if_true]
    funext p
    fin_cases p <;> simp [spinVec]
  · simp only [neel, h, if_false]
    funext p
    fin_cases p <;> simp [spinVec]

theorem pol_spin (i : Fin 2) : polX (spinVec i) = 0 ∧ polZ (spinVec i) = if i = 0 then 1 else -1 := by
  fin_cases i <;> simp [polX, polZ, spinVec]

/-- **C114 (Heisenberg model, the Néel state stays).** Real dtype, bond dimension one, cells from 2 × 2, the initial state of the built-in
Heisenberg model, any script whose calls of `evolve` use that model, with any couplings, signs included, and any time steps: `measure` returns
the values of the Néel state, `sz` is one, `sx` is zero and the energy is `J/4` for every parallel and `-J/4` for every antiparallel bond. -/
theorem C114_neel (hx : 2 ≤ nx) (hy : 2 ≤ ny) (M : Machine F 1 ℝ) (hM : M.cx = false) (hω : DrawsNonzero M.ω) {chi : ℕ} (hchi : 0 < chi)
    (A : Site → ATensor (Fin 1) (Fin 2) ℝ) (hA : ∀ s, InCell nx ny s → A s 0 0 0 0 = neel s) (cs : List (Call F 1 2 ℝ))
    (hcs : ∀ c ∈ cs, Sensible nx ny c ∧ KnownNames c) (hm : ∀ e ∈ evolutions cs, ∃ params, Pauli.heisenbergTerms params = .ok e.model)
    (hs : ∀ e ∈ evolutions cs, ∀ s, InCell nx ny s → e.start s 0 0 0 0 = neel s) (params : PyDict String ℝ) {J : ℝ}
    (hJ : params.get? "J" = some J) (init : Fin 2 → Fin 2 → Fin 2 → Fin 2 → ℝ) :
    ∃ model d, Pauli.heisenbergMeas params = .ok model ∧ Session.measure init model (runCatching M cs (new nx ny chi A)) = .ok d ∧
      d.get? "Energy" = some (J / 4 * ((buildBondList nx ny).map bondSign).sum / (nx * ny)) ∧ d.get? "sx" = some 0 ∧ d.get? "sz" = some 1 := by
  have hA0 : ∀ s, InCell nx ny s → A s ≠ 0 := fun s hsc => tensor_ne (hA s hsc) (by rw [neel_spin]; exact spinVec_ne _)
  obtain ⟨-, d, hd, hE, hO⟩ := measured_vectors hx hy M hM hω hchi A hA0 cs (fun c hc => (hcs c hc).1) _
    (heisenberg_clean (fun s => (s.1 + s.2) % 2 = 0) sigmaX sigmaZ (-sigmaX) (-sigmaZ)
    (fun _ => none) (fun _ k1 k2 b1 b2 => ((J / 4) • (sigmaX ⊗ₖ sigmaX - sigmaY ⊗ₖ sigmaY + sigmaZ ⊗ₖ sigmaZ)) (k1, k2) (b1, b2)) _ _) init
  have hf := spins_field (fun s => if (s.1 + s.2) % 2 = 0 then 0 else 1) (evolutions cs) (fun e he => by
      obtain ⟨p, hp⟩ := hm e he
      exact heisenberg_ok hp) (.inl rfl)
    (fun s hsc => ⟨1, one_ne_zero, by rw [one_smul, startVec_of A _ neel hA hs s hsc, neel_spin]⟩)
    (C111_refines hx hy M hM hω hchi A hA0 cs hcs)
  dsimp only at hd hE hO
  set v := siteVec (siteTensors (bare (runCatching M cs (new nx ny chi A)).net)) with hvdef
  have hpol : ∀ s, InCell nx ny s → polX (v s) = 0 ∧ polZ (v s) = if (s.1 + s.2) % 2 = 0 then 1 else -1 := fun s hsc => by
    obtain ⟨c, hc, e⟩ := hf s hsc
    rw [show v s = c • spinVec (if (s.1 + s.2) % 2 = 0 then 0 else 1) from e, (pol_smul _ hc).1, (pol_smul _ hc).2, (pol_spin _).1, (pol_spin _).2]
    refine ⟨rfl, ?_⟩
    split_ifs <;> simp_all
  refine ⟨_, d, (C114_heisenberg_terms hJ).2, hd, hE.trans (congrArg some ?_), (hO "sx" (by simp [PyDict.keys])).trans (congrArg some ?_),
    (hO "sz" (by simp [PyDict.keys])).trans (congrArg some ?_)⟩
  · unfold energyPerSite siteEnergy
    simp only [bondRatio_heisenberg, List.map_const', List.sum_replicate, smul_zero, zero_add]
    rw [site_count, ← List.sum_map_mul_left]
    refine congrArg₂ (· / ·) (congrArg List.sum (List.map_congr_left fun b hb => ?_)) rfl
    obtain ⟨c1, c2⟩ := bond_cell hb
    rw [(hpol _ c1).1, (hpol _ c1).2, (hpol _ c2).2]
    unfold bondSign
    have m1 := Nat.mod_two_eq_zero_or_one (b.s1.1 + b.s1.2)
    have m2 := Nat.mod_two_eq_zero_or_one (b.s2.1 + b.s2.2)
    rcases m1 with m1 | m1 <;> rcases m2 with m2 | m2 <;> simp [m1, m2]
  · refine site_list_const hx hy _ _ fun s hsc => ?_
    unfold contribution
    by_cases hp : (s.1 + s.2) % 2 = 0
    · simp only [if_pos hp]
      have e1 := siteRatio_x 1 v s
      rw [one_smul, one_mul, (hpol s hsc).1] at e1
      exact e1
    · simp only [if_neg hp]
      have e1 := siteRatio_x (-1) v s
      rw [neg_smul, one_smul, neg_mul, one_mul, (hpol s hsc).1, neg_zero] at e1
      exact e1
  · refine site_list_const hx hy _ _ fun s hsc => ?_
    unfold contribution
    by_cases hp : (s.1 + s.2) % 2 = 0
    · simp only [if_pos hp]
      have e1 := siteRatio_z 1 v s
      rw [one_smul, one_mul, (hpol s hsc).2, if_pos hp] at e1
      exact e1
    · simp only [if_neg hp]
      have e1 := siteRatio_z (-1) v s
      rw [neg_smul, one_smul, neg_mul, one_mul, (hpol s hsc).2, if_neg hp, neg_neg] at e1
      exact e1

/-- **C114 (Néel state, even cells).** In cells of even width and height that energy is `-J/2`, the lowest one of C114 if `J` is positive. -/
theorem C114_neel_even (hx : 2 ≤ nx) (hy : 2 ≤ ny) (ex : nx % 2 = 0) (ey : ny % 2 = 0) (M : Machine F 1 ℝ) (hM : M.cx = false)
    (hω : DrawsNonzero M.ω) {chi : ℕ} (hchi : 0 < chi) (A : Site → ATensor (Fin 1) (Fin 2) ℝ)
    (hA : ∀ s, InCell nx ny s → A s 0 0 0 0 = neel s) (cs : List (Call F 1 2 ℝ)) (hcs : ∀ c ∈ cs, Sensible nx ny c ∧ KnownNames c)
    (hm : ∀ e ∈ evolutions cs, ∃ params, Pauli.heisenbergTerms params = .ok e.model)
    (hs : ∀ e ∈ evolutions cs, ∀ s, InCell nx ny s → e.start s 0 0 0 0 = neel s) (params : PyDict String ℝ) {J : ℝ}
    (hJ : params.get? "J" = some J) (init : Fin 2 → Fin 2 → Fin 2 → Fin 2 → ℝ) :
    ∃ model d, Pauli.heisenbergMeas params = .ok model ∧ Session.measure init model (runCatching M cs (new nx ny chi A)) = .ok d ∧
      d.get? "Energy" = some (-J / 2) := by
  obtain ⟨model, d, h1, h2, h3, -⟩ := C114_neel hx hy M hM hω hchi A hA cs hcs hm hs params hJ init
  refine ⟨model, d, h1, h2, h3.trans (congrArg some ?_)⟩
  have hsign : ∀ b ∈ buildBondList nx ny, bondSign b = -1 := fun b hb =>
    if_neg ((neel_opposite _ _).1 (C56_neel_partial nx ny (by omega) (by omega) ex ey b hb))
  rw [List.map_congr_left hsign, List.map_const', List.sum_replicate, (C02_bond_list nx ny).1]
  have : (nx : ℝ) ≠ 0 := Nat.cast_ne_zero.2 (by omega)
  have : (ny : ℝ) ≠ 0 := Nat.cast_ne_zero.2 (by omega)
  simp only [nsmul_eq_mul]
  push_cast
  field_simp
  ring

/-! ### The hypotheses are met -/

/-- A script with both updates, from given tensors. -/
noncomputable def startScript (svd : String) (method : Als.Solver) (n : ℕ) (dtau : ℝ) (start : Site → ATensor (Fin 1) (Fin 2) ℝ)
    (m : ModelTerms (Fin 2) ℝ) : List (Call ℝ 1 2 ℝ) :=
  [.evolve (exampleConfig svd "full" method) ⟨dtau, n, m, start⟩, .setChi 4, .evolve (exampleConfig svd "simple" method) ⟨dtau, n, m, start⟩]

theorem startScript_ok (svd : String) (method : Als.Solver) (n : ℕ) (dtau : ℝ) (start : Site → ATensor (Fin 1) (Fin 2) ℝ)
    (hst : ∀ s, start s ≠ 0) (m : ModelTerms (Fin 2) ℝ) : ∀ c ∈ startScript svd method n dtau start m, Sensible nx ny c ∧ KnownNames c := by
  intro c hc
  simp only [startScript, List.mem_cons, List.not_mem_nil, or_false] at hc
  rcases hc with rfl | rfl | rfl
  · exact ⟨⟨(exampleConfig_ok _ _ _).1, fun _ => (exampleConfig_ok _ _ _).2, fun s _ => hst s⟩, .inl rfl, rfl⟩
  · exact ⟨Nat.succ_pos 3, trivial⟩
  · exact ⟨⟨(exampleConfig_ok _ _ _).1, fun _ => (exampleConfig_ok _ _ _).2, fun s _ => hst s⟩, .inl rfl, rfl⟩

/-- Non-vacuity: the Heisenberg model in its initial state, evolved with both updates. -/
example (hx : 2 ≤ nx) (hy : 2 ≤ ny) (ex : nx % 2 = 0) (ey : ny % 2 = 0) (la : Lapack ℝ) (fo : Als.FloatOps ℝ) (svd : String) (method : Als.Solver)
    (n : ℕ) (dtau J : ℝ) (init : Fin 2 → Fin 2 → Fin 2 → Fin 2 → ℝ) :
    let M : Machine ℝ 1 ℝ := ⟨la, fo, id, fun _ _ _ _ _ _ _ => 1, false⟩
    ∃ m model d, Pauli.heisenbergTerms [("J", J)] = .ok m ∧ Pauli.heisenbergMeas [("J", J)] = .ok model ∧
      Session.measure init model (runCatching M (startScript svd method n dtau (fun s _ _ _ _ => neel s) m) (new nx ny 3 fun s _ _ _ _ => neel s)) = .ok d ∧
      d.get? "Energy" = some (-J / 2) := by
  intro M
  have hJ : PyDict.get? [("J", J)] "J" = some J := by simp [PyDict.get?]
  have hst : ∀ s : Site, (fun _ _ _ _ => neel s : ATensor (Fin 1) (Fin 2) ℝ) ≠ 0 := fun s =>
    tensor_ne (u := neel s) rfl (by rw [neel_spin]; exact spinVec_ne _)
  obtain ⟨model, d, h1, h2, h3⟩ := C114_neel_even hx hy ex ey M rfl ones_drawn (Nat.succ_pos 2) (fun s _ _ _ _ => neel s) (fun _ _ => rfl)
    (startScript svd method n dtau (fun s _ _ _ _ => neel s) _) (startScript_ok _ _ _ _ _ hst _) (fun e he => by
      simp only [startScript, evolutions, List.mem_cons, List.not_mem_nil, or_false] at he
      rcases he with rfl | rfl
      · exact ⟨_, (C114_heisenberg_terms hJ).1⟩
      · exact ⟨_, (C114_heisenberg_terms hJ).1⟩) (fun e he => by
      simp only [startScript, evolutions, List.mem_cons, List.not_mem_nil, or_false] at he
      rcases he with rfl | rfl
      · exact fun _ _ => rfl
      · exact fun _ _ => rfl) [("J", J)] hJ init
  exact ⟨_, model, d, (C114_heisenberg_terms hJ).1, h1, h2, h3⟩

/-- Non-vacuity: spins in a field, evolved with both updates. -/
example (hx : 2 ≤ nx) (hy : 2 ≤ ny) (la : Lapack ℝ) (fo : Als.FloatOps ℝ) (svd : String) (method : Als.Solver)
    (n : ℕ) (dtau h : ℝ) (init : Fin 2 → Fin 2 → Fin 2 → Fin 2 → ℝ) :
    let M : Machine ℝ 1 ℝ := ⟨la, fo, id, fun _ _ _ _ _ _ _ => 1, false⟩
    ∃ m model d, Pauli.isingTerms [("jz", 0), ("hx", h)] = .ok m ∧ Pauli.isingMeas [("jz", 0), ("hx", h)] = .ok model ∧
      Session.measure init model (runCatching M (startScript svd method n dtau (fun _ _ _ _ _ => ![1, 0]) m) (new nx ny 3 fun _ _ _ _ _ => ![1, 0])) = .ok d ∧
      d.get? "Energy" = some (-h * Real.tanh (2 * h * (n * dtau + n * dtau))) := by
  intro M
  have hj : PyDict.get? [("jz", (0 : ℝ)), ("hx", h)] "jz" = some 0 := by simp [PyDict.get?]
  have hh : PyDict.get? [("jz", (0 : ℝ)), ("hx", h)] "hx" = some h := by simp [PyDict.get?]
  have hst : ∀ s : Site, (fun _ _ _ _ => ![1, 0] : ATensor (Fin 1) (Fin 2) ℝ) ≠ 0 := fun s =>
    tensor_ne (u := ![1, 0]) rfl fun h0 => one_ne_zero (α := ℝ) (congrFun h0 0)
  obtain ⟨model, d, h1, h2, h3, -⟩ := C114_paramagnet hx hy M rfl ones_drawn (Nat.succ_pos 2) (fun _ _ _ _ _ => ![1, 0]) (fun _ _ => rfl)
    (startScript svd method n dtau (fun _ _ _ _ _ => ![1, 0]) _) (startScript_ok _ _ _ _ _ hst _) [("jz", 0), ("hx", h)] hj hh (fun e he => by
      simp only [startScript, evolutions, List.mem_cons, List.not_mem_nil, or_false] at he
      rcases he with rfl | rfl
      · exact (C114_ising_terms hj hh).1
      · exact (C114_ising_terms hj hh).1) (fun e he => by
      simp only [startScript, evolutions, List.mem_cons, List.not_mem_nil, or_false] at he
      rcases he with rfl | rfl
      · exact fun _ _ => rfl
      · exact fun _ _ => rfl) init
  refine ⟨_, model, d, (C114_ising_terms hj hh).1, h1, h2, h3.trans ?_⟩
  simp only [startScript, evolutions, List.map_cons, List.map_nil, List.sum_cons, List.sum_nil, add_zero]

/-- Non-vacuity of the bounds: the same script; a field of half the critical one gives a bound below the energy of the ferromagnet. -/
example (hx : 2 ≤ nx) (hy : 2 ≤ ny) (la : Lapack ℝ) (fo : Als.FloatOps ℝ) (svd : String) (method : Als.Solver)
    (n : ℕ) (dtau : ℝ) (m : ModelTerms (Fin 2) ℝ) (init : Fin 2 → Fin 2 → Fin 2 → Fin 2 → ℝ) :
    let M : Machine ℝ 1 ℝ := ⟨la, fo, id, fun _ _ _ _ _ _ _ => 1, false⟩
    ∃ model d E, Pauli.isingMeas [("jz", 1), ("hx", 2)] = .ok model ∧
      Session.measure init model (runCatching M (startScript svd method n dtau (fun _ _ _ _ _ => ![1, 0]) m) (new nx ny 3 fun _ _ _ _ _ => ![1, 0])) = .ok d ∧
      d.get? "Energy" = some E ∧ -5 / 2 ≤ E := by
  intro M
  have hst : ∀ s : Site, (fun _ _ _ _ => ![1, 0] : ATensor (Fin 1) (Fin 2) ℝ) ≠ 0 := fun s =>
    tensor_ne (u := ![1, 0]) rfl fun h0 => one_ne_zero (α := ℝ) (congrFun h0 0)
  obtain ⟨model, d, E, mx, mz, h1, h2, h3, -, -, h4, -⟩ := C114_ising_bound hx hy M rfl ones_drawn (Nat.succ_pos 2) (fun _ _ _ _ _ => ![1, 0])
    (fun s _ => hst s) (startScript svd method n dtau (fun _ _ _ _ _ => ![1, 0]) m) (fun c hc => (startScript_ok _ _ _ _ _ hst _ c hc).1)
    [("jz", 1), ("hx", 2)] (jz := 1) (h := 2) (by simp [PyDict.get?]) (by simp [PyDict.get?]) init
  refine ⟨model, d, E, h1, h2, h3, le_trans (le_of_eq ?_) h4⟩
  norm_num [isingMeanField]

end AceTN
