import Verif.Model.BuiltIn
import Verif.Props.FreeSession
import Mathlib.Analysis.SpecialFunctions.Trigonometric.DerivHyp

/-! C114: the built-in models at bond dimension one, from the parameters to the numbers `measure` returns. -/

set_option autoImplicit false
set_option linter.unusedSectionVars false

namespace AceTN
open Matrix Spec NormedSpace Full Session Pauli
open scoped Matrix.Norms.L2Operator Kronecker

variable {F : Type} {nx ny : ℕ}

namespace Spec

/-- The Pauli matrix `σx`. -/
def sigmaX : Matrix (Fin 2) (Fin 2) ℝ := !![0, 1; 1, 0]

/-- The Pauli matrix `σz`. -/
def sigmaZ : Matrix (Fin 2) (Fin 2) ℝ := !![1, 0; 0, -1]

/-- The Pauli matrix `σy` divided by the imaginary unit. -/
def sigmaY : Matrix (Fin 2) (Fin 2) ℝ := !![0, -1; 1, 0]

/-- The lowest energy per site of product states of the transverse-field Ising model on the square lattice. -/
noncomputable def isingMeanField (jz hx : ℝ) : ℝ := if |hx| ≤ 4 * |jz| then -(2 * |jz| + hx ^ 2 / (8 * |jz|)) else -|hx|

/-- The expectation values of `σx` and `σz` in a vector. -/
noncomputable def polX (v : Fin 2 → ℝ) : ℝ := 2 * v 0 * v 1 / (v 0 ^ 2 + v 1 ^ 2)
noncomputable def polZ (v : Fin 2 → ℝ) : ℝ := (v 0 ^ 2 - v 1 ^ 2) / (v 0 ^ 2 + v 1 ^ 2)

end Spec

/-! ### The terms -/

/-- **C114 (terms).** The terms the built-in models hand to `evolve`, and the operators they hand to `measure`. -/
theorem C114_ising_terms {params : PyDict String ℝ} {jz hx : ℝ} (hj : params.get? "jz" = some jz) (hh : params.get? "hx" = some hx) :
    isingTerms params = .ok ⟨fun _ => (-jz) • (sigmaZ ⊗ₖ sigmaZ), fun _ => some ((-hx) • sigmaX)⟩ ∧
      isingMeas params = .ok
        { one_site_observables := fun _ => [("sx", sigmaX), ("sz", sigmaZ)], two_site_observables := fun _ => []
          one_site_hamiltonian := fun _ => some ((-hx) • sigmaX)
          two_site_hamiltonian := fun _ k1 k2 b1 b2 => ((-jz) • (sigmaZ ⊗ₖ sigmaZ)) (k1, k2) (b1, b2) } := by
  have e1 : siteOp (smul (-hx) (X : PM ℝ 1)).mat = (-hx) • sigmaX := rfl
  have e2 : bondOp (Pauli.mul false (smul (-jz) (Z : PM ℝ 1)) Z).mat = (-jz) • (sigmaZ ⊗ₖ sigmaZ) := by
    ext ⟨a, b⟩ ⟨c, d⟩
    fin_cases a <;> fin_cases b <;> fin_cases c <;> fin_cases d <;>
      simp [bondOp, Pauli.mul, Pauli.smul, Z, kron, Pauli.one, sigmaZ, Fin.castAdd, Fin.natAdd, List.count]
  constructor
  · unfold isingTerms isingOneSite isingTwoSite param
    rw [hj, hh, ← e1, ← e2]
    rfl
  · unfold isingMeas isingOneSite isingTwoSite param
    rw [hj, hh, ← e1, ← e2]
    rfl

theorem C114_heisenberg_terms {params : PyDict String ℝ} {J : ℝ} (hJ : params.get? "J" = some J) :
    heisenbergTerms params = .ok ⟨fun _ => (J / 4) • (sigmaX ⊗ₖ sigmaX - sigmaY ⊗ₖ sigmaY + sigmaZ ⊗ₖ sigmaZ), fun _ => none⟩ ∧
      heisenbergMeas params = .ok
        { one_site_observables := fun s => if (s.1 + s.2) % 2 = 0 then [("sx", sigmaX), ("sz", sigmaZ)] else [("sx", -sigmaX), ("sz", -sigmaZ)]
          two_site_observables := fun _ => [], one_site_hamiltonian := fun _ => none
          two_site_hamiltonian := fun _ k1 k2 b1 b2 =>
            ((J / 4) • (sigmaX ⊗ₖ sigmaX - sigmaY ⊗ₖ sigmaY + sigmaZ ⊗ₖ sigmaZ)) (k1, k2) (b1, b2) } := by
  have e2 : bondOp (Pauli.smul (0.25 * J) (Pauli.add (Pauli.add (Pauli.mul false (X : PM ℝ 1) X) (Pauli.mul false (Y false) (Y false))) (Pauli.mul false Z Z))).mat =
      (J / 4) • (sigmaX ⊗ₖ sigmaX - sigmaY ⊗ₖ sigmaY + sigmaZ ⊗ₖ sigmaZ) := by
    ext ⟨a, b⟩ ⟨c, d⟩
    fin_cases a <;> fin_cases b <;> fin_cases c <;> fin_cases d <;>
      simp [bondOp, Pauli.mul, Pauli.smul, Pauli.add, X, Y, Z, kron, Pauli.one, sigmaX, sigmaY, sigmaZ, Fin.castAdd, Fin.natAdd, List.count] <;> ring
  constructor
  · unfold heisenbergTerms heisenbergTwoSite param
    rw [hJ, ← e2]
    rfl
  · unfold heisenbergMeas heisenbergTwoSite param
    rw [hJ, ← e2]
    simp only [Except.map, bind, Except.bind, pure, Except.pure, Except.ok.injEq, MeasModel.mk.injEq, and_true]
    funext s
    unfold heisenbergObservables
    split_ifs <;> rfl

/-! ### Values in product states -/

/-- The value of an operator on a site. -/
noncomputable def siteRatio (v : Site → Fin 2 → ℝ) (x : Site) (O : Fin 2 → Fin 2 → ℝ) : ℝ := qform (Matrix.of O)ᵀ (v x) / normSq (v x)

/-- The value of an operator on a bond. -/
noncomputable def bondRatio (v : Site → Fin 2 → ℝ) (b : Bond) (O : Fin 2 → Fin 2 → Fin 2 → Fin 2 → ℝ) : ℝ :=
  qform (Matrix.of fun i j : Fin 2 × Fin 2 => O i.1 i.2 j.1 j.2)ᵀ (fun p => v b.s1 p.1 * v b.s2 p.2) /
    normSq fun p : Fin 2 × Fin 2 => v b.s1 p.1 * v b.s2 p.2

theorem measured_of_mean (hx : 2 ≤ nx) (hy : 2 ≤ ny) {s : State 1 2 ℝ} (hs : MeanState nx ny s)
    (model : MeasModel (Fin 2 → Fin 2 → ℝ) (Fin 2 → Fin 2 → Fin 2 → Fin 2 → ℝ))
    (hcl : Meas.Clean model (buildSiteList nx ny) (buildBondList nx ny)) (init : Fin 2 → Fin 2 → Fin 2 → Fin 2 → ℝ) :
    let v := siteVec (siteTensors (bare s.net))
    (∀ x, InCell nx ny x → v x ≠ 0) ∧ ∃ d, Session.measure init model s = .ok d ∧
      d.get? "Energy" = some (energyPerSite model (siteRatio v) (bondRatio v) (buildSiteList nx ny) (buildBondList nx ny)) ∧
      ∀ name ∈ (model.one_site_observables (0, 0)).keys,
        d.get? name = some (average (buildSiteList nx ny) (contribution model.one_site_observables (siteRatio v) name)) := by
  intro v
  have hx0 : 0 < nx := by omega
  have hy0 : 0 < ny := by omega
  have hval := hs.values hx0 hy0
  dsimp only at hval
  obtain ⟨r1, r2, e1, e2⟩ := rdms_exist hx0 hy0 s hs.sound init
  obtain ⟨d, hd, hE, hO, -⟩ := measure_of_rdms hx0 hy0 s hs.sound init model hcl r1 r2 e1 e2
  have k1 : ∀ x ∈ buildSiteList nx ny, ∀ o, measureOneSite (r1 x) o / siteNorm (r1 x) = siteRatio v x o := by
    intro x hxl o
    rw [mem_buildSiteList] at hxl
    have h' := (hval x hxl).2.1 (Matrix.of o)
    unfold siteVal at h'
    rw [e1 x hxl] at h'
    exact Except.ok.inj h'
  have k2 : ∀ b ∈ buildBondList nx ny, ∀ o, measureTwoSite (r2 b) o / bondNorm (r2 b) = bondRatio v b o := by
    intro b hb o
    obtain ⟨i1, i2, i3⟩ := ((C02_bond_list nx ny).2.2 b).1 hb
    have hk4 : b.k < 4 := by omega
    have h := (hval b.s1 i1).2.2 ⟨b.k, hk4⟩ init (Matrix.of fun i j : Fin 2 × Fin 2 => o i.1 i.2 j.1 j.2)
    dsimp only at h
    rw [← i3] at h
    unfold bondVal at h
    rw [show (⟨b.s1, b.s2, b.k⟩ : Bond) = b from rfl, e2 b hb] at h
    exact Except.ok.inj h
  refine ⟨fun x hx => (hval x hx).1, d, hd, hE.trans ?_, fun name hn => (hO name hn).trans ?_⟩
  · unfold energyPerSite
    refine congrArg some (congrArg₂ (· / ·) (congrArg₂ (· + ·) (congrArg List.sum (List.map_congr_left fun x hxl => ?_))
      (congrArg List.sum (List.map_congr_left fun b hb => k2 b hb _))) rfl)
    unfold siteEnergy
    cases model.one_site_hamiltonian x with
    | none => rfl
    | some h => exact k1 x hxl h
  · unfold average
    refine congrArg some (congrArg₂ (· / ·) (congrArg List.sum (List.map_congr_left fun x hxl => ?_)) rfl)
    unfold contribution
    cases (model.one_site_observables x).get? name with
    | none => rfl
    | some o => exact k1 x hxl o

theorem measured_vectors (hx : 2 ≤ nx) (hy : 2 ≤ ny) (M : Machine F 1 ℝ) (hM : M.cx = false) (hω : DrawsNonzero M.ω) {chi : ℕ} (hchi : 0 < chi)
    (A : Site → ATensor (Fin 1) (Fin 2) ℝ) (hA : ∀ s, InCell nx ny s → A s ≠ 0) (cs : List (Call F 1 2 ℝ)) (hcs : ∀ c ∈ cs, Sensible nx ny c)
    (model : MeasModel (Fin 2 → Fin 2 → ℝ) (Fin 2 → Fin 2 → Fin 2 → Fin 2 → ℝ))
    (hcl : Meas.Clean model (buildSiteList nx ny) (buildBondList nx ny)) (init : Fin 2 → Fin 2 → Fin 2 → Fin 2 → ℝ) :
    let s := runCatching M cs (new nx ny chi A)
    let v := siteVec (siteTensors (bare s.net))
    (∀ x, InCell nx ny x → v x ≠ 0) ∧ ∃ d, Session.measure init model s = .ok d ∧
      d.get? "Energy" = some (energyPerSite model (siteRatio v) (bondRatio v) (buildSiteList nx ny) (buildBondList nx ny)) ∧
      ∀ name ∈ (model.one_site_observables (0, 0)).keys,
        d.get? name = some (average (buildSiteList nx ny) (contribution model.one_site_observables (siteRatio v) name)) := by
  exact measured_of_mean hx hy (mean_run hx hy M hM hω cs hcs _ (mean_new (by omega) (by omega) hchi A hA)) model hcl init

theorem normSq_two (v : Fin 2 → ℝ) : normSq v = v 0 ^ 2 + v 1 ^ 2 := by
  simp [normSq, Fin.sum_univ_two]

theorem normSq_two_pos {v : Fin 2 → ℝ} (hv : v ≠ 0) : 0 < v 0 ^ 2 + v 1 ^ 2 := by
  rw [← normSq_two]
  exact normSq_pos hv

theorem siteRatio_x (c : ℝ) (v : Site → Fin 2 → ℝ) (x : Site) : siteRatio v x (c • sigmaX) = c * polX (v x) := by
  unfold siteRatio polX
  rw [show Matrix.of (c • sigmaX) = c • sigmaX from rfl, normSq_two, ← mul_div_assoc]
  congr 1
  simp [qform, Fin.sum_univ_two, sigmaX]
  ring

theorem siteRatio_z (c : ℝ) (v : Site → Fin 2 → ℝ) (x : Site) : siteRatio v x (c • sigmaZ) = c * polZ (v x) := by
  unfold siteRatio polZ
  rw [show Matrix.of (c • sigmaZ) = c • sigmaZ from rfl, normSq_two, ← mul_div_assoc]
  congr 1
  simp [qform, Fin.sum_univ_two, sigmaZ]
  ring

theorem bondRatio_ising (c : ℝ) (v : Site → Fin 2 → ℝ) (b : Bond) :
    bondRatio v b (fun k1 k2 b1 b2 => (c • (sigmaZ ⊗ₖ sigmaZ)) (k1, k2) (b1, b2)) = c * (polZ (v b.s1) * polZ (v b.s2)) := by
  unfold bondRatio polZ
  rw [normSq_pair, normSq_two, normSq_two, div_mul_div_comm, ← mul_div_assoc]
  congr 1
  simp [qform, Fintype.sum_prod_type, Fin.sum_univ_two, sigmaZ]
  ring

theorem bondRatio_heisenberg (c : ℝ) (v : Site → Fin 2 → ℝ) (b : Bond) :
    bondRatio v b (fun k1 k2 b1 b2 => (c • (sigmaX ⊗ₖ sigmaX - sigmaY ⊗ₖ sigmaY + sigmaZ ⊗ₖ sigmaZ)) (k1, k2) (b1, b2)) =
      c * (polX (v b.s1) * polX (v b.s2) + polZ (v b.s1) * polZ (v b.s2)) := by
  unfold bondRatio polX polZ
  rw [normSq_pair, normSq_two, normSq_two, div_mul_div_comm, div_mul_div_comm, ← add_div, ← mul_div_assoc]
  congr 1
  simp [qform, Fintype.sum_prod_type, Fin.sum_univ_two, sigmaX, sigmaY, sigmaZ]
  ring

theorem pol_circle {v : Fin 2 → ℝ} (hv : v ≠ 0) : polX v ^ 2 + polZ v ^ 2 = 1 := by
  have h := (normSq_two_pos hv).ne'
  unfold polX polZ
  field_simp
  ring

theorem pol_smul (v : Fin 2 → ℝ) {c : ℝ} (hc : c ≠ 0) : polX (c • v) = polX v ∧ polZ (c • v) = polZ v := by
  unfold polX polZ
  simp only [Pi.smul_apply, smul_eq_mul]
  constructor
  · rw [← mul_div_mul_left (2 * v 0 * v 1) (v 0 ^ 2 + v 1 ^ 2) (pow_ne_zero 2 hc)]
    congr 1 <;> ring
  · rw [← mul_div_mul_left (v 0 ^ 2 - v 1 ^ 2) (v 0 ^ 2 + v 1 ^ 2) (pow_ne_zero 2 hc)]
    congr 1 <;> ring

theorem ising_clean (o1 o2 : Fin 2 → Fin 2 → ℝ) (h1 : Site → Option (Fin 2 → Fin 2 → ℝ)) (h2 : Bond → Fin 2 → Fin 2 → Fin 2 → Fin 2 → ℝ)
    (sites : List Site) (bonds : List Bond) : Meas.Clean ⟨fun _ => [("sx", o1), ("sz", o2)], fun _ => [], h1, h2⟩ sites bonds :=
  ⟨fun _ => by simp [PyDict.keys], fun _ => by simp [PyDict.keys], fun _ _ _ => Iff.rfl, fun _ _ _ _ _ => Iff.rfl, by simp [PyDict.keys],
    fun _ _ => by simp [PyDict.keys], fun _ _ _ _ => by simp [PyDict.keys]⟩

theorem heisenberg_clean (p : Site → Prop) [DecidablePred p] (o1 o2 o3 o4 : Fin 2 → Fin 2 → ℝ) (h1 : Site → Option (Fin 2 → Fin 2 → ℝ))
    (h2 : Bond → Fin 2 → Fin 2 → Fin 2 → Fin 2 → ℝ) (sites : List Site) (bonds : List Bond) :
    Meas.Clean ⟨fun s => if p s then [("sx", o1), ("sz", o2)] else [("sx", o3), ("sz", o4)], fun _ => [], h1, h2⟩ sites bonds := by
  have h : ∀ s, PyDict.keys (if p s then [("sx", o1), ("sz", o2)] else [("sx", o3), ("sz", o4)]) = ["sx", "sz"] := fun s => by
    split_ifs <;> rfl
  refine ⟨fun s => ?_, fun _ => by simp [PyDict.keys], fun s _ name => ?_, fun _ _ _ _ _ => Iff.rfl, ?_, fun _ _ => by simp [PyDict.keys],
    fun _ _ _ _ => by simp [PyDict.keys]⟩
  · dsimp only
    rw [h]
    simp
  · dsimp only
    rw [h, h]
  · dsimp only
    rw [h]
    simp

end AceTN
