import Verif.Model.Gate
import Verif.Lemmas.LatticeSum
import Mathlib.Algebra.BigOperators.GroupWithZero.Action
import Mathlib.Tactic.Module
import Mathlib.Tactic.NoncommRing

/-!
Property C04: the generators exponentiated by `evolve` add up to the measured Hamiltonian.
-/

set_option autoImplicit false

namespace AceTN
open Spec Finset
open scoped Kronecker

variable {P : Type*} [Fintype P] [DecidableEq P] {𝕜 : Type*} [RCLike 𝕜]

/-- A way of placing local operators on the lattice: `site s h` is "operator `h` acting at `s`",
`pair b H` is "operator `H` acting on the two ends of the bond `b`", with values in any vector space
(operators on the torus, formal sums, expectation values in some state, …).  The two laws say that
acting trivially on one end of a bond is acting on the other one alone. -/
structure Placement (nx ny : ℕ) (P 𝕜 M : Type*) [Fintype P] [DecidableEq P] [RCLike 𝕜] [AddCommGroup M]
    [Module 𝕜 M] where
  site : Site → Matrix P P 𝕜 →ₗ[𝕜] M
  pair : Bond → Matrix (P × P) (P × P) 𝕜 →ₗ[𝕜] M
  pair_left : ∀ b ∈ buildBondList nx ny, ∀ h, pair b (h ⊗ₖ (1 : Matrix P P 𝕜)) = site b.s1 h
  pair_right : ∀ b ∈ buildBondList nx ny, ∀ h, pair b ((1 : Matrix P P 𝕜) ⊗ₖ h) = site b.s2 h

variable {M : Type*} [AddCommGroup M] [Module 𝕜 M]

/-- Specification: the Hamiltonian of the unit cell — every two-site term once on its bond and every
one-site term once on its site (`None` contributes nothing).  This is also the list of terms whose
expectation values `measure` adds up (measure.py 31-68). -/
noncomputable def Spec.cellHamiltonian (nx ny : ℕ) (pl : Placement nx ny P 𝕜 M) (m : ModelTerms P 𝕜) : M :=
  ((buildBondList nx ny).map fun b => pl.pair b (m.two b)).sum
    + ((buildSiteList nx ny).map fun s => ((m.one s).map (pl.site s)).getD 0).sum

/-- The sum of all generators exponentiated in one evolution step. -/
noncomputable def Spec.evolvedHamiltonian (nx ny : ℕ) (pl : Placement nx ny P 𝕜 M) (m : ModelTerms P 𝕜) : M :=
  ((buildBondList nx ny).map fun b => pl.pair b (bondHam m b)).sum

theorem pair_bondHam (nx ny : ℕ) (pl : Placement nx ny P 𝕜 M) (m : ModelTerms P 𝕜) (b : Bond)
    (hb : b ∈ buildBondList nx ny) :
    pl.pair b (bondHam m b) = pl.pair b (m.two b)
      + ((if (m.one b.s2).isSome then (0.25 : 𝕜) • ((m.one b.s1).map (pl.site b.s1)).getD 0 else 0)
       + (if (m.one b.s1).isSome then (0.25 : 𝕜) • ((m.one b.s2).map (pl.site b.s2)).getD 0 else 0)) := by
  unfold bondHam
  cases h1 : m.one b.s1 <;> cases h2 : m.one b.s2 <;>
    simp [map_add, map_smul, pl.pair_left b hb, pl.pair_right b hb]

/-- **C04 (general form, holds for every model).** What `evolve` exponentiates in one step is the cell
Hamiltonian with each one-site term weighted by the fraction of its four neighbours that also carry a
one-site term. -/
theorem C04_evolved_hamiltonian_partial (nx ny : ℕ) (pl : Placement nx ny P 𝕜 M) (m : ModelTerms P 𝕜) :
    evolvedHamiltonian nx ny pl m
      = ((buildBondList nx ny).map fun b => pl.pair b (m.two b)).sum
        + ((buildSiteList nx ny).map fun s =>
            ∑ d ∈ range 4, if (m.one (neighbour nx ny s d)).isSome
              then (0.25 : 𝕜) • ((m.one s).map (pl.site s)).getD 0 else 0).sum := by
  unfold evolvedHamiltonian
  rw [← sum_bond_ends nx ny fun s s' => if (m.one s').isSome
      then (0.25 : 𝕜) • ((m.one s).map (pl.site s)).getD 0 else 0]
  rw [← List.sum_map_add]
  congr 1
  refine List.map_congr_left fun b hb => ?_
  rw [pair_bondHam nx ny pl m b hb]

theorem neighbour_inCell {nx ny : ℕ} {s : Site} (hs : InCell nx ny s) (d : ℕ) :
    InCell nx ny (neighbour nx ny s d) := by
  obtain ⟨hx, hy⟩ := hs
  have hnx : 0 < nx := by omega
  have hny : 0 < ny := by omega
  unfold neighbour InCell
  split <;> constructor <;>
    simp only [int_mod_toNat_succ, int_mod_toNat_pred _ _ hnx, int_mod_toNat_pred _ _ hny] <;>
    first | exact Nat.mod_lt _ hnx | exact Nat.mod_lt _ hny | assumption

/-- **C04.** If the model gives a one-site term on every site of the cell, or on none, then the
generators exponentiated in one evolution step add up to exactly the cell Hamiltonian that `measure`
uses, for every lattice size and every placement.

Missing from the English claim: models that return `None` on some sites only; for those it is false,
see `C04_violated_mixed_terms`. -/
theorem C04_evolved_eq_measured_partial (nx ny : ℕ) (pl : Placement nx ny P 𝕜 M) (m : ModelTerms P 𝕜)
    (h : (∀ s, InCell nx ny s → (m.one s).isSome) ∨ (∀ s, InCell nx ny s → m.one s = none)) :
    evolvedHamiltonian nx ny pl m = cellHamiltonian nx ny pl m := by
  rw [C04_evolved_hamiltonian_partial, cellHamiltonian]
  congr 1
  congr 1
  refine List.map_congr_left fun s hs => ?_
  rw [mem_buildSiteList] at hs
  rcases h with h | h
  · have : ∀ d, (m.one (neighbour nx ny s d)).isSome = true := fun d => h _ (neighbour_inCell hs d)
    simp only [this, if_true, Finset.sum_const, Finset.card_range]
    rw [← Nat.cast_smul_eq_nsmul 𝕜, smul_smul]
    norm_num
  · simp [h s hs]

/-- Placement on a one-dimensional physical space: operators are numbers and add up. -/
noncomputable def trivialPlacement (nx ny : ℕ) : Placement nx ny (Fin 1) ℝ ℝ where
  site _ := { toFun := fun h => h 0 0, map_add' := fun _ _ => rfl, map_smul' := fun _ _ => rfl }
  pair _ := { toFun := fun h => h (0, 0) (0, 0), map_add' := fun _ _ => rfl, map_smul' := fun _ _ => rfl }
  pair_left _ _ h := by show h 0 0 * (1 : Matrix (Fin 1) (Fin 1) ℝ) 0 0 = h 0 0; simp
  pair_right _ _ h := by show (1 : Matrix (Fin 1) (Fin 1) ℝ) 0 0 * h 0 0 = h 0 0; simp

/-- The trace placement on any physical space: `site s h = tr h`, `pair s s' H = tr H / dim`. -/
noncomputable def tracePlacement (nx ny n : ℕ) [NeZero n] : Placement nx ny (Fin n) ℂ ℂ where
  site _ := Matrix.traceLinearMap (Fin n) ℂ ℂ
  pair _ := (n : ℂ)⁻¹ • Matrix.traceLinearMap (Fin n × Fin n) ℂ ℂ
  pair_left _ _ h := by
    have : (n : ℂ) ≠ 0 := Nat.cast_ne_zero.2 (NeZero.ne n)
    simp [Matrix.trace_kronecker, mul_comm (Matrix.trace h), this]
  pair_right _ _ h := by
    have : (n : ℂ) ≠ 0 := Nat.cast_ne_zero.2 (NeZero.ne n)
    simp [Matrix.trace_kronecker, this]

/-- A model with a field on one site only: `one_site_hamiltonian` returns an operator at `(0,0)` and
`None` elsewhere, e.g. an impurity or a sublattice field written in the style the base class allows. -/
noncomputable def impurityModel : ModelTerms (Fin 1) ℝ where
  two _ := 0
  one s := if s = (0, 0) then some 1 else none

/-- **C04 is violated** for models with a one-site term on some sites only: on a 2 × 2 cell the field at
site `(0,0)` is part of the measured Hamiltonian but is never evolved with. -/
theorem C04_violated_mixed_terms :
    evolvedHamiltonian 2 2 (trivialPlacement 2 2) impurityModel = 0 ∧
      cellHamiltonian 2 2 (trivialPlacement 2 2) impurityModel = 1 := by
  constructor
  · rw [C04_evolved_hamiltonian_partial]
    simp [buildBondList, horizontalBonds, verticalBonds, buildSiteList, List.range_succ,
      impurityModel, trivialPlacement, neighbour, Finset.sum_range_succ]
  · simp [cellHamiltonian, buildBondList, horizontalBonds, verticalBonds, buildSiteList,
      List.range_succ, impurityModel, trivialPlacement]
    show (1 : Matrix (Fin 1) (Fin 1) ℝ) 0 0 = 1
    simp

/-- Non-vacuity of `C04_evolved_eq_measured_partial`: a uniform field on a 2 × 3 cell. -/
example : (∀ s, InCell 2 3 s → ((⟨fun _ => 1, fun _ => some 1⟩ : ModelTerms (Fin 2) ℂ).one s).isSome) ∧
    Nonempty (Placement 2 3 (Fin 2) ℂ ℂ) :=
  ⟨fun _ _ => rfl, ⟨tracePlacement 2 3 2⟩⟩

end AceTN
