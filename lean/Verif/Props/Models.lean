import Verif.Spec.Models
import Verif.Props.Pauli
import Verif.Lemmas.Lattice
import Mathlib.LinearAlgebra.Matrix.Hermitian

/-!
C26: the built-in Hamiltonians.  C56: the Neel state.
-/

set_option autoImplicit false

namespace AceTN.Pauli

open AceTN.Pauli.Spec

/-- `0.25*J*(…)` and the other bodies as expressions. -/
noncomputable def heisenbergExpr (J : ℝ) : Expr 2 :=
  .smul (0.25 * J) (.add (.add (.mul .X .X) (.mul .Y .Y)) (.mul .Z .Z))

noncomputable def isingSiteExpr (hx : ℝ) : Expr 1 := .smul (-hx) .X

noncomputable def isingBondExpr (jz : ℝ) : Expr 2 := .mul (.smul (-jz) .Z) .Z

theorem kron_smul_smul {m n : ℕ} (a b : ℂ) (A : Mat ℂ m) (B : Mat ℂ n) :
    kron (a • A) (b • B) = (a * b) • kron A B := by
  ext i j; simp only [kron, Matrix.smul_apply, smul_eq_mul]; ring

theorem den_heisenberg (J : ℝ) : den (heisenbergExpr J) = heisenbergBond J := by
  simp only [heisenbergExpr, den, heisenbergBond, tensor_eq_kron, Sx, Sy, Sz, kron_smul_smul]
  ext i j
  simp only [Matrix.smul_apply, Matrix.add_apply, smul_eq_mul]
  push_cast
  ring

theorem den_isingSite (hx : ℝ) : den (isingSiteExpr hx) = isingSite hx := by
  simp [isingSiteExpr, den, isingSite]

theorem den_isingBond (jz : ℝ) : den (isingBondExpr jz) = isingBond jz := by
  simp only [isingBondExpr, den, isingBond, tensor_eq_kron]
  ext i j
  simp [kron, mul_assoc]

theorem real_of_even {n : ℕ} (e : Expr n) (h : EvenSums e) (hp : countY e % 2 = 0) :
    toComplex (eval (𝕜 := ℝ) false e).mat = den e := by
  rw [real_factor e h]; simp [factor, hp]

/-- **C26** (Ising, site term): `-hx X` in both kinds of dtype. -/
theorem C26_ising_site (params : PyDict String ℝ) (hx : ℝ) (h : params.get? "hx" = some hx) :
    (∃ H : PM ℂ 1, isingOneSite params = .ok H ∧ H.mat = isingSite hx) ∧
    (∃ H : PM ℝ 1, isingOneSite params = .ok H ∧ toComplex H.mat = isingSite hx) := by
  refine ⟨⟨eval true (isingSiteExpr hx), ?_, ?_⟩, ⟨eval false (isingSiteExpr hx), ?_, ?_⟩⟩
  · simp [isingOneSite, param, h, isingSiteExpr, eval, Except.map]
  · rw [C25_complex, den_isingSite]
  · simp [isingOneSite, param, h, isingSiteExpr, eval, Except.map]
  · rw [real_of_even _ (by simp [isingSiteExpr, EvenSums]) (by simp [isingSiteExpr, countY]), den_isingSite]

/-- **C26** (Ising, bond term): `-jz Z ⊗ Z` in both kinds of dtype. -/
theorem C26_ising_bond (params : PyDict String ℝ) (jz : ℝ) (h : params.get? "jz" = some jz) :
    (∃ H : PM ℂ 2, isingTwoSite true params = .ok H ∧ H.mat = isingBond jz) ∧
    (∃ H : PM ℝ 2, isingTwoSite false params = .ok H ∧ toComplex H.mat = isingBond jz) := by
  refine ⟨⟨eval true (isingBondExpr jz), ?_, ?_⟩, ⟨eval false (isingBondExpr jz), ?_, ?_⟩⟩
  · simp [isingTwoSite, param, h, isingBondExpr, eval, Except.map]
  · rw [C25_complex, den_isingBond]
  · simp [isingTwoSite, param, h, isingBondExpr, eval, Except.map]
  · rw [real_of_even _ (by simp [isingBondExpr, EvenSums]) (by simp [isingBondExpr, countY]), den_isingBond]

/-- **C26** (Heisenberg): `J (SxSx + SySy + SzSz)` in both kinds of dtype. -/
theorem C26_heisenberg (params : PyDict String ℝ) (J : ℝ) (h : params.get? "J" = some J) :
    (∃ H : PM ℂ 2, heisenbergTwoSite true params = .ok H ∧ H.mat = heisenbergBond J) ∧
    (∃ H : PM ℝ 2, heisenbergTwoSite false params = .ok H ∧ toComplex H.mat = heisenbergBond J) := by
  refine ⟨⟨eval true (heisenbergExpr J), ?_, ?_⟩, ⟨eval false (heisenbergExpr J), ?_, ?_⟩⟩
  · simp [heisenbergTwoSite, param, h, heisenbergExpr, eval, Except.map]
  · rw [C25_complex, den_heisenberg]
  · simp [heisenbergTwoSite, param, h, heisenbergExpr, eval, Except.map]
  · rw [real_of_even _ (by simp [heisenbergExpr, EvenSums, countY]) (by simp [heisenbergExpr, countY]),
      den_heisenberg]

/-- A configuration with both Ising couplings and one with the Heisenberg coupling. -/
example : PyDict.get? [("jz", (1 : ℝ)), ("hx", 2.5)] "hx" = some 2.5 ∧
    PyDict.get? [("jz", (1 : ℝ)), ("hx", 2.5)] "jz" = some 1 ∧ PyDict.get? [("J", (3 : ℝ))] "J" = some 3 := by
  refine ⟨?_, ?_, ?_⟩ <;> simp [PyDict.get?]

/-- **C26** (Heisenberg): the bond term is `J/4 (2 SWAP - 1)`. -/
theorem C26_heisenberg_swap (J : ℝ) :
    heisenbergBond J = ((J : ℂ) / 4) • ((2 : ℂ) • swap - 1) := by
  simp only [heisenbergBond, tensor_eq_kron, Sx, Sy, Sz, kron_smul_smul]
  ext i j
  have h1 : (1 : Mat ℂ 2) i j = if i 0 = j 0 ∧ i 1 = j 1 then 1 else 0 := by
    rw [Matrix.one_apply]
    congr 1
    rw [eq_iff_iff]
    constructor
    · rintro rfl; exact ⟨rfl, rfl⟩
    · rintro ⟨ha, hb⟩; funext a; fin_cases a
      · exact ha
      · exact hb
  simp only [Matrix.smul_apply, Matrix.add_apply, Matrix.sub_apply, smul_eq_mul, h1, swap, kron, σx, σy, σz, one]
  change _ * (_ * (_ * _) + _ * (_ * _) + _ * (_ * _)) = _
  have e0 : Fin.castAdd 1 (0 : Fin 1) = (0 : Fin 2) := rfl
  have e1 : Fin.natAdd 1 (0 : Fin 1) = (1 : Fin 2) := rfl
  rw [e0, e1]
  generalize i 0 = a
  generalize j 0 = b
  generalize i 1 = c
  generalize j 1 = d
  fin_cases a <;> fin_cases b <;> fin_cases c <;> fin_cases d <;> simp <;> ring

/-- **C26**: all terms are Hermitian. -/
theorem C26_hermitian (hx jz J : ℝ) :
    Matrix.IsHermitian (isingSite hx) ∧ Matrix.IsHermitian (isingBond jz) ∧ Matrix.IsHermitian (heisenbergBond J) := by
  refine ⟨?_, ?_, ?_⟩
  · ext i j
    simp only [Matrix.conjTranspose_apply, isingSite, Matrix.neg_apply, Matrix.smul_apply, σx, one]
    generalize i 0 = a
    generalize j 0 = b
    fin_cases a <;> fin_cases b <;> simp
  · ext i j
    simp only [Matrix.conjTranspose_apply, isingBond, Matrix.neg_apply, Matrix.smul_apply, tensor_eq_kron, kron,
      σz, one]
    generalize i (Fin.castAdd 1 0) = a
    generalize j (Fin.castAdd 1 0) = b
    generalize i (Fin.natAdd 1 (0 : Fin 1)) = c
    generalize j (Fin.natAdd 1 (0 : Fin 1)) = d
    fin_cases a <;> fin_cases b <;> fin_cases c <;> fin_cases d <;> simp
  · rw [C26_heisenberg_swap]
    ext i j
    simp only [Matrix.conjTranspose_apply, Matrix.smul_apply, Matrix.sub_apply, swap, Matrix.one_apply]
    have h2 : (j 0 = i 1 ∧ j 1 = i 0) = (i 0 = j 1 ∧ i 1 = j 0) := by
      rw [eq_iff_iff]; constructor <;> rintro ⟨h1, h2⟩ <;> exact ⟨h2.symm, h1.symm⟩
    simp only [h2]
    by_cases h : i = j
    · subst h; simp [apply_ite]
    · rw [if_neg h, if_neg (Ne.symm h)]; split_ifs <;> simp

/-- **C26 fails** for omitted couplings: without `J` the Heisenberg model raises instead of using `J = 1`. -/
theorem C26_violated_default : ¬ DefaultJ := by
  intro h
  obtain ⟨H, h1, -⟩ := h [] rfl
  simp [heisenbergTwoSite, param, PyDict.get?, Except.map] at h1

/-! ### C56 -/

theorem neel_opposite (s t : ℕ × ℕ) : Opposite (neel s) (neel t) ↔ (s.1 + s.2) % 2 ≠ (t.1 + t.2) % 2 := by
  have h01 : (![1, 0] : Fin 2 → ℝ) ≠ ![0, 1] := by
    intro h; have := congrFun h 0; simp at this
  unfold Opposite neel
  rcases Nat.mod_two_eq_zero_or_one (s.1 + s.2) with h1 | h1 <;>
  rcases Nat.mod_two_eq_zero_or_one (t.1 + t.2) with h2 | h2 <;>
  simp [h1, h2, h01, h01.symm]

/-- **C56**.  The Heisenberg initial state is antiferromagnetic on every bond exactly for cells of even width and
height. -/
theorem C56_neel_iff (nx ny : ℕ) (hx : 0 < nx) (hy : 0 < ny) :
    (∀ b ∈ buildBondList nx ny, Opposite (neel b.s1) (neel b.s2)) ↔ (nx % 2 = 0 ∧ ny % 2 = 0) := by
  simp only [neel_opposite]
  constructor
  · intro h
    constructor
    · have hm : (⟨(nx - 1, 0), ((nx - 1 + 1) % nx, 0), 2⟩ : Bond) ∈ buildBondList nx ny := by
        refine List.mem_append_left _ ?_
        simp only [horizontalBonds, List.mem_flatMap, List.mem_map, List.mem_range]
        exact ⟨nx - 1, by omega, 0, hy, rfl⟩
      have := h _ hm
      rw [show nx - 1 + 1 = nx by omega, Nat.mod_self] at this
      simp at this
      omega
    · have hm : (⟨(0, ny - 1), (0, (ny - 1 + 1) % ny), 1⟩ : Bond) ∈ buildBondList nx ny := by
        refine List.mem_append_right _ ?_
        simp only [verticalBonds, List.mem_flatMap, List.mem_map, List.mem_range]
        exact ⟨ny - 1, by omega, 0, hx, rfl⟩
      have := h _ hm
      rw [show ny - 1 + 1 = ny by omega, Nat.mod_self] at this
      simp at this
      omega
  · rintro ⟨h1, h2⟩ b hb
    rcases List.mem_append.1 hb with hb | hb
    · simp only [horizontalBonds, List.mem_flatMap, List.mem_map, List.mem_range] at hb
      obtain ⟨x, hx', y, hy', rfl⟩ := hb
      rcases Nat.lt_or_ge (x + 1) nx with hc | hc
      · simp only [Nat.mod_eq_of_lt hc]; omega
      · have : x + 1 = nx := by omega
        simp only [this, Nat.mod_self]; omega
    · simp only [verticalBonds, List.mem_flatMap, List.mem_map, List.mem_range] at hb
      obtain ⟨y, hy', x, hx', rfl⟩ := hb
      rcases Nat.lt_or_ge (y + 1) ny with hc | hc
      · simp only [Nat.mod_eq_of_lt hc]; omega
      · have : y + 1 = ny := by omega
        simp only [this, Nat.mod_self]; omega

/-- **C56 fails** for some lattice sizes: a 3 by 2 cell has a bond with equal states at its ends. -/
theorem C56_violated : ¬ ∀ nx ny : ℕ, 0 < nx → 0 < ny →
    ∀ b ∈ buildBondList nx ny, Opposite (neel b.s1) (neel b.s2) := by
  intro h
  have := (C56_neel_iff 3 2 (by omega) (by omega)).1 (h 3 2 (by omega) (by omega))
  omega

/-- **C56** in the documented 2 by 2 cell and all other even cells.  Missing for the full claim: cells of odd width
or height, where it fails. -/
theorem C56_neel_partial (nx ny : ℕ) (hx : 0 < nx) (hy : 0 < ny) (ex : nx % 2 = 0) (ey : ny % 2 = 0) :
    ∀ b ∈ buildBondList nx ny, Opposite (neel b.s1) (neel b.s2) :=
  (C56_neel_iff nx ny hx hy).2 ⟨ex, ey⟩

/-- The hypotheses are met by the 2 by 4 cell, which has bonds. -/
example : 0 < 2 ∧ 0 < 4 ∧ 2 % 2 = 0 ∧ 4 % 2 = 0 ∧ buildBondList 2 4 ≠ [] := by decide

/-- **C56**, as seen by the model's own observables: in the initial state the staggered magnetisation reported as
`sz` is `1` at every site of every lattice. -/
theorem C56_staggered (site : ℕ × ℕ) :
    ∃ O : PM ℝ 1, (heisenbergObservables site).get? "sz" = some O ∧
      ∑ i : Fin 2, ∑ j : Fin 2, neel site i * O.mat (fun _ => i) (fun _ => j) * neel site j = 1 := by
  unfold heisenbergObservables neel
  rcases Nat.mod_two_eq_zero_or_one (site.1 + site.2) with h | h
  · simp [h, PyDict.get?, Z, one, Fin.sum_univ_two]
  · simp [h, PyDict.get?, Z, neg, one, Fin.sum_univ_two]

end AceTN.Pauli
