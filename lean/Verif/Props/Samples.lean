import Verif.Lemmas.Samples
import Mathlib.Tactic.IntervalCases
import Mathlib.Tactic.Linarith
import Mathlib.LinearAlgebra.Matrix.Kronecker

/-!
C69: the sample models are the transverse-field Ising models on the honeycomb and kagome lattices, and the compass
model on the square lattice.
-/

set_option autoImplicit false

namespace AceTN.Pauli

open AceTN.Pauli.Spec
open scoped Kronecker

variable {𝕜 : Type} [RCLike 𝕜]

/-! ### The lattices -/

/-- **C69** (honeycomb geometry).  The spins of all cells sit at distinct points, and together they fill the honeycomb
lattice: the triangular lattice without every third point. -/
theorem C69_honeycomb_lattice :
    (∀ c c' i i', honeycombPos c i = honeycombPos c' i' → c = c' ∧ i = i') ∧
    (∀ p, OnHoneycomb p ↔ ∃ c i, honeycombPos c i = p) := by
  constructor
  · rintro ⟨x, y⟩ ⟨x', y'⟩ i i' h
    fin_cases i <;> fin_cases i' <;> simp [honeycombPos, Prod.ext_iff] at h ⊢ <;> omega
  · rintro ⟨a, b⟩
    constructor
    · intro h
      unfold OnHoneycomb at h
      dsimp only at h
      rcases (by omega : (a - b) % 3 = 0 ∨ (a - b) % 3 = 1) with h | h
      · refine ⟨((a - b) / 3, -b - (a - b) / 3), 0, ?_⟩
        simp [honeycombPos, Prod.ext_iff]; omega
      · refine ⟨((a - b) / 3, -b - (a - b) / 3), 1, ?_⟩
        simp [honeycombPos, Prod.ext_iff]; omega
    · rintro ⟨⟨x, y⟩, i, h⟩
      unfold OnHoneycomb
      fin_cases i <;> simp [honeycombPos, Prod.ext_iff] at h ⊢ <;> omega

/-- **C69** (kagome geometry).  The spins of all cells sit at distinct points, and together they fill the kagome
lattice: the triangular lattice without every fourth point. -/
theorem C69_kagome_lattice :
    (∀ c c' i i', kagomePos c i = kagomePos c' i' → c = c' ∧ i = i') ∧
    (∀ p, OnKagome p ↔ ∃ c i, kagomePos c i = p) := by
  constructor
  · rintro ⟨x, y⟩ ⟨x', y'⟩ i i' h
    fin_cases i <;> fin_cases i' <;> simp [kagomePos, Prod.ext_iff] at h ⊢ <;> omega
  · rintro ⟨a, b⟩
    constructor
    · intro h
      unfold OnKagome at h
      dsimp only at h
      rcases (by omega : (a % 2 = 1 ∧ b % 2 = 1) ∨ (a % 2 = 0 ∧ b % 2 = 0) ∨ (a % 2 = 1 ∧ b % 2 = 0))
        with h | h | h
      · refine ⟨((a + b) / 2, b / 2), 0, ?_⟩
        simp [kagomePos, Prod.ext_iff]; omega
      · refine ⟨((a + b) / 2, b / 2), 1, ?_⟩
        simp [kagomePos, Prod.ext_iff]; omega
      · refine ⟨((a + b) / 2, b / 2), 2, ?_⟩
        simp [kagomePos, Prod.ext_iff]; omega
    · rintro ⟨⟨x, y⟩, i, h⟩
      unfold OnKagome
      fin_cases i <;> simp [kagomePos, Prod.ext_iff] at h ⊢ <;> omega

/-- Short vectors of the triangular lattice. -/
theorem norm_one_bound {a b : ℤ} (h : a * a + a * b + b * b = 1) : -1 ≤ a ∧ a ≤ 1 ∧ -1 ≤ b ∧ b ≤ 1 := by
  refine ⟨?_, ?_, ?_, ?_⟩ <;> by_contra hc <;>
    nlinarith [sq_nonneg (a + 2 * b), sq_nonneg (2 * a + b)]

/-- **C69** (nothing is missing, honeycomb).  Nearest neighbours lie in one cell or in cells joined by a bond of the
tensor network. -/
theorem C69_honeycomb_complete (c c' : ℤ × ℤ) (i j : Fin 2) (h : dist2 (honeycombPos c i) (honeycombPos c' j) = 1) :
    c' = c ∨ ∃ k < 4, c' = step c k := by
  have h' := norm_one_bound h
  obtain ⟨x, y⟩ := c
  obtain ⟨x', y'⟩ := c'
  suffices hs : (x' = x ∧ y' = y) ∨ (x' = x - 1 ∧ y' = y) ∨ (x' = x ∧ y' = y + 1) ∨ (x' = x + 1 ∧ y' = y) ∨
      (x' = x ∧ y' = y - 1) by
    rcases hs with ⟨rfl, rfl⟩ | ⟨rfl, rfl⟩ | ⟨rfl, rfl⟩ | ⟨rfl, rfl⟩ | ⟨rfl, rfl⟩
    · exact .inl rfl
    · exact .inr ⟨0, by norm_num, rfl⟩
    · exact .inr ⟨1, by norm_num, rfl⟩
    · exact .inr ⟨2, by norm_num, rfl⟩
    · exact .inr ⟨3, by norm_num, rfl⟩
  unfold dist2 at h
  generalize ha : (honeycombPos (x, y) i).1 - (honeycombPos (x', y') j).1 = a at h h'
  generalize hb : (honeycombPos (x, y) i).2 - (honeycombPos (x', y') j).2 = b at h h'
  obtain ⟨h1, h2, h3, h4⟩ := h'
  interval_cases a <;> interval_cases b <;> norm_num at h <;>
    fin_cases i <;> fin_cases j <;> simp [honeycombPos] at ha hb <;> omega

/-- **C69** (nothing is missing, kagome). -/
theorem C69_kagome_complete (c c' : ℤ × ℤ) (i j : Fin 3) (h : dist2 (kagomePos c i) (kagomePos c' j) = 1) :
    c' = c ∨ ∃ k < 4, c' = step c k := by
  have h' := norm_one_bound h
  obtain ⟨x, y⟩ := c
  obtain ⟨x', y'⟩ := c'
  suffices hs : (x' = x ∧ y' = y) ∨ (x' = x - 1 ∧ y' = y) ∨ (x' = x ∧ y' = y + 1) ∨ (x' = x + 1 ∧ y' = y) ∨
      (x' = x ∧ y' = y - 1) by
    rcases hs with ⟨rfl, rfl⟩ | ⟨rfl, rfl⟩ | ⟨rfl, rfl⟩ | ⟨rfl, rfl⟩ | ⟨rfl, rfl⟩
    · exact .inl rfl
    · exact .inr ⟨0, by norm_num, rfl⟩
    · exact .inr ⟨1, by norm_num, rfl⟩
    · exact .inr ⟨2, by norm_num, rfl⟩
    · exact .inr ⟨3, by norm_num, rfl⟩
  unfold dist2 at h
  generalize ha : (kagomePos (x, y) i).1 - (kagomePos (x', y') j).1 = a at h h'
  generalize hb : (kagomePos (x, y) i).2 - (kagomePos (x', y') j).2 = b at h h'
  obtain ⟨h1, h2, h3, h4⟩ := h'
  interval_cases a <;> interval_cases b <;> norm_num at h <;>
    fin_cases i <;> fin_cases j <;> simp [kagomePos] at ha hb <;> omega

theorem dist2_add (p q o : Point) : dist2 (p + o) (q + o) = dist2 p q := by
  simp [dist2]

theorem honeycombPos_shift (c d : ℤ × ℤ) (i : Fin 2) :
    honeycombPos (d + c) i = honeycombPos d i + (2 * c.1 - c.2, -c.1 - c.2) := by
  fin_cases i <;> simp [honeycombPos, Prod.ext_iff] <;> constructor <;> ring

theorem kagomePos_shift (c d : ℤ × ℤ) (i : Fin 3) :
    kagomePos (d + c) i = kagomePos d i + (2 * c.1 - 2 * c.2, 2 * c.2) := by
  fin_cases i <;> simp [kagomePos, Prod.ext_iff] <;> constructor <;> ring

theorem step_shift (c : ℤ × ℤ) (k : ℕ) : step c k = step 0 k + c := by
  unfold step
  split <;> simp [Prod.ext_iff] <;> ring

theorem honeycomb_dist_shift (c : ℤ × ℤ) (k : ℕ) (i j : Fin 2) :
    dist2 (honeycombPos c i) (honeycombPos (step c k) j) = dist2 (honeycombPos 0 i) (honeycombPos (step 0 k) j) := by
  rw [step_shift, ← dist2_add (honeycombPos 0 i), ← honeycombPos_shift, ← honeycombPos_shift, zero_add]

theorem honeycomb_dist_cell (c : ℤ × ℤ) (i j : Fin 2) :
    dist2 (honeycombPos c i) (honeycombPos c j) = dist2 (honeycombPos 0 i) (honeycombPos 0 j) := by
  rw [← dist2_add (honeycombPos 0 i), ← honeycombPos_shift, ← honeycombPos_shift, zero_add]

theorem kagome_dist_shift (c : ℤ × ℤ) (k : ℕ) (i j : Fin 3) :
    dist2 (kagomePos c i) (kagomePos (step c k) j) = dist2 (kagomePos 0 i) (kagomePos (step 0 k) j) := by
  rw [step_shift, ← dist2_add (kagomePos 0 i), ← kagomePos_shift, ← kagomePos_shift, zero_add]

theorem kagome_dist_cell (c : ℤ × ℤ) (i j : Fin 3) :
    dist2 (kagomePos c i) (kagomePos c j) = dist2 (kagomePos 0 i) (kagomePos 0 j) := by
  rw [← dist2_add (kagomePos 0 i), ← kagomePos_shift, ← kagomePos_shift, zero_add]

/-! ### The operators -/

theorem smul_diagonal' {n : ℕ} (a : 𝕜) (f : (Fin n → Fin 2) → 𝕜) :
    a • (Matrix.diagonal f : Mat 𝕜 n) = Matrix.diagonal fun s => a * f s := by
  ext s t
  by_cases h : s = t <;> simp [h]

/-- A double sum over the pairs that satisfy a condition. -/
theorem sum_pairs {n : ℕ} {M : Type*} [AddCommMonoid M] (P : Fin n → Fin n → Prop) [∀ i j, Decidable (P i j)]
    (f : Fin n → Fin n → M) (S : Finset (Fin n × Fin n)) (h : ∀ i j, P i j ↔ (i, j) ∈ S) :
    ∑ i, ∑ j, (if P i j then f i j else 0) = ∑ p ∈ S, f p.1 p.2 := by
  rw [← Finset.sum_product', Finset.univ_product_univ, ← Finset.sum_filter]
  congr 1
  ext p
  simp [h]

theorem cast_neg' (a : ℝ) : (((-a : ℝ)) : 𝕜) = -(a : 𝕜) := by push_cast; rfl

/-- **C69** (honeycomb, site term).  One site of the network carries the Ising coupling of the two spins of its cell,
if they are nearest neighbours, and the transverse field on both. -/
theorem C69_honeycomb_site (cx : Bool) (params : PyDict String ℝ) (jz hx : ℝ) (hj : params.get? "jz" = some jz)
    (hh : params.get? "hx" = some hx) (c : ℤ × ℤ) :
    ∃ H : PM 𝕜 2, honeycombOneSite cx params = .ok H ∧ H.mat = cellIsing (honeycombPos c) jz hx := by
  refine ⟨_, by simp only [honeycombOneSite, param, hj, hh]; rfl, ?_⟩
  simp only [cellIsing, honeycomb_dist_cell, sub, smul, add]
  rw [mul_mat _ _ _ (by simp [Z]), mul_mat _ _ _ (by simp [X]), mul_mat _ _ _ (by simp [I]),
    sum_pairs _ _ {(0, 1)} (by decide)]
  simp only [Z_mat, I_mat, X_mat, smul_diagonal', kron_diagonal, kron_xAt_left, kron_xAt_right,
    Finset.sum_singleton, zzAt, Fin.sum_univ_two, Matrix.diagonal_neg, mul_assoc, neg_mul, cast_neg']
  rfl

/-- **C69** (honeycomb, bond terms).  A bond of the network in any of the four directions carries exactly the Ising
couplings of the nearest neighbours in the two cells it joins. -/
theorem C69_honeycomb_bond (cx : Bool) (params : PyDict String ℝ) (jz : ℝ) (hj : params.get? "jz" = some jz)
    (s1 s2 : Site) (k : ℕ) (hk : k < 4) (c : ℤ × ℤ) :
    ∃ H : PM 𝕜 (2 + 2), honeycombTwoSite cx params ⟨s1, s2, k⟩ = .ok (some H) ∧
      H.mat = bondIsing (honeycombPos c) (honeycombPos (step c k)) jz := by
  interval_cases k
  · refine ⟨_, by simp only [honeycombTwoSite, bondDirection, PyDict.get?, param, hj]; rfl, ?_⟩
    simp only [bondIsing, honeycomb_dist_shift]
    rw [mul_mat _ _ _ (by simp [mul_key, smul, Z, I]), sum_pairs _ _ {(0, 1)} (by decide)]
    simp only [smul]
    rw [mul_mat _ _ _ (by simp [Z]), mul_mat _ _ _ (by simp [I])]
    simp only [Z_mat, I_mat, smul_diagonal', kron_diagonal, Finset.sum_singleton, zzAt, Matrix.diagonal_neg,
      mul_assoc, neg_mul, cast_neg', one_mul, mul_one]
    rfl
  · refine ⟨_, by simp only [honeycombTwoSite, bondDirection, PyDict.get?, param, hj]; rfl, ?_⟩
    simp only [bondIsing, honeycomb_dist_shift]
    rw [mul_mat _ _ _ (by simp [mul_key, smul, Z, I]), sum_pairs _ _ {(0, 1)} (by decide)]
    simp only [smul]
    rw [mul_mat _ _ _ (by simp [Z]), mul_mat _ _ _ (by simp [I])]
    simp only [Z_mat, I_mat, smul_diagonal', kron_diagonal, Finset.sum_singleton, zzAt, Matrix.diagonal_neg,
      mul_assoc, neg_mul, cast_neg', one_mul, mul_one]
    rfl
  · refine ⟨_, by simp only [honeycombTwoSite, bondDirection, PyDict.get?, param, hj]; rfl, ?_⟩
    simp only [bondIsing, honeycomb_dist_shift]
    rw [mul_mat _ _ _ (by simp [mul_key, smul, Z, I]), sum_pairs _ _ {(1, 0)} (by decide)]
    simp only [smul]
    rw [mul_mat _ _ _ (by simp [I]), mul_mat _ _ _ (by simp [Z])]
    simp only [Z_mat, I_mat, smul_diagonal', kron_diagonal, Finset.sum_singleton, zzAt, Matrix.diagonal_neg,
      mul_assoc, neg_mul, cast_neg', one_mul, mul_one]
    rfl
  · refine ⟨_, by simp only [honeycombTwoSite, bondDirection, PyDict.get?, param, hj]; rfl, ?_⟩
    simp only [bondIsing, honeycomb_dist_shift]
    rw [mul_mat _ _ _ (by simp [mul_key, smul, Z, I]), sum_pairs _ _ {(1, 0)} (by decide)]
    simp only [smul]
    rw [mul_mat _ _ _ (by simp [I]), mul_mat _ _ _ (by simp [Z])]
    simp only [Z_mat, I_mat, smul_diagonal', kron_diagonal, Finset.sum_singleton, zzAt, Matrix.diagonal_neg,
      mul_assoc, neg_mul, cast_neg', one_mul, mul_one]
    rfl

/-- Products of three one-spin operators. -/
theorem mul3_mat (cx : Bool) (a b c : PM 𝕜 1) (ha : a.key.count 'Y' = 0) (hb : b.key.count 'Y' = 0) :
    (mul3 cx a b c).mat = kron (kron a.mat b.mat) c.mat := by
  unfold mul3
  rw [mul_mat _ _ _ (by simp [mul_key, ha, hb]), mul_mat _ _ _ ha]

theorem mul3_key (cx : Bool) (a b c : PM 𝕜 1) : (mul3 cx a b c).key = a.key ++ b.key ++ c.key := rfl

theorem X_key : ((X : PM 𝕜 1).key).count 'Y' = 0 := by simp [X]
theorem Z_key : ((Z : PM 𝕜 1).key).count 'Y' = 0 := by simp [Z]
theorem I_key : ((I : PM 𝕜 1).key).count 'Y' = 0 := by simp [I]

/-- **C69** (kagome, site term). -/
theorem C69_kagome_site (cx : Bool) (params : PyDict String ℝ) (jz hx : ℝ) (hj : params.get? "jz" = some jz)
    (hh : params.get? "hx" = some hx) (c : ℤ × ℤ) :
    ∃ H : PM 𝕜 3, kagomeOneSite cx params = .ok H ∧ H.mat = cellIsing (kagomePos c) jz hx := by
  refine ⟨_, by simp only [kagomeOneSite, param, hj, hh]; rfl, ?_⟩
  simp only [cellIsing, kagome_dist_cell, sub, smul, add]
  rw [sum_pairs _ _ {(1, 2), (0, 1)} (by decide)]
  simp only [mul3_mat, X_key, Z_key, I_key]
  simp only [Z_mat, I_mat, X_mat, kron_diagonal, kron_xAt_left, kron_xAt_right,
    zzAt, Fin.sum_univ_three, cast_neg', one_mul, mul_one]
  rw [Finset.sum_pair (by decide), neg_smul]
  rfl

/-- **C69** (kagome, bond terms). -/
theorem C69_kagome_bond (cx : Bool) (params : PyDict String ℝ) (jz : ℝ) (hj : params.get? "jz" = some jz)
    (s1 s2 : Site) (k : ℕ) (hk : k < 4) (c : ℤ × ℤ) :
    ∃ H : PM 𝕜 (3 + 3), kagomeTwoSite cx params ⟨s1, s2, k⟩ = .ok (some H) ∧
      H.mat = bondIsing (kagomePos c) (kagomePos (step c k)) jz := by
  interval_cases k
  · refine ⟨_, by simp only [kagomeTwoSite, bondDirection, PyDict.get?, param, hj]; rfl, ?_⟩
    simp only [bondIsing, kagome_dist_shift, sub]
    rw [mul_mat _ _ _ (by simp [mul3_key, smul, Z, I]), mul_mat _ _ _ (by simp [mul3_key, smul, Z, I]),
      sum_pairs _ _ {(0, 2), (1, 2)} (by decide), Finset.sum_pair (by decide)]
    simp only [smul, mul3_mat, Z_key, I_key]
    simp only [Z_mat, I_mat, smul_diagonal', kron_diagonal, zzAt, Matrix.diagonal_neg, Matrix.diagonal_add,
      Matrix.diagonal_sub, mul_assoc, neg_mul, cast_neg', one_mul, mul_one]
    congr 1
    funext i
    rw [mul_add, neg_add, sub_eq_add_neg]
    rfl
  · refine ⟨_, by simp only [kagomeTwoSite, bondDirection, PyDict.get?, param, hj]; rfl, ?_⟩
    simp only [bondIsing, kagome_dist_shift, sub]
    rw [mul_mat _ _ _ (by simp [mul3_key, smul, Z, I]), mul_mat _ _ _ (by simp [mul3_key, smul, Z, I]),
      sum_pairs _ _ {(0, 1), (0, 2)} (by decide), Finset.sum_pair (by decide)]
    simp only [smul, mul3_mat, Z_key, I_key]
    simp only [Z_mat, I_mat, smul_diagonal', kron_diagonal, zzAt, Matrix.diagonal_neg, Matrix.diagonal_add,
      Matrix.diagonal_sub, mul_assoc, neg_mul, cast_neg', one_mul, mul_one]
    congr 1
    funext i
    rw [mul_add, neg_add, sub_eq_add_neg]
    rfl
  · refine ⟨_, by simp only [kagomeTwoSite, bondDirection, PyDict.get?, param, hj]; rfl, ?_⟩
    simp only [bondIsing, kagome_dist_shift, sub]
    rw [mul_mat _ _ _ (by simp [mul3_key, smul, Z, I]), mul_mat _ _ _ (by simp [mul3_key, smul, Z, I]),
      sum_pairs _ _ {(2, 0), (2, 1)} (by decide), Finset.sum_pair (by decide)]
    simp only [smul, mul3_mat, Z_key, I_key]
    simp only [Z_mat, I_mat, smul_diagonal', kron_diagonal, zzAt, Matrix.diagonal_neg, Matrix.diagonal_add,
      Matrix.diagonal_sub, mul_assoc, neg_mul, cast_neg', one_mul, mul_one]
    congr 1
    funext i
    rw [mul_add, neg_add, sub_eq_add_neg]
    rfl
  · refine ⟨_, by simp only [kagomeTwoSite, bondDirection, PyDict.get?, param, hj]; rfl, ?_⟩
    simp only [bondIsing, kagome_dist_shift, sub]
    rw [mul_mat _ _ _ (by simp [mul3_key, smul, Z, I]), mul_mat _ _ _ (by simp [mul3_key, smul, Z, I]),
      sum_pairs _ _ {(1, 0), (2, 0)} (by decide), Finset.sum_pair (by decide)]
    simp only [smul, mul3_mat, Z_key, I_key]
    simp only [Z_mat, I_mat, smul_diagonal', kron_diagonal, zzAt, Matrix.diagonal_neg, Matrix.diagonal_add,
      Matrix.diagonal_sub, mul_assoc, neg_mul, cast_neg', one_mul, mul_one]
    congr 1
    funext i
    rw [mul_add, neg_add, sub_eq_add_neg]
    rfl

/-- **C69** (unknown directions).  For any other direction number the sample models return `None`. -/
theorem C69_unknown_direction (cx : Bool) (params : PyDict String ℝ) (s1 s2 : Site) (k : ℕ) (hk : 4 ≤ k) :
    honeycombTwoSite (𝕜 := 𝕜) cx params ⟨s1, s2, k⟩ = .ok none ∧
    kagomeTwoSite (𝕜 := 𝕜) cx params ⟨s1, s2, k⟩ = .ok none ∧
    compassTwoSite (𝕜 := 𝕜) cx params ⟨s1, s2, k⟩ = .ok none := by
  have h : bondDirection ⟨s1, s2, k⟩ = none := by
    simp only [bondDirection, PyDict.get?]
    rw [if_neg (by omega), if_neg (by omega), if_neg (by omega), if_neg (by omega)]
  simp [honeycombTwoSite, kagomeTwoSite, compassTwoSite, h, pure, Except.pure]

/-! ### Observables -/

/-- **C69** (honeycomb observables): the magnetisations of the single spins and their sums. -/
theorem C69_honeycomb_observables (cx : Bool) :
    (honeycombObservables (𝕜 := 𝕜) cx).map (fun p => (p.1, p.2.mat)) =
      [("mag_x(A)", xAt 0), ("mag_x(B)", xAt 1), ("mag_z(A)", zAt 0), ("mag_z(B)", zAt 1),
       ("mag_x", ∑ i, xAt i), ("mag_z", ∑ i, zAt i)] := by
  simp only [honeycombObservables, List.map, add]
  rw [mul_mat _ _ _ X_key, mul_mat _ _ _ I_key, mul_mat _ _ _ Z_key, mul_mat _ _ _ I_key]
  simp only [Z_mat, I_mat, X_mat, kron_diagonal, kron_xAt_left, kron_xAt_right, zAt, Fin.sum_univ_two, one_mul, mul_one]
  rfl

/-- **C69** (kagome observables): the magnetisations of the single spins and their averages over the cell. -/
theorem C69_kagome_observables (cx : Bool) :
    (kagomeObservables (𝕜 := 𝕜) cx).map (fun p => (p.1, p.2.mat)) =
      [("mag_x(A)", xAt 0), ("mag_x(B)", xAt 1), ("mag_x(C)", xAt 2),
       ("mag_z(A)", zAt 0), ("mag_z(B)", zAt 1), ("mag_z(C)", zAt 2),
       ("mx", (((3 : ℝ) : 𝕜))⁻¹ • ∑ i, xAt i), ("mz", (((3 : ℝ) : 𝕜))⁻¹ • ∑ i, zAt i)] := by
  simp only [kagomeObservables, List.map, add, div, mul3_mat, X_key, Z_key, I_key]
  simp only [Z_mat, I_mat, X_mat, kron_diagonal, kron_xAt_left, kron_xAt_right, zAt, Fin.sum_univ_three,
    one_mul, mul_one]
  rfl

/-! ### Compass model -/

theorem kron_eq_submatrix {m n : ℕ} (A : Mat 𝕜 m) (B : Mat 𝕜 n) :
    kron A B = (A ⊗ₖ B).submatrix (Fin.appendEquiv m n).symm (Fin.appendEquiv m n).symm := by
  ext s t; rfl

/-- Placing two one-spin operators side by side is the product of the placed operators. -/
theorem kron_eq_mul {m n : ℕ} (A : Mat 𝕜 m) (B : Mat 𝕜 n) :
    kron A B = kron A (Matrix.diagonal fun _ => 1) * kron (Matrix.diagonal fun _ => 1) B := by
  rw [kron_eq_submatrix, kron_eq_submatrix, kron_eq_submatrix, Matrix.submatrix_mul_equiv,
    ← Matrix.mul_kronecker_mul, Matrix.diagonal_one, Matrix.diagonal_one, mul_one, one_mul]

theorem zzAt_eq {n : ℕ} (i j : Fin n) : (zzAt i j : Mat 𝕜 n) = zAt i * zAt j := by
  rw [zAt, zAt, Matrix.diagonal_mul_diagonal]; rfl

theorem kron_zAt_left {m n : ℕ} (i : Fin m) :
    kron (zAt i) (Matrix.diagonal fun _ => 1 : Mat 𝕜 n) = zAt (Fin.castAdd n i) := by
  rw [zAt, kron_diagonal]; simp only [mul_one]; rfl

theorem kron_zAt_right {m n : ℕ} (i : Fin n) :
    kron (Matrix.diagonal fun _ => 1 : Mat 𝕜 m) (zAt i) = zAt (Fin.natAdd m i) := by
  rw [zAt, kron_diagonal]; simp only [one_mul]; rfl

theorem Z_mat' : (Z : PM 𝕜 1).mat = zAt 0 := Z_mat

theorem kron_smul_left {m n : ℕ} (a : 𝕜) (A : Mat 𝕜 m) (B : Mat 𝕜 n) : kron (a • A) B = a • kron A B := by
  ext s t; simp only [kron, Matrix.smul_apply, smul_eq_mul, mul_assoc]

theorem kron_neg_left {m n : ℕ} (A : Mat 𝕜 m) (B : Mat 𝕜 n) : kron (-A) B = -kron A B := by
  ext s t; simp only [kron, Matrix.neg_apply, neg_mul]

/-- **C69** (compass model).  The field acts on every spin; horizontal bonds couple the `x` components, vertical bonds
the `z` components, whichever way the bond is traversed. -/
theorem C69_compass (cx : Bool) (params : PyDict String ℝ) (jx jz hx hz : ℝ) (h1 : params.get? "jx" = some jx)
    (h2 : params.get? "jz" = some jz) (h3 : params.get? "hx" = some hx) (h4 : params.get? "hz" = some hz)
    (s1 s2 : Site) :
    (∃ H : PM 𝕜 1, compassOneSite params = .ok H ∧ H.mat = -((hx : 𝕜) • xAt 0) - (hz : 𝕜) • zAt 0) ∧
    (∀ k, k = 0 ∨ k = 2 → ∃ H : PM 𝕜 (1 + 1), compassTwoSite cx params ⟨s1, s2, k⟩ = .ok (some H) ∧
      H.mat = -((jx : 𝕜) • (xAt 0 * xAt 1))) ∧
    (∀ k, k = 1 ∨ k = 3 → ∃ H : PM 𝕜 (1 + 1), compassTwoSite cx params ⟨s1, s2, k⟩ = .ok (some H) ∧
      H.mat = -((jz : 𝕜) • (zAt 0 * zAt 1))) := by
  refine ⟨⟨_, by simp only [compassOneSite, param, h3, h4]; rfl, ?_⟩, ?_, ?_⟩
  · simp only [sub, smul, X_mat, Z_mat', cast_neg', neg_smul]
  · intro k hk
    refine ⟨mul cx (smul (-jx) X) X, ?_, ?_⟩
    · rcases hk with rfl | rfl <;> simp [compassTwoSite, bondDirection, PyDict.get?, param, h1]
    · rw [mul_mat _ _ _ (show (smul (-jx) (X : PM 𝕜 1)).key.count 'Y' = 0 from X_key (𝕜 := 𝕜))]
      simp only [smul, cast_neg', neg_smul, kron_neg_left, kron_smul_left]
      rw [kron_eq_mul, X_mat, kron_xAt_left, kron_xAt_right]
      rfl
  · intro k hk
    refine ⟨mul cx (smul (-jz) Z) Z, ?_, ?_⟩
    · rcases hk with rfl | rfl <;> simp [compassTwoSite, bondDirection, PyDict.get?, param, h2]
    · rw [mul_mat _ _ _ (show (smul (-jz) (Z : PM 𝕜 1)).key.count 'Y' = 0 from Z_key (𝕜 := 𝕜))]
      simp only [smul, cast_neg', neg_smul, kron_neg_left, kron_smul_left]
      rw [kron_eq_mul, Z_mat', kron_zAt_left, kron_zAt_right]
      rfl

/-- **C69** (compass observables): `phi` is the coupling of the bond up to its sign convention, `chi` the
antisymmetric product. -/
theorem C69_compass_observables (cx : Bool) (s1 s2 : Site) (k : ℕ) (hk : k < 4) :
    ∃ d : PyDict String (PM 𝕜 (1 + 1)), compassObservables cx ⟨s1, s2, k⟩ = .ok d ∧
      d.map (fun p => (p.1, p.2.mat)) =
        [("phi", if k = 0 ∨ k = 2 then xAt 0 * xAt 1 else -(zAt 0 * zAt 1)),
         ("chi", xAt 0 * zAt 1 - zAt 0 * xAt 1)] := by
  have hchi : (sub (mul cx X Z) (mul cx Z X) : PM 𝕜 (1 + 1)).mat = xAt 0 * zAt 1 - zAt 0 * xAt 1 := by
    simp only [sub]
    rw [mul_mat _ _ _ X_key, mul_mat _ _ _ Z_key, kron_eq_mul, kron_eq_mul (Z : PM 𝕜 1).mat, Z_mat', X_mat,
      kron_zAt_left, kron_zAt_right, kron_xAt_left, kron_xAt_right]
    rfl
  have hx : (mul cx X X : PM 𝕜 (1 + 1)).mat = xAt 0 * xAt 1 := by
    rw [mul_mat _ _ _ X_key, kron_eq_mul, X_mat, kron_xAt_left, kron_xAt_right]; rfl
  have hz : (mul cx (neg Z) Z : PM 𝕜 (1 + 1)).mat = -(zAt 0 * zAt 1) := by
    rw [mul_mat _ _ _ (show (neg (Z : PM 𝕜 1)).key.count 'Y' = 0 from Z_key (𝕜 := 𝕜))]
    simp only [neg, kron_neg_left]
    rw [kron_eq_mul, Z_mat', kron_zAt_left, kron_zAt_right]; rfl
  interval_cases k
  · exact ⟨[("phi", mul cx X X), ("chi", sub (mul cx X Z) (mul cx Z X))],
      by simp [compassObservables, bondDirection, PyDict.get?], by simp [hchi, hx]⟩
  · exact ⟨[("phi", mul cx (neg Z) Z), ("chi", sub (mul cx X Z) (mul cx Z X))],
      by simp [compassObservables, bondDirection, PyDict.get?], by simp [hchi, hz]⟩
  · exact ⟨[("phi", mul cx X X), ("chi", sub (mul cx X Z) (mul cx Z X))],
      by simp [compassObservables, bondDirection, PyDict.get?], by simp [hchi, hx]⟩
  · exact ⟨[("phi", mul cx (neg Z) Z), ("chi", sub (mul cx X Z) (mul cx Z X))],
      by simp [compassObservables, bondDirection, PyDict.get?], by simp [hchi, hz]⟩

/-- The couplings of the sample script meet the hypotheses, and the coupling is not trivial: the `+x` bond of the
honeycomb model joins spin `B` of the left cell to spin `A` of the right one, and no other pair. -/
example : (PyDict.get? [("jz", (1 / 4 : ℝ)), ("hx", 0)] "jz" = some (1 / 4)) ∧
    (∀ i j, dist2 (honeycombPos (5, 7) i) (honeycombPos (step (5, 7) 2) j) = 1 ↔ i = 1 ∧ j = 0) :=
  ⟨by simp [PyDict.get?], by decide⟩

/-- Every kagome spin has four nearest neighbours: here those of spin `B` of the cell at the origin. -/
example : dist2 (kagomePos 0 1) (kagomePos 0 0) = 1 ∧ dist2 (kagomePos 0 1) (kagomePos 0 2) = 1 ∧
    dist2 (kagomePos 0 1) (kagomePos (step 0 0) 2) = 1 ∧ dist2 (kagomePos 0 1) (kagomePos (step 0 3) 0) = 1 := by
  decide

end AceTN.Pauli
