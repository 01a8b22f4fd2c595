import Verif.Spec.Pauli
import Mathlib.Tactic.Ring
import Mathlib.Tactic.NormNum
import Mathlib.Tactic.Linarith

/-!
C25: Pauli algebra in real and complex arithmetic.
-/

set_option autoImplicit false

namespace AceTN.Pauli

open Spec Complex

variable {m n : ℕ}

theorem tensor_eq_kron (A : Mat ℂ m) (B : Mat ℂ n) : tensor A B = kron A B := by
  ext i j
  simp [tensor, joinBits, kron, Matrix.kroneckerMap_apply, Fin.appendEquiv]

theorem one_eq (M : Matrix (Fin 2) (Fin 2) ℂ) (h : M = 1) : one M = (1 : Mat ℂ 1) := by
  ext i j
  subst h
  simp only [one, Matrix.one_apply]
  congr 1
  rw [eq_iff_iff]
  constructor
  · intro h; funext a; rw [Subsingleton.elim a 0]; exact h
  · intro h; rw [h]

/-- **C25** (complex dtype).  Every expression evaluates to the operator it denotes. -/
theorem C25_complex (e : Expr n) : (eval (𝕜 := ℂ) true e).mat = den e := by
  induction e with
  | X => rfl
  | Y =>
    ext i j
    simp only [eval, Y, den, σy, one, Matrix.smul_apply, if_true]
    generalize i 0 = a
    generalize j 0 = b
    fin_cases a <;> fin_cases b <;> simp
  | Z => rfl
  | I => exact one_eq !![1, 0; 0, 1] Matrix.one_fin_two.symm
  | mul a b iha ihb => simp [eval, mul, den, tensor_eq_kron, iha, ihb]
  | smul r a ih => simp [eval, smul, den, ih]
  | add a b iha ihb => simp [eval, add, den, iha, ihb]
  | sub a b iha ihb => simp [eval, sub, den, iha, ihb]
  | neg a ih => simp [eval, neg, den, ih]
  | div a r hr ih => simp [eval, div, den, ih]

theorem key_countY (cx : Bool) (e : Expr n) :
    (eval (𝕜 := ℝ) cx e).key.count 'Y' = countY e := by
  induction e with
  | X => rfl
  | Y => rfl
  | Z => rfl
  | I => rfl
  | mul a b iha ihb => simp [eval, mul, countY, iha, ihb]
  | smul r a ih => simp [eval, smul, countY, ih]
  | add a b iha ihb => simp [eval, add, countY, iha, ihb]
  | sub a b iha ihb => simp [eval, sub, countY, iha, ihb]
  | neg a ih => simp [eval, neg, countY, ih]
  | div a r hr ih => simp [eval, div, countY, ih]

/-- The factor the real representation leaves out: `i` for an odd number of `Y`. -/
noncomputable def factor (k : ℕ) : ℂ := if k % 2 = 0 then 1 else Complex.I

theorem real_factor (e : Expr n) (h : EvenSums e) :
    den e = factor (countY e) • toComplex (eval (𝕜 := ℝ) false e).mat := by
  induction e with
  | X =>
    ext i j
    simp only [den, σx, eval, X, toComplex, one, countY, factor, Matrix.smul_apply, Matrix.map_apply]
    generalize i 0 = a
    generalize j 0 = b
    fin_cases a <;> fin_cases b <;> simp
  | Y =>
    ext i j
    simp only [den, σy, eval, Y, Bool.false_eq_true, if_false, toComplex, one, countY, factor, Matrix.smul_apply,
      Matrix.map_apply]
    generalize i 0 = a
    generalize j 0 = b
    fin_cases a <;> fin_cases b <;> simp
  | Z =>
    ext i j
    simp only [den, σz, eval, Z, toComplex, one, countY, factor, Matrix.smul_apply, Matrix.map_apply]
    generalize i 0 = a
    generalize j 0 = b
    fin_cases a <;> fin_cases b <;> simp
  | I =>
    rw [den, ← one_eq 1 rfl]
    ext i j
    simp only [eval, I, toComplex, one, countY, factor, Matrix.smul_apply, Matrix.map_apply]
    generalize i 0 = a
    generalize j 0 = b
    fin_cases a <;> fin_cases b <;> simp
  | mul a b iha ihb =>
    have ha := iha h.1
    have hb := ihb h.2
    rw [den, tensor_eq_kron, ha, hb]
    ext i j
    simp only [eval, mul, toComplex, kron, countY, Matrix.smul_apply, Matrix.map_apply, smul_eq_mul,
      List.count_append, key_countY, if_false, Bool.false_eq_true, factor]
    rcases Nat.mod_two_eq_zero_or_one (countY a) with h1 | h1 <;>
    rcases Nat.mod_two_eq_zero_or_one (countY b) with h2 | h2 <;>
    (simp [Nat.add_mod, h1, h2] <;> ring_nf; try simp [Complex.I_sq])
  | smul r a ih =>
    rw [den, ih h]; ext i j
    simp [eval, smul, toComplex, countY]; ring
  | add a b iha ihb =>
    obtain ⟨h1, h2, h3, h4⟩ := h
    rw [den, iha h1, ihb h2]; ext i j
    simp [eval, add, toComplex, countY, factor, h3, h4, Nat.add_mod]
  | sub a b iha ihb =>
    obtain ⟨h1, h2, h3, h4⟩ := h
    rw [den, iha h1, ihb h2]; ext i j
    simp [eval, sub, toComplex, countY, factor, h3, h4, Nat.add_mod]
  | neg a ih =>
    rw [den, ih h]; ext i j
    simp [eval, neg, toComplex, countY]
  | div a r hr ih =>
    rw [den, ih h]; ext i j
    simp [eval, div, toComplex, countY]; ring

/-- **C25** (real dtype), for expressions in which every operand of a sum has an even number of `Y`s: whenever the
denoted operator is real, the real dtype computes exactly it.  Missing for the full claim: sums with odd operands,
where it fails (`C25_violated`). -/
theorem C25_real_partial (e : Expr n) (h : EvenSums e) (hr : IsReal (den e)) :
    toComplex (eval (𝕜 := ℝ) false e).mat = den e := by
  have hf := real_factor e h
  by_cases hp : countY e % 2 = 0
  · rw [hf]; simp [factor, hp]
  · ext i j
    have h1 := hr i j
    have h2 : den e i j = Complex.I * (((eval (𝕜 := ℝ) false e).mat i j : ℝ) : ℂ) := by
      rw [hf]; simp [factor, hp, toComplex]
    rw [h2] at h1
    have h3 : (eval (𝕜 := ℝ) false e).mat i j = 0 := by simpa using h1
    rw [h2]; simp [toComplex, h3]

/-- **C25** (real dtype), continued: with an odd number of `Y`s the real dtype stores the operator divided by `i`,
with an even number the operator itself.  Missing for the full claim: sums with odd operands. -/
theorem C25_phase_partial (e : Expr n) (h : EvenSums e) :
    den e = (if countY e % 2 = 0 then (1 : ℂ) else Complex.I) • toComplex (eval (𝕜 := ℝ) false e).mat :=
  real_factor e h

/-- The hypotheses of the two theorems above are met by the Heisenberg term, which is a real operator. -/
example : EvenSums (.smul (1/4) (.add (.add (.mul .X .X) (.mul .Y .Y)) (.mul .Z .Z))) ∧
    IsReal (den (.smul (1/4) (.add (.add (.mul .X .X) (.mul .Y .Y)) (.mul .Z .Z)))) := by
  have h : EvenSums (.smul (1/4) (.add (.add (.mul .X .X) (.mul .Y .Y)) (.mul .Z .Z))) := by
    simp [EvenSums, countY]
  refine ⟨h, fun i j => ?_⟩
  rw [real_factor _ h]
  simp [countY, factor, toComplex]

/-- The index `00` of a two-spin operator. -/
def b00 : Fin 2 → Fin 2 := fun _ => 0
/-- The index `11` of a two-spin operator. -/
def b11 : Fin 2 → Fin 2 := fun _ => 1

/-- **C25 fails** in a real dtype: `(Y + Y) * Y` is the real operator `2 Y ⊗ Y`, but the concatenated key makes the
code drop the sign. -/
theorem C25_violated : ¬ RealAgrees := by
  intro h
  have hreal : IsReal (den (.mul (.add .Y .Y) .Y)) := by
    intro i j
    simp only [den, tensor_eq_kron, kron, σy, one, Matrix.add_apply]
    generalize i (Fin.castAdd 1 0) = a
    generalize j (Fin.castAdd 1 0) = b
    generalize i (Fin.natAdd 1 0) = c
    generalize j (Fin.natAdd 1 0) = d
    fin_cases a <;> fin_cases b <;> fin_cases c <;> fin_cases d <;> simp
  have h1 := congrFun (congrFun (h 2 (.mul (.add .Y .Y) .Y) hreal) b00) b11
  simp only [den, tensor_eq_kron, kron, σy, one, toComplex, eval, mul, add, Y, b00, b11, Matrix.add_apply,
    Matrix.map_apply, Matrix.smul_apply] at h1
  norm_num [one] at h1
  have h2 := congrArg Complex.re h1
  simp at h2
  norm_num at h2

/-- **C25 fails** for the in-place product: `Y *= Y` in a real dtype lacks the sign of `Y ⊗ Y`. -/
theorem C25_violated_imul : ¬ ImulAgrees := by
  intro h
  have hreal : IsReal (den (.mul .Y .Y)) := by
    intro i j
    simp only [den, tensor_eq_kron, kron, σy, one]
    generalize i (Fin.castAdd 1 0) = a
    generalize j (Fin.castAdd 1 0) = b
    generalize i (Fin.natAdd 1 0) = c
    generalize j (Fin.natAdd 1 0) = d
    fin_cases a <;> fin_cases b <;> fin_cases c <;> fin_cases d <;> simp
  have h1 := congrFun (congrFun (h 1 1 .Y .Y hreal) b00) b11
  simp only [den, tensor_eq_kron, kron, σy, one, toComplex, eval, imul, Y, b00, b11,
    Matrix.map_apply] at h1
  norm_num [one] at h1

/-- **C25** (in-place product): right in a complex dtype.  Missing for the full claim: the real dtype, where it
fails (`C25_violated_imul`). -/
theorem C25_imul_partial (a : Expr m) (b : Expr n) :
    imul (eval (𝕜 := ℂ) true a) (eval true b) = den (.mul a b) := by
  rw [den, tensor_eq_kron, imul, C25_complex, C25_complex]

end AceTN.Pauli
