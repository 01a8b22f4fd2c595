import Verif.Model.Pauli
import Mathlib.Analysis.Complex.Basic
import Mathlib.LinearAlgebra.Matrix.Kronecker
import Mathlib.Tactic.FinCases

/-!
What Pauli expressions mean: complex matrices, `*` between operators the tensor product.
-/

set_option autoImplicit false

namespace AceTN.Pauli.Spec

open scoped Kronecker

/-- Joining the bits of two registers, first register first. -/
def joinBits (m n : ℕ) : (Fin m → Fin 2) × (Fin n → Fin 2) ≃ (Fin (m + n) → Fin 2) :=
  Fin.appendEquiv m n

/-- The tensor product of operators on two registers (Mathlib's Kronecker product). -/
def tensor {m n : ℕ} (A : Mat ℂ m) (B : Mat ℂ n) : Mat ℂ (m + n) :=
  Matrix.reindex (joinBits m n) (joinBits m n) (A ⊗ₖ B)

/-- Pauli X. -/
def σx : Mat ℂ 1 := one !![0, 1; 1, 0]
/-- Pauli Y. -/
def σy : Mat ℂ 1 := one !![0, -Complex.I; Complex.I, 0]
/-- Pauli Z. -/
def σz : Mat ℂ 1 := one !![1, 0; 0, -1]

/-- The operator an expression denotes. -/
noncomputable def den : {n : ℕ} → Expr n → Mat ℂ n
  | _, .X => σx
  | _, .Y => σy
  | _, .Z => σz
  | _, .I => 1
  | _, .mul a b => tensor (den a) (den b)
  | _, .smul r a => (r : ℂ) • den a
  | _, .add a b => den a + den b
  | _, .sub a b => den a - den b
  | _, .neg a => -den a
  | _, .div a r _ => (r : ℂ)⁻¹ • den a

/-- A real matrix seen as a complex one. -/
def toComplex {n : ℕ} (A : Mat ℝ n) : Mat ℂ n := A.map (fun x => (x : ℂ))

/-- All entries are real. -/
def IsReal {n : ℕ} (A : Mat ℂ n) : Prop := ∀ i j, (A i j).im = 0

/-- Number of letters `Y` in an expression. -/
def countY : {n : ℕ} → Expr n → ℕ
  | _, .Y => 1
  | _, .X => 0
  | _, .Z => 0
  | _, .I => 0
  | _, .mul a b => countY a + countY b
  | _, .smul _ a => countY a
  | _, .add a b => countY a + countY b
  | _, .sub a b => countY a + countY b
  | _, .neg a => countY a
  | _, .div a _ _ => countY a

/-- Every operand of a sum or difference has an even number of letters `Y`. -/
def EvenSums : {n : ℕ} → Expr n → Prop
  | _, .X => True
  | _, .Y => True
  | _, .Z => True
  | _, .I => True
  | _, .mul a b => EvenSums a ∧ EvenSums b
  | _, .smul _ a => EvenSums a
  | _, .add a b => EvenSums a ∧ EvenSums b ∧ countY a % 2 = 0 ∧ countY b % 2 = 0
  | _, .sub a b => EvenSums a ∧ EvenSums b ∧ countY a % 2 = 0 ∧ countY b % 2 = 0
  | _, .neg a => EvenSums a
  | _, .div a _ _ => EvenSums a

/-- C25, real dtype, in full: whenever the denoted operator is real, the real dtype computes it. -/
def RealAgrees : Prop :=
  ∀ (n : ℕ) (e : Expr n), IsReal (den e) → toComplex (eval (𝕜 := ℝ) false e).mat = den e

/-- The in-place product means the same as the product. -/
def ImulAgrees : Prop :=
  ∀ (m n : ℕ) (a : Expr m) (b : Expr n), IsReal (den (.mul a b)) →
    toComplex (imul (eval (𝕜 := ℝ) false a) (eval false b)) = den (.mul a b)

end AceTN.Pauli.Spec
