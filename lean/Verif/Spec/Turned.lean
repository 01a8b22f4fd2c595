import Verif.Spec.Gauge

/-!
Changes of basis that a full update may go through, and when the decompositions of the library leave no other freedom.
-/

set_option autoImplicit false

namespace AceTN.Spec

open Matrix

variable {𝕜 : Type} [RCLike 𝕜]

/-- A change of basis: any unitary matrix or, with `sgn`, a diagonal one (for real numbers: signs). -/
structure Allowed (sgn : Bool) {n : Type} [Fintype n] [DecidableEq n] (W : Matrix n n 𝕜) : Prop where
  unit : Unit2 W
  diag : sgn = true → ∀ i j, i ≠ j → W i j = 0

/-- The QR decompositions of a library have triangular factors `R`, for some order `ord` of the columns. -/
def Triangular (ord : ∀ (n : Type) [Fintype n], n ≃ Fin (Fintype.card n)) (la : Lapack 𝕜) : Prop :=
  ∀ (m n : Type) [Fintype m] [Fintype n] [DecidableEq m] [DecidableEq n] (A : Matrix m n 𝕜)
    (i : Fin (min (Fintype.card m) (Fintype.card n))) (j : n), (ord n j).val < i.val → (la.qr A).2 i j = 0

/-- The first columns of a matrix, as many as its QR decomposition has rows of `R`. -/
def lead (ord : ∀ (n : Type) [Fintype n], n ≃ Fin (Fintype.card n)) (m n : Type) [Fintype m] [Fintype n]
    (i : Fin (min (Fintype.card m) (Fintype.card n))) : n :=
  (ord n).symm (Fin.castLE (Nat.min_le_right _ _) i)

/-- The QR decomposition of a matrix is unique up to a change of basis: it has no more rows than columns, or its columns are
linearly independent; up to signs, if its first columns are linearly independent. -/
def QrUnique (ord : ∀ (n : Type) [Fintype n], n ≃ Fin (Fintype.card n)) (sgn : Bool) {m n : Type} [Fintype m] [Fintype n] [DecidableEq n]
    (A : Matrix m n 𝕜) : Prop :=
  match sgn with
  | false => Fintype.card m ≤ Fintype.card n ∨ ∃ B : Matrix n m 𝕜, B * A = 1
  | true => ∃ B : Matrix (Fin (min (Fintype.card m) (Fintype.card n))) m 𝕜, B * A.submatrix id (lead ord m n) = 1

/-- Cutting off after `k` singular values is unambiguous; with `sgn`, the positive ones that are kept are also distinct. -/
def ClearSvd (sgn : Bool) {m n : Type} [Fintype m] [Fintype n] (k : ℕ) (M : Matrix m n 𝕜) : Prop :=
  NoTie k M ∧ (sgn = true → ∀ (r : ℕ) (U : Matrix m (Fin r) 𝕜) (S : Fin r → ℝ) (Vh : Matrix (Fin r) n 𝕜), IsSVD M U S Vh →
    ∀ i j : Fin r, i.val < k → j.val < k → i ≠ j → S i = S j → S i = 0)

/-- The positive singular values of a matrix are distinct. -/
def Distinct {m n : Type} [Fintype m] [Fintype n] (M : Matrix m n 𝕜) : Prop :=
  ∀ (r : ℕ) (U : Matrix m (Fin r) 𝕜) (S : Fin r → ℝ) (Vh : Matrix (Fin r) n 𝕜), IsSVD M U S Vh →
    ∀ i j : Fin r, i ≠ j → S i = S j → S i = 0

section reduced

variable {N B P : Type} [Fintype N] [Fintype B] [Fintype P]

/-- A reduced tensor in other bases (of real numbers). -/
def Turned3 (W : Matrix N N 𝕜) (Z : Matrix B B 𝕜) (U : Matrix P P 𝕜) (a a' : N → B → P → 𝕜) : Prop :=
  ∀ y u p, a' y u p = ∑ y', ∑ u', ∑ p', W y y' * Z u u' * U p p' * a y' u' p'

/-- A pair of reduced tensors in other bases (of real numbers). -/
def Turned4 (W V : Matrix N N 𝕜) (U T : Matrix P P 𝕜) (m m' : N → N → P → P → 𝕜) : Prop :=
  ∀ y x p q, m' y x p q = ∑ y', ∑ x', ∑ p', ∑ q', W y y' * V x x' * (U p p' * T q q') * m y' x' p' q'

/-- A norm tensor in other bases (of real numbers). -/
def TurnedN (W V : Matrix N N 𝕜) (n n' : N → N → N → N → 𝕜) : Prop :=
  ∀ y x Y X, n' y x Y X = ∑ y', ∑ x', ∑ Y', ∑ X', W y y' * V x x' * (W Y Y' * V X X') * n y' x' Y' X'

/-- A pair of reduced tensors as a matrix between the two sites. -/
def gatedMat (m : N → N → P → P → 𝕜) : Matrix (N × P) (N × P) 𝕜 := Matrix.of fun i j => m i.1 j.1 i.2 j.2

end reduced

end AceTN.Spec
