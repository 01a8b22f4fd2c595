import Mathlib.Analysis.RCLike.Basic
import Mathlib.LinearAlgebra.Matrix.ConjTranspose
import Mathlib.LinearAlgebra.Matrix.Hermitian
import Mathlib.Data.Matrix.Mul
import Mathlib.LinearAlgebra.Matrix.PosDef
import Mathlib.LinearAlgebra.Matrix.NonsingularInverse

/-!
Contracts of the linear algebra routines of torch that the code calls.  They are hypotheses of theorems, never axioms:
a theorem holds for every library (`Lapack`) that meets the contract.  `Verif.Lemmas.Svd` shows that such a library
exists, so the contracts are satisfiable for every input.  Arithmetic is exact.
-/

set_option autoImplicit false

namespace AceTN

open Matrix ComplexOrder

variable {𝕜 : Type} [RCLike 𝕜]

/-- `Q, R = torch.linalg.qr(A)` (reduced): `A = Q R` and the columns of `Q` are orthonormal.  `k` is
`min(m, n)` long in torch; the triangular shape of `R` is not needed anywhere. -/
structure IsQR {m k n : Type} [Fintype m] [Fintype k] [DecidableEq k]
    (A : Matrix m n 𝕜) (Q : Matrix m k 𝕜) (R : Matrix k n 𝕜) : Prop where
  mul : A = Q * R
  iso : Qᴴ * Q = 1

/-- `U, S, Vh = torch.linalg.svd(A)`, restricted to the `r = min(m, n)` singular values: `A = U diag(S) Vh`, the
columns of `U` and the rows of `Vh` are orthonormal, the singular values are non-negative and descend. -/
structure IsSVD {m n : Type} [Fintype m] [Fintype n] {r : ℕ}
    (A : Matrix m n 𝕜) (U : Matrix m (Fin r) 𝕜) (S : Fin r → ℝ) (Vh : Matrix (Fin r) n 𝕜) : Prop where
  mul : A = U * diagonal (fun i => (S i : 𝕜)) * Vh
  left : Uᴴ * U = 1
  right : Vh * Vhᴴ = 1
  nonneg : ∀ i, 0 ≤ S i
  sorted : ∀ i j, i ≤ j → S j ≤ S i

/-- `w, z = torch.linalg.eigh(N)` of a Hermitian matrix: `N = z diag(w) zᴴ`, `z` unitary, eigenvalues ascend. -/
structure IsEigh {n : Type} {r : ℕ} [Fintype n] [DecidableEq n]
    (N : Matrix n n 𝕜) (w : Fin r → ℝ) (z : Matrix n (Fin r) 𝕜) : Prop where
  mul : N = z * diagonal (fun i => (w i : 𝕜)) * zᴴ
  left : zᴴ * z = 1
  right : z * zᴴ = 1
  sorted : ∀ i j, i ≤ j → w i ≤ w j

/-- A linear algebra library.  Reshaped matrices are indexed by pairs of indices, so the routines take any finite index
types; the results are indexed by `0 … min(m,n)-1`.

`eigh` reads one triangle of its argument: `herm A` is the Hermitian matrix with that triangle. -/
structure Lapack (𝕜 : Type) [RCLike 𝕜] where
  qr : ∀ {m n : Type} [Fintype m] [Fintype n] [DecidableEq m] [DecidableEq n], Matrix m n 𝕜 →
    Matrix m (Fin (min (Fintype.card m) (Fintype.card n))) 𝕜 ×
    Matrix (Fin (min (Fintype.card m) (Fintype.card n))) n 𝕜
  qr_ok : ∀ {m n : Type} [Fintype m] [Fintype n] [DecidableEq m] [DecidableEq n] (A : Matrix m n 𝕜),
    IsQR A (qr A).1 (qr A).2
  svd : ∀ {m n : Type} [Fintype m] [Fintype n] [DecidableEq m] [DecidableEq n], Matrix m n 𝕜 →
    Matrix m (Fin (min (Fintype.card m) (Fintype.card n))) 𝕜 ×
    (Fin (min (Fintype.card m) (Fintype.card n)) → ℝ) ×
    Matrix (Fin (min (Fintype.card m) (Fintype.card n))) n 𝕜
  svd_ok : ∀ {m n : Type} [Fintype m] [Fintype n] [DecidableEq m] [DecidableEq n] (A : Matrix m n 𝕜),
    IsSVD A (svd A).1 (svd A).2.1 (svd A).2.2
  herm : ∀ {n : Type} [Fintype n] [DecidableEq n], Matrix n n 𝕜 → Matrix n n 𝕜
  herm_herm : ∀ {n : Type} [Fintype n] [DecidableEq n] (A : Matrix n n 𝕜), (herm A).IsHermitian
  herm_of : ∀ {n : Type} [Fintype n] [DecidableEq n] (A : Matrix n n 𝕜), A.IsHermitian → herm A = A
  herm_add : ∀ {n : Type} [Fintype n] [DecidableEq n] (A : Matrix n n 𝕜) (t : ℝ),
    herm (A + (t : 𝕜) • 1) = herm A + (t : 𝕜) • 1
  eigh : ∀ {n : Type} [Fintype n] [DecidableEq n], Matrix n n 𝕜 →
    (Fin (Fintype.card n) → ℝ) × Matrix n (Fin (Fintype.card n)) 𝕜
  eigh_ok : ∀ {n : Type} [Fintype n] [DecidableEq n] (A : Matrix n n 𝕜),
    IsEigh (herm A) (eigh A).1 (eigh A).2
  /-- `pinv(A, atol=atol)`: singular values not above `atol` are dropped. -/
  pinv : ∀ {m n : Type} [Fintype m] [Fintype n] [DecidableEq m] [DecidableEq n], ℝ → Matrix m n 𝕜 → Matrix n m 𝕜
  pinv_ok : ∀ {m n : Type} [Fintype m] [Fintype n] [DecidableEq m] [DecidableEq n] (atol : ℝ) (A : Matrix m n 𝕜),
    ∃ (U : Matrix m (Fin (min (Fintype.card m) (Fintype.card n))) 𝕜)
      (S : Fin (min (Fintype.card m) (Fintype.card n)) → ℝ)
      (Vh : Matrix (Fin (min (Fintype.card m) (Fintype.card n))) n 𝕜), IsSVD A U S Vh ∧
      pinv atol A = Vhᴴ * diagonal (fun i => if atol < S i then ((S i : ℝ) : 𝕜)⁻¹ else 0) * Uᴴ
  /-- `pinv(A, hermitian=True, rcond=rcond)`: eigenvalues of modulus not above `rcond` times the largest modulus are
  dropped. -/
  pinvH : ∀ {n : Type} [Fintype n] [DecidableEq n], ℝ → Matrix n n 𝕜 → Matrix n n 𝕜
  pinvH_ok : ∀ {n : Type} [Fintype n] [DecidableEq n] (rcond : ℝ) (A : Matrix n n 𝕜),
    ∃ (w : Fin (Fintype.card n) → ℝ) (z : Matrix n (Fin (Fintype.card n)) 𝕜), IsEigh (herm A) w z ∧
      pinvH rcond A = z * diagonal (fun i => if ∀ j, rcond * |w j| < |w i| then ((w i : ℝ) : 𝕜)⁻¹ else 0) * zᴴ
  /-- `L = cholesky(R); Y = solve_triangular(L, S); solve_triangular(L.mH, Y)`, the three calls as one; `none` is an
  exception. -/
  cholSolve : ∀ {n k : Type} [Fintype n] [Fintype k] [DecidableEq n], Matrix n n 𝕜 → Matrix n k 𝕜 →
    Option (Matrix n k 𝕜)
  cholSolve_ok : ∀ {n k : Type} [Fintype n] [Fintype k] [DecidableEq n] (R : Matrix n n 𝕜) (S X : Matrix n k 𝕜),
    R.IsHermitian → cholSolve R S = some X → R * X = S
  cholSolve_some : ∀ {n k : Type} [Fintype n] [Fintype k] [DecidableEq n] (R : Matrix n n 𝕜) (S : Matrix n k 𝕜),
    R.PosDef → (cholSolve R S).isSome = true
  /-- The Cholesky factorisation raises for every other Hermitian matrix. -/
  cholSolve_posDef : ∀ {n k : Type} [Fintype n] [Fintype k] [DecidableEq n] (R : Matrix n n 𝕜) (S X : Matrix n k 𝕜),
    R.IsHermitian → cholSolve R S = some X → R.PosDef
  /-- `torch.linalg.solve(R, S)`; `none` is the exception raised for a singular matrix. -/
  linSolve : ∀ {n k : Type} [Fintype n] [Fintype k] [DecidableEq n], Matrix n n 𝕜 → Matrix n k 𝕜 →
    Option (Matrix n k 𝕜)
  linSolve_ok : ∀ {n k : Type} [Fintype n] [Fintype k] [DecidableEq n] (R : Matrix n n 𝕜) (S X : Matrix n k 𝕜),
    linSolve R S = some X → R * X = S
  linSolve_some : ∀ {n k : Type} [Fintype n] [Fintype k] [DecidableEq n] (R : Matrix n n 𝕜) (S : Matrix n k 𝕜),
    (linSolve R S).isSome = true ↔ IsUnit R.det

end AceTN
