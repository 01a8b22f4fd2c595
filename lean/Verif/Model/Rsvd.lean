import Verif.Model.LinAlg

/-!
The randomised SVDs of `acetn/linalg`.  The random matrix `Ω` is a parameter: theorems hold for every draw.
-/

set_option autoImplicit false

namespace AceTN

open Matrix

variable {𝕜 : Type} [RCLike 𝕜]
variable {m n k k1 k2 k3 : Type} [Fintype m] [Fintype n] [Fintype k] [Fintype k1] [Fintype k2] [Fintype k3]
  [DecidableEq m] [DecidableEq n]

/-- `q = min(q, m, n)`, svd_lowrank.py 32, fused_matmul_svd_lowrank.py 31, fused_3matmul_svd_lowrank.py 34. -/
def clipRank (m n : Type) [Fintype m] [Fintype n] (q : ℕ) : ℕ := min q (min (Fintype.card m) (Fintype.card n))

omit [DecidableEq m] [DecidableEq n] in
theorem clipRank_le_left (q : ℕ) : clipRank m n q ≤ Fintype.card m := by unfold clipRank; omega

omit [DecidableEq m] [DecidableEq n] in
theorem clipRank_le_right (q : ℕ) : clipRank m n q ≤ Fintype.card n := by unfold clipRank; omega

omit [DecidableEq m] in
theorem qr_cast {q : ℕ} (h : q ≤ Fintype.card m) : q = min (Fintype.card m) (Fintype.card (Fin q)) := by
  rw [Fintype.card_fin]; omega

/-- `Y, _ = torch.linalg.qr(Y)` for a matrix with no more columns than rows: the result has as many columns. -/
def qrQ (la : Lapack 𝕜) {q : ℕ} (h : q ≤ Fintype.card m) (Y : Matrix m (Fin q) 𝕜) : Matrix m (Fin q) 𝕜 :=
  (la.qr Y).1.submatrix id (Fin.cast (qr_cast h))

/-- The result `(U, S, V)`; the number of singular values of the projected `q × n` matrix is `min(q, n) = q`. -/
structure LowRank (m n : Type) (r : ℕ) (𝕜 : Type) where
  U : Matrix m (Fin r) 𝕜
  S : Fin r → ℝ
  V : Matrix n (Fin r) 𝕜

/-- The last four lines of each routine, svd_lowrank.py 41-43: SVD of the projected matrix `B`. -/
def projectedSvd (la : Lapack 𝕜) {q : ℕ} (Q : Matrix m (Fin q) 𝕜) (B : Matrix (Fin q) n 𝕜) :
    LowRank m n (min (Fintype.card (Fin q)) (Fintype.card n)) 𝕜 :=
  let svd := la.svd B
  { U := Q * svd.1, S := svd.2.1, V := svd.2.2ᴴ }

/-- `svd_lowrank`, svd_lowrank.py 4-44. -/
def svdLowrank (la : Lapack 𝕜) (q niter : ℕ) (A : Matrix m n 𝕜) (Ω : Matrix n (Fin (clipRank m n q)) 𝕜) :=
  let Y := A * Ω
  let Y := (fun Y => A * (Aᴴ * qrQ la (clipRank_le_left q) Y))^[niter] Y
  let Q := qrQ la (clipRank_le_left q) Y
  projectedSvd la Q (Qᴴ * A)

/-- `fused_matmul_svd_lowrank`, fused_matmul_svd_lowrank.py 4-52. -/
def fusedSvdLowrank (la : Lapack 𝕜) (q niter : ℕ) (A : Matrix m k 𝕜) (B : Matrix k n 𝕜)
    (Ω : Matrix n (Fin (clipRank m n q)) 𝕜) :=
  let Y := A * (B * Ω)
  let Y := (fun Y => A * (B * (Bᴴ * (Aᴴ * qrQ la (clipRank_le_left q) Y))))^[niter] Y
  let Q := qrQ la (clipRank_le_left q) Y
  projectedSvd la Q (Qᴴ * A * B)

/-- `fused_3matmul_svd_lowrank`, fused_3matmul_svd_lowrank.py 4-57. -/
def fused3SvdLowrank (la : Lapack 𝕜) (q niter : ℕ) (A : Matrix m k1 𝕜) (B : Matrix k1 k2 𝕜) (C : Matrix k2 k3 𝕜)
    (D : Matrix k3 n 𝕜) (Ω : Matrix n (Fin (clipRank m n q)) 𝕜) :=
  let Y := A * (B * (C * (D * Ω)))
  let Y := (fun Y =>
    let Y := qrQ la (clipRank_le_left q) Y
    let Y := Dᴴ * (Cᴴ * (Bᴴ * (Aᴴ * Y)))
    let Y := qrQ la (clipRank_le_right q) Y
    A * (B * (C * (D * Y))))^[niter] Y
  let Q := qrQ la (clipRank_le_left q) Y
  projectedSvd la Q (Qᴴ * A * B * C * D)

end AceTN
