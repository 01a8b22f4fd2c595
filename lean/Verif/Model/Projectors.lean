import Verif.Model.Tensors
import Verif.Model.Rsvd
import Mathlib.Analysis.Normed.Group.Basic
import Mathlib.Analysis.Real.Sqrt

/-!
The projectors of a boundary move: `acetn/renormalization/projectors.py`.
-/

set_option autoImplicit false

namespace AceTN

open Matrix

variable {𝕜 : Type} [RCLike 𝕜]

/-- `x.abs().max()` of a matrix. -/
noncomputable def maxAbs {m n : Type} [Fintype m] [Fintype n] (A : Matrix m n 𝕜) : ℝ :=
  ((Finset.univ.sup fun i : m × n => ‖A i.1 i.2‖₊ : NNReal) : ℝ)

/-- `A / A.abs().max()`.  Python yields not-a-number for a zero matrix, which the theorems exclude. -/
noncomputable def maxNormalise {m n : Type} [Fintype m] [Fintype n] (A : Matrix m n 𝕜) : Matrix m n 𝕜 :=
  (((maxAbs A)⁻¹ : ℝ) : 𝕜) • A

section quarter

variable {xa xb xc xe L U R D P : Type} [Fintype xa] [Fintype xb] [Fintype L] [Fintype U] [Fintype P]

/-- The contraction of `make_quarter_tensor`, projectors.py 52-58, reshaped to a matrix. -/
def quarterCore (ck : xa → xb → 𝕜) (ek1 : xe → xa → L → L → 𝕜) (ek2 : xb → xc → U → U → 𝕜) (ak : L → U → R → D → P → 𝕜) :
    Matrix (xc × R × R) (xe × D × D) 𝕜 :=
  let qk := einsum% "ab,bcuU->acuU" ck ek2
  let qk := einsum% "acuU,ealL->cuUelL" qk ek1
  let qk := einsum% "cuUelL,LURDP->cuelRDP" qk (star ak)
  let qk := einsum% "lurdp,cuelRDp->crRedD" ak qk
  of fun i j => qk i.1 i.2.1 i.2.2 j.1 j.2.1 j.2.2

end quarter

/-- `make_quarter_tensor(ipeps[s], k)`, projectors.py 35-60. -/
noncomputable def makeQuarter {B P X : Type} [Fintype B] [Fintype P] [Fintype X] (s : NumSite B P X 𝕜) (k : ℤ) :
    Matrix (X × B × B) (X × B × B) 𝕜 :=
  maxNormalise (quarterCore (s.C (rotIdx k 0)) (s.E (rotIdx k 3)) (s.E (rotIdx k 0)) (bondPermute k s.A))

/-- A pair of projectors; the new bond dimension depends on the singular values. -/
structure ProjPair (X B 𝕜 : Type) where
  cD : ℕ
  proj1 : X → B → B → Fin cD → 𝕜
  proj2 : X → B → B → Fin cD → 𝕜

section svd

variable {r : ℕ}

/-- `s[0]`. -/
def firstS (s : Fin r → ℝ) : ℝ := if h : 0 < r then s ⟨0, h⟩ else 0

/-- `cD_new = min(chi, (s > self.svd_cutoff).sum())` after `s = s / s[0]`, projectors.py 128-129, 163-164, 203-204. -/
noncomputable def keep (cutoff : ℝ) (chi : ℕ) (s : Fin r → ℝ) : ℕ :=
  min chi (Finset.univ.filter fun i => cutoff < s i / firstS s).card

theorem keep_le (cutoff : ℝ) (chi : ℕ) (s : Fin r → ℝ) : keep cutoff chi s ≤ r := by
  unfold keep
  refine (Nat.min_le_right _ _).trans ((Finset.card_le_univ _).trans ?_)
  rw [Fintype.card_fin]

/-- `U[:, :cD_new] * (1. / sqrt(s[:cD_new]))`, projectors.py 131-132, 166-167, 206-207. -/
noncomputable def scaled {m : Type} (cutoff : ℝ) (chi : ℕ) (s : Fin r → ℝ) (U : Matrix m (Fin r) 𝕜) :
    Matrix m (Fin (keep cutoff chi s)) 𝕜 :=
  of fun x z => U x (Fin.castLE (keep_le cutoff chi s) z) *
    ((1 / Real.sqrt (s (Fin.castLE (keep_le cutoff chi s) z) / firstS s) : ℝ) : 𝕜)

end svd

section projectors

variable {m n X B : Type} [Fintype m] [Fintype n] {r : ℕ}

/-- The final contractions of `calculate_projectors` and `calculate_half_system`, projectors.py 128-136 and 163-174. -/
noncomputable def projFromSvd (cutoff : ℝ) (chi : ℕ) (R1 : Matrix m (X × B × B) 𝕜) (R2 : Matrix (X × B × B) n 𝕜)
    (x : LowRank m n r 𝕜) : ProjPair X B 𝕜 :=
  let U : m → Fin (keep cutoff chi x.S) → 𝕜 := scaled cutoff chi x.S x.U
  let V : n → Fin (keep cutoff chi x.S) → 𝕜 := scaled cutoff chi x.S x.V
  { cD := keep cutoff chi x.S
    proj1 := einsum% "xedD,xz->edDz" (fun i e d D => R1 i (e, d, D)) (star U)
    proj2 := einsum% "cuUy,yz->cuUz" (fun c u U i => R2 (c, u, U) i) V }

variable [DecidableEq m] [DecidableEq n]

/-- `svd` for `svd_type == "full-rank"`, projectors.py 230-232.  `torch.linalg.svd` returns square factors; only the
first `min(m, n)` columns are ever used. -/
def fullSvd (la : Lapack 𝕜) (A : Matrix m n 𝕜) : LowRank m n (min (Fintype.card m) (Fintype.card n)) 𝕜 :=
  { U := (la.svd A).1, S := (la.svd A).2.1, V := (la.svd A).2.2ᴴ }

variable [Fintype X] [Fintype B]

/-- `calculate_half_system` for `svd_type == "full-rank"`, from the quarter tensors, projectors.py 76-82 and 150-152. -/
noncomputable def halfFullRank (la : Lapack 𝕜) (cutoff : ℝ) (chi : ℕ) (Q1 : Matrix m (X × B × B) 𝕜)
    (Q4 : Matrix (X × B × B) n 𝕜) : ProjPair X B 𝕜 :=
  projFromSvd cutoff chi Q1 Q4 (fullSvd la (maxNormalise (Q1 * Q4)))

/-- `calculate_half_system` otherwise, projectors.py 154-174. -/
noncomputable def halfRsvd (la : Lapack 𝕜) (cutoff : ℝ) (chi oversampling niter : ℕ) (Q1 : Matrix m (X × B × B) 𝕜)
    (Q4 : Matrix (X × B × B) n 𝕜) (Ω : Matrix n (Fin (clipRank m n (chi + oversampling))) 𝕜) : ProjPair X B 𝕜 :=
  projFromSvd cutoff chi Q1 Q4 (fusedSvdLowrank la (chi + oversampling) niter Q1 Q4 Ω)

variable {k1 k3 : Type} [Fintype k1] [Fintype k3]

/-- `calculate_full_system` for `svd_type == "full-rank"`, projectors.py 96-112 and 188-190. -/
noncomputable def fullFullRank (la : Lapack 𝕜) (cutoff : ℝ) (chi : ℕ) (Q1 : Matrix k1 (X × B × B) 𝕜) (Q2 : Matrix m k1 𝕜)
    (Q3 : Matrix k3 n 𝕜) (Q4 : Matrix (X × B × B) k3 𝕜) : ProjPair X B 𝕜 :=
  let R1 := maxNormalise (Q2 * Q1)
  let R2 := maxNormalise (Q4 * Q3)
  projFromSvd cutoff chi R1 R2 (fullSvd la (maxNormalise (R1 * R2)))

/-- `calculate_full_system` otherwise, projectors.py 192-217: `proj1` is formed with conjugate transposes. -/
noncomputable def fullRsvd (la : Lapack 𝕜) (cutoff : ℝ) (chi oversampling niter : ℕ) (Q1 : Matrix k1 (X × B × B) 𝕜)
    (Q2 : Matrix m k1 𝕜) (Q3 : Matrix k3 n 𝕜) (Q4 : Matrix (X × B × B) k3 𝕜)
    (Ω : Matrix n (Fin (clipRank m n (chi + oversampling))) 𝕜) : ProjPair X B 𝕜 :=
  let x := fused3SvdLowrank la (chi + oversampling) niter Q2 Q1 Q4 Q3 Ω
  let U := scaled cutoff chi x.S x.U
  let V := scaled cutoff chi x.S x.V
  let proj1 := Q1ᴴ * (Q2ᴴ * U.map star)
  let proj2 := Q4 * (Q3 * V)
  { cD := keep cutoff chi x.S
    proj1 := fun e d D z => proj1 (e, d, D) z
    proj2 := fun c u U z => proj2 (c, u, U) z }

end projectors

section network

variable {B P X : Type} [Fintype B] [Fintype P] [Fintype X] [DecidableEq X] [DecidableEq B]

/-- The random draw of a projector computation. -/
abbrev Draw (X B 𝕜 : Type) [Fintype X] [Fintype B] (q : ℕ) :=
  Matrix (X × B × B) (Fin (clipRank (X × B × B) (X × B × B) q)) 𝕜

/-- `calculate_half_system(ipeps, sites, k)`, projectors.py 138-174. -/
noncomputable def calculateHalf (la : Lapack 𝕜) (fullRank : Bool) (cutoff : ℝ) (chi oversampling niter : ℕ)
    (ipeps : NetT B P X 𝕜) (s1 s4 : Site) (k : ℤ) (Ω : Draw X B 𝕜 (chi + oversampling)) : ProjPair X B 𝕜 :=
  let Q1 := makeQuarter (ipeps s1) k
  let Q4 := makeQuarter (ipeps s4) (k + 3)
  if fullRank then halfFullRank la cutoff chi Q1 Q4 else halfRsvd la cutoff chi oversampling niter Q1 Q4 Ω

/-- `calculate_full_system(ipeps, sites, k)`, projectors.py 176-217. -/
noncomputable def calculateFull (la : Lapack 𝕜) (fullRank : Bool) (cutoff : ℝ) (chi oversampling niter : ℕ)
    (ipeps : NetT B P X 𝕜) (s1 s2 s3 s4 : Site) (k : ℤ) (Ω : Draw X B 𝕜 (chi + oversampling)) : ProjPair X B 𝕜 :=
  let Q1 := makeQuarter (ipeps s1) k
  let Q2 := makeQuarter (ipeps s2) (k + 1)
  let Q3 := makeQuarter (ipeps s3) (k + 2)
  let Q4 := makeQuarter (ipeps s4) (k + 3)
  if fullRank then fullFullRank la cutoff chi Q1 Q2 Q3 Q4 else fullRsvd la cutoff chi oversampling niter Q1 Q2 Q3 Q4 Ω

end network

end AceTN
