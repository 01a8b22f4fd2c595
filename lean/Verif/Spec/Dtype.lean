import Verif.Model.NumMover
import Verif.Model.Gate
import Mathlib.Algebra.Star.StarAlgHom

/-!
Data of one dtype converted to another one: a map `φ` of the scalars is applied to every entry.  `ofRealHom` is the conversion of
real numbers to a complex dtype.
-/

set_option autoImplicit false

namespace AceTN.Spec

open Matrix

variable {𝕜 𝕜' : Type} [RCLike 𝕜] [RCLike 𝕜'] (φ : 𝕜 →⋆ₐ[ℝ] 𝕜')

/-- The inclusion of the real numbers, `x.to(torch.complex128)` for real `x`. -/
noncomputable def ofRealHom (𝕜 : Type) [RCLike 𝕜] : ℝ →⋆ₐ[ℝ] 𝕜 where
  toFun x := (x : 𝕜)
  map_one' := RCLike.ofReal_one
  map_mul' := RCLike.ofReal_mul
  map_zero' := RCLike.ofReal_zero
  map_add' := RCLike.ofReal_add
  commutes' _ := (RCLike.algebraMap_eq_ofReal (K := 𝕜) ▸ rfl)
  map_star' x := by rw [star_trivial, RCLike.star_def, RCLike.conj_ofReal]

/-- A converted tensor. -/
def mapTen {B P : Type} : Ten B P 𝕜 → Ten B P 𝕜'
  | .site a => .site fun l u r d p => φ (a l u r d p)
  | .corner m n c => .corner m n fun i j => φ (c i j)
  | .edge m n e => .edge m n fun i j l l' => φ (e i j l l')
  | .quarter m n q => .quarter m n (q.map φ)
  | .proj m n p => .proj m n fun i l l' j => φ (p i l l' j)
  | .bad => .bad

/-- A network with all tensors replaced. -/
def mapNet {T T' : Type} (f : T → T') (net : Net T) : Net T' where
  nx := net.nx
  ny := net.ny
  chi := net.chi
  A s := f (net.A s)
  B s sl := f (net.B s sl)
  writes := net.writes

/-- Converted random draws. -/
def mapDraws {B : Type} [Fintype B] (ω : Draws B 𝕜) : Draws B 𝕜' := fun key m n q => (ω key m n q).map φ

/-- A converted model. -/
def mapTerms {P : Type} (m : ModelTerms P 𝕜) : ModelTerms P 𝕜' where
  two b := (m.two b).map φ
  one s := (m.one s).map fun h => h.map φ

/-- Two libraries, for the two dtypes, of which the second one returns on converted matrices what the first one returns on the
matrices. -/
structure LibraryFollows (la : Lapack 𝕜) (la' : Lapack 𝕜') : Prop where
  qr : ∀ {m n : Type} [Fintype m] [Fintype n] [DecidableEq m] [DecidableEq n] (A : Matrix m n 𝕜),
    la'.qr (A.map φ) = ((la.qr A).1.map φ, (la.qr A).2.map φ)
  svd : ∀ {m n : Type} [Fintype m] [Fintype n] [DecidableEq m] [DecidableEq n] (A : Matrix m n 𝕜),
    la'.svd (A.map φ) = ((la.svd A).1.map φ, (la.svd A).2.1, (la.svd A).2.2.map φ)
  eigh : ∀ {n : Type} [Fintype n] [DecidableEq n] (A : Matrix n n 𝕜), la'.eigh (A.map φ) = ((la.eigh A).1, (la.eigh A).2.map φ)
  pinv : ∀ {m n : Type} [Fintype m] [Fintype n] [DecidableEq m] [DecidableEq n] (atol : ℝ) (A : Matrix m n 𝕜),
    la'.pinv atol (A.map φ) = (la.pinv atol A).map φ
  pinvH : ∀ {n : Type} [Fintype n] [DecidableEq n] (rcond : ℝ) (A : Matrix n n 𝕜), la'.pinvH rcond (A.map φ) = (la.pinvH rcond A).map φ
  cholSolve : ∀ {n k : Type} [Fintype n] [Fintype k] [DecidableEq n] (R : Matrix n n 𝕜) (S : Matrix n k 𝕜),
    la'.cholSolve (R.map φ) (S.map φ) = (la.cholSolve R S).map fun X => X.map φ
  linSolve : ∀ {n k : Type} [Fintype n] [Fintype k] [DecidableEq n] (R : Matrix n n 𝕜) (S : Matrix n k 𝕜),
    la'.linSolve (R.map φ) (S.map φ) = (la.linSolve R S).map fun X => X.map φ

/-- The same projector settings with a library that follows. -/
structure SameSettings (st : ProjSettings 𝕜) (st' : ProjSettings 𝕜') : Prop where
  la : LibraryFollows φ st.la st'.la
  fullRank : st'.fullRank = st.fullRank
  cutoff : st'.cutoff = st.cutoff
  oversampling : st'.oversampling = st.oversampling
  niter : st'.niter = st.niter

end AceTN.Spec
