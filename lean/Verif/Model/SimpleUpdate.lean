import Verif.Model.TensorUpdate
import Verif.Model.Lambda

/-!
The simple update: `acetn/evolution/simple_update.py` and the arithmetic of `acetn/evolution/lambda_tensors.py`.
-/

set_option autoImplicit false

namespace AceTN.Simple

/-- A weight vector: its entries (always real numbers) and whether its dtype is complex.  The initial ones have the dtype
of the network (lambda_tensors.py 19); those assigned later come from singular values and have a real dtype. -/
structure Weight (bD : ℕ) where
  cx : Bool
  v : Fin bD → ℝ

/-- `torch.ones(bD, dtype=dtype)`, lambda_tensors.py 19. -/
def ones (bD : ℕ) (cx : Bool) : Weight bD := ⟨cx, fun _ => 1⟩

/-- `CUTOFF`, lambda_tensors.py 12. -/
noncomputable def cutoff : ℝ := 1e-12

variable {𝕜 : Type} [RCLike 𝕜] {bD : ℕ} {P : Type}

/-- The weights used by `absorb`, lambda_tensors.py 35-39. -/
def absorbWeight (lt : LambdaTensors (Weight bD)) (site : Site) (excludeDir d : ℕ) : Except PyErr (Fin bD → 𝕜) := do
  let w ← lt.get site d
  if d ≠ excludeDir then return fun i => (w.v i : 𝕜) else return fun _ => 1

/-- The weights used by `strip`, lambda_tensors.py 44-48: `clamp` is not supported for complex dtypes and raises. -/
noncomputable def stripWeight (lt : LambdaTensors (Weight bD)) (site : Site) (excludeDir d : ℕ) : Except PyErr (Fin bD → 𝕜) := do
  let w ← lt.get site d
  if d ≠ excludeDir then
    if w.cx then throw .runtimeError
    return fun i => ((1 / max (w.v i) cutoff : ℝ) : 𝕜)
  else return fun _ => 1

/-- The common `einsum`, lambda_tensors.py 40 and 49. -/
def applyWeights (l u r d : Fin bD → 𝕜) (a : ATensor (Fin bD) P 𝕜) : ATensor (Fin bD) P 𝕜 :=
  einsum% "l,u,r,d,lurdp->lurdp" l u r d a

/-- `absorb`, lambda_tensors.py 33-40. -/
def absorb (lt : LambdaTensors (Weight bD)) (a : ATensor (Fin bD) P 𝕜) (site : Site) (excludeDir : ℕ) :
    Except PyErr (ATensor (Fin bD) P 𝕜) := do
  let l ← absorbWeight lt site excludeDir 0
  let u ← absorbWeight lt site excludeDir 1
  let r ← absorbWeight lt site excludeDir 2
  let d ← absorbWeight lt site excludeDir 3
  return applyWeights l u r d a

/-- `strip`, lambda_tensors.py 42-49. -/
noncomputable def strip (lt : LambdaTensors (Weight bD)) (a : ATensor (Fin bD) P 𝕜) (site : Site) (excludeDir : ℕ) :
    Except PyErr (ATensor (Fin bD) P 𝕜) := do
  let l ← stripWeight lt site excludeDir 0
  let u ← stripWeight lt site excludeDir 1
  let r ← stripWeight lt site excludeDir 2
  let d ← stripWeight lt site excludeDir 3
  return applyWeights l u r d a

section core

variable {N : Type} [Fintype N] [DecidableEq N] [Fintype P] [DecidableEq P]

/-- The new bond weights and reduced tensors, simple_update.py 46-58.  `hb` is `bD ≤ nD*pD`. -/
noncomputable def splitReduced (la : Lapack 𝕜) (hb : bD ≤ min (Fintype.card (N × P)) (Fintype.card (N × P)))
    (a1r a2r : N → Fin bD → P → 𝕜) (gate : P → P → P → P → 𝕜) :
    (N → Fin bD → P → 𝕜) × (N → Fin bD → P → 𝕜) × (Fin bD → ℝ) :=
  let a12 := einsum% "yup,xuq->ypxq" a1r a2r
  let a12g := einsum% "ypxq,pqrs->yrxs" a12 gate
  let svd := la.svd (Matrix.of fun (i j : N × P) => a12g i.1 i.2 j.1 j.2)
  let S : Fin bD → ℝ := fun a => svd.2.1 (Fin.castLE hb a)
  let lambda : Fin bD → ℝ := fun a => Real.sqrt (S a / Real.sqrt (∑ b, S b ^ 2))
  let lambda' : Fin bD → 𝕜 := fun a => (lambda a : 𝕜)
  let U : N → P → Fin bD → 𝕜 := fun y p a => svd.1 (y, p) (Fin.castLE hb a)
  let Vh : Fin bD → N → P → 𝕜 := fun a x q => svd.2.2 (Fin.castLE hb a) (x, q)
  (einsum% "ypa,a->yap" U lambda', einsum% "axq,a->xaq" Vh lambda', lambda)

end core

variable [Fintype P] [DecidableEq P]

omit [DecidableEq P] in
theorem bD_le [NeZero bD] [Nonempty P] :
    bD ≤ min (Fintype.card (Fin (nD (Fin bD) P) × P)) (Fintype.card (Fin (nD (Fin bD) P) × P)) := by
  have h1 : 0 < bD := NeZero.pos bD
  have h2 := Fintype.card_pos (α := P)
  rw [min_self]
  simp only [nD, Fintype.card_prod, Fintype.card_fin]
  rcases Nat.le_total (bD * (bD * bD)) (bD * Fintype.card P) with h | h
  · rw [Nat.min_eq_left h]
    calc bD = bD * 1 * 1 := by ring
      _ ≤ bD * (bD * bD) * Fintype.card P :=
        Nat.mul_le_mul (Nat.mul_le_mul le_rfl (Nat.mul_pos h1 h1)) h2
  · rw [Nat.min_eq_right h]
    calc bD = bD * 1 * 1 := by ring
      _ ≤ bD * Fintype.card P * Fintype.card P := Nat.mul_le_mul (Nat.mul_le_mul le_rfl h2) h2

/-- Decomposing, splitting and recomposing in the bond frame, simple_update.py 44-60. -/
noncomputable def splitBond [NeZero bD] [Nonempty P] (la : Lapack 𝕜) (gate : P → P → P → P → 𝕜) (a1 a2 : ATensor (Fin bD) P 𝕜) :
    ATensor (Fin bD) P 𝕜 × ATensor (Fin bD) P 𝕜 × (Fin bD → ℝ) :=
  let d := decompose la a1 a2
  let r := splitReduced la bD_le d.a1r d.a2r gate
  let a := recompose d.a1q r.1 d.a2q r.2.1
  (a.1, a.2, r.2.2)

/-- The tensors and weights computed by `bond_update`, simple_update.py 36-69.  `oneSite` is `none` if the one-site terms
are wrapped into the bond gates. -/
noncomputable def bondTensors [NeZero bD] [Nonempty P] (la : Lapack 𝕜) (lt : LambdaTensors (Weight bD))
    (oneSite : Option ((P → P → 𝕜) × (P → P → 𝕜))) (gate : P → P → P → P → 𝕜) (bond : Bond) (a1 a2 : ATensor (Fin bD) P 𝕜) :
    Except PyErr (ATensor (Fin bD) P 𝕜 × ATensor (Fin bD) P 𝕜 × (Fin bD → ℝ)) := do
  let a1 ← absorb lt a1 bond.s1 bond.k
  let a2 ← absorb lt a2 bond.s2 ((bond.k + 2) % 4)
  let (a1, a2, lambda) := splitBond la gate (bondPermute bond.k a1) (bondPermute bond.k a2)
  let a1 := bondPermute (4 - bond.k) a1
  let a2 := bondPermute (4 - bond.k) a2
  let a1 ← strip lt a1 bond.s1 bond.k
  let a2 ← strip lt a2 bond.s2 ((bond.k + 2) % 4)
  match oneSite with
  | none => return (a1, a2, lambda)
  | some (g1, g2) => return (applyOneSite g1 a1, applyOneSite g2 a2, lambda)

/-- `bond_update`, simple_update.py 28-76, on the network and the weights.  Nothing is stored if an exception is
raised. -/
noncomputable def bondUpdate [NeZero bD] [Nonempty P] {X : Type} (la : Lapack 𝕜) (oneSite : Option ((P → P → 𝕜) × (P → P → 𝕜)))
    (gate : P → P → P → P → 𝕜) (st : NetT (Fin bD) P X 𝕜 × LambdaTensors (Weight bD)) (bond : Bond) :
    Except PyErr (NetT (Fin bD) P X 𝕜 × LambdaTensors (Weight bD)) := do
  let (ipeps, lt) := st
  let (a1, a2, lambda) ← bondTensors la lt oneSite gate bond (ipeps bond.s1).A (ipeps bond.s2).A
  let lt := lt.setItem bond ⟨false, lambda⟩
  return (storePair ipeps bond.s1 bond.s2 a1 a2, lt)

end AceTN.Simple
