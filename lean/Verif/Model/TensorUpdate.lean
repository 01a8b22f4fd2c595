import Verif.Model.Tensors
import Verif.Model.LinAlg

/-!
Common part of the bond updates: `acetn/evolution/tensor_update.py`.
-/

set_option autoImplicit false

namespace AceTN

variable {𝕜 : Type} [RCLike 𝕜] {B P : Type} [Fintype B] [Fintype P] [DecidableEq B] [DecidableEq P]

/-- `nD = min(bD**3, pD*bD)`, tensor_update.py 55-56. -/
abbrev nD (B P : Type) [Fintype B] [Fintype P] : ℕ := min (Fintype.card (B × B × B)) (Fintype.card (B × P))

/-- The results of `decompose_site_tensors`. -/
structure Decomp (B P N 𝕜 : Type) where
  a1q : B → B → B → N → 𝕜
  a1r : N → B → P → 𝕜
  a2q : B → B → B → N → 𝕜
  a2r : N → B → P → 𝕜

/-- `decompose_site_tensors`, tensor_update.py 52-68. -/
def decompose (la : Lapack 𝕜) (a1 a2 : ATensor B P 𝕜) : Decomp B P (Fin (nD B P)) 𝕜 :=
  let a1_tmp := einsum% "lurdp->rdulp" a1
  let qr1 := la.qr (Matrix.of fun (i : B × B × B) (j : B × P) => a1_tmp i.1 i.2.1 i.2.2 j.1 j.2)
  let a2_tmp := einsum% "lurdp->dlurp" a2
  let qr2 := la.qr (Matrix.of fun (i : B × B × B) (j : B × P) => a2_tmp i.1 i.2.1 i.2.2 j.1 j.2)
  { a1q := fun r d u x => qr1.1 (r, d, u) x
    a1r := fun x l p => qr1.2 x (l, p)
    a2q := fun d l u x => qr2.1 (d, l, u) x
    a2r := fun x r p => qr2.2 x (r, p) }

/-- `recompose_site_tensors`, tensor_update.py 70-75. -/
def recompose {N : Type} [Fintype N] (a1q : B → B → B → N → 𝕜) (a1r : N → B → P → 𝕜) (a2q : B → B → B → N → 𝕜)
    (a2r : N → B → P → 𝕜) : ATensor B P 𝕜 × ATensor B P 𝕜 :=
  (einsum% "rdux,xlp->lurdp" a1q a1r, einsum% "dlux,xrp->lurdp" a2q a2r)

/-- The one-site gate applied after the update, tensor_update.py 36-37 and simple_update.py 68-69. -/
def applyOneSite (g : P → P → 𝕜) (a : ATensor B P 𝕜) : ATensor B P 𝕜 := einsum% "pq,lurdp->lurdq" g a

/-- `update`, tensor_update.py 18-38.  `tensorUpdate` is the subclass's method on tensors in the bond frame, which may
raise; `oneSite` is `none` if the one-site terms are wrapped into the bond gates and otherwise the gates of the two
sites. -/
def tensorUpdaterUpdate {X E : Type} (tensorUpdate : ATensor B P 𝕜 → ATensor B P 𝕜 → Except E (ATensor B P 𝕜 × ATensor B P 𝕜))
    (oneSite : Option ((P → P → 𝕜) × (P → P → 𝕜))) (ipeps : NetT B P X 𝕜) (s1 s2 : Site) (k : ℤ) :
    Except E (ATensor B P 𝕜 × ATensor B P 𝕜) := do
  let a1 := bondPermute k (ipeps s1).A
  let a2 := bondPermute k (ipeps s2).A
  let (a1, a2) ← tensorUpdate a1 a2
  let a1 := bondPermute (4 - k) a1
  let a2 := bondPermute (4 - k) a2
  match oneSite with
  | none => return (a1, a2)
  | some (g1, g2) => return (applyOneSite g1 a1, applyOneSite g2 a2)

/-- Storing a site tensor, `ipeps[s]['A'] = a`. -/
def setA {X : Type} (ipeps : NetT B P X 𝕜) (s : Site) (a : ATensor B P 𝕜) : NetT B P X 𝕜 :=
  fun s' => if s' = s then { ipeps s' with A := a } else ipeps s'

/-- Storing the two updated tensors of a bond, first that of the first site: simple_update.py 72-73 and
fast_full_update.py 61-62. -/
def storePair {X : Type} (ipeps : NetT B P X 𝕜) (s1 s2 : Site) (a1 a2 : ATensor B P 𝕜) : NetT B P X 𝕜 :=
  setA (setA ipeps s1 a1) s2 a2

/-- `bond_update` of the fast full update in a non-distributed run, fast_full_update.py 47-69.  `absorbBond` are the two
boundary moves of `absorb_bond`. -/
def fastBondUpdate {X E : Type} (tensorUpdate : ATensor B P 𝕜 → ATensor B P 𝕜 → Except E (ATensor B P 𝕜 × ATensor B P 𝕜))
    (oneSite : Option ((P → P → 𝕜) × (P → P → 𝕜))) (absorbBond : NetT B P X 𝕜 → Except E (NetT B P X 𝕜))
    (ipeps : NetT B P X 𝕜) (s1 s2 : Site) (k : ℤ) : Except E (NetT B P X 𝕜) := do
  let (a1, a2) ← tensorUpdaterUpdate tensorUpdate oneSite ipeps s1 s2 k
  absorbBond (storePair ipeps s1 s2 a1 a2)

end AceTN
