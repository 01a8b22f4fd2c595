import Verif.Model.Mover

/-!
Tensor shapes: `torch.einsum` shape checking and the shapes of every contraction in a boundary move, in the
norm tensor and in the density matrices.  The subscript strings are the strings of the source.
-/

set_option autoImplicit false

namespace AceTN

/-- A tensor shape. -/
abbrev Shape := List ℕ

/-- Parsed einsum subscripts: index names (code points) of each operand and of the output. -/
abbrev Subs := List (List ℕ) × List ℕ

open Lean in
/-- `subs% "ab,bc->ac"`: the subscript string of an einsum call, split into index names at elaboration time. -/
macro "subs% " s:str : term => do
  let str := s.getString
  let (lhs, rhs) ← match str.splitOn "->" with
    | [l, r] => pure (l, r)
    | _ => Macro.throwError "subs%: exactly one '->' expected"
  let toLits (t : String) : MacroM (TSyntax `term) := do
    let cs : Array (TSyntax `term) :=
      (t.toList.map fun c => (⟨(Syntax.mkNumLit (toString c.toNat)).raw⟩ : TSyntax `term)).toArray
    `(([$cs,*] : List Nat))
  let ops ← (lhs.splitOn ",").mapM toLits
  let opsA := ops.toArray
  let out ← toLits rhs
  `((([$opsA,*], $out) : Subs))

/-- Unify the index names of one operand with its shape, extending the sizes known so far; `none` when the
number of axes or the size of a repeated index disagrees.  (`torch.einsum` additionally lets an axis of size
one stretch to any size; the model does not allow that, so the absence of errors proved here is the stronger
statement that all sizes really agree.) -/
def bindIdx : List ℕ → Shape → (ℕ → Option ℕ) → Option (ℕ → Option ℕ)
  | [], [], env => some env
  | c :: cs, d :: ds, env =>
    match env c with
    | none => bindIdx cs ds (fun c' => if c' = c then some d else env c')
    | some d' => if d = d' then bindIdx cs ds env else none
  | _, _, _ => none

/-- Unify all operands. -/
def bindAll : List (List ℕ) → List Shape → (ℕ → Option ℕ) → Option (ℕ → Option ℕ)
  | [], [], env => some env
  | c :: cs, s :: ss, env => (bindIdx c s env).bind (bindAll cs ss)
  | _, _, _ => none

/-- Sizes of the output axes. -/
def outShape (env : ℕ → Option ℕ) : List ℕ → Option Shape
  | [] => some []
  | c :: cs => (env c).bind fun d => (outShape env cs).map (d :: ·)

/-- The shape of `torch.einsum(subs, *operands)`; `none` is the size-mismatch exception. -/
def einsumShape (subs : Subs) (ops : List Shape) : Option Shape :=
  (bindAll subs.1 ops (fun _ => none)).bind fun env => outShape env subs.2

/-- `a.permute([(i+k)%4 for i in range(4)]+[4])`, site_tensor.py 150. -/
def permuteShape (k : ℕ) : Shape → Option Shape
  | [l, u, r, d, p] =>
    some ((List.range 4).map (fun i => ([l, u, r, d] : List ℕ).getD ((i + k) % 4) 0) ++ [p])
  | _ => none

/-- `make_quarter_tensor`, projectors.py 52-57; the result is the six-index shape `qD`. -/
def quarterShape (ak ck ek1 ek2 : Shape) : Option Shape := do
  let qk ← einsumShape (subs% "ab,bcuU->acuU") [ck, ek2]
  let qk ← einsumShape (subs% "acuU,ealL->cuUelL") [qk, ek1]
  let qk ← einsumShape (subs% "cuUelL,LURDP->cuelRDP") [qk, ak]
  einsumShape (subs% "lurdp,cuelRDp->crRedD") [ak, qk]

/-- Rows and columns of a quarter tensor as a matrix, `qk.reshape(qD[0]*qD[1]*qD[2], qD[3]*qD[4]*qD[5])`,
projectors.py 58. -/
def qRows (q : Shape) : ℕ := q.getD 0 0 * q.getD 1 0 * q.getD 2 0

/-- See `qRows`. -/
def qCols (q : Shape) : ℕ := q.getD 3 0 * q.getD 4 0 * q.getD 5 0

/-- Shape of a matrix product, `none` on mismatch. -/
def matmulShape (a b : ℕ × ℕ) : Option (ℕ × ℕ) := if a.2 = b.1 then some (a.1, b.2) else none

/-- Half-system projectors, projectors.py 138-174 with 62-82 and 114-136; `z` is the number of kept singular
values (`cD_new`). -/
def halfShape (z : ℕ) (q1 q4 : Shape) : Option (Shape × Shape) := do
  let r ← matmulShape (qRows q1, qCols q1) (qRows q4, qCols q4)
  let p1 ← einsumShape (subs% "xedD,xz->edDz") [qRows q1 :: q1.drop 3, [r.1, z]]
  let p2 ← einsumShape (subs% "cuUy,yz->cuUz") [q4.take 3 ++ [qCols q4], [r.2, z]]
  return (p1, p2)

/-- Full-system projectors, projectors.py 176-217 with 84-112 and 114-136. -/
def fullShape (z : ℕ) (q1 q2 q3 q4 : Shape) : Option (Shape × Shape) := do
  let r1 ← matmulShape (qRows q2, qCols q2) (qRows q1, qCols q1)
  let r2 ← matmulShape (qRows q4, qCols q4) (qRows q3, qCols q3)
  let f ← matmulShape r1 r2
  let p1 ← einsumShape (subs% "xedD,xz->edDz") [r1.1 :: q1.drop 3, [f.1, z]]
  let p2 ← einsumShape (subs% "cuUy,yz->cuUz") [q4.take 3 ++ [r2.2], [f.2, z]]
  return (p1, p2)

/-- `renormalize_boundary_cj1`, directional_mover.py 305-323. -/
def cj1Shape (ci ei proj : Shape) : Option Shape := do
  let cj ← einsumShape (subs% "ablL,bc->alLc") [ei, ci]
  einsumShape (subs% "alLc,clLx->ax") [cj, proj]

/-- `renormalize_boundary_cj2`, directional_mover.py 325-343. -/
def cj2Shape (ci ei proj : Shape) : Option Shape := do
  let cj ← einsumShape (subs% "ab,bcrR->acrR") [ci, ei]
  einsumShape (subs% "arRx,acrR->xc") [proj, cj]

/-- `renormalize_boundary_ej`, directional_mover.py 345-366. -/
def ejShape (ei ai proj2 proj1 : Shape) : Option Shape := do
  let tmp ← einsumShape (subs% "ablL,buUx->alLuUx") [ei, proj1]
  let tmp ← einsumShape (subs% "LURDP,alLuUx->RDPalux") [ai, tmp]
  let tmp ← einsumShape (subs% "lurdp,RDpalux->rdRDax") [ai, tmp]
  einsumShape (subs% "rdRDax,adDy->yxrR") [tmp, proj2]

/-- `build_site_rdm`, rdm.py 58-67. -/
def siteRdmShape (c1 c2 c3 c4 e1 e2 e3 e4 a1 : Shape) : Option Shape := do
  let tmp1 ← einsumShape (subs% "ab,bclL->aclL") [c4, e4]
  let tmp1 ← einsumShape (subs% "aclL,eadD->clLedD") [tmp1, e3]
  let tmp1 ← einsumShape (subs% "clLedD,LURDP->cledURP") [tmp1, a1]
  let tmp2 ← einsumShape (subs% "ab,bcuU->acuU") [c1, e1]
  let tmp3 ← einsumShape (subs% "ab,carR->bcrR") [c3, e2]
  let tmp3 ← einsumShape (subs% "ec,bcrR->ebrR") [c2, tmp3]
  let tmp3 ← einsumShape (subs% "ebrR,aeuU->brRauU") [tmp3, tmp2]
  let tmp3 ← einsumShape (subs% "erRcuU,cledURP->ruldP") [tmp3, tmp1]
  einsumShape (subs% "ruldP,lurdp->Pp") [tmp3, a1]

/-- One block of `build_bond_rdm_core_blocked`, rdm.py 123-154: `w1`, `w2` are the widths of the two slices
of the physical index. -/
def bondRdmBlockShape (w1 w2 : ℕ) (c12 e12 e11 c13 e13 a1 c21 e21 e24 c24 e23 a2 : Shape) : Option Shape := do
  let r1 ← einsumShape (subs% "ab,bcrR->acrR") [c12, e12]
  let r1 ← einsumShape (subs% "acrR,eauU->crReuU") [r1, e11]
  let r2 ← einsumShape (subs% "ab,bfdD->afdD") [c13, e13]
  let l1 ← einsumShape (subs% "ab,bcuU->acuU") [c21, e21]
  let l1 ← einsumShape (subs% "acuU,ealL->cuUelL") [l1, e24]
  let l2 ← einsumShape (subs% "ae,fadD->efdD") [c24, e23]
  let r3 ← einsumShape (subs% "crReuU,LURDP->creuLDP") [r1, a1.take 4 ++ [w1]]
  let r3 ← einsumShape (subs% "creuLDP,lurdp->ceLDPldp") [r3, a1]
  let m1 ← einsumShape (subs% "afdD,acLDPldp->fcLPlp") [r2, r3]
  let l3 ← einsumShape (subs% "cuUelL,LURDQ->cuelRDQ") [l1, a2.take 4 ++ [w2]]
  let l3 ← einsumShape (subs% "cuelRDQ,lurdq->ceRDQrdq") [l3, a2]
  let m2 ← einsumShape (subs% "efdD,ceRDQrdq->fcRQrq") [l2, l3]
  einsumShape (subs% "fcRPrp,fcRQrq->PQpq") [m1, m2]

/-- `build_norm_tensor_core`, full_update.py 209-227. -/
def normShape (c12 e12 e11 c13 e13 a1q c21 e21 e24 c24 e23 a2q : Shape) : Option Shape := do
  let tmp ← einsumShape (subs% "ab,bcrR->acrR") [c12, e12]
  let tmp ← einsumShape (subs% "acrR,eauU->crReuU") [tmp, e11]
  let tmp ← einsumShape (subs% "crReuU,RDUY->creuDY") [tmp, a1q]
  let tmp ← einsumShape (subs% "creuDY,rduy->ceDYdy") [tmp, a1q]
  let n1 ← einsumShape (subs% "ab,bfdD->afdD") [c13, e13]
  let n1 ← einsumShape (subs% "afdD,aeDYdy->feYy") [n1, tmp]
  let tmp ← einsumShape (subs% "ab,bcuU->acuU") [c21, e21]
  let tmp ← einsumShape (subs% "acuU,ealL->cuUelL") [tmp, e24]
  let tmp ← einsumShape (subs% "cuUelL,DLUX->cuelXD") [tmp, a2q]
  let tmp ← einsumShape (subs% "cuelXD,dlux->ceXDxd") [tmp, a2q]
  let n2 ← einsumShape (subs% "ab,fadD->bfdD") [c24, e23]
  let n2 ← einsumShape (subs% "bfdD,cbXDxd->fcXx") [n2, tmp]
  einsumShape (subs% "fcYy,fcXx->yxYX") [n1, n2]

/-- Shapes of `decompose_site_tensors`, tensor_update.py 52-68: QR of a `bD³ × pD·bD` matrix has
`min(bD³, pD·bD)` columns; the result is `(a1q, a1r)` (the same shapes for both sites). -/
def decomposeShape (D p : ℕ) : Shape × Shape :=
  let n := min (D ^ 3) (p * D)
  ([D, D, D, n], [n, D, p])

/-- `recompose_site_tensors`, tensor_update.py 70-75, first site. -/
def recompose1Shape (a1q a1r : Shape) : Option Shape :=
  einsumShape (subs% "rdux,xlp->lurdp") [a1q, a1r]

/-- `recompose_site_tensors`, tensor_update.py 70-75, second site. -/
def recompose2Shape (a2q a2r : Shape) : Option Shape :=
  einsumShape (subs% "dlux,xrp->lurdp") [a2q, a2r]

/-- Initial corner, site_tensor.py 152-176: `"lurdp,luRDp->dDrR"` (up to naming) reshaped to a matrix. -/
def initCornerShape (D : ℕ) : Shape := [D * D, D * D]

/-- Initial edge, site_tensor.py 178-202: `"lurdp,LuRDp->lLrRdD"` reshaped to `(bD², bD², bD, bD)`. -/
def initEdgeShape (D : ℕ) : Shape := [D * D, D * D, D, D]

/-- What the tensor operations of a boundary move do to shapes.  `sh t = none` means that computing `t` raised
a size-mismatch exception; an exception in an argument propagates.  The number `z` of singular values kept by
a projector computation is between 1 and chi and may be different for every computation: it depends on the
tensor values (projectors.py 128-129: the largest ratio `s[0]/s[0] = 1` exceeds the cutoff). -/
structure ShapeLaws {T : Type} (o : Ops T) (sh : T → Option Shape) : Prop where
  permute : ∀ k a, sh (o.permute k a) = (sh a).bind (permuteShape k)
  quarter : ∀ a c e1 e2, sh (o.quarter a c e1 e2) = (sh a).bind fun a => (sh c).bind fun c =>
    (sh e1).bind fun e1 => (sh e2).bind fun e2 => quarterShape a c e1 e2
  half : ∀ key chi q1 q4, 1 ≤ chi → ∃ z, 1 ≤ z ∧ z ≤ chi ∧
    let r := (sh q1).bind fun q1 => (sh q4).bind fun q4 => halfShape z q1 q4
    sh (o.half key chi q1 q4).1 = r.map (·.1) ∧ sh (o.half key chi q1 q4).2 = r.map (·.2)
  full : ∀ key chi q1 q2 q3 q4, 1 ≤ chi → ∃ z, 1 ≤ z ∧ z ≤ chi ∧
    let r := (sh q1).bind fun q1 => (sh q2).bind fun q2 => (sh q3).bind fun q3 => (sh q4).bind fun q4 =>
      fullShape z q1 q2 q3 q4
    sh (o.full key chi q1 q2 q3 q4).1 = r.map (·.1) ∧ sh (o.full key chi q1 q2 q3 q4).2 = r.map (·.2)
  cj1 : ∀ c e p, sh (o.cj1 c e p) = (sh c).bind fun c => (sh e).bind fun e => (sh p).bind fun p =>
    cj1Shape c e p
  cj2 : ∀ c e p, sh (o.cj2 c e p) = (sh c).bind fun c => (sh e).bind fun e => (sh p).bind fun p =>
    cj2Shape c e p
  ej : ∀ e a p2 p1, sh (o.ej e a p2 p1) = (sh e).bind fun e => (sh a).bind fun a =>
    (sh p2).bind fun p2 => (sh p1).bind fun p1 => ejShape e a p2 p1

/-- `build_site_rdm(site)`, rdm.py 48-67: shapes of the tensors read, then the contraction. -/
def siteRdmOf {T : Type} (sh : T → Option Shape) (net : Net T) (s : Site) : Option Shape := do
  let c1 ← sh (net.B s (.C 0)); let c2 ← sh (net.B s (.C 1))
  let c3 ← sh (net.B s (.C 2)); let c4 ← sh (net.B s (.C 3))
  let e1 ← sh (net.B s (.E 0)); let e2 ← sh (net.B s (.E 1))
  let e3 ← sh (net.B s (.E 2)); let e4 ← sh (net.B s (.E 3))
  let a1 ← sh (net.A s)
  siteRdmShape c1 c2 c3 c4 e1 e2 e3 e4 a1

/-- `build_bond_rdm(bond)`, rdm.py 82-99, one block. -/
def bondRdmOf {T : Type} (o : Ops T) (sh : T → Option Shape) (net : Net T) (b : Bond) (w1 w2 : ℕ) :
    Option Shape := do
  let c12 ← sh (net.B b.s1 (.C ((b.k + 1) % 4)))
  let e12 ← sh (net.B b.s1 (.E ((b.k + 1) % 4)))
  let e11 ← sh (net.B b.s1 (.E ((b.k + 0) % 4)))
  let c13 ← sh (net.B b.s1 (.C ((b.k + 2) % 4)))
  let e13 ← sh (net.B b.s1 (.E ((b.k + 2) % 4)))
  let a1 ← sh (o.permute b.k (net.A b.s1))
  let c21 ← sh (net.B b.s2 (.C ((b.k + 0) % 4)))
  let e21 ← sh (net.B b.s2 (.E ((b.k + 0) % 4)))
  let e24 ← sh (net.B b.s2 (.E ((b.k + 3) % 4)))
  let c24 ← sh (net.B b.s2 (.C ((b.k + 3) % 4)))
  let e23 ← sh (net.B b.s2 (.E ((b.k + 2) % 4)))
  let a2 ← sh (o.permute b.k (net.A b.s2))
  bondRdmBlockShape w1 w2 c12 e12 e11 c13 e13 a1 c21 e21 e24 c24 e23 a2

/-- `build_norm_tensor(ipeps, bond, a1q, a2q)`, full_update.py 189-206. -/
def normOf {T : Type} (sh : T → Option Shape) (net : Net T) (b : Bond) (a1q a2q : Shape) : Option Shape := do
  let c12 ← sh (net.B b.s1 (.C ((b.k + 1) % 4)))
  let e12 ← sh (net.B b.s1 (.E ((b.k + 1) % 4)))
  let e11 ← sh (net.B b.s1 (.E ((b.k + 0) % 4)))
  let c13 ← sh (net.B b.s1 (.C ((b.k + 2) % 4)))
  let e13 ← sh (net.B b.s1 (.E ((b.k + 2) % 4)))
  let c21 ← sh (net.B b.s2 (.C ((b.k + 0) % 4)))
  let e21 ← sh (net.B b.s2 (.E ((b.k + 0) % 4)))
  let e24 ← sh (net.B b.s2 (.E ((b.k + 3) % 4)))
  let c24 ← sh (net.B b.s2 (.C ((b.k + 3) % 4)))
  let e23 ← sh (net.B b.s2 (.E ((b.k + 2) % 4)))
  normShape c12 e12 e11 c13 e13 a1q c21 e21 e24 c24 e23 a2q

/-- One step of a history: a boundary move, `n` sweeps, a bond update replacing the two site tensors,
`set_chi`. -/
inductive Act (T : Type)
  | move (m : Move)
  | renormalize (n : ℕ)
  | update (b : Bond) (a1 a2 : T)
  | setChi (chi : ℕ)

/-- Perform a history step (`renormalize`: ipeps.py 93-97; `update`: tensor_update.py 34-35; `set_chi`:
ipeps.py 58-66). -/
def Act.run {T : Type} (o : Ops T) (pk : ProjKind) (net : Net T) : Act T → Except PyErr (Net T)
  | .move m => m.run o pk net
  | .renormalize n => ctmrg o pk n net
  | .update b a1 a2 => .ok ((net.setA b.s1 a1).setA b.s2 a2)
  | .setChi chi => .ok { net with chi := chi }

/-- Perform a history. -/
def runActs {T : Type} (o : Ops T) (pk : ProjKind) : List (Act T) → Net T → Except PyErr (Net T)
  | [], net => .ok net
  | a :: as, net => do
    let net ← a.run o pk net
    runActs o pk as net

end AceTN
