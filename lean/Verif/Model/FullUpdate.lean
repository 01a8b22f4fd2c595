import Verif.Model.TensorUpdate
import Verif.Model.Blocks
import Verif.Model.AlsLoop

/-!
The full update: `acetn/evolution/full_update.py` and the tensors of `acetn/evolution/als_solver.py`.
-/

set_option autoImplicit false

namespace AceTN.Full

variable {𝕜 : Type} [RCLike 𝕜]

/-! ### The norm tensor -/

section norm

variable {U1 R1 D1 Y : Type} [Fintype U1] [Fintype R1] [Fintype D1]
variable {L2 U2 D2 X : Type} [Fintype L2] [Fintype U2] [Fintype D2]
variable {y0 y1 y2 y3 y4 y5 y6 y7 y8 y9 : Type} [Fintype y0] [Fintype y1] [Fintype y2] [Fintype y3]
  [Fintype y4] [Fintype y5] [Fintype y6] [Fintype y7] [Fintype y8] [Fintype y9]

/-- `build_norm_tensor_core`, full_update.py 209-227. -/
def normCore (c12 : y2 → y3 → 𝕜) (e12 : y3 → y4 → R1 → R1 → 𝕜) (e11 : y1 → y2 → U1 → U1 → 𝕜)
    (c13 : y4 → y5 → 𝕜) (e13 : y5 → y6 → D1 → D1 → 𝕜) (a1q : R1 → D1 → U1 → Y → 𝕜)
    (c21 : y9 → y0 → 𝕜) (e21 : y0 → y1 → U2 → U2 → 𝕜) (e24 : y8 → y9 → L2 → L2 → 𝕜)
    (c24 : y7 → y8 → 𝕜) (e23 : y6 → y7 → D2 → D2 → 𝕜) (a2q : D2 → L2 → U2 → X → 𝕜) : Y → X → Y → X → 𝕜 :=
  let tmp := einsum% "ab,bcrR->acrR" c12 e12
  let tmp := einsum% "acrR,eauU->crReuU" tmp e11
  let tmp := einsum% "crReuU,RDUY->creuDY" tmp (star a1q)
  let tmp := einsum% "creuDY,rduy->ceDYdy" tmp a1q
  let n1_tmp := einsum% "ab,bfdD->afdD" c13 e13
  let n1_tmp := einsum% "afdD,aeDYdy->feYy" n1_tmp tmp
  let tmp := einsum% "ab,bcuU->acuU" c21 e21
  let tmp := einsum% "acuU,ealL->cuUelL" tmp e24
  let tmp := einsum% "cuUelL,DLUX->cuelXD" tmp (star a2q)
  let tmp := einsum% "cuelXD,dlux->ceXDxd" tmp a2q
  let n2_tmp := einsum% "ab,fadD->bfdD" c24 e23
  let n2_tmp := einsum% "bfdD,cbXDxd->fcXx" n2_tmp tmp
  einsum% "fcYy,fcXx->yxYX" n1_tmp n2_tmp

/-- `build_norm_tensor_core_blocked`, full_update.py 230-259.  `ceil(nD/4)` is `(nD+3)/4`; `init` is the uninitialised
memory of `torch.empty`. -/
def normCoreBlocked {nD : ℕ} (init : Fin nD → Fin nD → Fin nD → Fin nD → 𝕜)
    (c12 : y2 → y3 → 𝕜) (e12 : y3 → y4 → R1 → R1 → 𝕜) (e11 : y1 → y2 → U1 → U1 → 𝕜)
    (c13 : y4 → y5 → 𝕜) (e13 : y5 → y6 → D1 → D1 → 𝕜) (a1q : R1 → D1 → U1 → Fin nD → 𝕜)
    (c21 : y9 → y0 → 𝕜) (e21 : y0 → y1 → U2 → U2 → 𝕜) (e24 : y8 → y9 → L2 → L2 → 𝕜)
    (c24 : y7 → y8 → 𝕜) (e23 : y6 → y7 → D2 → D2 → 𝕜) (a2q : D2 → L2 → U2 → Fin nD → 𝕜) :
    Fin nD → Fin nD → Fin nD → Fin nD → 𝕜 :=
  let tmp_r1 := einsum% "ab,bcrR->acrR" c12 e12
  let tmp_r1 := einsum% "acrR,eauU->crReuU" tmp_r1 e11
  let tmp_r2 := einsum% "ab,bfdD->afdD" c13 e13
  let tmp_l1 := einsum% "ab,bcuU->acuU" c21 e21
  let tmp_l1 := einsum% "acuU,ealL->cuUelL" tmp_l1 e24
  let tmp_l2 := einsum% "ab,fadD->bfdD" c24 e23
  (blockIndices nD (max 8 ((nD + 3) / 4))).foldl (init := init) fun n12 (b0, b1) =>
    let tmp_r3 := einsum% "crReuU,RDUY->creuDY" tmp_r1 (star fun r d u => b0.slice (a1q r d u))
    let tmp_r3 := einsum% "creuDY,rduy->ceDYdy" tmp_r3 a1q
    let n1_tmp := einsum% "afdD,aeDYdy->feYy" tmp_r2 tmp_r3
    let tmp_l3 := einsum% "cuUelL,DLUX->cuelXD" tmp_l1 (star fun d l u => b1.slice (a2q d l u))
    let tmp_l3 := einsum% "cuelXD,dlux->ceXDxd" tmp_l3 a2q
    let n2_tmp := einsum% "bfdD,cbXDxd->fcXx" tmp_l2 tmp_l3
    let new := einsum% "fcYy,fcXx->yxYX" n1_tmp n2_tmp
    fun y x => b0.write b1 (new y x) (n12 y x)

end norm

/-- `build_norm_tensor`, full_update.py 163-206. -/
def buildNormTensor {B P X N : Type} [Fintype B] [Fintype X] (ipeps : NetT B P X 𝕜) (s1 s2 : Site) (k : ℤ)
    (a1q a2q : B → B → B → N → 𝕜) : N → N → N → N → 𝕜 :=
  let c12 := (ipeps s1).C (rotIdx k 1)
  let e12 := (ipeps s1).E (rotIdx k 1)
  let e11 := (ipeps s1).E (rotIdx k 0)
  let c13 := (ipeps s1).C (rotIdx k 2)
  let e13 := (ipeps s1).E (rotIdx k 2)
  let c21 := (ipeps s2).C (rotIdx k 0)
  let e21 := (ipeps s2).E (rotIdx k 0)
  let e24 := (ipeps s2).E (rotIdx k 3)
  let c24 := (ipeps s2).C (rotIdx k 3)
  let e23 := (ipeps s2).E (rotIdx k 2)
  normCore c12 e12 e11 c13 e13 a1q c21 e21 e24 c24 e23 a2q

/-! ### Preconditioning -/

section precondition

variable {N : Type} [Fintype N] [DecidableEq N]

/-- The `while` loop of `positive_approx`, full_update.py 281-295, run for at most `fuel` tests of its condition (`none`
if it has not ended by then).  No call of `eigh` raises here; `posLoopF` has
the branches taken when one does. -/
noncomputable def posLoop {n : Type} [Fintype n] [DecidableEq n] [Nonempty n] (la : Lapack 𝕜) (cutoff : ℝ) :
    ℕ → Matrix n n 𝕜 → Option ((Fin (Fintype.card n) → ℝ) × Matrix n (Fin (Fintype.card n)) 𝕜)
  | 0, _ => none
  | fuel + 1, A =>
    let nw := (la.eigh A).1
    let nw0 := nw ⟨0, Fintype.card_pos⟩
    if nw0 < cutoff then posLoop la cutoff fuel (A + ((2 * max cutoff |nw0| : ℝ) : 𝕜) • 1)
    else some (nw, (la.eigh A).2)

/-- `n12.reshape(nD**2, nD**2)`, full_update.py 281. -/
def normMat (n12 : N → N → N → N → 𝕜) : Matrix (N × N) (N × N) 𝕜 :=
  Matrix.of fun a b => n12 a.1 a.2 b.1 b.2

/-- `positive_approx`, full_update.py 262-297. -/
noncomputable def positiveApprox [Nonempty N] (la : Lapack 𝕜) (fuel : ℕ) (cutoff : ℝ) (n12 : N → N → N → N → 𝕜) :
    Option (N → N → Fin (Fintype.card (N × N)) → 𝕜) :=
  (posLoop la cutoff fuel (normMat n12)).map fun wz =>
    fun y x z => wz.2 (y, x) z * (Real.sqrt (wz.1 z) : 𝕜)

/-- The results of `gauge_fix`; `W` indexes the rows of the triangular factors. -/
structure GaugeFixed (N P W 𝕜 : Type) where
  n12 : W → W → W → W → 𝕜
  a12g : W → W → P → P → 𝕜
  nzxr_inv : N → W → 𝕜
  nzyr_inv : N → W → 𝕜

/-- The number of rows of the `R` factor of an `nD^3` by `nD` matrix, `min(nD^3, nD)`. -/
abbrev wD (N Z : Type) [Fintype N] [Fintype Z] : ℕ := min (Fintype.card (Z × N)) (Fintype.card N)

/-- `nzyr`, full_update.py 330. -/
def nzyrOf {Z : Type} [Fintype Z] [DecidableEq Z] (la : Lapack 𝕜) (nz : N → N → Z → 𝕜) : Matrix (Fin (wD N Z)) N 𝕜 :=
  let nzy := einsum% "yxz->zxy" nz
  (la.qr (Matrix.of fun (i : Z × N) (y : N) => nzy i.1 i.2 y)).2

/-- `nzxr`, full_update.py 331. -/
def nzxrOf {Z : Type} [Fintype Z] [DecidableEq Z] (la : Lapack 𝕜) (nz : N → N → Z → 𝕜) : Matrix (Fin (wD N Z)) N 𝕜 :=
  let nzx := einsum% "yxz->zyx" nz
  (la.qr (Matrix.of fun (i : Z × N) (x : N) => nzx i.1 i.2 x)).2

/-- `gauge_fix`, full_update.py 300-343. -/
def gaugeFix {P Z : Type} [Fintype Z] [DecidableEq Z] (la : Lapack 𝕜) (atol : ℝ) (nz : N → N → Z → 𝕜) (a12g : N → N → P → P → 𝕜) :
    GaugeFixed N P (Fin (wD N Z)) 𝕜 :=
  let nzyr := nzyrOf la nz
  let nzxr := nzxrOf la nz
  let nzyr_inv := la.pinv atol nzyr
  let nzxr_inv := la.pinv atol nzxr
  let nz := einsum% "yxz,xw->yzw" nz nzxr_inv
  let nz := einsum% "yzw,yv->zvw" nz nzyr_inv
  let n12 := einsum% "zvw,zVW->vwVW" nz (star nz)
  let a12g := einsum% "zx,yxpq->yzpq" nzxr a12g
  let a12g := einsum% "wy,yzpq->wzpq" nzyr a12g
  { n12 := n12, a12g := a12g, nzxr_inv := nzxr_inv, nzyr_inv := nzyr_inv }

/-- The norm tensor without gauge fixing, full_update.py 120. -/
def squareNorm {Z : Type} [Fintype Z] (nz : N → N → Z → 𝕜) : N → N → N → N → 𝕜 :=
  einsum% "xyz,XYz->xyXY" nz (star nz)

end precondition

/-! ### The alternating solver -/

section als

variable {N B P : Type} [Fintype N] [Fintype B] [Fintype P]

/-- `calculate_cost`, als_solver.py 250-260. -/
def cost (a1r a2r : N → B → P → 𝕜) (a12g : N → N → P → P → 𝕜) (n12 : N → N → N → N → 𝕜) : ℝ :=
  let a12n := einsum% "yup,xuq->yxpq" a1r a2r
  let d2 := einsum% "yxYX,yxpq->YXpq" n12 a12n
  let d2 := einsum% "YXpq,YXpq->" d2 (star a12n)
  let d3 := einsum% "yxYX,yxpq->YXpq" n12 a12g
  let d3 := einsum% "YXpq,YXpq->" d3 (star a12n)
  RCLike.re d2 - 2 * RCLike.re d3

/-- `n12g`, als_solver.py 114. -/
def n12gOf (n12 : N → N → N → N → 𝕜) (a12g : N → N → P → P → 𝕜) : N → N → P → P → 𝕜 :=
  einsum% "yxYX,yxpq->YXpq" n12 a12g

/-- `build_s1`, als_solver.py 233-234. -/
def buildS1 (n12g : N → N → P → P → 𝕜) (a2r : N → B → P → 𝕜) : N → B → P → 𝕜 :=
  einsum% "YXpQ,XUQ->YUp" n12g (star a2r)

/-- `build_s2`, als_solver.py 237-238. -/
def buildS2 (n12g : N → N → P → P → 𝕜) (a1r : N → B → P → 𝕜) : N → B → P → 𝕜 :=
  einsum% "YXPq,YVP->XVq" n12g (star a1r)

/-- `build_r1`, als_solver.py 241-243. -/
def buildR1 (n12 : N → N → N → N → 𝕜) (a2r : N → B → P → 𝕜) : N → B → N → B → 𝕜 :=
  let R := einsum% "yxYX,xuq->yYXuq" n12 a2r
  einsum% "yYXuQ,XUQ->YUyu" R (star a2r)

/-- `build_r2`, als_solver.py 246-248. -/
def buildR2 (n12 : N → N → N → N → 𝕜) (a1r : N → B → P → 𝕜) : N → B → N → B → 𝕜 :=
  let R := einsum% "yxYX,yvp->xYXvp" n12 a1r
  einsum% "xYXvP,YVP->XVxv" R (star a1r)

variable [DecidableEq N] [DecidableEq B]

/-- `R.abs().max()`, als_solver.py 221 (of a matrix with at least one entry). -/
noncomputable def absMax {n : Type} [Fintype n] (R : Matrix n n 𝕜) : ℝ :=
  ⨆ ij : n × n, ‖R ij.1 ij.2‖

/-- `R = 0.5 * (R + R.mH)`, als_solver.py 216-217. -/
def hermAvg (R : N → B → N → B → 𝕜) : Matrix (N × B) (N × B) 𝕜 :=
  let R : Matrix (N × B) (N × B) 𝕜 := Matrix.of fun a b => R a.1 a.2 b.1 b.2
  ((0.5 : ℝ) : 𝕜) • (R + R.conjTranspose)

/-- `solve_ar`, als_solver.py 194-230, for the two methods.  If the Cholesky branch raises, the general solver is called
on the already regularised matrix (`torch.linalg.LinAlgError` is a `RuntimeError`). -/
noncomputable def solveAr (la : Lapack 𝕜) (epsilon : ℝ) (method : Als.Solver) (R : N → B → N → B → 𝕜) (S : N → B → P → 𝕜) :
    Except PyErr (N → B → P → 𝕜) :=
  let S' : Matrix (N × B) P 𝕜 := Matrix.of fun a p => S a.1 a.2 p
  let R' := hermAvg R
  match method with
  | .cholesky =>
    let R' := R' + ((epsilon * absMax R' : ℝ) : 𝕜) • 1
    match la.cholSolve R' S' with
    | some ar => .ok fun y u p => ar (y, u) p
    | none =>
      match la.linSolve R' S' with
      | some ar => .ok fun y u p => ar (y, u) p
      | none => .error .runtimeError
  | .pinv =>
    let ar := la.pinvH epsilon R' * S'
    .ok fun y u p => ar (y, u) p

/-- One pass of the loop, als_solver.py 75-76, 148-192. -/
noncomputable def alsPass (la : Lapack 𝕜) (epsilon : ℝ) (n12 : N → N → N → N → 𝕜) (n12g : N → N → P → P → 𝕜)
    (method : Als.Solver) (p : (N → B → P → 𝕜) × (N → B → P → 𝕜)) :
    Except PyErr ((N → B → P → 𝕜) × (N → B → P → 𝕜)) := do
  let a1r ← solveAr la epsilon method (buildR1 n12 p.2) (buildS1 n12g p.2)
  let a2r ← solveAr la epsilon method (buildR2 n12 a1r) (buildS2 n12g a1r)
  return (a1r, a2r)

/-- `initialize_reduced_tensors`, als_solver.py 117-146.  The bond index runs over `bD` values, at most `nD*pD`
(`hb`). -/
noncomputable def initReduced {bD : ℕ} [DecidableEq P] (la : Lapack 𝕜) (hb : bD ≤ min (Fintype.card (N × P)) (Fintype.card (N × P)))
    (a12g : N → N → P → P → 𝕜) : (N → Fin bD → P → 𝕜) × (N → Fin bD → P → 𝕜) :=
  let a12g_tmp := einsum% "yxpq->ypxq" a12g
  let svd := la.svd (Matrix.of fun (i j : N × P) => a12g_tmp i.1 i.2 j.1 j.2)
  let U := svd.1
  let S := svd.2.1
  let V := svd.2.2.conjTranspose
  let S' : Fin bD → 𝕜 := fun u => (Real.sqrt (S (Fin.castLE hb u) / S (Fin.castLE hb ⟨0, u.pos⟩)) : ℝ)
  let U' : N → P → Fin bD → 𝕜 := fun y p u => U (y, p) (Fin.castLE hb u)
  let V' : N → P → Fin bD → 𝕜 := fun x q v => V (x, q) (Fin.castLE hb v)
  (einsum% "ypu,u->yup" U' S', einsum% "xqv,v->xvq" V' S')

end als

/-! ### Finalising -/

section finalize

variable {N P : Type} [Fintype N] [Fintype P] [DecidableEq N] [DecidableEq P] {bD : ℕ}

/-- The reshaped matrices of `finalize_reduced_tensors`, full_update.py 146-147. -/
def finMat (a : N → Fin bD → P → 𝕜) : Matrix (N × P) (Fin bD) 𝕜 :=
  let t := einsum% "yup->ypu" a
  Matrix.of fun (i : N × P) u => t i.1 i.2 u

/-- The number of columns of the `Q` factors, `min(nD*pD, bD)`; it is `bD` whenever `bD ≤ nD*pD`, as the `reshape` of
lines 155-156 requires. -/
abbrev qD (N P : Type) [Fintype N] [Fintype P] (bD : ℕ) : ℕ := min (Fintype.card (N × P)) (Fintype.card (Fin bD))

/-- `finalize_reduced_tensors` after the gauge has been undone, full_update.py 145-161.  `hb` is `bD ≤ nD*pD`. -/
noncomputable def finalizeCore (la : Lapack 𝕜) (hb : bD ≤ min (Fintype.card (Fin (qD N P bD))) (Fintype.card (Fin (qD N P bD))))
    (a1r a2r : N → Fin bD → P → 𝕜) : (N → Fin bD → P → 𝕜) × (N → Fin bD → P → 𝕜) :=
  let qr1 := la.qr (finMat a1r)
  let qr2 := la.qr (finMat a2r)
  let r1 := qr1.2
  let r2 := qr2.2
  let m := einsum% "au,bu->ab" r1 r2
  let svd := la.svd (Matrix.of fun a b => m a b)
  let s := svd.2.1
  let s' : Fin bD → 𝕜 := fun i => (Real.sqrt (s (Fin.castLE hb i) / Real.sqrt (∑ j, s j ^ 2)) : ℝ)
  let U' := fun a (b : Fin bD) => svd.1 a (Fin.castLE hb b)
  let Vh' := fun (b : Fin bD) a => svd.2.2 (Fin.castLE hb b) a
  let r1 := einsum% "ab,b->ab" U' s'
  let r2 := einsum% "ba,b->ba" Vh' s'
  let q1 := fun y p a => qr1.1 (y, p) a
  let q2 := fun x q a => qr2.1 (x, q) a
  (einsum% "ypa,au->yup" q1 r1, einsum% "xqb,vb->xvq" q2 r2)

/-- Undoing the gauge, full_update.py 142-143. -/
def undoGauge {W B : Type} [Fintype W] (nzyr_inv nzxr_inv : N → W → 𝕜) (p : (W → B → P → 𝕜) × (W → B → P → 𝕜)) :
    (N → B → P → 𝕜) × (N → B → P → 𝕜) :=
  (einsum% "yz,zup->yup" nzyr_inv p.1, einsum% "xw,wvq->xvq" nzxr_inv p.2)

/-- The gate applied to the reduced tensors, full_update.py 89-90. -/
def gateReduced {B : Type} [Fintype B] (a1r a2r : N → B → P → 𝕜) (gate : P → P → P → P → 𝕜) : N → N → P → P → 𝕜 :=
  let a12g := einsum% "yup,xuq->yxpq" a1r a2r
  einsum% "yxpq,pqrs->yxrs" a12g gate

end finalize

end AceTN.Full
