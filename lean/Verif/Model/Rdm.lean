import Verif.Model.Tensors
import Verif.Model.Blocks

/-!
Reduced density matrices: `acetn/measurement/rdm.py`.  The einsum strings are those of the source; every leg has its
own index type, so the definitions also check that the legs fit together.
-/

set_option autoImplicit false

namespace AceTN

variable {𝕜 : Type} [RCLike 𝕜]

section site

variable {L U R D P : Type} [Fintype L] [Fintype U] [Fintype R] [Fintype D]
variable {x0 x1 x2 x3 x4 x5 x6 x7 : Type} [Fintype x0] [Fintype x1] [Fintype x2] [Fintype x3]
  [Fintype x4] [Fintype x5] [Fintype x6] [Fintype x7]

/-- The contraction of `build_site_rdm`, rdm.py 58-67. -/
def siteRdmCore (c1 : x0 → x1 → 𝕜) (e1 : x1 → x2 → U → U → 𝕜) (c2 : x2 → x3 → 𝕜) (e2 : x3 → x4 → R → R → 𝕜)
    (c3 : x4 → x5 → 𝕜) (e3 : x5 → x6 → D → D → 𝕜) (c4 : x6 → x7 → 𝕜) (e4 : x7 → x0 → L → L → 𝕜)
    (a1 : L → U → R → D → P → 𝕜) : P → P → 𝕜 :=
  let tmp1 := einsum% "ab,bclL->aclL" c4 e4
  let tmp1 := einsum% "aclL,eadD->clLedD" tmp1 e3
  let tmp1 := einsum% "clLedD,LURDP->cledURP" tmp1 (star a1)
  let tmp2 := einsum% "ab,bcuU->acuU" c1 e1
  let tmp3 := einsum% "ab,carR->bcrR" c3 e2
  let tmp3 := einsum% "ec,bcrR->ebrR" c2 tmp3
  let tmp3 := einsum% "ebrR,aeuU->brRauU" tmp3 tmp2
  let tmp3 := einsum% "erRcuU,cledURP->ruldP" tmp3 tmp1
  einsum% "ruldP,lurdp->Pp" tmp3 a1

end site

section bond

variable {L1 U1 R1 D1 P : Type} [Fintype L1] [Fintype U1] [Fintype R1] [Fintype D1]
variable {L2 U2 D2 Q : Type} [Fintype L2] [Fintype U2] [Fintype D2]
variable {y0 y1 y2 y3 y4 y5 y6 y7 y8 y9 : Type} [Fintype y0] [Fintype y1] [Fintype y2] [Fintype y3]
  [Fintype y4] [Fintype y5] [Fintype y6] [Fintype y7] [Fintype y8] [Fintype y9]

/-- `build_bond_rdm_core`, rdm.py 102-120.  `L1` is the leg shared by the two site tensors. -/
def bondRdmCore (c12 : y2 → y3 → 𝕜) (e12 : y3 → y4 → R1 → R1 → 𝕜) (e11 : y1 → y2 → U1 → U1 → 𝕜)
    (c13 : y4 → y5 → 𝕜) (e13 : y5 → y6 → D1 → D1 → 𝕜) (a1 : L1 → U1 → R1 → D1 → P → 𝕜)
    (c21 : y9 → y0 → 𝕜) (e21 : y0 → y1 → U2 → U2 → 𝕜) (e24 : y8 → y9 → L2 → L2 → 𝕜)
    (c24 : y7 → y8 → 𝕜) (e23 : y6 → y7 → D2 → D2 → 𝕜) (a2 : L2 → U2 → L1 → D2 → Q → 𝕜) :
    P → Q → P → Q → 𝕜 :=
  let tmp := einsum% "ab,bcrR->acrR" c12 e12
  let tmp := einsum% "acrR,eauU->crReuU" tmp e11
  let tmp := einsum% "crReuU,LURDP->creuLDP" tmp (star a1)
  let tmp := einsum% "creuLDP,lurdp->ceLDPldp" tmp a1
  let rdm1_tmp := einsum% "ab,bfdD->afdD" c13 e13
  let rdm1_tmp := einsum% "afdD,acLDPldp->fcLPlp" rdm1_tmp tmp
  let tmp := einsum% "ab,bcuU->acuU" c21 e21
  let tmp := einsum% "acuU,ealL->cuUelL" tmp e24
  let tmp := einsum% "cuUelL,LURDQ->cuelRDQ" tmp (star a2)
  let tmp := einsum% "cuelRDQ,lurdq->ceRDQrdq" tmp a2
  let rdm2_tmp := einsum% "ae,fadD->efdD" c24 e23
  let rdm2_tmp := einsum% "efdD,ceRDQrdq->fcRQrq" rdm2_tmp tmp
  einsum% "fcRPrp,fcRQrq->PQpq" rdm1_tmp rdm2_tmp

/-- `build_bond_rdm_core_blocked`, rdm.py 123-154.  `init` is the uninitialised memory of `torch.empty`. -/
def bondRdmCoreBlocked {pD : ℕ} (init : Fin pD → Fin pD → Fin pD → Fin pD → 𝕜)
    (c12 : y2 → y3 → 𝕜) (e12 : y3 → y4 → R1 → R1 → 𝕜) (e11 : y1 → y2 → U1 → U1 → 𝕜)
    (c13 : y4 → y5 → 𝕜) (e13 : y5 → y6 → D1 → D1 → 𝕜) (a1 : L1 → U1 → R1 → D1 → Fin pD → 𝕜)
    (c21 : y9 → y0 → 𝕜) (e21 : y0 → y1 → U2 → U2 → 𝕜) (e24 : y8 → y9 → L2 → L2 → 𝕜)
    (c24 : y7 → y8 → 𝕜) (e23 : y6 → y7 → D2 → D2 → 𝕜) (a2 : L2 → U2 → L1 → D2 → Fin pD → 𝕜) :
    Fin pD → Fin pD → Fin pD → Fin pD → 𝕜 :=
  let tmp_r1 := einsum% "ab,bcrR->acrR" c12 e12
  let tmp_r1 := einsum% "acrR,eauU->crReuU" tmp_r1 e11
  let tmp_r2 := einsum% "ab,bfdD->afdD" c13 e13
  let tmp_l1 := einsum% "ab,bcuU->acuU" c21 e21
  let tmp_l1 := einsum% "acuU,ealL->cuUelL" tmp_l1 e24
  let tmp_l2 := einsum% "ae,fadD->efdD" c24 e23
  (blockIndices pD 1).foldl (init := init) fun bond_rdm (b0, b1) =>
    let tmp_r3 := einsum% "crReuU,LURDP->creuLDP" tmp_r1 (star fun l u r d => b0.slice (a1 l u r d))
    let tmp_r3 := einsum% "creuLDP,lurdp->ceLDPldp" tmp_r3 a1
    let rdm1_tmp := einsum% "afdD,acLDPldp->fcLPlp" tmp_r2 tmp_r3
    let tmp_l3 := einsum% "cuUelL,LURDQ->cuelRDQ" tmp_l1 (star fun l u r d => b1.slice (a2 l u r d))
    let tmp_l3 := einsum% "cuelRDQ,lurdq->ceRDQrdq" tmp_l3 a2
    let rdm2_tmp := einsum% "efdD,ceRDQrdq->fcRQrq" tmp_l2 tmp_l3
    b0.write b1 (einsum% "fcRPrp,fcRQrq->PQpq" rdm1_tmp rdm2_tmp) bond_rdm

end bond

section network

variable {B P X : Type} [Fintype B] [Fintype X]

/-- `build_site_rdm`, rdm.py 48-67. -/
def buildSiteRdm (ipeps : NetT B P X 𝕜) (site : Site) : P → P → 𝕜 :=
  let s := ipeps site
  siteRdmCore (s.C 0) (s.E 0) (s.C 1) (s.E 1) (s.C 2) (s.E 2) (s.C 3) (s.E 3) s.A

/-- `build_bond_rdm`, rdm.py 82-99. -/
def buildBondRdm {pD : ℕ} (init : Fin pD → Fin pD → Fin pD → Fin pD → 𝕜)
    (ipeps : NetT B (Fin pD) X 𝕜) (s1 s2 : Site) (k : ℤ) : Fin pD → Fin pD → Fin pD → Fin pD → 𝕜 :=
  let c12 := (ipeps s1).C (rotIdx k 1)
  let e12 := (ipeps s1).E (rotIdx k 1)
  let e11 := (ipeps s1).E (rotIdx k 0)
  let c13 := (ipeps s1).C (rotIdx k 2)
  let e13 := (ipeps s1).E (rotIdx k 2)
  let a1 := bondPermute k (ipeps s1).A
  let c21 := (ipeps s2).C (rotIdx k 0)
  let e21 := (ipeps s2).E (rotIdx k 0)
  let e24 := (ipeps s2).E (rotIdx k 3)
  let c24 := (ipeps s2).C (rotIdx k 3)
  let e23 := (ipeps s2).E (rotIdx k 2)
  let a2 := bondPermute k (ipeps s2).A
  bondRdmCoreBlocked init c12 e12 e11 c13 e13 a1 c21 e21 e24 c24 e23 a2

end network

end AceTN
