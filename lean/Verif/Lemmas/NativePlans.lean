import Verif.Lemmas.NativeMem
import Verif.Spec.Memory

/-! The nine contraction plans of the native solver: what planning yields, and what executing a plan computes. -/

set_option autoImplicit false

namespace AceTN.Native

open Spec

variable {𝕜 : Type}

theorem offset3 (n0 n1 n2 i j k : ℕ) : offset [i, j, k] (rowMajorStrides [n0, n1, n2]) = (i * n1 + j) * n2 + k := by
  simp [offset, rowMajorStrides, stridesAux]; ring

theorem offset4 (n0 n1 n2 n3 i j k l : ℕ) :
    offset [i, j, k, l] (rowMajorStrides [n0, n1, n2, n3]) = ((i * n1 + j) * n2 + k) * n3 + l := by
  simp [offset, rowMajorStrides, stridesAux]; ring

theorem offset5 (n0 n1 n2 n3 n4 i j k l m : ℕ) :
    offset [i, j, k, l, m] (rowMajorStrides [n0, n1, n2, n3, n4]) = (((i * n1 + j) * n2 + k) * n3 + l) * n4 + m := by
  simp [offset, rowMajorStrides, stridesAux]; ring

variable (nD bD pD : ℕ)

/-- The plan for `YXpQ,XUQ->YUp`. -/
def planS1 : Plan :=
  ⟨⟨"YXpQ".toList, "XUQ".toList, "YUp".toList, [nD, bD, pD]⟩, [nD, nD, pD, pD], [nD, bD, pD], false, true⟩

theorem create_S1 (A B : Buf 𝕜) (hA : A.shape = [nD, nD, pD, pD]) (hB : B.shape = [nD, bD, pD]) :
    createPlan "YXpQ,XUQ->YUp" A B false true = .ok (planS1 nD bD pD) := by
  simp [createPlan, hA, hB, parse, splitArrow, splitComma, addA, addB, outExtents, PyDict.get?, PyDict.set, Except.map, planS1]

/-- The plan for `YXPq,YVP->XVq`. -/
def planS2 : Plan :=
  ⟨⟨"YXPq".toList, "YVP".toList, "XVq".toList, [nD, bD, pD]⟩, [nD, nD, pD, pD], [nD, bD, pD], false, true⟩

theorem create_S2 (A B : Buf 𝕜) (hA : A.shape = [nD, nD, pD, pD]) (hB : B.shape = [nD, bD, pD]) :
    createPlan "YXPq,YVP->XVq" A B false true = .ok (planS2 nD bD pD) := by
  simp [createPlan, hA, hB, parse, splitArrow, splitComma, addA, addB, outExtents, PyDict.get?, PyDict.set, Except.map, planS2]

/-- The plan for `yxYX,xuq->yYXuq`. -/
def planR1i : Plan :=
  ⟨⟨"yxYX".toList, "xuq".toList, "yYXuq".toList, [nD, nD, nD, bD, pD]⟩, [nD, nD, nD, nD], [nD, bD, pD], false, false⟩

theorem create_R1i (A B : Buf 𝕜) (hA : A.shape = [nD, nD, nD, nD]) (hB : B.shape = [nD, bD, pD]) :
    createPlan "yxYX,xuq->yYXuq" A B false false = .ok (planR1i nD bD pD) := by
  simp [createPlan, hA, hB, parse, splitArrow, splitComma, addA, addB, outExtents, PyDict.get?, PyDict.set, Except.map, planR1i]

/-- The plan for `yYXuQ,XUQ->YUyu`. -/
def planR1 : Plan :=
  ⟨⟨"yYXuQ".toList, "XUQ".toList, "YUyu".toList, [nD, bD, nD, bD]⟩, [nD, nD, nD, bD, pD], [nD, bD, pD], false, true⟩

theorem create_R1 (A B : Buf 𝕜) (hA : A.shape = [nD, nD, nD, bD, pD]) (hB : B.shape = [nD, bD, pD]) :
    createPlan "yYXuQ,XUQ->YUyu" A B false true = .ok (planR1 nD bD pD) := by
  simp [createPlan, hA, hB, parse, splitArrow, splitComma, addA, addB, outExtents, PyDict.get?, PyDict.set, Except.map, planR1]

/-- The plan for `yxYX,yvp->xYXvp`. -/
def planR2i : Plan :=
  ⟨⟨"yxYX".toList, "yvp".toList, "xYXvp".toList, [nD, nD, nD, bD, pD]⟩, [nD, nD, nD, nD], [nD, bD, pD], false, false⟩

theorem create_R2i (A B : Buf 𝕜) (hA : A.shape = [nD, nD, nD, nD]) (hB : B.shape = [nD, bD, pD]) :
    createPlan "yxYX,yvp->xYXvp" A B false false = .ok (planR2i nD bD pD) := by
  simp [createPlan, hA, hB, parse, splitArrow, splitComma, addA, addB, outExtents, PyDict.get?, PyDict.set, Except.map, planR2i]

/-- The plan for `xYXvP,YVP->XVxv`. -/
def planR2 : Plan :=
  ⟨⟨"xYXvP".toList, "YVP".toList, "XVxv".toList, [nD, bD, nD, bD]⟩, [nD, nD, nD, bD, pD], [nD, bD, pD], false, true⟩

theorem create_R2 (A B : Buf 𝕜) (hA : A.shape = [nD, nD, nD, bD, pD]) (hB : B.shape = [nD, bD, pD]) :
    createPlan "xYXvP,YVP->XVxv" A B false true = .ok (planR2 nD bD pD) := by
  simp [createPlan, hA, hB, parse, splitArrow, splitComma, addA, addB, outExtents, PyDict.get?, PyDict.set, Except.map, planR2]

/-- The plan for `yup,xuq->yxpq`. -/
def planN : Plan :=
  ⟨⟨"yup".toList, "xuq".toList, "yxpq".toList, [nD, nD, pD, pD]⟩, [nD, bD, pD], [nD, bD, pD], false, false⟩

theorem create_N (A B : Buf 𝕜) (hA : A.shape = [nD, bD, pD]) (hB : B.shape = [nD, bD, pD]) :
    createPlan "yup,xuq->yxpq" A B false false = .ok (planN nD bD pD) := by
  simp [createPlan, hA, hB, parse, splitArrow, splitComma, addA, addB, outExtents, PyDict.get?, PyDict.set, Except.map, planN]

/-- The plan for `yxYX,yxpq->YXpq`. -/
def planD : Plan :=
  ⟨⟨"yxYX".toList, "yxpq".toList, "YXpq".toList, [nD, nD, pD, pD]⟩, [nD, nD, nD, nD], [nD, nD, pD, pD], false, false⟩

theorem create_D (A B : Buf 𝕜) (hA : A.shape = [nD, nD, nD, nD]) (hB : B.shape = [nD, nD, pD, pD]) :
    createPlan "yxYX,yxpq->YXpq" A B false false = .ok (planD nD pD) := by
  simp [createPlan, hA, hB, parse, splitArrow, splitComma, addA, addB, outExtents, PyDict.get?, PyDict.set, Except.map, planD]

/-- The plan for `YXpq,YXpq->`. -/
def planC : Plan :=
  ⟨⟨"YXpq".toList, "YXpq".toList, "".toList, []⟩, [nD, nD, pD, pD], [nD, nD, pD, pD], false, true⟩

theorem create_C (A B : Buf 𝕜) (hA : A.shape = [nD, nD, pD, pD]) (hB : B.shape = [nD, nD, pD, pD]) :
    createPlan "YXpq,YXpq->" A B false true = .ok (planC nD pD) := by
  simp [createPlan, hA, hB, parse, splitArrow, splitComma, Except.map, planC]

variable {nD bD pD} [RCLike 𝕜]

theorem run_S1 (A B C : Buf 𝕜) (TA : Fin nD → Fin nD → Fin pD → Fin pD → 𝕜) (TB : Fin nD → Fin bD → Fin pD → 𝕜)
    (hA : Holds4 A TA) (hB : Holds3 B TB) (hC : C.shape = [nD, bD, pD]) :
    Holds3 (contract (planS1 nD bD pD) A B C) (einsum% "YXpQ,XUQ->YUp" TA (star TB)) := by
  have hs : (contract (planS1 nD bD pD) A B C).shape = [nD, bD, pD] := hC
  have hc : (planS1 nD bD pD).contracted = ['X', 'Q'] := by
    simp only [Plan.contracted, planS1]; rfl
  refine ⟨hC, fun i j k => ?_⟩
  have h := contract_get (planS1 nD bD pD) A B C hC [i, j, k] (by simp [planS1])
  rw [Buf.get, hs, offset3] at h
  rw [h]
  simp only [Plan.value, hc, sumOver]
  simp [planS1, Plan.extent, assign, opConj, offset3, offset4, Finset.sum_range, hA.2, hB.2]

theorem run_S2 (A B C : Buf 𝕜) (TA : Fin nD → Fin nD → Fin pD → Fin pD → 𝕜) (TB : Fin nD → Fin bD → Fin pD → 𝕜)
    (hA : Holds4 A TA) (hB : Holds3 B TB) (hC : C.shape = [nD, bD, pD]) :
    Holds3 (contract (planS2 nD bD pD) A B C) (einsum% "YXPq,YVP->XVq" TA (star TB)) := by
  have hs : (contract (planS2 nD bD pD) A B C).shape = [nD, bD, pD] := hC
  have hc : (planS2 nD bD pD).contracted = ['Y', 'P'] := by
    simp only [Plan.contracted, planS2]; rfl
  refine ⟨hC, fun i j k => ?_⟩
  have h := contract_get (planS2 nD bD pD) A B C hC [i, j, k] (by simp [planS2])
  rw [Buf.get, hs, offset3] at h
  rw [h]
  simp only [Plan.value, hc, sumOver]
  simp [planS2, Plan.extent, assign, opConj, offset3, offset4, Finset.sum_range, hA.2, hB.2]

theorem run_R1i (A B C : Buf 𝕜) (TA : Fin nD → Fin nD → Fin nD → Fin nD → 𝕜) (TB : Fin nD → Fin bD → Fin pD → 𝕜)
    (hA : Holds4 A TA) (hB : Holds3 B TB) (hC : C.shape = [nD, nD, nD, bD, pD]) :
    Holds5 (contract (planR1i nD bD pD) A B C) (einsum% "yxYX,xuq->yYXuq" TA TB) := by
  have hs : (contract (planR1i nD bD pD) A B C).shape = [nD, nD, nD, bD, pD] := hC
  have hc : (planR1i nD bD pD).contracted = ['x'] := by
    simp only [Plan.contracted, planR1i]; rfl
  refine ⟨hC, fun i j k l m => ?_⟩
  have h := contract_get (planR1i nD bD pD) A B C hC [i, j, k, l, m] (by simp [planR1i])
  rw [Buf.get, hs, offset5] at h
  rw [h]
  simp only [Plan.value, hc, sumOver]
  simp [planR1i, Plan.extent, assign, opConj, offset3, offset4, Finset.sum_range, hA.2, hB.2]

theorem run_R1 (A B C : Buf 𝕜) (TA : Fin nD → Fin nD → Fin nD → Fin bD → Fin pD → 𝕜) (TB : Fin nD → Fin bD → Fin pD → 𝕜)
    (hA : Holds5 A TA) (hB : Holds3 B TB) (hC : C.shape = [nD, bD, nD, bD]) :
    Holds4 (contract (planR1 nD bD pD) A B C) (einsum% "yYXuQ,XUQ->YUyu" TA (star TB)) := by
  have hs : (contract (planR1 nD bD pD) A B C).shape = [nD, bD, nD, bD] := hC
  have hc : (planR1 nD bD pD).contracted = ['X', 'Q'] := by
    simp only [Plan.contracted, planR1]; rfl
  refine ⟨hC, fun i j k l => ?_⟩
  have h := contract_get (planR1 nD bD pD) A B C hC [i, j, k, l] (by simp [planR1])
  rw [Buf.get, hs, offset4] at h
  rw [h]
  simp only [Plan.value, hc, sumOver]
  simp [planR1, Plan.extent, assign, opConj, offset3, offset5, Finset.sum_range, hA.2, hB.2]

theorem run_R2i (A B C : Buf 𝕜) (TA : Fin nD → Fin nD → Fin nD → Fin nD → 𝕜) (TB : Fin nD → Fin bD → Fin pD → 𝕜)
    (hA : Holds4 A TA) (hB : Holds3 B TB) (hC : C.shape = [nD, nD, nD, bD, pD]) :
    Holds5 (contract (planR2i nD bD pD) A B C) (einsum% "yxYX,yvp->xYXvp" TA TB) := by
  have hs : (contract (planR2i nD bD pD) A B C).shape = [nD, nD, nD, bD, pD] := hC
  have hc : (planR2i nD bD pD).contracted = ['y'] := by
    simp only [Plan.contracted, planR2i]; rfl
  refine ⟨hC, fun i j k l m => ?_⟩
  have h := contract_get (planR2i nD bD pD) A B C hC [i, j, k, l, m] (by simp [planR2i])
  rw [Buf.get, hs, offset5] at h
  rw [h]
  simp only [Plan.value, hc, sumOver]
  simp [planR2i, Plan.extent, assign, opConj, offset3, offset4, Finset.sum_range, hA.2, hB.2]

theorem run_R2 (A B C : Buf 𝕜) (TA : Fin nD → Fin nD → Fin nD → Fin bD → Fin pD → 𝕜) (TB : Fin nD → Fin bD → Fin pD → 𝕜)
    (hA : Holds5 A TA) (hB : Holds3 B TB) (hC : C.shape = [nD, bD, nD, bD]) :
    Holds4 (contract (planR2 nD bD pD) A B C) (einsum% "xYXvP,YVP->XVxv" TA (star TB)) := by
  have hs : (contract (planR2 nD bD pD) A B C).shape = [nD, bD, nD, bD] := hC
  have hc : (planR2 nD bD pD).contracted = ['Y', 'P'] := by
    simp only [Plan.contracted, planR2]; rfl
  refine ⟨hC, fun i j k l => ?_⟩
  have h := contract_get (planR2 nD bD pD) A B C hC [i, j, k, l] (by simp [planR2])
  rw [Buf.get, hs, offset4] at h
  rw [h]
  simp only [Plan.value, hc, sumOver]
  simp [planR2, Plan.extent, assign, opConj, offset3, offset5, Finset.sum_range, hA.2, hB.2]

theorem run_N (A B C : Buf 𝕜) (TA : Fin nD → Fin bD → Fin pD → 𝕜) (TB : Fin nD → Fin bD → Fin pD → 𝕜)
    (hA : Holds3 A TA) (hB : Holds3 B TB) (hC : C.shape = [nD, nD, pD, pD]) :
    Holds4 (contract (planN nD bD pD) A B C) (einsum% "yup,xuq->yxpq" TA TB) := by
  have hs : (contract (planN nD bD pD) A B C).shape = [nD, nD, pD, pD] := hC
  have hc : (planN nD bD pD).contracted = ['u'] := by
    simp only [Plan.contracted, planN]; rfl
  refine ⟨hC, fun i j k l => ?_⟩
  have h := contract_get (planN nD bD pD) A B C hC [i, j, k, l] (by simp [planN])
  rw [Buf.get, hs, offset4] at h
  rw [h]
  simp only [Plan.value, hc, sumOver]
  simp [planN, Plan.extent, assign, opConj, offset3, Finset.sum_range, hA.2, hB.2]

theorem run_D (A B C : Buf 𝕜) (TA : Fin nD → Fin nD → Fin nD → Fin nD → 𝕜) (TB : Fin nD → Fin nD → Fin pD → Fin pD → 𝕜)
    (hA : Holds4 A TA) (hB : Holds4 B TB) (hC : C.shape = [nD, nD, pD, pD]) :
    Holds4 (contract (planD nD pD) A B C) (einsum% "yxYX,yxpq->YXpq" TA TB) := by
  have hs : (contract (planD nD pD) A B C).shape = [nD, nD, pD, pD] := hC
  have hc : (planD nD pD).contracted = ['y', 'x'] := by
    simp only [Plan.contracted, planD]; rfl
  refine ⟨hC, fun i j k l => ?_⟩
  have h := contract_get (planD nD pD) A B C hC [i, j, k, l] (by simp [planD])
  rw [Buf.get, hs, offset4] at h
  rw [h]
  simp only [Plan.value, hc, sumOver]
  simp [planD, Plan.extent, assign, opConj, offset4, Finset.sum_range, hA.2, hB.2]

theorem run_C (A B C : Buf 𝕜) (TA : Fin nD → Fin nD → Fin pD → Fin pD → 𝕜) (TB : Fin nD → Fin nD → Fin pD → Fin pD → 𝕜)
    (hA : Holds4 A TA) (hB : Holds4 B TB) (hC : C.shape = []) :
    Holds0 (contract (planC nD pD) A B C) (einsum% "YXpq,YXpq->" TA (star TB)) := by
  have hs : (contract (planC nD pD) A B C).shape = [] := hC
  have hc : (planC nD pD).contracted = ['Y', 'X', 'p', 'q'] := by
    simp only [Plan.contracted, planC]; rfl
  refine ⟨hC, ?_⟩
  have h := contract_get (planC nD pD) A B C hC [] (by simp [planC])
  rw [Buf.get, hs] at h
  change (contract (planC nD pD) A B C).mem 0 = _ at h
  rw [h]
  simp only [Plan.value, hc, sumOver]
  simp [planC, Plan.extent, assign, opConj, offset4, Finset.sum_range, hA.2, hB.2]

end AceTN.Native
