import Verif.Model.Native
import Verif.Model.FullUpdate

/-!
The native alternating solver: `csrc/linalg/contraction.{h,cpp}` (execution of a plan), `csrc/evolution/als_tensors.cpp`,
`csrc/evolution/als_solve.cpp` and `csrc/linalg/cholesky_solve.h`.

Tensors are contiguous buffers in device memory, addressed through the strides the code computes.  What cuTENSOR does with a
plan and what cuSOLVER does with a matrix is modelled as documented by the vendor; CUDA streams, workspaces, handles and
allocation failures are not modelled, and arithmetic is exact.
-/

set_option autoImplicit false

namespace AceTN.Native

open Matrix ComplexOrder

variable {𝕜 : Type} [RCLike 𝕜]

/-- A contiguous tensor: its sizes and its memory, indexed from `data_ptr()`. -/
structure Buf (𝕜 : Type) where
  shape : List ℕ
  mem : ℕ → 𝕜

/-- The element at an index tuple. -/
def Buf.get (b : Buf 𝕜) (idx : List ℕ) : 𝕜 := b.mem (offset idx (rowMajorStrides b.shape))

/-- All in-range index tuples of a shape. -/
def indices : List ℕ → List (List ℕ)
  | [] => [[]]
  | n :: s => (List.range n).flatMap fun i => (indices s).map (i :: ·)

/-- Store `f idx` at the address of every in-range `idx`; the rest of the memory keeps its content. -/
def writeAll (shape : List ℕ) (f : List ℕ → 𝕜) (mem : ℕ → 𝕜) : ℕ → 𝕜 := fun a =>
  match (indices shape).find? fun idx => offset idx (rowMajorStrides shape) = a with
  | some idx => f idx
  | none => mem a

/-- A planned contraction: `Contraction`, contraction.h 196-228, after `plan`, lines 234-277.  The flags say whether an
operand is conjugated (`CUTENSOR_OP_CONJ`; the code sets it for complex types only, for real types conjugation is the
identity). -/
structure Plan where
  parsed : Parsed
  extentA : List ℕ
  extentB : List ℕ
  conjA : Bool
  conjB : Bool

/-- `create_contraction_plan`, contraction.cpp 3-48: the extents are those of the tensors given at planning time. -/
def createPlan (expr : String) (A B : Buf 𝕜) (conjA conjB : Bool) : Except PyErr Plan :=
  (parse expr.toList A.shape B.shape).map fun p => ⟨p, A.shape, B.shape, conjA, conjB⟩

/-- The value of a label, given the values of a list of labels (0 for a label that is not in the list). -/
def assign : List Char → List ℕ → Char → ℕ
  | c :: cs, i :: is, x => if x = c then i else assign cs is x
  | _, _, _ => 0

/-- The extent of a label. -/
def Plan.extent (p : Plan) (c : Char) : ℕ :=
  if c ∈ p.parsed.modeA then assign p.parsed.modeA p.extentA c else assign p.parsed.modeB p.extentB c

/-- The contracted labels: those of the operands that are not in the output. -/
def Plan.contracted (p : Plan) : List Char :=
  ((p.parsed.modeA ++ p.parsed.modeB).eraseDups).filter fun c => c ∉ p.parsed.modeC

/-- Sum over all values of the listed labels. -/
def sumOver (ext : Char → ℕ) : List Char → (Char → ℕ) → ((Char → ℕ) → 𝕜) → 𝕜
  | [], σ, f => f σ
  | c :: cs, σ, f => ∑ i ∈ Finset.range (ext c), sumOver ext cs (Function.update σ c i) f

/-- Conjugation according to a flag. -/
def opConj (b : Bool) (x : 𝕜) : 𝕜 := if b then star x else x

/-- One output element of `cutensorContract` with `alpha = 1`, `beta = 0`, contraction.h 279-295: the sum over the contracted
labels of the product of the two operand elements, each read at its own strides. -/
def Plan.value (p : Plan) (A B : ℕ → 𝕜) (idx : List ℕ) : 𝕜 :=
  sumOver p.extent p.contracted (assign p.parsed.modeC idx) fun σ =>
    opConj p.conjA (A (offset (p.parsed.modeA.map σ) (rowMajorStrides p.extentA))) *
    opConj p.conjB (B (offset (p.parsed.modeB.map σ) (rowMajorStrides p.extentB)))

/-- `contract(plan, A, B, C)`, contraction.cpp 50-72: works on the raw pointers, with the extents of the plan. -/
def contract (p : Plan) (A B C : Buf 𝕜) : Buf 𝕜 :=
  { C with mem := writeAll p.parsed.extentC (p.value A.mem B.mem) C.mem }

/-- The object `AlsTensors`, als_tensors.h 11-57. -/
structure AlsTensors (𝕜 : Type) where
  a1r : Buf 𝕜
  a2r : Buf 𝕜
  n12g : Buf 𝕜
  n12 : Buf 𝕜
  a12g : Buf 𝕜
  S : Buf 𝕜
  R : Buf 𝕜
  R_intm : Buf 𝕜
  a12n : Buf 𝕜
  d_intm : Buf 𝕜
  d2 : Buf 𝕜
  d3 : Buf 𝕜
  plans : PyDict String Plan

namespace AlsTensors

/-- `add_plan`, als_tensors.cpp 50-53. -/
def addPlan (t : AlsTensors 𝕜) (key expr : String) (A B : Buf 𝕜) (conjA conjB : Bool) : Except PyErr (AlsTensors 𝕜) :=
  (createPlan expr A B conjA conjB).map fun p => { t with plans := t.plans.set key p }

/-- The constructor, als_tensors.cpp 29-63.  `nD`, `bD`, `pD` are the sizes of `a1r`; `junk` is the content of the
uninitialised tensors. -/
def new (nD bD pD : ℕ) (junk : String → ℕ → 𝕜) (a1r a2r n12g n12 a12g : Buf 𝕜) : Except PyErr (AlsTensors 𝕜) := do
  let t : AlsTensors 𝕜 :=
    { a1r, a2r, n12g, n12, a12g,
      S := ⟨[nD, bD, pD], junk "S"⟩
      R := ⟨[nD, bD, nD, bD], junk "R"⟩
      R_intm := ⟨[nD, nD, nD, bD, pD], junk "R_intm"⟩
      a12n := ⟨[nD, nD, pD, pD], junk "a12n"⟩
      d_intm := ⟨[nD, nD, pD, pD], junk "d_intm"⟩
      d2 := ⟨[], junk "d2"⟩
      d3 := ⟨[], junk "d3"⟩
      plans := [] }
  let t ← t.addPlan "S1" "YXpQ,XUQ->YUp" t.n12g t.a2r false true
  let t ← t.addPlan "S2" "YXPq,YVP->XVq" t.n12g t.a1r false true
  let t ← t.addPlan "R1_intm" "yxYX,xuq->yYXuq" t.n12 t.a2r false false
  let t ← t.addPlan "R1" "yYXuQ,XUQ->YUyu" t.R_intm t.a2r false true
  let t ← t.addPlan "R2_intm" "yxYX,yvp->xYXvp" t.n12 t.a1r false false
  let t ← t.addPlan "R2" "xYXvP,YVP->XVxv" t.R_intm t.a1r false true
  let t ← t.addPlan "a12n" "yup,xuq->yxpq" t.a1r t.a2r false false
  let t ← t.addPlan "d_intm" "yxYX,yxpq->YXpq" t.n12 t.a12n false false
  t.addPlan "d" "YXpq,YXpq->" t.d_intm t.a12n false true

/-- `plan_cache_[key]`: a missing key creates a plan without contraction, which `contract` rejects (contraction.cpp 54-56). -/
def plan (t : AlsTensors 𝕜) (key : String) : Except PyErr Plan :=
  match t.plans.get? key with
  | some p => .ok p
  | none => .error .runtimeError

/-- `build_S1`, als_tensors.cpp 76-80. -/
def buildS1 (t : AlsTensors 𝕜) : Except PyErr (AlsTensors 𝕜) := do
  let p ← t.plan "S1"
  return { t with S := contract p t.n12g t.a2r t.S }

/-- `build_S2`, als_tensors.cpp 82-86. -/
def buildS2 (t : AlsTensors 𝕜) : Except PyErr (AlsTensors 𝕜) := do
  let p ← t.plan "S2"
  return { t with S := contract p t.n12g t.a1r t.S }

/-- `build_R1`, als_tensors.cpp 88-93. -/
def buildR1 (t : AlsTensors 𝕜) : Except PyErr (AlsTensors 𝕜) := do
  let p ← t.plan "R1_intm"
  let t := { t with R_intm := contract p t.n12 t.a2r t.R_intm }
  let p ← t.plan "R1"
  return { t with R := contract p t.R_intm t.a2r t.R }

/-- `build_R2`, als_tensors.cpp 95-100. -/
def buildR2 (t : AlsTensors 𝕜) : Except PyErr (AlsTensors 𝕜) := do
  let p ← t.plan "R2_intm"
  let t := { t with R_intm := contract p t.n12 t.a1r t.R_intm }
  let p ← t.plan "R2"
  return { t with R := contract p t.R_intm t.a1r t.R }

/-- `calculate_cost`, als_tensors.cpp 102-115: the object with its buffers overwritten, and the cost. -/
def calculateCost (t : AlsTensors 𝕜) : Except PyErr (AlsTensors 𝕜 × ℝ) := do
  let p ← t.plan "a12n"
  let t := { t with a12n := contract p t.a1r t.a2r t.a12n }
  let p ← t.plan "d_intm"
  let t := { t with d_intm := contract p t.n12 t.a12n t.d_intm }
  let p ← t.plan "d"
  let t := { t with d2 := contract p t.d_intm t.a12n t.d2 }
  let p ← t.plan "d_intm"
  let t := { t with d_intm := contract p t.n12 t.a12g t.d_intm }
  let p ← t.plan "d"
  let t := { t with d3 := contract p t.d_intm t.a12n t.d3 }
  return (t, RCLike.re (t.d2.get []) - 2 * RCLike.re (t.d3.get []))

end AlsTensors

/-- `cholesky_solve_impl`, cholesky_solve.h 80-110: `potrf` and `potrs`.  The matrices are copied to column-major order, which
is what the two routines expect.  The status `devInfo` is never read, so for a matrix without Cholesky factorisation the result
is whatever the memory holds: nothing is assumed about it. -/
structure Cusolver (𝕜 : Type) [RCLike 𝕜] where
  solve : ∀ {n k : Type} [Fintype n] [Fintype k] [DecidableEq n], Matrix n n 𝕜 → Matrix n k 𝕜 → Matrix n k 𝕜
  solve_ok : ∀ {n k : Type} [Fintype n] [Fintype k] [DecidableEq n] (R : Matrix n n 𝕜) (S : Matrix n k 𝕜),
    R.PosDef → R * solve R S = S

section solver

variable {nD bD pD : ℕ}

/-- A fresh contiguous tensor with sizes `nD, bD, pD` holding a matrix with merged row index. -/
def ofMatrix (X : Matrix (Fin nD × Fin bD) (Fin pD) 𝕜) : Buf 𝕜 :=
  { shape := [nD, bD, pD]
    mem := writeAll [nD, bD, pD] (fun idx => match idx with
      | [y, u, p] => if h : y < nD ∧ u < bD ∧ p < pD then X (⟨y, h.1⟩, ⟨u, h.2.1⟩) ⟨p, h.2.2⟩ else 0
      | _ => 0) fun _ => 0 }

/-- `solve_ar`, als_solve.cpp 33-53, with `regularize_tensor`, lines 25-31.  `reshape` of a contiguous tensor does not move
data, so the matrix elements are read at the index tuples of the tensor; `hermAvg` is `0.5*(R + R.mH())` and `absMax` is
`A.abs().max()`, as in the python code. -/
noncomputable def solveAr (la : Lapack 𝕜) (cs : Cusolver 𝕜) (epsilon : ℝ) (method : Als.Solver) (R S : Buf 𝕜) : Buf 𝕜 :=
  let S' : Matrix (Fin nD × Fin bD) (Fin pD) 𝕜 := Matrix.of fun a p => S.get [a.1, a.2, p]
  let R' := Full.hermAvg fun (y : Fin nD) (u : Fin bD) (y' : Fin nD) (u' : Fin bD) => R.get [y, u, y', u']
  match method with
  | .cholesky =>
    let R' := R' + ((epsilon * Full.absMax R' : ℝ) : 𝕜) • 1
    ofMatrix (cs.solve R' S')
  | .pinv => ofMatrix (la.pinvH epsilon R' * S')

variable {F : Type}

variable (nD bD pD) in
/-- One call of `AlsUpdate`, als_solve.cpp 61-76: the object, the new cost, the error. -/
noncomputable def update (la : Lapack 𝕜) (cs : Cusolver 𝕜) (fo : Als.FloatOps F) (rep : ℝ → F) (epsilon : ℝ)
    (method : Als.Solver) (t : AlsTensors 𝕜) (cost_ : F) : Except PyErr (AlsTensors 𝕜 × F × F) := do
  let t ← t.buildS1
  let t ← t.buildR1
  let t := { t with a1r := solveAr (nD := nD) (bD := bD) (pD := pD) la cs epsilon method t.R t.S }
  let t ← t.buildS2
  let t ← t.buildR2
  let t := { t with a2r := solveAr (nD := nD) (bD := bD) (pD := pD) la cs epsilon method t.R t.S }
  let r ← t.calculateCost
  return (r.1, rep r.2, Als.relErr fo (rep r.2) cost_)

variable (nD bD pD) in
/-- The loop of `als_solve_impl`, als_solve.cpp 100-103. -/
noncomputable def loop (la : Lapack 𝕜) (cs : Cusolver 𝕜) (fo : Als.FloatOps F) (rep : ℝ → F) (epsilon : ℝ)
    (method : Als.Solver) (tol : F) : (fuel i : ℕ) → AlsTensors 𝕜 → F → Except PyErr (AlsTensors 𝕜)
  | 0, _, t, _ => .ok t
  | fuel + 1, i, t, c => do
    let r ← update nD bD pD la cs fo rep epsilon method t c
    if decide (1 < i) && fo.lt r.2.2 tol then return r.1
    else loop la cs fo rep epsilon method tol fuel (i + 1) r.1 r.2.1

variable (nD bD pD) in
/-- `als_solve` and `als_solve_impl`, als_solve.cpp 84-132: the method is parsed first, then the object is built. -/
noncomputable def alsSolve (la : Lapack 𝕜) (cs : Cusolver 𝕜) (junk : String → ℕ → 𝕜) (fo : Als.FloatOps F) (rep : ℝ → F)
    (epsilon : ℝ) (method : String) (tol : F) (niter : ℕ) (a1r a2r n12g n12 a12g : Buf 𝕜) :
    Except PyErr (Buf 𝕜 × Buf 𝕜) := do
  let m ← Als.nativeSolver method
  let t ← AlsTensors.new nD bD pD junk a1r a2r n12g n12 a12g
  let r ← t.calculateCost
  let t ← loop nD bD pD la cs fo rep epsilon m tol niter 0 r.1 (rep r.2)
  return (t.a1r, t.a2r)

end solver

end AceTN.Native
