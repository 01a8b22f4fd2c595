import Verif.Model.Py

/-!
The planner of the native extension: `csrc/linalg/contraction.h`, the parser of contraction expressions (lines 115-189)
and the strides of row-major tensors (lines 66-74).  A C++ string is a list of characters, `std::runtime_error` is
`PyErr.runtimeError`; `int64_t` arithmetic is taken without overflow.
-/

set_option autoImplicit false

namespace AceTN.Native

/-- `compute_row_major_strides`, contraction.h 66-74: the loop runs from the last axis to the first carrying `stride`;
returns the strides and the final value of `stride`. -/
def stridesAux : List ℕ → List ℕ × ℕ
  | [] => ([], 1)
  | n :: shape =>
    let r := stridesAux shape
    (r.2 :: r.1, r.2 * n)

/-- `compute_row_major_strides`, contraction.h 66-74. -/
def rowMajorStrides (shape : List ℕ) : List ℕ := (stridesAux shape).1

/-- The address of an element: the sum of index times stride over all axes (how cuTENSOR uses the strides). -/
def offset (idx strides : List ℕ) : ℕ := (List.zipWith (· * ·) idx strides).sum

/-- `einsum_expr.find("->")` with the two `substr` calls, contraction.h 122-128: the text before and after the first
occurrence. -/
def splitArrow : List Char → Option (List Char × List Char)
  | '-' :: '>' :: r => some ([], r)
  | c :: cs => (splitArrow cs).map fun p => (c :: p.1, p.2)
  | [] => none

/-- `left.find(',')` with the two `substr` calls, contraction.h 130-136: the text before and after the first comma. -/
def splitComma : List Char → Option (List Char × List Char)
  | ',' :: r => some ([], r)
  | c :: cs => (splitComma cs).map fun p => (c :: p.1, p.2)
  | [] => none

/-- The first loop filling `label_to_dim`, contraction.h 165-170: a label seen before keeps its extent. -/
def addA : List (Char × ℕ) → PyDict Char ℕ → PyDict Char ℕ
  | [], d => d
  | (c, n) :: r, d => addA r (match d.get? c with | none => d.set c n | some _ => d)

/-- The second loop, contraction.h 172-179: a label seen before must have the same extent. -/
def addB : List (Char × ℕ) → PyDict Char ℕ → Except PyErr (PyDict Char ℕ)
  | [], d => .ok d
  | (c, n) :: r, d =>
    match d.get? c with
    | none => addB r (d.set c n)
    | some m => if m ≠ n then .error .runtimeError else addB r d

/-- The third loop, contraction.h 181-186. -/
def outExtents (d : PyDict Char ℕ) : List Char → Except PyErr (List ℕ)
  | [] => .ok []
  | c :: cs =>
    match d.get? c with
    | none => .error .runtimeError
    | some n => (outExtents d cs).map (n :: ·)

/-- What the parser fills in. -/
structure Parsed where
  modeA : List Char
  modeB : List Char
  modeC : List Char
  extentC : List ℕ
  deriving DecidableEq, Repr

/-- `parseEinsumExpression`, contraction.h 115-189 (mode numbers are the characters themselves). -/
def parse (expr : List Char) (extentA extentB : List ℕ) : Except PyErr Parsed :=
  match splitArrow expr with
  | none => .error .runtimeError
  | some (left, labelsC) =>
    match splitComma left with
    | none => .error .runtimeError
    | some (labelsA, labelsB) =>
      if labelsA.length ≠ extentA.length then .error .runtimeError
      else if labelsB.length ≠ extentB.length then .error .runtimeError
      else if labelsC = [] then .ok ⟨labelsA, labelsB, labelsC, []⟩
      else
        match addB (labelsB.zip extentB) (addA (labelsA.zip extentA) []) with
        | .error e => .error e
        | .ok d => (outExtents d labelsC).map fun e => ⟨labelsA, labelsB, labelsC, e⟩

end AceTN.Native
