import Mathlib.Algebra.BigOperators.Ring.Finset
import Mathlib.Analysis.RCLike.Basic
import Mathlib.Analysis.InnerProductSpace.Basic

/-!
`einsum`, and tensors as functions of their indices.

A tensor with legs of dimensions `d1, d2, …` is a curried function `Fin d1 → Fin d2 → … → 𝕜` (or over any finite
index types).  `einsum% "ab,bc->ac" A B` takes the subscript string of the python source verbatim and stands for
`fun a c => ∑ b, A a b * B b c`: one argument per output label in order, a sum over every other label (in order of
first appearance), and the product of the operands in order.  The elaborated term is checked by the kernel like any
other definition; a wrong rank or a leg mismatch is a type error.

`x.conj()` is `star x` (elementwise, by `Pi.star`), `permute` and `reshape` are written out where they are used:
merging consecutive legs by `reshape` is pairing their indices, which is row-major order by definition.
-/

set_option autoImplicit false

open Lean

/-- `einsum% "subscripts" A B …`, see the module docstring. -/
syntax (name := einsumStx) "einsum% " str (ppSpace colGt term:max)+ : term

macro_rules (kind := einsumStx)
  | `(einsum% $s:str $ts*) => do
    let txt := s.getString
    let (ins, out) ← match txt.splitOn "->" with
      | [i, o] => pure (i, o)
      | _ => Macro.throwError "einsum%: expected exactly one '->'"
    let ops := ins.splitOn ","
    unless ops.length = ts.size do
      Macro.throwError s!"einsum%: {ops.length} operands in the subscripts, {ts.size} given"
    let mkId (c : Char) : Ident := mkIdent (Name.mkSimple s!"i_{c}")
    let outL := out.toList
    unless outL.length = outL.eraseDups.length do
      Macro.throwError "einsum%: repeated output label"
    let allL := (ops.flatMap String.toList).eraseDups
    for c in outL do
      unless allL.contains c do Macro.throwError s!"einsum%: output label {c} not in any operand"
    let sumL := allL.filter (fun c => !outL.contains c)
    let mut factors : Array Term := #[]
    for (o, t) in ops.zip ts.toList do
      let args : Array Term := (o.toList.map fun c => (mkId c : Term)).toArray
      factors := factors.push (← if args.isEmpty then pure t else `($t $args*))
    let mut body : Term := factors[0]!
    for f in factors[1:] do
      body ← `($body * $f)
    for c in sumL.reverse do
      let i := mkId c
      body ← `(Finset.sum Finset.univ fun $i => $body)
    for c in outL.reverse do
      let i := mkId c
      body ← `(fun $i => $body)
    return body

namespace AceTN

section checks

variable {𝕜 : Type} [RCLike 𝕜] {a b c : ℕ} (A : Fin a → Fin b → 𝕜) (B : Fin b → Fin c → 𝕜) (v : Fin b → 𝕜)

/-- A matrix product. -/
example : (einsum% "ab,bc->ac" A B) = fun i k => ∑ j, A i j * B j k := rfl

/-- A column scaling: no sum. -/
example : (einsum% "ab,b->ab" A v) = fun i j => A i j * v j := rfl

/-- A scalar. -/
example : (einsum% "ab,ab->" A (star A)) = ∑ i, ∑ j, A i j * star (A i j) := rfl

/-- A transposition. -/
example : (einsum% "ab->ba" A) = fun j i => A i j := rfl

end checks

end AceTN
