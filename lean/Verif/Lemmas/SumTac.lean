import Mathlib.Algebra.BigOperators.Ring.Finset
import Mathlib.Algebra.Star.BigOperators
import Mathlib.Analysis.RCLike.Basic
import Mathlib.Tactic.Ring
import Lean.Elab.Tactic

/-!
A tactic for equalities of nested finite sums of products that differ in the order of summation and of the factors.

`sum_flat` multiplies both sides of an equation out (also under conjugation; sums over pairs become double sums), `sum_reorder` matches the summation
variables of the two sides by the places in which they occur (which argument of which tensor, starred or not),
permutes the sums of the left side with `Finset.sum_comm`, and leaves the equality of the summands; `einsum_ring` does
both and closes the summands with `ring`.  The tactics produce ordinary proof terms; they are not trusted.
-/

set_option autoImplicit false

open Lean Meta Elab Tactic

namespace AceTN.SumTac

theorem sum_star {ι 𝕜 : Type} [Fintype ι] [RCLike 𝕜] (f : ι → 𝕜) :
    star (∑ i, f i) = ∑ i, star (f i) := star_sum _ _

theorem mul_star {𝕜 : Type} [RCLike 𝕜] (a b : 𝕜) : star (a * b) = star a * star b := star_mul' a b

theorem star_star' {𝕜 : Type} [RCLike 𝕜] (a : 𝕜) : star (star a) = a := star_star a

theorem sum_mul' {ι 𝕜 : Type} [Fintype ι] [RCLike 𝕜] (f : ι → 𝕜) (b : 𝕜) :
    (∑ i, f i) * b = ∑ i, f i * b := Finset.sum_mul _ _ _

theorem mul_sum' {ι 𝕜 : Type} [Fintype ι] [RCLike 𝕜] (f : ι → 𝕜) (b : 𝕜) :
    b * (∑ i, f i) = ∑ i, b * f i := Finset.mul_sum _ _ _

theorem sum_congr' {ι 𝕜 : Type} [Fintype ι] [RCLike 𝕜] (f g : ι → 𝕜) (h : ∀ i, f i = g i) :
    (∑ i, f i) = ∑ i, g i := Finset.sum_congr rfl fun i _ => h i

theorem sum_comm' {ι κ 𝕜 : Type} [Fintype ι] [Fintype κ] [RCLike 𝕜] (f : ι → κ → 𝕜) :
    (∑ i, ∑ j, f i j) = ∑ j, ∑ i, f i j := Finset.sum_comm

theorem sum_prod' {ι κ 𝕜 : Type} [Fintype ι] [Fintype κ] [RCLike 𝕜] (f : ι × κ → 𝕜) :
    (∑ x, f x) = ∑ i, ∑ j, f (i, j) := Fintype.sum_prod_type f

theorem mul_congr' {𝕜 : Type} [RCLike 𝕜] {a b c d : 𝕜} (h : a = b) (h' : c = d) : a * c = b * d := by rw [h, h']

theorem star_congr' {𝕜 : Type} [RCLike 𝕜] {a b : 𝕜} (h : a = b) : star a = star b := by rw [h]

/-- The parts of a sum over a whole finite type: index type, its instance, summand. -/
def sum? (e : Expr) : Option (Expr × Expr × Expr) :=
  if e.isAppOf ``Finset.sum && e.getAppNumArgs = 5 then
    let args := e.getAppArgs
    if args[3]!.isAppOf ``Finset.univ then some (args[0]!, args[3]!.getAppArgs[1]!, args[4]!) else none
  else none

/-- `∑ x, b` with `x` abstracted. -/
def mkSum (orig : Expr) (x b : Expr) : MetaM Expr := do
  let f ← mkLambdaFVars #[x] b
  return mkAppN orig.getAppFn (orig.getAppArgs.set! 4 f)

/-- Apply the summand to a new variable. -/
def withSummand {α : Type} (f : Expr) (k : Expr → Expr → MetaM α) : MetaM α := do
  match f with
  | .lam n t b _ => withLocalDeclD n t fun x => k x (b.instantiate1 x)
  | _ => do
    let .forallE _ t _ _ ← whnf (← inferType f) | throwError "sum_flat: not a function"
    withLocalDeclD `x t fun x => k x ((f.app x).headBeta)

/-- Rewrite `∑ x, f x` under the binder. -/
def congrSum (e f : Expr) (k : Expr → MetaM (Expr × Expr)) : MetaM (Expr × Expr) :=
  withSummand f fun x b => do
    let (b', p) ← k b
    let e' ← mkSum e x b'
    let g ← mkLambdaFVars #[x] b'
    let pr ← mkLambdaFVars #[x] p
    return (e', ← mkAppM ``sum_congr' #[f, g, pr])

/-- Distribute a product of two nests. -/
partial def mulSums (mul a b : Expr) : MetaM (Expr × Expr) := do
  let mk (a b : Expr) : Expr := mkAppN mul.getAppFn ((mul.getAppArgs.set! 4 a).set! 5 b)
  match sum? a with
  | some (_, _, f) =>
    let e1 ← withSummand f fun x fx => mkSum a x (mk fx b)
    let p1 ← mkAppM ``sum_mul' #[f, b]
    let (e2, p2) ← withSummand f fun x fx => do
      let (c, p) ← mulSums mul fx b
      let g ← mkLambdaFVars #[x] c
      let g0 ← mkLambdaFVars #[x] (mk fx b)
      let pr ← mkLambdaFVars #[x] p
      return (← mkSum a x c, ← mkAppM ``sum_congr' #[g0, g, pr])
    let _ := e1
    return (e2, ← mkEqTrans p1 p2)
  | none =>
    match sum? b with
    | some (_, _, f) =>
      let p1 ← mkAppM ``mul_sum' #[f, a]
      let (e2, p2) ← withSummand f fun x fx => do
        let (c, p) ← mulSums mul a fx
        let g ← mkLambdaFVars #[x] c
        let g0 ← mkLambdaFVars #[x] (mk a fx)
        let pr ← mkLambdaFVars #[x] p
        return (← mkSum b x c, ← mkAppM ``sum_congr' #[g0, g, pr])
      return (e2, ← mkEqTrans p1 p2)
    | none =>
      let e := mk a b
      return (e, ← mkEqRefl e)

/-- Push a conjugation into a nest of products. -/
partial def starSums (st a : Expr) : MetaM (Expr × Expr) := do
  let mk (a : Expr) : Expr := mkAppN st.getAppFn (st.getAppArgs.set! 2 a)
  match sum? a with
  | some (_, _, f) =>
    let p1 ← mkAppM ``sum_star #[f]
    let (e2, p2) ← withSummand f fun x fx => do
      let (c, p) ← starSums st fx
      let g ← mkLambdaFVars #[x] c
      let g0 ← mkLambdaFVars #[x] (mk fx)
      let pr ← mkLambdaFVars #[x] p
      return (← mkSum a x c, ← mkAppM ``sum_congr' #[g0, g, pr])
    return (e2, ← mkEqTrans p1 p2)
  | none =>
    if a.isAppOfArity ``HMul.hMul 6 then
      let x := a.getAppArgs[4]!
      let y := a.getAppArgs[5]!
      let p1 ← mkAppM ``mul_star #[x, y]
      let (x', px) ← starSums st x
      let (y', py) ← starSums st y
      let e := mkAppN a.getAppFn ((a.getAppArgs.set! 4 x').set! 5 y')
      return (e, ← mkEqTrans p1 (← mkAppM ``mul_congr' #[px, py]))
    else if a.isAppOfArity ``Star.star 3 then
      let x := a.getAppArgs[2]!
      return (x, ← mkAppM ``star_star' #[x])
    else
      let e := mk a
      return (e, ← mkEqRefl e)

/-- Zeta, beta and pointwise conjugation at the head. -/
partial def headNorm (ty : Expr) (e : Expr) : MetaM Expr := do
  let e := e.consumeMData.headBeta
  match e with
  | .letE _ _ v b _ => headNorm ty (b.instantiate1 v)
  | _ =>
    if e.getAppFn.isLet then
      let f ← headNorm ty e.getAppFn
      return ← headNorm ty (mkAppN f e.getAppArgs)
    if e.isAppOf ``Star.star && e.getAppNumArgs > 3 then
      let args := e.getAppArgs
      let inner := mkAppN args[2]! args[3:].toArray
      let inst ← synthInstance (← mkAppM ``Star #[ty])
      let u ← getDecLevel ty
      let e' := mkAppN (mkConst ``Star.star [u]) #[ty, inst, inner]
      return e'
    return e

/-- Reduce the projections of explicit pairs. -/
def reducePairs (e : Expr) : MetaM Expr := do
  let post (e : Expr) : MetaM TransformStep :=
    if e.isAppOfArity ``Prod.fst 3 && e.appArg!.isAppOfArity ``Prod.mk 4 then return .done (e.appArg!.getAppArgs[2]!)
    else if e.isAppOfArity ``Prod.snd 3 && e.appArg!.isAppOfArity ``Prod.mk 4 then return .done (e.appArg!.getAppArgs[3]!)
    else return .done e
  Core.transform e (post := post)

/-- Multiply out; sums over pairs become double sums. -/
partial def flat (ty : Expr) (e : Expr) : MetaM (Expr × Expr) := do
  let e ← headNorm ty e
  if e.isAppOfArity ``HMul.hMul 6 then
    let a := e.getAppArgs[4]!
    let b := e.getAppArgs[5]!
    let (a', pa) ← flat ty a
    let (b', pb) ← flat ty b
    let p1 ← mkAppM ``mul_congr' #[pa, pb]
    let (e', p2) ← mulSums e a' b'
    return (e', ← mkEqTrans p1 p2)
  if e.isAppOfArity ``Star.star 3 then
    let a := e.getAppArgs[2]!
    let (a', pa) ← flat ty a
    let p1 ← mkAppM ``star_congr' #[pa]
    let (e', p2) ← starSums e a'
    return (e', ← mkEqTrans p1 p2)
  match sum? e with
  | some (t, _, f) =>
    let t ← instantiateMVars t
    if t.isAppOfArity ``Prod 2 then
      let p1 ← mkAppM ``sum_prod' #[f]
      let some (_, _, r) := (← instantiateMVars (← inferType p1)).eq? | throwError "sum_flat: sum_prod"
      let r ← reducePairs (← Core.betaReduce r)
      let (e', p2) ← flat ty r
      return (e', ← mkEqTrans p1 p2)
    congrSum e f (flat ty)
  | none => return (e, ← mkEqRefl e)

/-- Places where each variable occurs. -/
partial def collect (xs : Array Expr) (e : Expr) (starred : Bool) (acc : Array (Array String)) :
    MetaM (Array (Array String)) := do
  let e := e.consumeMData
  match e with
  | .app .. =>
    let fn := e.getAppFn
    let args := e.getAppArgs
    let st := if fn.isConstOf ``Star.star || fn.isConstOf ``DFunLike.coe then !starred else starred
    let mut acc := acc
    let mut hd := ""
    for h : i in [0:args.size] do
      let a := args[i]
      match xs.findIdx? (· == a) with
      | some j =>
        if hd = "" then
          -- the head together with the arguments before the first variable
          hd := toString (← ppExpr (mkAppN fn (args.extract 0 i))) ++ s!"#{i}"
        acc := acc.modify j (·.push s!"{hd}|{i}|{starred}")
      | none => acc ← collect xs a st acc
    return acc
  | .lam _ _ b _ => collect xs b starred acc
  | .proj _ _ b => collect xs b starred acc
  | _ => return acc

/-- Open a nest of sums. -/
partial def openSums {α : Type} (e : Expr) (xs : Array Expr) (k : Array Expr → Expr → MetaM α) : MetaM α := do
  match sum? e.consumeMData with
  | some (_, _, f) => withSummand f fun x b => openSums b (xs.push x) k
  | none => k xs e

def signatures (e : Expr) : MetaM (Array String) :=
  openSums e #[] fun xs b => do
    let acc ← collect xs b false (Array.replicate xs.size #[])
    return acc.map fun a => toString (a.qsort (· < ·))

/-- Move the `p`-th sum of a nest to the front. -/
partial def moveFront (p : ℕ) (e : Expr) : MetaM (Expr × Expr) := do
  if p = 0 then return (e, ← mkEqRefl e)
  let some (_, _, f) := sum? e | throwError "sum_reorder: not a sum"
  withSummand f fun x b => do
    let (b', pb) ← moveFront (p - 1) b
    let g ← mkLambdaFVars #[x] b'
    let pr ← mkLambdaFVars #[x] pb
    let p1 ← mkAppM ``sum_congr' #[f, g, pr]
    let some (_, _, h) := sum? b' | throwError "sum_reorder: not a sum"
    let (F, e') ← withSummand h fun y c => do
      let F ← mkLambdaFVars #[x, y] c
      let inner ← mkSum e x c
      return (F, ← mkSum b' y inner)
    let p2 ← mkAppM ``sum_comm' #[F]
    return (e', ← mkEqTrans p1 p2)

/-- Permute the sums of `e` so that their signatures come in the order `want`. -/
partial def permute (e : Expr) (have_ want : List String) : MetaM (Expr × Expr) := do
  match want with
  | [] => return (e, ← mkEqRefl e)
  | s :: want =>
    let some p := have_.findIdx? (· == s)
      | throwError "sum_reorder: no match for\n  {s}\nin\n  {String.intercalate "\n  " have_}"
    let (e1, p1) ← moveFront p e
    let some (_, _, f) := sum? e1 | throwError "sum_reorder: not a sum"
    let (e2, p2) ← congrSum e1 f (fun b => permute b (have_.eraseIdx p) want)
    return (e2, ← mkEqTrans p1 p2)

elab "sum_flat" : tactic => withMainContext do
  let g ← getMainGoal
  let t ← instantiateMVars (← g.getType)
  let some (ty, l, r) := t.consumeMData.eq? | throwError "sum_flat: not an equation"
  let (l', pl) ← flat ty l
  let (r', pr) ← flat ty r
  let g' ← mkFreshExprSyntheticOpaqueMVar (← mkEq l' r')
  g.assign (← mkEqTrans pl (← mkEqTrans g' (← mkEqSymm pr)))
  replaceMainGoal [g'.mvarId!]

elab "sum_reorder" : tactic => withMainContext do
  let g ← getMainGoal
  let t ← instantiateMVars (← g.getType)
  let some (_, l, r) := t.consumeMData.eq? | throwError "sum_reorder: not an equation"
  let sl := (← signatures l).toList
  let sr := (← signatures r).toList
  unless sl.length = sr.length do
    throwError "sum_reorder: {sl.length} sums on the left, {sr.length} on the right\n{sl}\n{sr}"
  let (l', pl) ← permute l sl sr
  let g' ← mkFreshExprSyntheticOpaqueMVar (← mkEq l' r)
  g.assign (← mkEqTrans pl g')
  replaceMainGoal [g'.mvarId!]
  for _ in sr do
    evalTactic (← `(tactic| refine Finset.sum_congr rfl (fun _ _ => ?_)))

/-- Close an equality of contractions. -/
macro "einsum_ring" : tactic =>
  `(tactic| (sum_flat; sum_reorder; ring))

end AceTN.SumTac
