import Verif.Model.Network

/-!
`SiteTensor` as an object, `acetn/ipeps/site_tensor.py`: a record of references to tensor buffers, with python's
aliasing made explicit.  A buffer is a `Tens V` (content, type, device); references are addresses (natural numbers) in a heap.

Simplification: the python lists behind the keys `'C'` and `'E'` are always created by `__setitem__` itself (lines
78-81), so they belong to one object and are modelled as fields of the object.
-/

set_option autoImplicit false

namespace AceTN.ST

/-- A `SiteTensor`: attributes and references, site_tensor.py 11-13, 28-31. -/
structure Obj where
  dtype : DType
  device : Dev
  a : List ℕ
  c : List ℕ
  e : List ℕ
  deriving DecidableEq, Repr

/-- The three keys of `__getitem__`/`__setitem__`. -/
inductive Key
  | A | C | E
  deriving DecidableEq, Repr

/-- Which component a key string selects; other strings raise `ValueError`, site_tensor.py 55-62, 76-83. -/
def keyOf (k : String) : Except PyErr Key :=
  if k = "A" then .ok .A
  else if k = "C" then .ok .C
  else if k = "E" then .ok .E
  else .error .valueError

/-- The references behind a key (`'A'` holds exactly one). -/
def Obj.refs (o : Obj) : Key → List ℕ
  | .A => o.a
  | .C => o.c
  | .E => o.e

/-- Replace the references behind a key. -/
def Obj.setRefs (o : Obj) (k : Key) (l : List ℕ) : Obj :=
  match k with
  | .A => { o with a := l }
  | .C => { o with c := l }
  | .E => { o with e := l }

/-- Heap of buffers (`next` is the first unused address) and the objects created so far. -/
structure Mem (V : Type) where
  heap : ℕ → Tens V
  next : ℕ
  objs : List Obj

section
variable {V : Type} (cast : DType → DType → V → V)

/-- A new buffer. -/
def Mem.alloc (m : Mem V) (t : Tens V) : Mem V :=
  { m with heap := Function.update m.heap m.next t, next := m.next + 1 }

/-- `[torch.clone(v).detach().to(dtype, device) for v in val]`, site_tensor.py 77-81: every element goes to a new
buffer. Returns the new addresses. -/
def cloneAll (dt : DType) (dv : Dev) : List ℕ → Mem V → List ℕ × Mem V
  | [], m => ([], m)
  | v :: vs, m =>
    let r := cloneAll dt dv vs (m.alloc ((m.heap v).conv cast dt dv))
    (m.next :: r.1, r.2)

/-- `obj[key] = val` for a valid key, site_tensor.py 64-83. -/
def setKey (m : Mem V) (i : ℕ) (o : Obj) (k : Key) (vals : List ℕ) : Mem V :=
  let r := cloneAll cast o.dtype o.device vals m
  { r.2 with objs := r.2.objs.set i (o.setRefs k r.1) }

/-- `SiteTensor(dims, site_tensor=src, dtype=…, device=…)` with `copy_from`, site_tensor.py 28-39, 85-94; `copy` and
`to` (96-118) are calls of this. -/
def copyObj (m : Mem V) (src : Obj) (dt : DType) (dv : Dev) : Mem V :=
  let ra := cloneAll cast dt dv src.a m
  let rc := cloneAll cast dt dv src.c ra.2
  let re := cloneAll cast dt dv src.e rc.2
  { re.2 with objs := re.2.objs ++ [⟨dt, dv, ra.1, rc.1, re.1⟩] }

/-- What a program can do with site tensors and tensors: create a tensor; assign a component (`obj[key] = …`); store
into a list obtained from a component (`obj['C'][k] = tensor`, an alias, as in directional_mover.py 299-303); modify a
tensor in place; copy an object; convert an object. -/
inductive Op (V : Type)
  | alloc (t : Tens V)
  | set (i : ℕ) (key : String) (vals : List ℕ)
  | elem (i : ℕ) (k : Key) (n : ℕ) (a : ℕ)
  | inplace (a : ℕ) (f : V → V)
  | copy (i : ℕ)
  | to (i : ℕ) (dt : Option DType) (dv : Option Dev)

/-- Perform an operation; the error is what python raises, and then nothing has changed. -/
def Op.run (m : Mem V) : Op V → Except PyErr (Mem V)
  | .alloc t => .ok (m.alloc t)
  | .set i key vals =>
    match m.objs[i]?, keyOf key with
    | none, _ => .error .indexError
    | some _, .error e => .error e
    | some o, .ok k => .ok (setKey cast m i o k vals)
  | .elem i k n a =>
    match m.objs[i]? with
    | none => .error .indexError
    | some o => .ok { m with objs := m.objs.set i (o.setRefs k ((o.refs k).set n a)) }
  | .inplace a f => .ok { m with heap := Function.update m.heap a { m.heap a with val := f (m.heap a).val } }
  | .copy i =>
    match m.objs[i]? with
    | none => .error .indexError
    | some o => .ok (copyObj cast m o o.dtype o.device)
  | .to i dt dv =>
    match m.objs[i]? with
    | none => .error .indexError
    | some o => .ok (copyObj cast m o (dtypeOr dt o.dtype) (devOr dv o.device))

/-- `obj[key]` as seen by a reader: the contents of the tensors behind the key, site_tensor.py 41-62. -/
def read (m : Mem V) (i : ℕ) (key : String) : Except PyErr (List (Tens V)) :=
  match m.objs[i]?, keyOf key with
  | none, _ => .error .indexError
  | some _, .error e => .error e
  | some o, .ok k => .ok ((o.refs k).map m.heap)

/-- Run a program; operations that raise are skipped. -/
def runAll (m : Mem V) (ops : List (Op V)) : Mem V :=
  ops.foldl (fun m op => (op.run cast m).toOption.getD m) m

end
end AceTN.ST
