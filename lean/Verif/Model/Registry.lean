import Verif.Model.Py
import Mathlib.Data.List.Basic

/-!
Model registry and configuration references: `acetn/model/model_factory.py`, `acetn/ipeps/ipeps.py` 58-91, 99-128 and
the parts of `acetn/ipeps/ipeps_config.py` that store references (`TNConfig.dims`, `ModelConfig.params`).

Dictionaries live in a heap because python stores references: `IpepsConfig(**config)` keeps the very `dims` and
`params` dictionaries of the caller (ipeps_config.py 60, 64-67), and `set_model` keeps the caller's `params`
(ipeps.py 80).  Values of dictionaries are of an arbitrary type `P`; `lower` is `str.lower`.
-/

set_option autoImplicit false

namespace AceTN.Reg

/-- A python class given to `set_model`: its identity and whether it derives from `Model`. -/
structure Cls where
  ident : ℕ
  isModel : Bool
  deriving DecidableEq, Repr

/-- What an `Ipeps` remembers: reference to its `dims` (ipeps_config.py 12-14 and tensor_network.py 26), model name
and reference to the model parameters (ipeps_config.py 41-47). -/
structure Ip where
  dims : ℕ
  name : Option String
  params : Option ℕ
  deriving DecidableEq, Repr

/-- The process: registry (`model_factory._models`, one per process), heap of dictionaries, Ipeps objects. -/
structure St (P : Type) where
  models : PyDict String Cls
  heap : ℕ → PyDict String P
  next : ℕ
  ips : List Ip

section
variable {P : Type} (lower : String → String) (defaultDims : PyDict String P)

/-- The user creates a dictionary. -/
def St.alloc (s : St P) (d : PyDict String P) : St P :=
  { s with heap := Function.update s.heap s.next d, next := s.next + 1 }

/-- `d[k] = v` on the dictionary at address `a`. -/
def St.write (s : St P) (a : ℕ) (k : String) (v : P) : St P :=
  { s with heap := Function.update s.heap a ((s.heap a).set k v) }

/-- API calls. `new` carries what the configuration dictionary gives for `TN.dims`, `model.name`, `model.params`. -/
inductive Op (P : Type)
  | mkDict (d : PyDict String P)
  | userWrite (a : ℕ) (k : String) (v : P)
  | new (dims : Option ℕ) (name : Option String) (params : Option ℕ)
  | setChi (i : ℕ) (chi : P)
  | setModel (i : ℕ) (cls : Cls) (params : Option ℕ) (name : Option String)
  | setParams (i : ℕ) (kw : List (String × P))

/-- The loop of `set_model_params`, ipeps.py 89-90. -/
def writeAll (a : ℕ) : List (String × P) → St P → St P
  | [], s => s
  | (k, v) :: kw, s => writeAll a kw (s.write a k v)

/-- Name under which `set_model` registers, ipeps.py 77. -/
def regName (name : Option String) : String :=
  match name with
  | none => "custom"
  | some n => lower n

/-- Perform a call; an error leaves the state unchanged. -/
def Op.run (s : St P) : Op P → Except PyErr (St P)
  | .mkDict d => .ok (s.alloc d)
  | .userWrite a k v => .ok (s.write a k v)
  -- ipeps.py 35 with ipeps_config.py 12-14 (default factory: a new dictionary), 41-47, 60-67
  | .new dims name params =>
    match dims with
    | some a => .ok { s with ips := s.ips ++ [⟨a, name, params⟩] }
    | none =>
      let s' := s.alloc defaultDims
      .ok { s' with ips := s'.ips ++ [⟨s.next, name, params⟩] }
  -- ipeps.py 65
  | .setChi i chi =>
    match s.ips[i]? with
    | none => .error .indexError
    | some o => .ok (s.write o.dims "chi" chi)
  -- ipeps.py 77-80 with model_factory.py 44-46
  | .setModel i cls params name =>
    match s.ips[i]? with
    | none => .error .indexError
    | some o =>
      if cls.isModel then
        .ok { s with models := s.models.set (regName lower name) cls,
                     ips := s.ips.set i { o with name := some (regName lower name), params := params } }
      else .error .typeError
  -- ipeps.py 89-90; item assignment on None raises TypeError
  | .setParams i kw =>
    match s.ips[i]? with
    | none => .error .indexError
    | some o =>
      match o.params, kw with
      | _, [] => .ok s
      | none, _ => .error .typeError
      | some a, kw => .ok (writeAll a kw s)

/-- Run a program; calls that raise are skipped. -/
def runAll (s : St P) (ops : List (Op P)) : St P :=
  ops.foldl (fun s op => (op.run lower defaultDims s).toOption.getD s) s

/-- `model_factory.create(self.config.model)` at the start of `evolve` and `measure` (ipeps.py 109, 127;
model_factory.py 65-70): the class that is instantiated and the parameters it sees. -/
def build (s : St P) (i : ℕ) : Except PyErr (Cls × Option (PyDict String P)) :=
  match s.ips[i]? with
  | none => .error .indexError
  | some o =>
    match o.name with
    | none => .error .valueError
    | some n =>
      match s.models.get? n with
      | none => .error .keyError
      | some c => .ok (c, o.params.map s.heap)

/-- The settings an Ipeps shows: its dimensions and its model parameters. -/
def shows (s : St P) (i : ℕ) : Option (PyDict String P × Option (PyDict String P)) :=
  (s.ips[i]?).map fun o => (s.heap o.dims, o.params.map s.heap)

end
end AceTN.Reg
