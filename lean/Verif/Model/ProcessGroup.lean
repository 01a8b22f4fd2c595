import Verif.Model.Config

/-!
Distributed set-up: `acetn/utils/distributed.py` 9-82 and the part of `acetn/ipeps/ipeps.py` that uses it, seen by one
process.  The environment (`RANK`, `WORLD_SIZE`, the number of devices) is fixed for the life of the process.
-/

set_option autoImplicit false

namespace AceTN.PG
open Cfg (Device Val)

/-- The process environment: `RANK`/`WORLD_SIZE` if both are set, `os.cpu_count()`, `torch.cuda.device_count()`. -/
structure Env where
  launch : Option (ℕ × ℕ)
  cpuCount : ℕ
  cudaCount : ℕ

/-- `is_distributed`, distributed.py 20-22. -/
def Env.distributed (e : Env) : Bool :=
  match e.launch with
  | some (_, ws) => decide (1 < ws)
  | none => false

/-- `get_device_count`, distributed.py 37-48. -/
def deviceCount (e : Env) (d : Val) : Except PyErr ℕ :=
  match d with
  | .device d =>
    if d = ⟨"cpu", none⟩ then .ok e.cpuCount
    else if d = ⟨"cuda", none⟩ then .ok e.cudaCount
    else .error .notImplementedError
  | _ => .error .attributeError

/-- What torch keeps for the process: `dist.is_initialized()` and `torch.cuda.current_device()`, the GPU the bare device
`cuda` stands for (initially GPU 0). -/
structure Group where
  init : Bool := false
  cuda : ℕ := 0

/-- `setup_process_group`, distributed.py 51-65: the new state and the device.  The two assertions hold by what
`init_process_group` does. -/
def setupProcessGroup (rank ws : ℕ) (d : Val) (g : Group) : Group × Val :=
  if 1 < ws ∧ g.init = false then
    match d with
    | .device dd => if dd ≠ ⟨"cpu", none⟩ then (⟨true, rank⟩, .int rank) else (⟨true, g.cuda⟩, d)
    | _ => (⟨true, rank⟩, .int rank)
  else (g, d)

/-- `setup_distributed`, distributed.py 9-33: new state, rank, world size, device, flag. -/
def setupDistributed (e : Env) (d : Val) (g : Group) : Except PyErr (Group × ℕ × ℕ × Val × Bool) :=
  match e.launch with
  | some (rank, ws) =>
    if 1 < ws then do
      let n ← deviceCount e d
      if n < ws then .error .runtimeError
      else
        let r := setupProcessGroup rank ws d g
        .ok (r.1, rank, ws, r.2, true)
    else .ok (g, 0, 1, d, false)
  | none => .ok (g, 0, 1, d, false)

/-- The process, and the `Ipeps` objects alive with their `is_distributed`. -/
structure St extends Group where
  objs : List (ℕ × Bool) := []

/-- What a program can do with `Ipeps` objects.  `new i d late` constructs object `i` with device `d`; `late = true`
means that something after `setup_distributed` in the constructor raises (ipeps.py 39-41), so that the half-made object
is destroyed at once.  `del i` is the last reference going away.  `use i` is any call of `i` that communicates
(renormalize, evolve). -/
inductive Op
  | new (i : ℕ) (d : Val) (late : Bool)
  | del (i : ℕ)
  | use (i : ℕ)

/-- `finalize_distributed`, distributed.py 77-82: afterwards no group exists. -/
def finalizeDistributed (s : St) : St := { s with init := false }

/-- `__del__`, ipeps.py 43-48. -/
def destroy (s : St) (flag : Bool) : St := if flag then finalizeDistributed s else s

/-- One operation: the state afterwards and the exception the caller sees.  A collective without a group raises
(`RuntimeError`/`ValueError` from torch). -/
def step (e : Env) (s : St) : Op → St × Option PyErr
  | .new i d late =>
    -- ipeps.py 54: the flag is false until set-up has succeeded, so a failing set-up destroys nothing
    match setupDistributed e d s.toGroup with
    | .error err => (s, some err)
    | .ok (g, _, _, _, flag) =>
      if late then (destroy { toGroup := g, objs := s.objs } flag, some .runtimeError)
      else ({ toGroup := g, objs := s.objs ++ [(i, flag)] }, none)
  | .del i =>
    match s.objs.find? (fun o => o.1 == i) with
    | some o => (destroy { s with objs := s.objs.filter (fun o => o.1 != i) } o.2, none)
    | none => (s, none)
  | .use i =>
    match s.objs.find? (fun o => o.1 == i) with
    | some o => (s, if o.2 && !s.init then some .runtimeError else none)
    | none => (s, some .attributeError)

/-- A history, ignoring the exceptions. -/
def run (e : Env) (ops : List Op) (s : St) : St := ops.foldl (fun s o => (step e s o).1) s

end AceTN.PG
