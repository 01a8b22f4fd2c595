import Verif.Model.Py
import Mathlib.Data.Rat.Defs

/-!
Configuration objects: `acetn/ipeps/ipeps_config.py`.

A configuration value is a `Val`; only the values the code looks at are distinguished.  What the machine offers
(CUDA, the cuTENSOR extension, environment variables, the attributes of the `torch` module, the parser of
`torch.device`) is a parameter `Machine`.
-/

set_option autoImplicit false

namespace AceTN.Cfg

/-- `torch.device`: a type and an optional index; equality compares both (`device("cuda") != device("cuda:0")`). -/
structure Device where
  type : String
  index : Option ℕ := none
  deriving DecidableEq, Repr

/-- Values a configuration can hold. -/
inductive Val
  | none
  | bool (b : Bool)
  | int (n : ℤ)
  | float (q : ℚ)
  | str (s : String)
  | dtype (name : String)
  | device (d : Device)
  | dict (d : List (String × Val))
  | other (n : ℕ)

/-- The machine and the process environment. -/
structure Machine where
  /-- `torch.cuda.is_available()` -/
  cuda : Bool
  /-- `CUTENSOR_AVAILABLE`, evolution/_extensions.py -/
  cutensor : Bool
  /-- `getattr(torch, name)`; `none`: AttributeError -/
  torchAttr : String → Option Val
  /-- `torch.device(s)`; `none`: RuntimeError -/
  parseDevice : String → Option Device
  /-- `SLURM_JOB_ID in os.environ` -/
  slurm : Bool
  /-- `'interactive' in os.getenv('SLURM_JOB_NAME', '') or os.getenv('SLURM_JOB_PARTITION', '') == 'interactive'` -/
  slurmInteractive : Bool

/-- Constructing a dataclass from keyword arguments: every field takes the given value, else its default; a field
without default that is not given, or an argument that is not a field, is a `TypeError`.  `fields` lists name and
default (`none`: required). -/
def dataclass (fields : List (String × Option Val)) (kw : PyDict String Val) : Except PyErr (PyDict String Val) :=
  if kw.all (fun p => (fields.map Prod.fst).contains p.1) then
    fields.mapM fun f =>
      match kw.get? f.1 with
      | some v => .ok (f.1, v)
      | none =>
        match f.2 with
        | some v => .ok (f.1, v)
        | none => .error .typeError
  else .error .typeError

/-- `TNConfig`, ipeps_config.py 9-14. -/
def tnFields : List (String × Option Val) :=
  [("nx", some (.int 2)), ("ny", some (.int 2)),
   ("dims", some (.dict [("phys", .int 2), ("bond", .int 2), ("chi", .int 20)]))]

/-- `CTMRGConfig`, ipeps_config.py 16-24. -/
def ctmrgFields : List (String × Option Val) :=
  [("steps", some (.int 40)), ("projectors", some (.str "half-system")), ("svd_type", some (.str "rsvd")),
   ("svd_cutoff", some (.float (1 / 10 ^ 12))), ("rsvd_niter", some (.int 2)), ("rsvd_oversampling", some (.int 2)),
   ("disable_progressbar", some (.bool false))]

/-- `EvolutionConfig`, ipeps_config.py 26-37. -/
def evolutionFields : List (String × Option Val) :=
  [("backend", some (.str "torch")), ("update_type", some (.str "full")), ("use_gauge_fix", some (.bool true)),
   ("gauge_fix_atol", some (.float (1 / 10 ^ 12))), ("positive_approx_cutoff", some (.float (1 / 10 ^ 12))),
   ("als_niter", some (.int 100)), ("als_tol", some (.float (1 / 10 ^ 15))), ("als_method", some (.str "cholesky")),
   ("als_epsilon", some (.float (1 / 10 ^ 12))), ("disable_progressbar", some (.bool false))]

/-- `ModelConfig`, ipeps_config.py 39-45. -/
def modelFields : List (String × Option Val) :=
  [("dtype", none), ("device", none), ("dim", none), ("name", some .none), ("params", some .none)]

/-- The fields of `IpepsConfig` itself, ipeps_config.py 47-55. -/
def ipepsFields : List (String × Option Val) :=
  [("TN", none), ("dtype", some (.str "float64")), ("device", some (.str "cpu")), ("ctmrg", some (.dict [])),
   ("evolution", some (.dict [])), ("model", some (.dict []))]

/-- A finished configuration. -/
structure Config where
  dtype : Val
  device : Val
  TN : PyDict String Val
  ctmrg : PyDict String Val
  evolution : PyDict String Val
  model : PyDict String Val

/-- `set_dtype`, ipeps_config.py 83-87: `None` is float64, a string is looked up in `torch`, anything else is kept. -/
def setDtype (mc : Machine) : Val → Except PyErr Val
  | .none => .ok (.dtype "float64")
  | .str s =>
    match mc.torchAttr s with
    | some v => .ok v
    | none => .error .attributeError
  | v => .ok v

/-- `set_device`, first part, ipeps_config.py 91-96: `None`, string or `torch.device`; any other value stays as the
dataclass stored it. -/
def readDevice (mc : Machine) : Val → Except PyErr Val
  | .none => .ok (.device (if mc.cuda then ⟨"cuda", none⟩ else ⟨"cpu", none⟩))
  | .str s =>
    match mc.parseDevice s with
    | some d => .ok (.device d)
    | none => .error .runtimeError
  | v => .ok v

/-- `set_device`, second part, ipeps_config.py 98-101: exactly `device("cuda")` becomes the CPU without CUDA. -/
def cudaFallback (mc : Machine) : Val → Val
  | .device d => if d = ⟨"cuda", none⟩ ∧ mc.cuda = false then .device ⟨"cpu", none⟩ else .device d
  | v => v

/-- `set_device`, ipeps_config.py 89-101. -/
def setDevice (mc : Machine) (v : Val) : Except PyErr Val := (readDevice mc v).map (cudaFallback mc)

/-- `validate_backend`, ipeps_config.py 103-109. -/
def validateBackend (mc : Machine) (ev : PyDict String Val) : PyDict String Val :=
  match ev.get? "backend" with
  | some (.str s) => if s = "cutensor" ∧ mc.cutensor = false then ev.set "backend" (.str "torch") else ev
  | _ => ev

/-- `disable_pbar_if_slurm`, ipeps_config.py 71-81, on one of the two sections. -/
def slurmPbar (mc : Machine) (d : PyDict String Val) : PyDict String Val :=
  if mc.slurm then d.set "disable_progressbar" (.bool (!mc.slurmInteractive)) else d

/-- `**v`: only a mapping can be unpacked. -/
def unpack : Val → Except PyErr (PyDict String Val)
  | .dict d => .ok d
  | _ => .error .typeError

/-- `self.TN.dims['phys']`. -/
def physDim (tn : PyDict String Val) : Except PyErr Val :=
  match tn.get? "dims" with
  | some (.dict d) => PyDict.getItem d "phys"
  | _ => .error .typeError

/-- `ModelConfig(dtype=…, device=…, dim=…, **self.model)`, ipeps_config.py 64-67: a keyword given twice is a
`TypeError`. -/
def mkModelConfig (dtype device dim : Val) (kw : PyDict String Val) : Except PyErr (PyDict String Val) :=
  if kw.any (fun p => p.1 == "dtype" || p.1 == "device" || p.1 == "dim") then .error .typeError
  else dataclass modelFields ([("dtype", dtype), ("device", device), ("dim", dim)] ++ kw)

/-- The attribute of a dataclass instance whose fields are `d`. -/
def attr (d : PyDict String Val) (k : String) : Except PyErr Val :=
  match d.get? k with
  | some v => .ok v
  | none => .error .attributeError

/-- `IpepsConfig(**config)`, ipeps_config.py 47-69. -/
def mkConfig (mc : Machine) (config : PyDict String Val) : Except PyErr Config := do
  let top ← dataclass ipepsFields config
  let dtype ← (attr top "dtype").bind (setDtype mc)
  let device ← (attr top "device").bind (setDevice mc)
  let tn ← ((attr top "TN").bind unpack).bind (dataclass tnFields)
  let ctmrg ← ((attr top "ctmrg").bind unpack).bind (dataclass ctmrgFields)
  let evolution ← ((attr top "evolution").bind unpack).bind (dataclass evolutionFields)
  let dim ← physDim tn
  let modelKw ← (attr top "model").bind unpack
  let model ← mkModelConfig dtype device dim modelKw
  return { dtype, device, TN := tn, ctmrg := slurmPbar mc ctmrg,
           evolution := slurmPbar mc (validateBackend mc evolution), model }

end AceTN.Cfg
