import Verif.Model.Lattice
import Verif.Model.Py

/-!
`TensorNetwork` and `Ipeps` as objects: `acetn/ipeps/tensor_network.py`, `acetn/ipeps/ipeps.py`.  The dictionary of
site tensors is a *class* attribute, so there is one for the whole process; the other attributes are per object.

Simplifications: the nine tensors of a site (bulk, corners, edges) are one payload value of an arbitrary type `V`;
tensor contents produced by initialisation, evolution and renormalization are parameters of the operations.  The
bond list is not tracked here (see `Model/Evolve.lean`).
-/

set_option autoImplicit false

namespace AceTN

/-- The values a `device` argument or attribute can take: `torch.device("cpu")` or `"cpu"`,
`torch.device("cuda")`, or an integer index (the rank, utils/distributed.py 62-64). -/
inductive Dev
  | cpu
  | cuda
  | idx (n : ℕ)
  deriving DecidableEq, Repr

/-- A torch dtype, by name. -/
abbrev DType := String

/-- Python truth value of a device: the integer 0 is false, everything else is true. -/
def Dev.truthy : Dev → Bool
  | .idx 0 => false
  | _ => true

/-- `device or self.device`, where the argument may be `None`. -/
def devOr (d : Option Dev) (own : Dev) : Dev :=
  match d with
  | none => own
  | some d => if d.truthy then d else own

/-- `dtype or self.dtype` (dtypes are always true). -/
def dtypeOr (d : Option DType) (own : DType) : DType := d.getD own

/-- A torch tensor (here: all tensors of one site) with type and device. -/
structure Tens (V : Type) where
  val : V
  dtype : DType
  device : Dev
  deriving DecidableEq, Repr

section
variable {V : Type} (cast : DType → DType → V → V)

/-- `torch.clone(v).detach().to(dtype, device)`: values change only if the dtype changes
(`cast from to value` is then the element-wise conversion, possibly lossy). -/
def Tens.conv (dt : DType) (dv : Dev) (t : Tens V) : Tens V :=
  ⟨if t.dtype = dt then t.val else cast t.dtype dt t.val, dt, dv⟩

/-- A `SiteTensor` object: its own `dtype`/`device` attributes and its tensors. -/
structure SiteT (V : Type) where
  dtype : DType
  device : Dev
  t : Tens V
  deriving DecidableEq, Repr

/-- `SiteTensor(dims, site_tensor=st, dtype, device)`, site_tensor.py 28-39 with `copy_from` 85-94. -/
def SiteT.copyOf (dt : DType) (dv : Dev) (st : SiteT V) : SiteT V := ⟨dt, dv, st.t.conv cast dt dv⟩

/-- `SiteTensor.to(dtype, device)`, site_tensor.py 105-118. -/
def SiteT.to (dt : Option DType) (dv : Option Dev) (st : SiteT V) : SiteT V :=
  st.copyOf cast (dtypeOr dt st.dtype) (devOr dv st.device)

/-- `SiteTensor(dims, site_state=…, dtype, device)`, site_tensor.py 28-37: content computed in the
requested type. -/
def SiteT.fresh (dt : DType) (dv : Dev) (v : V) : SiteT V := ⟨dt, dv, ⟨v, dt, dv⟩⟩

/-- Attributes of a `TensorNetwork`/`Ipeps` object. -/
structure Tn where
  nx : ℕ
  ny : ℕ
  dtype : DType
  device : Dev
  siteList : List Site
  /-- `site_states_initialized` (a missing attribute counts as `false`) -/
  initialized : Bool
  /-- whether the object is an `Ipeps` (and so has `evolve`, `renormalize`, `measure`) -/
  isIpeps : Bool
  deriving DecidableEq, Repr

/-- The process: the class attribute `_tensor_network` (tensor_network.py 12), the objects created so far
(numbered in order of creation), and the files. -/
structure World (V : Type) where
  dict : PyDict Site (SiteT V)
  tns : List Tn
  files : String → Option (PyDict Site (SiteT V))

/-- A process that has just imported the package. -/
def World.empty : World V := ⟨[], [], fun _ => none⟩

/-- `tn[site]`, tensor_network.py 33-46 (the same dictionary whatever `tn` is). -/
def World.getItem (w : World V) (s : Site) : Except PyErr (SiteT V) :=
  match w.dict.get? s with
  | some st => .ok st
  | none => .error .valueError

/-- `tn[site] = st`, tensor_network.py 48-56. -/
def World.setItem (w : World V) (s : Site) (st : SiteT V) : World V := { w with dict := w.dict.set s st }

/-- Change the attributes of object `i`. -/
def World.setTn (w : World V) (i : ℕ) (t : Tn) : World V := { w with tns := w.tns.set i t }

/-- The loop of `initialize_site_tensors`, tensor_network.py 148-150. -/
def initSites (dt : DType) (dv : Dev) (f : Site → V) : List Site → World V → World V
  | [], w => w
  | s :: ss, w => initSites dt dv f ss (w.setItem s (.fresh dt dv (f s)))

/-- The loop of `copy_from`, tensor_network.py 67-68. -/
def copySites (dt : DType) (dv : Dev) : List Site → World V → Except PyErr (World V)
  | [], w => .ok w
  | s :: ss, w => do
    let st ← w.getItem s
    copySites dt dv ss (w.setItem s (st.copyOf cast dt dv))

/-- `Ipeps(config)` with a new network, ipeps.py 27-41 with tensor_network.py 134-136: sites are filled, and the
flag set by `initialize_site_tensors` is cleared again at ipeps.py 41. -/
def newIpeps (w : World V) (nx ny : ℕ) (dt : DType) (dv : Dev) (f : Site → V) : World V :=
  let sl := buildSiteList nx ny
  let w := initSites dt dv f sl w
  { w with tns := w.tns ++ [⟨nx, ny, dt, dv, sl, false, true⟩] }

/-- `Ipeps(config, ipeps=src)`, ipeps.py 27-41 with tensor_network.py 137-138. -/
def newIpepsFrom (w : World V) (src : Tn) (nx ny : ℕ) (dt : DType) (dv : Dev) :
    Except PyErr (World V) := do
  let w ← copySites cast dt dv src.siteList w
  return { w with tns := w.tns ++ [⟨nx, ny, dt, dv, src.siteList, false, true⟩] }

/-- `TensorNetwork(tensor_network=src, config=src.tn_config, dtype, device)`, used by `copy` and `to`,
tensor_network.py 70-92. -/
def newTnFrom (w : World V) (src : Tn) (dt : DType) (dv : Dev) : Except PyErr (World V) := do
  let w ← copySites cast dt dv src.siteList w
  return { w with tns := w.tns ++ [⟨src.nx, src.ny, dt, dv, src.siteList, false, false⟩] }

/-- `tn.copy()`, tensor_network.py 70-77. -/
def tnCopy (w : World V) (t : Tn) : Except PyErr (World V) := newTnFrom cast w t t.dtype t.device

/-- `tn.to(dtype, device)`, tensor_network.py 79-92. -/
def tnTo (w : World V) (t : Tn) (dt : Option DType) (dv : Option Dev) : Except PyErr (World V) :=
  newTnFrom cast w t (dtypeOr dt t.dtype) (devOr dv t.device)

/-- `load(filename)` on object `i`, tensor_network.py 111-122: the loop over the items of the file. -/
def loadItems (dt : DType) (dv : Dev) : PyDict Site (SiteT V) → World V → World V
  | [], w => w
  | (s, st) :: ds, w => loadItems dt dv ds (w.setItem s (st.to cast (some dt) (some dv)))

/-- `load(filename)` on object `i`, tensor_network.py 111-122. -/
def tnLoad (w : World V) (i : ℕ) (t : Tn) (file : String) : Except PyErr (World V) :=
  match w.files file with
  | none => .error .fileNotFound
  | some d => .ok ((loadItems cast t.dtype t.device d w).setTn i { t with initialized := true })

/-- The elementary steps of `save`, tensor_network.py 94-109. -/
inductive SaveStep
  | copySite (s : Site)
  | writeFile
  | loadSite (s : Site)
  | setFlag
  deriving DecidableEq, Repr

/-- `save` step by step: `self.to(device="cpu")` re-creates every site of `self.site_list` on the cpu (in the shared
dictionary), `torch.save` writes the whole dictionary, `self.load` converts every site in the file back and sets
the flag. -/
def saveSteps (w : World V) (t : Tn) : List SaveStep :=
  t.siteList.map .copySite ++ [.writeFile] ++ w.dict.keys.map .loadSite ++ [.setFlag]

/-- Perform one step of `save` on object `i` with attributes `t`. -/
def SaveStep.run (i : ℕ) (t : Tn) (file : String) (w : World V) : SaveStep → World V
  | .copySite s =>
    match w.dict.get? s with
    | none => w
    | some st => w.setItem s (st.copyOf cast t.dtype .cpu)
  | .writeFile => { w with files := fun f => if f = file then some w.dict else w.files f }
  | .loadSite s =>
    match (w.files file).bind (·.get? s) with
    | none => w
    | some st => w.setItem s (st.to cast (some t.dtype) (some t.device))
  | .setFlag => w.setTn i { t with initialized := true }

/-- `save(filename)` interrupted after `k` elementary steps. -/
def saveUpTo (k : ℕ) (w : World V) (i : ℕ) (t : Tn) (file : String) : World V :=
  ((saveSteps w t).take k).foldl (SaveStep.run cast i t file) w

/-- `save(filename)`. -/
def tnSave (w : World V) (i : ℕ) (t : Tn) (file : String) : World V :=
  (saveSteps w t).foldl (SaveStep.run cast i t file) w

/-- The first part of `Ipeps.evolve`, ipeps.py 110-111: the product state of the model is written unless the flag is
set. `f` is the content `initialize_site_tensors(model.initial_site_state)` produces. -/
def evolveStart (w : World V) (i : ℕ) (t : Tn) (f : Site → V) : World V :=
  if t.initialized then w
  else
    let sl := buildSiteList t.nx t.ny
    (initSites t.dtype t.device f sl w).setTn i { t with siteList := sl, initialized := true }

/-- Arbitrary change of the contents of the sites of a network (what evolution and renormalization do). -/
def mapSites (g : Site → V → V) : List Site → World V → World V
  | [], w => w
  | s :: ss, w =>
    match w.dict.get? s with
    | none => mapSites g ss w
    | some st => mapSites g ss (w.setItem s { st with t := { st.t with val := g s st.t.val } })

/-- API calls on the networks of a process.  `i` is the number of the object. -/
inductive NOp (V : Type)
  | new (nx ny : ℕ) (dt : DType) (dv : Dev) (f : Site → V)
  | newFrom (i nx ny : ℕ) (dt : DType) (dv : Dev)
  | copy (i : ℕ)
  | to (i : ℕ) (dt : Option DType) (dv : Option Dev)
  | assign (i : ℕ) (s : Site) (st : SiteT V)
  | save (i : ℕ) (file : String)
  | load (i : ℕ) (file : String)
  | evolve (i : ℕ) (f : Site → V) (g : Site → V → V)
  | renormalize (i : ℕ) (g : Site → V → V)
  | measure (i : ℕ)

/-- Perform an API call; an exception leaves the world as it was (missing objects, missing methods and missing files
raise before anything changes; the copy loops raise only if a listed site is missing, which cannot happen: sites are
never removed from the dictionary). `evolve` is ipeps.py 99-115 with the numerical work summarised by `g`. -/
def NOp.run (w : World V) : NOp V → World V
  | .new nx ny dt dv f => newIpeps w nx ny dt dv f
  | .newFrom i nx ny dt dv =>
    match w.tns[i]? with
    | none => w
    | some t => (newIpepsFrom cast w t nx ny dt dv).toOption.getD w
  | .copy i =>
    match w.tns[i]? with
    | none => w
    | some t => (tnCopy cast w t).toOption.getD w
  | .to i dt dv =>
    match w.tns[i]? with
    | none => w
    | some t => (tnTo cast w t dt dv).toOption.getD w
  | .assign i s st =>
    match w.tns[i]? with
    | none => w
    | some _ => w.setItem s st
  | .save i file =>
    match w.tns[i]? with
    | none => w
    | some t => tnSave cast w i t file
  | .load i file =>
    match w.tns[i]? with
    | none => w
    | some t => (tnLoad cast w i t file).toOption.getD w
  | .evolve i f g =>
    match w.tns[i]? with
    | none => w
    | some t =>
      if t.isIpeps then
        mapSites g (if t.initialized then t.siteList else buildSiteList t.nx t.ny) (evolveStart w i t f)
      else w
  | .renormalize i g =>
    match w.tns[i]? with
    | none => w
    | some t => if t.isIpeps then mapSites g t.siteList w else w
  | .measure _ => w

/-- Perform a sequence of API calls. -/
def runOps (w : World V) (ops : List (NOp V)) : World V := ops.foldl (NOp.run cast) w

/-- What an API user sees when reading a site through object `i`. -/
def readSite (w : World V) (_i : ℕ) (s : Site) : Except PyErr (SiteT V) := w.getItem s

end
end AceTN
