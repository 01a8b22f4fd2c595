import Verif.Model.Session

/-!
Sessions with files: `save` and `load` of an `Ipeps` object (`acetn/ipeps/tensor_network.py`) between its other calls, and new processes that
find the files of earlier ones.  The aliasing of the tensors, the devices and the steps of `save` are in `Model/Network.lean`; here there is one
object per process, and what counts are the values.
-/

set_option autoImplicit false

namespace AceTN.Session

variable {𝕜 F : Type} [RCLike 𝕜] {bD pD : ℕ} [NeZero bD] [NeZero pD]

/-- A process with its `Ipeps` object, and the files. -/
structure Shell (F : Type) (bD pD : ℕ) (𝕜 : Type) [RCLike 𝕜] where
  machine : Machine F bD 𝕜
  obj : State bD pD 𝕜
  disk : String → Option (Net (Ten (Fin bD) (Fin pD) 𝕜))

/-- What a user does: calls of `Model/Session.lean`, `save(f)`, `load(f)`, and starting a new process that constructs an object for the same
lattice, dtype and dimensions. -/
inductive Command (F : Type) (bD pD : ℕ) (𝕜 : Type) [RCLike 𝕜]
  | call (c : Call F bD pD 𝕜)
  | save (f : String)
  | load (f : String)
  | restart (M : Machine F bD 𝕜) (chi : ℕ) (A : Site → ATensor (Fin bD) (Fin pD) 𝕜)

/-- The loop of `load` over the sites in the file, tensor_network.py 119-121: the tensors of these sites are replaced, `nx`, `ny` and `dims` are
not.  Simplification: the file has the dtype of the object, so that `to` does not change the values (C18). -/
def loadNet (saved net : Net (Ten (Fin bD) (Fin pD) 𝕜)) : Net (Ten (Fin bD) (Fin pD) 𝕜) :=
  { net with
    A := fun x => if x ∈ buildSiteList saved.nx saved.ny then saved.A x else net.A x
    B := fun x => if x ∈ buildSiteList saved.nx saved.ny then saved.B x else net.B x }

/-- `load(filename)`, tensor_network.py 111-122. -/
def Shell.load (w : Shell F bD pD 𝕜) (f : String) : Shell F bD pD 𝕜 × Option PyErr :=
  match w.disk f with
  | none => (w, some .fileNotFound)
  | some saved => ({ w with obj := { w.obj with net := loadNet saved w.obj.net, initialized := true } }, none)

/-- `save(filename)`, tensor_network.py 94-109: the tensors are written to the file and loaded from it. -/
def Shell.save (w : Shell F bD pD 𝕜) (f : String) : Shell F bD pD 𝕜 × Option PyErr :=
  { w with disk := fun g => if g = f then some w.obj.net else w.disk g }.load f

/-- A command, which may raise. -/
noncomputable def Shell.exec (w : Shell F bD pD 𝕜) : Command F bD pD 𝕜 → Shell F bD pD 𝕜 × Option PyErr
  | .call c =>
    let r := Session.exec w.machine w.obj c
    ({ w with obj := r.1 }, r.2)
  | .save f => w.save f
  | .load f => w.load f
  | .restart M chi A => ({ w with machine := M, obj := new w.obj.net.nx w.obj.net.ny chi A }, none)

/-- A list of commands that stops at the first exception. -/
noncomputable def Shell.run : List (Command F bD pD 𝕜) → Shell F bD pD 𝕜 → Shell F bD pD 𝕜 × Option PyErr
  | [], w => (w, none)
  | c :: cs, w =>
    match w.exec c with
    | (w, some e) => (w, some e)
    | (w, none) => run cs w

/-- A list of commands whose exceptions are caught. -/
noncomputable def Shell.runCatching : List (Command F bD pD 𝕜) → Shell F bD pD 𝕜 → Shell F bD pD 𝕜
  | [], w => w
  | c :: cs, w => runCatching cs (w.exec c).1

/-- The first process, without files. -/
noncomputable def Shell.start (nx ny : ℕ) (M : Machine F bD 𝕜) (chi : ℕ) (A : Site → ATensor (Fin bD) (Fin pD) 𝕜) : Shell F bD pD 𝕜 where
  machine := M
  obj := new nx ny chi A
  disk _ := none

end AceTN.Session
