import Verif.Model.Config

/-!
What the documentation says about settings: docs/source/input_settings.rst 33-68.
-/

set_option autoImplicit false

namespace AceTN.Cfg.Spec

/-- Documented defaults of the `[TN]` section; the three dimensions are documented one by one (lines 41-43). -/
def tnDefaults : List (String × Val) := [("nx", .int 2), ("ny", .int 2)]

/-- Documented defaults of `[TN.dims]`. -/
def dimDefaults : List (String × ℤ) := [("phys", 2), ("bond", 2), ("chi", 20)]

/-- Documented defaults of `[ctmrg]`. -/
def ctmrgDefaults : List (String × Val) :=
  [("steps", .int 40), ("projectors", .str "half-system"), ("svd_type", .str "rsvd"),
   ("svd_cutoff", .float (1 / 1000000000000)), ("rsvd_niter", .int 2), ("rsvd_oversampling", .int 2),
   ("disable_progressbar", .bool false)]

/-- Documented defaults of `[evolution]`. -/
def evolutionDefaults : List (String × Val) :=
  [("backend", .str "torch"), ("update_type", .str "full"), ("use_gauge_fix", .bool true),
   ("gauge_fix_atol", .float (1 / 1000000000000)), ("positive_approx_cutoff", .float (1 / 1000000000000)),
   ("als_niter", .int 100), ("als_tol", .float (1 / 1000000000000000)), ("als_method", .str "cholesky"),
   ("als_epsilon", .float (1 / 1000000000000)), ("disable_progressbar", .bool false)]

/-- What the user wrote in a section (nothing if the section is missing). -/
def section? (config : PyDict String Val) (name : String) : PyDict String Val :=
  match config.get? name with
  | some (.dict d) => d
  | _ => []

/-- The machine behaves as torch documents for the names in the documentation. -/
structure TorchOk (mc : Machine) : Prop where
  f64 : mc.torchAttr "float64" = some (.dtype "float64")
  f32 : mc.torchAttr "float32" = some (.dtype "float32")
  cpu : mc.parseDevice "cpu" = some ⟨"cpu", none⟩
  cuda : mc.parseDevice "cuda" = some ⟨"cuda", none⟩

/-- A device value the machine can put tensors on. -/
def Usable (mc : Machine) : Val → Prop
  | .device d => d.type = "cpu" ∨ d.type = "cuda" ∧ mc.cuda = true
  | _ => False

/-- The user asked for value `v` of setting `key` in section `sec` and the finished section `d` still says so. -/
def Kept (config : PyDict String Val) (sec : String) (d : PyDict String Val) : Prop :=
  ∀ key v, (section? config sec).get? key = some v → d.get? key = some v

end AceTN.Cfg.Spec
