import Verif.Model.NativeAls
import Verif.Model.Session

/-!
Sessions in which some calls of `evolve` use the setting `backend = "cutensor"`: `ALSSolver.solve` of `acetn/evolution/als_solver.py`
(34-53, 79-110) hands the initial guess, the norm tensor and the target to the compiled extension, and everything around it is as with the
torch backend.  The tensors are assumed to be on the GPU for which the extension was built.
-/

set_option autoImplicit false

namespace AceTN

open Native

variable {𝕜 F : Type} [RCLike 𝕜]

namespace Native

/-- A tensor with three axes after `.contiguous()`, als_solve.cpp 118-119. -/
def contiguous3 {n0 n1 n2 : ℕ} (T : Fin n0 → Fin n1 → Fin n2 → 𝕜) : Buf 𝕜 where
  shape := [n0, n1, n2]
  mem := writeAll [n0, n1, n2] (fun idx => match idx with
    | [i, j, k] => if h : i < n0 ∧ j < n1 ∧ k < n2 then T ⟨i, h.1⟩ ⟨j, h.2.1⟩ ⟨k, h.2.2⟩ else 0
    | _ => 0) fun _ => 0

/-- A tensor with four axes after `.contiguous()`, als_solve.cpp 120-122. -/
def contiguous4 {n0 n1 n2 n3 : ℕ} (T : Fin n0 → Fin n1 → Fin n2 → Fin n3 → 𝕜) : Buf 𝕜 where
  shape := [n0, n1, n2, n3]
  mem := writeAll [n0, n1, n2, n3] (fun idx => match idx with
    | [i, j, k, l] => if h : i < n0 ∧ j < n1 ∧ k < n2 ∧ l < n3 then T ⟨i, h.1⟩ ⟨j, h.2.1⟩ ⟨k, h.2.2.1⟩ ⟨l, h.2.2.2⟩ else 0
    | _ => 0) fun _ => 0

/-- A returned tensor, read by PyTorch. -/
def read3 {n0 n1 n2 : ℕ} (b : Buf 𝕜) : Fin n0 → Fin n1 → Fin n2 → 𝕜 := fun i j k => b.get [i, j, k]

/-- The name of a method, as it stands in the settings. -/
def methodName : Als.Solver → String
  | .cholesky => "cholesky"
  | .pinv => "pinv"

end Native

/-- The compiled extension: the cuSOLVER routines it calls, and what the memory it allocates contains before it is written, for each bond
update (counted by the number of boundary moves made before). -/
structure Extension (𝕜 : Type) [RCLike 𝕜] where
  cs : Cusolver 𝕜
  junk : ℕ → String → ℕ → 𝕜

namespace Full

variable {bD pD : ℕ}

/-- `ALSSolver(...).solve()` with `backend = "cutensor"`, als_solver.py 34-53 and 79-110: the initial guess is made in PyTorch. -/
noncomputable def alsSolveCutensor {nD : ℕ} (la : Lapack 𝕜) (cs : Cusolver 𝕜) (junk : String → ℕ → 𝕜) (fo : Als.FloatOps F) (rep : ℝ → F)
    (cfg : Settings F) (hb : bD ≤ min (Fintype.card (Fin nD × Fin pD)) (Fintype.card (Fin nD × Fin pD)))
    (n12 : Fin nD → Fin nD → Fin nD → Fin nD → 𝕜) (a12g : Fin nD → Fin nD → Fin pD → Fin pD → 𝕜) :
    Except PyErr ((Fin nD → Fin bD → Fin pD → 𝕜) × (Fin nD → Fin bD → Fin pD → 𝕜)) := do
  let p := initReduced la hb a12g
  let r ← Native.alsSolve nD bD pD la cs junk fo rep cfg.als_epsilon (methodName cfg.als_method) cfg.als_tol cfg.als_niter
    (contiguous3 p.1) (contiguous3 p.2) (contiguous4 (n12gOf n12 a12g)) (contiguous4 n12) (contiguous4 a12g)
  return (read3 r.1, read3 r.2)

/-- `update_reduced_tensors` with `backend = "cutensor"`, full_update.py 65-121 and 142-161. -/
noncomputable def updateReducedCutensor {nD : ℕ} [Nonempty (Fin nD)] (la : Lapack 𝕜) (cs : Cusolver 𝕜) (junk : String → ℕ → 𝕜)
    (fo : Als.FloatOps F) (rep : ℝ → F) (cfg : Settings F) (hb : bD ≤ Fintype.card (Fin nD × Fin pD))
    (a1r a2r : Fin nD → Fin bD → Fin pD → 𝕜) (n12 : Fin nD → Fin nD → Fin nD → Fin nD → 𝕜) (gate : Fin pD → Fin pD → Fin pD → Fin pD → 𝕜) :
    Option (Except PyErr ((Fin nD → Fin bD → Fin pD → 𝕜) × (Fin nD → Fin bD → Fin pD → 𝕜))) :=
  let a12g := gateReduced a1r a2r gate
  (positiveApprox la 2 cfg.positive_approx_cutoff n12).map fun nz =>
    if cfg.use_gauge_fix then do
      let g := gaugeFix la cfg.gauge_fix_atol nz a12g
      let p ← alsSolveCutensor la cs junk fo rep cfg (hb_init (hb_gauge hb)) g.n12 g.a12g
      let p := undoGauge g.nzyr_inv g.nzxr_inv p
      return finalizeCore la (hb_fin hb) p.1 p.2
    else do
      let p ← alsSolveCutensor la cs junk fo rep cfg (hb_init hb) (squareNorm nz) a12g
      return finalizeCore la (hb_fin hb) p.1 p.2

variable [NeZero bD] [Nonempty (Fin pD)]

/-- `tensor_update` with `backend = "cutensor"`, full_update.py 34-63. -/
noncomputable def numTensorUpdateCutensor (la : Lapack 𝕜) (cs : Cusolver 𝕜) (junk : String → ℕ → 𝕜) (fo : Als.FloatOps F) (rep : ℝ → F)
    (cfg : Settings F) (net : Net (Ten (Fin bD) (Fin pD) 𝕜)) (b : Bond) (gate : Fin pD → Fin pD → Fin pD → Fin pD → 𝕜)
    (a1 a2 : ATensor (Fin bD) (Fin pD) 𝕜) : Option (Except PyErr (ATensor (Fin bD) (Fin pD) 𝕜 × ATensor (Fin bD) (Fin pD) 𝕜)) :=
  let d := decompose la a1 a2
  match numNorm net b d.a1q d.a2q with
  | .error e => some (.error e)
  | .ok n12 => (updateReducedCutensor la cs junk fo rep cfg bD_le d.a1r d.a2r n12 gate).map fun r => do
    let p ← r
    let (a1, a2) := recompose d.a1q p.1 d.a2q p.2
    return (normalise a1, normalise a2)

/-- `update` with `backend = "cutensor"`, tensor_update.py 18-38, with the one-site terms in the bond gates. -/
noncomputable def numUpdateCutensor (la : Lapack 𝕜) (cs : Cusolver 𝕜) (junk : String → ℕ → 𝕜) (fo : Als.FloatOps F) (rep : ℝ → F)
    (cfg : Settings F) (gates : Bond → Fin pD → Fin pD → Fin pD → Fin pD → 𝕜) (net : Net (Ten (Fin bD) (Fin pD) 𝕜)) (b : Bond) :
    Option (Except PyErr (ATensor (Fin bD) (Fin pD) 𝕜 × ATensor (Fin bD) (Fin pD) 𝕜)) :=
  match net.A b.s1, net.A b.s2 with
  | .site a1, .site a2 =>
    (numTensorUpdateCutensor la cs junk fo rep cfg net b (gates b) (bondPermute b.k a1) (bondPermute b.k a2)).map fun r => do
      let (a1, a2) ← r
      return (bondPermute (4 - (b.k : ℤ)) a1, bondPermute (4 - (b.k : ℤ)) a2)
  | _, _ => some (.error .runtimeError)

/-- `bond_update` with `backend = "cutensor"`, fast_full_update.py 47-101. -/
noncomputable def fullBondStepCutensor (st : ProjSettings 𝕜) (pk : ProjKind) (ω : ℕ → Draws (Fin bD) 𝕜) (la : Lapack 𝕜) (ext : Extension 𝕜)
    (fo : Als.FloatOps F) (rep : ℝ → F) (cfg : Settings F) (gates : Bond → Fin pD → Fin pD → Fin pD → Fin pD → 𝕜)
    (s : Net (Ten (Fin bD) (Fin pD) 𝕜) × ℕ) (b : Bond) : (Net (Ten (Fin bD) (Fin pD) 𝕜) × ℕ) × Option PyErr :=
  match numUpdateCutensor la ext.cs (ext.junk s.2) fo rep cfg gates s.1 b with
  | none => (s, some .runtimeError)
  | some (.error e) => (s, some e)
  | some (.ok (a1, a2)) =>
    let net := writeSite (writeSite s.1 b.s1 a1) b.s2 a2
    match runDrawn st pk ω s.2 (absorbMoves b) net with
    | .error e => ((net, s.2), some e)
    | .ok net => ((net, s.2 + (absorbMoves b).length), none)

end Full

namespace Session

variable {bD pD : ℕ} [NeZero bD] [NeZero pD]

/-- The computations of a call of `evolve`; `cut` says whether `config.evolution.backend` is `"cutensor"`.  Only the full update looks
at it. -/
noncomputable def compBackend (M : Machine F bD 𝕜) (ext : Extension 𝕜) (cut : Bool) (c : Config F) (e : Evolution bD pD 𝕜) :
    Set.Comp (State bD pD 𝕜) :=
  if cut then
    { comp M c e with
      fullLoop := fun pk k s =>
        let r := evolveLoop (Full.fullBondStepCutensor (c.proj M k) pk M.ω M.la ext M.fo M.rep c.update (twoSiteGate e.model e.dtau))
          e.steps s.bonds (s.net, s.moves)
        ({ s with bonds := r.1, net := r.2.1.1, moves := r.2.1.2 }, r.2.2) }
  else comp M c e

/-- A call with the backend it finds in the configuration. -/
noncomputable def execBackend (M : Machine F bD 𝕜) (ext : Extension 𝕜) (s : State bD pD 𝕜) :
    Bool × Call F bD pD 𝕜 → State bD pD 𝕜 × Option PyErr
  | (cut, .evolve c e) => Set.evolve (compBackend M ext cut c e) c.strings s.initialized s
  | (_, c) => exec M s c

/-- A script whose calls may use either backend. -/
noncomputable def runBackend (M : Machine F bD 𝕜) (ext : Extension 𝕜) :
    List (Bool × Call F bD pD 𝕜) → State bD pD 𝕜 → State bD pD 𝕜 × Option PyErr
  | [], s => (s, none)
  | c :: cs, s => Set.andThen (execBackend M ext s c) (runBackend M ext cs)

end Session

end AceTN
