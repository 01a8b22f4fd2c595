import Verif.Model.Projectors
import Verif.Model.FullUpdateBond
import Verif.Model.Py
import Verif.Model.Rdm

/-!
Boundary tensors: their initialisation (`acetn/ipeps/site_tensor.py`) and their renormalization
(`acetn/renormalization/directional_mover.py`).
-/

set_option autoImplicit false

namespace AceTN

open Matrix

variable {𝕜 : Type} [RCLike 𝕜]

/-- `x.norm()` of a matrix-like tensor. -/
noncomputable def norm2 {a b : Type} [Fintype a] [Fintype b] (c : a → b → 𝕜) : ℝ := Real.sqrt (∑ i, ∑ j, ‖c i j‖ ^ 2)

/-- `x.norm()` of a tensor with four legs. -/
noncomputable def norm4 {a b c d : Type} [Fintype a] [Fintype b] [Fintype c] [Fintype d] (t : a → b → c → d → 𝕜) : ℝ :=
  Real.sqrt (∑ i, ∑ j, ∑ k, ∑ l, ‖t i j k l‖ ^ 2)

/-- `c/c.norm()`.  Python yields not-a-number for a zero tensor, which the theorems exclude. -/
noncomputable def normalise2 {a b : Type} [Fintype a] [Fintype b] (c : a → b → 𝕜) : a → b → 𝕜 :=
  fun i j => c i j / (norm2 c : 𝕜)

/-- `e/e.norm()`. -/
noncomputable def normalise4 {a b c d : Type} [Fintype a] [Fintype b] [Fintype c] [Fintype d] (t : a → b → c → d → 𝕜) :
    a → b → c → d → 𝕜 :=
  fun i j k l => t i j k l / (norm4 t : 𝕜)

section renormalize

variable {xa xb xc L U R D P Z Z' : Type} [Fintype xa] [Fintype xb] [Fintype xc] [Fintype L] [Fintype U] [Fintype R] [Fintype D]
  [Fintype P] [Fintype Z] [Fintype Z']

/-- `renormalize_cj1`, directional_mover.py 305-323. -/
noncomputable def renormalizeCj1 (ci : xb → xc → 𝕜) (ei : xa → xb → L → L → 𝕜) (proj : xc → L → L → Z → 𝕜) : xa → Z → 𝕜 :=
  let cj := einsum% "ablL,bc->alLc" ei ci
  let cj := einsum% "alLc,clLx->ax" cj proj
  normalise2 cj

/-- `renormalize_cj2`, directional_mover.py 325-343. -/
noncomputable def renormalizeCj2 (ci : xa → xb → 𝕜) (ei : xb → xc → R → R → 𝕜) (proj : xa → R → R → Z → 𝕜) : Z → xc → 𝕜 :=
  let cj := einsum% "ab,bcrR->acrR" ci ei
  let cj := einsum% "arRx,acrR->xc" proj cj
  normalise2 cj

/-- `renormalize_ej`, directional_mover.py 345-366. -/
noncomputable def renormalizeEj (ei : xa → xb → L → L → 𝕜) (ai : L → U → R → D → P → 𝕜) (proj2 : xa → D → D → Z' → 𝕜)
    (proj1 : xb → U → U → Z → 𝕜) : Z' → Z → R → R → 𝕜 :=
  let ej := einsum% "ablL,buUx->alLuUx" ei proj1
  let ej := einsum% "LURDP,alLuUx->RDPalux" (star ai) ej
  let ej := einsum% "lurdp,RDpalux->rdRDax" ai ej
  let ej := einsum% "rdRDax,adDy->yxrR" ej proj2
  normalise4 ej

end renormalize

section boundary

variable {B P X : Type} [Fintype B] [Fintype P] [Fintype X]

/-- The three tensors written by `renormalize_boundary(ipeps, proj1, proj2, s1, s2, i, j, k)`, directional_mover.py
293-303, for the projectors `pi` of cut `i` and `pj` of cut `j`: the new `C[(3+k)%4]`, `C[k]` and `E[(3+k)%4]` of `s2`.
The new legs have the dimensions of the projectors.  All three are computed from tensors of `s1` that are not among the
ones written (see C09). -/
noncomputable def renormalizeBoundary3 (s1 : NumSite B P X 𝕜) (pi pj : ProjPair X B 𝕜) (k : ℤ) :
    (X → Fin pi.cD → 𝕜) × (Fin pj.cD → X → 𝕜) × (Fin pi.cD → Fin pj.cD → B → B → 𝕜) :=
  (renormalizeCj1 (s1.C (rotIdx k 3)) (s1.E (rotIdx k 2)) pi.proj1,
   renormalizeCj2 (s1.C (rotIdx k 0)) (s1.E (rotIdx k 0)) pj.proj2,
   renormalizeEj (s1.E (rotIdx k 3)) (bondPermute k s1.A) pi.proj2 pj.proj1)

/-- `build_site_rdm` (rdm.py 48-67) of a site `s2` after `renormalize_boundary` for direction `k` has replaced its
tensors `C[(3+k)%4]`, `C[k]` and `E[(3+k)%4]` by the three tensors `t`.  The legs of the new tensors have their own
dimensions, so the four directions are written out. -/
def siteRdmAfterMove {Z Z' : Type} [Fintype Z] [Fintype Z'] (s2 : NumSite B P X 𝕜) (k : Fin 4)
    (t : (X → Z → 𝕜) × (Z' → X → 𝕜) × (Z → Z' → B → B → 𝕜)) : P → P → 𝕜 :=
  match k with
  | 0 => siteRdmCore t.2.1 (s2.E 0) (s2.C 1) (s2.E 1) (s2.C 2) (s2.E 2) t.1 t.2.2 s2.A
  | 1 => siteRdmCore t.1 t.2.2 t.2.1 (s2.E 1) (s2.C 2) (s2.E 2) (s2.C 3) (s2.E 3) s2.A
  | 2 => siteRdmCore (s2.C 0) (s2.E 0) t.1 t.2.2 t.2.1 (s2.E 2) (s2.C 3) (s2.E 3) s2.A
  | 3 => siteRdmCore (s2.C 0) (s2.E 0) (s2.C 1) (s2.E 1) t.1 t.2.2 t.2.1 (s2.E 3) s2.A

end boundary

section initial

variable {bD pD : ℕ}

/-- `self['A'][0,0,0,0,n] += v`: an index error if the tensor has no such entry. -/
def addAtOrigin (A : ATensor (Fin bD) (Fin pD) 𝕜) (n : ℕ) (v : 𝕜) : Except PyErr (ATensor (Fin bD) (Fin pD) 𝕜) :=
  if 0 < bD ∧ n < pD then
    .ok fun l u r d p => if l.val = 0 ∧ u.val = 0 ∧ r.val = 0 ∧ d.val = 0 ∧ p.val = n then A l u r d p + v else A l u r d p
  else .error .indexError

/-- The loop of site_tensor.py 134-135, from index `n` on. -/
def addState (A : ATensor (Fin bD) (Fin pD) 𝕜) (n : ℕ) : List 𝕜 → Except PyErr (ATensor (Fin bD) (Fin pD) 𝕜)
  | [] => .ok A
  | v :: vs => addAtOrigin A n v >>= fun A' => addState A' (n + 1) vs

/-- `initialize_site_tensor(site_state, noise)`, site_tensor.py 120-136; `draw` is the result of `torch.rand`. -/
noncomputable def initializeSiteTensor (noise : ℝ) (draw : Fin bD → Fin bD → Fin bD → Fin bD → Fin pD → ℝ) (site_state : List 𝕜) :
    Except PyErr (ATensor (Fin bD) (Fin pD) 𝕜) :=
  (addState (fun l u r d p => ((noise * draw l u r d p : ℝ) : 𝕜)) 0 site_state).map Full.normalise

variable {B P : Type} [Fintype B] [Fintype P]

/-- One corner of `initialize_corner_tensors`, site_tensor.py 170-173; the reshaped legs are the pairs `dD` and `rR`. -/
noncomputable def initialCorner (A : ATensor B P 𝕜) (k : ℤ) : B × B → B × B → 𝕜 :=
  let ak := bondPermute k A
  let ck := einsum% "lurdp,luRDp->dDrR" ak (star ak)
  normalise2 fun (x y : B × B) => ck x.1 x.2 y.1 y.2

/-- One edge of `initialize_edge_tensors`, site_tensor.py 196-199; the reshaped legs are the pairs `lL` and `rR`. -/
noncomputable def initialEdge (A : ATensor B P 𝕜) (k : ℤ) : B × B → B × B → B → B → 𝕜 :=
  let ak := bondPermute k A
  let ek := einsum% "lurdp,LuRDp->lLrRdD" ak (star ak)
  normalise4 fun (x y : B × B) d D => ek x.1 x.2 y.1 y.2 d D

/-- A site with freshly initialised boundary tensors, site_tensor.py 34-37 (`initial_condition` is `None`, line 32). -/
noncomputable def freshSite (A : ATensor B P 𝕜) : NumSite B P (B × B) 𝕜 :=
  { A := A, C := fun k => initialCorner A k.val, E := fun k => initialEdge A k.val }

end initial

end AceTN
