import Verif.Model.Mover
import Verif.Spec.Plaquette
import Verif.Lemmas.SumTac
import Verif.Lemmas.Lattice
import Verif.Props.MoveExact

/-!
Property C65: the projectors of a move are computed from the environment of the 2 × 2 block around the cut.
-/

set_option autoImplicit false

namespace AceTN

open Matrix Spec SumTac

section quarters

variable {𝕜 : Type} [RCLike 𝕜] {B P X : Type} [Fintype B] [Fintype P] [Fintype X]

/-- The part of a 2 × 2 block at position `j` (clockwise from the upper left), with the boundary tensors of the site. -/
def Spec.blockPart (s : NumSite B P X 𝕜) : Fin 4 → X → B → B → X → B → B → 𝕜
  | 0 => upperLeft (s.C 0) (s.E 3) (s.E 0) s.A
  | 1 => upperRight (s.C 1) (s.E 0) (s.E 1) s.A
  | 2 => lowerRight (s.C 2) (s.E 1) (s.E 2) s.A
  | 3 => lowerLeft (s.C 3) (s.E 2) (s.E 3) s.A

/-- The part at position `j` as a matrix from the bond to the next part clockwise to the bond to the previous one. -/
def Spec.partMatrix (s : NumSite B P X 𝕜) : Fin 4 → Matrix (X × B × B) (X × B × B) 𝕜
  | 0 => of fun i j => blockPart s 0 i.1 i.2.1 i.2.2 j.1 j.2.1 j.2.2
  | 1 => of fun i j => blockPart s 1 j.1 j.2.1 j.2.2 i.1 i.2.1 i.2.2
  | 2 => of fun i j => blockPart s 2 i.1 i.2.1 i.2.2 j.1 j.2.1 j.2.2
  | 3 => of fun i j => blockPart s 3 j.1 j.2.1 j.2.2 i.1 i.2.1 i.2.2

theorem quarterCore_part (s : NumSite B P X 𝕜) (k : Fin 4) :
    quarterCore (s.C (rotIdx k.val 0)) (s.E (rotIdx k.val 3)) (s.E (rotIdx k.val 0)) (bondPermute k.val s.A) =
      partMatrix s k := by
  ext ⟨x, t, t'⟩ ⟨y, m, m'⟩
  match k with
  | 0 =>
    show quarterCore (s.C 0) (s.E 3) (s.E 0) (fun l u r d p => s.A l u r d p) (x, t, t') (y, m, m') =
      upperLeft (s.C 0) (s.E 3) (s.E 0) s.A x t t' y m m'
    unfold quarterCore upperLeft
    dsimp only [of_apply]
    einsum_ring
  | 1 =>
    show quarterCore (s.C 1) (s.E 0) (s.E 1) (fun l u r d p => s.A d l u r p) (x, t, t') (y, m, m') =
      upperRight (s.C 1) (s.E 0) (s.E 1) s.A y m m' x t t'
    unfold quarterCore upperRight
    dsimp only [of_apply]
    einsum_ring
  | 2 =>
    show quarterCore (s.C 2) (s.E 1) (s.E 2) (fun l u r d p => s.A r d l u p) (x, t, t') (y, m, m') =
      lowerRight (s.C 2) (s.E 1) (s.E 2) s.A x t t' y m m'
    unfold quarterCore lowerRight
    dsimp only [of_apply]
    einsum_ring
  | 3 =>
    show quarterCore (s.C 3) (s.E 2) (s.E 3) (fun l u r d p => s.A u r d l p) (x, t, t') (y, m, m') =
      lowerLeft (s.C 3) (s.E 2) (s.E 3) s.A y m m' x t t'
    unfold quarterCore lowerLeft
    dsimp only [of_apply]
    einsum_ring

/-- **C65** (quarter tensors).  The quarter tensor of a site in direction `k` is, up to a positive factor, the part at
position `k` of a 2 × 2 block: the corner, the two edges and both layers of the site contracted along every common leg. -/
theorem C65_quarter (s : NumSite B P X 𝕜) (k : Fin 4) (h : partMatrix s k ≠ 0) :
    ∃ c : ℝ, 0 < c ∧ makeQuarter s k.val = (c : 𝕜) • partMatrix s k := by
  refine ⟨(maxAbs (partMatrix s k))⁻¹, inv_pos.2 (maxAbs_pos _ h), ?_⟩
  unfold makeQuarter maxNormalise
  rw [quarterCore_part]

theorem makeQuarter_mod (s : NumSite B P X 𝕜) (a b : ℤ) (h : a % 4 = b % 4) : makeQuarter s a = makeQuarter s b := by
  unfold makeQuarter
  rw [rotIdx_mod a b h, bondPermute_mod a b h]

theorem trace_parts (s : Fin 4 → NumSite B P X 𝕜) :
    trace (partMatrix (s 1) 1 * partMatrix (s 0) 0 * (partMatrix (s 3) 3 * partMatrix (s 2) 2)) =
      plaquette (blockPart (s 0) 0) (blockPart (s 1) 1) (blockPart (s 2) 2) (blockPart (s 3) 3) := by
  unfold plaquette
  generalize hu : blockPart (s 0) 0 = ul
  generalize hr : blockPart (s 1) 1 = ur
  generalize hl : blockPart (s 2) 2 = lr
  generalize hd : blockPart (s 3) 3 = ll
  simp only [trace, diag_apply, mul_apply, partMatrix, of_apply, hu, hr, hl, hd, Fintype.sum_prod_type]
  einsum_ring

/-- **C65** (the block).  The four quarter tensors of a projector computation in direction `k`, multiplied in the order
of the code and closed, are the norm of the 2 × 2 block, up to a positive factor. -/
theorem C65_block (s : Fin 4 → NumSite B P X 𝕜) (h : ∀ j, partMatrix (s j) j ≠ 0) (k : Fin 4) :
    ∃ c : ℝ, 0 < c ∧ trace (makeQuarter (s (k + 1)) (k.val + 1) * makeQuarter (s k) k.val *
      (makeQuarter (s (k + 3)) (k.val + 3) * makeQuarter (s (k + 2)) (k.val + 2))) =
      (c : 𝕜) * plaquette (blockPart (s 0) 0) (blockPart (s 1) 1) (blockPart (s 2) 2) (blockPart (s 3) 3) := by
  choose c hc hq using fun j : Fin 4 => C65_quarter (s j) j (h j)
  have hq' : ∀ (j : Fin 4) (a : ℤ), a % 4 = (j.val : ℤ) % 4 → makeQuarter (s j) a = (c j : 𝕜) • partMatrix (s j) j :=
    fun j a ha => (makeQuarter_mod _ _ _ ha).trans (hq j)
  refine ⟨c 1 * c 0 * (c 3 * c 2), mul_pos (mul_pos (hc _) (hc _)) (mul_pos (hc _) (hc _)), ?_⟩
  rw [← trace_parts]
  generalize hp : (fun j => partMatrix (s j) j) = p at hq'
  have hp' : ∀ j, partMatrix (s j) j = p j := fun j => congrFun hp j
  simp only [hp'] at hq' ⊢
  match k with
  | 0 =>
    rw [hq' (0 + 1) (((0 : Fin 4).val : ℤ) + 1) rfl, hq' 0 (((0 : Fin 4).val : ℤ)) rfl, hq' (0 + 3) (((0 : Fin 4).val : ℤ) + 3) rfl,
      hq' (0 + 2) (((0 : Fin 4).val : ℤ) + 2) rfl]
    show trace ((c 1 : 𝕜) • p 1 * (c 0 : 𝕜) • p 0 * ((c 3 : 𝕜) • p 3 * (c 2 : 𝕜) • p 2)) = _
    simp only [smul_mul_assoc, mul_smul_comm, trace_smul, smul_eq_mul]
    push_cast
    ring
  | 1 =>
    rw [hq' (1 + 1) (((1 : Fin 4).val : ℤ) + 1) rfl, hq' 1 (((1 : Fin 4).val : ℤ)) rfl, hq' (1 + 3) (((1 : Fin 4).val : ℤ) + 3) rfl,
      hq' (1 + 2) (((1 : Fin 4).val : ℤ) + 2) rfl]
    show trace ((c 2 : 𝕜) • p 2 * (c 1 : 𝕜) • p 1 * ((c 0 : 𝕜) • p 0 * (c 3 : 𝕜) • p 3)) = _
    have hcyc : trace (p 2 * p 1 * (p 0 * p 3)) = trace (p 1 * p 0 * (p 3 * p 2)) := by
      rw [Matrix.mul_assoc, trace_mul_comm]
      simp only [Matrix.mul_assoc]
    simp only [smul_mul_assoc, mul_smul_comm, trace_smul, smul_eq_mul, hcyc]
    push_cast
    ring
  | 2 =>
    rw [hq' (2 + 1) (((2 : Fin 4).val : ℤ) + 1) rfl, hq' 2 (((2 : Fin 4).val : ℤ)) rfl, hq' (2 + 3) (((2 : Fin 4).val : ℤ) + 3) rfl,
      hq' (2 + 2) (((2 : Fin 4).val : ℤ) + 2) rfl]
    show trace ((c 3 : 𝕜) • p 3 * (c 2 : 𝕜) • p 2 * ((c 1 : 𝕜) • p 1 * (c 0 : 𝕜) • p 0)) = _
    have hcyc : trace (p 3 * p 2 * (p 1 * p 0)) = trace (p 1 * p 0 * (p 3 * p 2)) := trace_mul_comm _ _
    simp only [smul_mul_assoc, mul_smul_comm, trace_smul, smul_eq_mul, hcyc]
    push_cast
    ring
  | 3 =>
    rw [hq' (3 + 1) (((3 : Fin 4).val : ℤ) + 1) rfl, hq' 3 (((3 : Fin 4).val : ℤ)) rfl, hq' (3 + 3) (((3 : Fin 4).val : ℤ) + 3) rfl,
      hq' (3 + 2) (((3 : Fin 4).val : ℤ) + 2) rfl]
    show trace ((c 0 : 𝕜) • p 0 * (c 3 : 𝕜) • p 3 * ((c 2 : 𝕜) • p 2 * (c 1 : 𝕜) • p 1)) = _
    have hcyc : trace (p 0 * p 3 * (p 2 * p 1)) = trace (p 1 * p 0 * (p 3 * p 2)) := by
      rw [← Matrix.mul_assoc, trace_mul_comm]
      simp only [Matrix.mul_assoc]
    simp only [smul_mul_assoc, mul_smul_comm, trace_smul, smul_eq_mul, hcyc]
    push_cast
    ring

/-- The hypotheses of `C65_block` are met by the plain sites, whose parts are identity matrices. -/
example (j : Fin 4) : partMatrix (plainSite (𝕜 := 𝕜)) j ≠ 0 := by
  intro h
  have h1 := makeQuarter_plainSite (𝕜 := 𝕜) j.val
  unfold makeQuarter at h1
  rw [quarterCore_part, h] at h1
  have h2 : maxNormalise (0 : Matrix (Fin 2 × Unit × Unit) (Fin 2 × Unit × Unit) 𝕜) = 0 := by simp [maxNormalise]
  exact zero_ne_one (h2.symm.trans h1)

end quarters

section sites

variable {T : Type}

/-- **C65** (site selection).  The projectors a move in direction `k` computes at a site of the absorbed line come from the
2 × 2 block that has this site at position `k`: the quarter tensor in direction `k + j` is that of the site at position
`k + j` of the block. -/
theorem C65_sites (o : Ops T) (net : Net T) (x y : ℕ) (hx : x < net.nx) (hy : y < net.ny) :
    (∃ b, InCell net.nx net.ny b ∧ blockSite net.nx net.ny b 0 = (x, y) ∧ calcLeft o .full net x y =
      o.full (0, (x, y)) net.chi (quarterTensor o net (blockSite net.nx net.ny b 0) 0)
        (quarterTensor o net (blockSite net.nx net.ny b 1) 1) (quarterTensor o net (blockSite net.nx net.ny b 2) 2)
        (quarterTensor o net (blockSite net.nx net.ny b 3) 3) ∧
      calcLeft o .half net x y = o.half (0, (x, y)) net.chi (quarterTensor o net (blockSite net.nx net.ny b 0) 0)
        (quarterTensor o net (blockSite net.nx net.ny b 3) 3)) ∧
    (∃ b, InCell net.nx net.ny b ∧ blockSite net.nx net.ny b 1 = (x, y) ∧ calcUp o .full net x y =
      o.full (1, (x, y)) net.chi (quarterTensor o net (blockSite net.nx net.ny b 1) 1)
        (quarterTensor o net (blockSite net.nx net.ny b 2) 2) (quarterTensor o net (blockSite net.nx net.ny b 3) 3)
        (quarterTensor o net (blockSite net.nx net.ny b 0) 4) ∧
      calcUp o .half net x y = o.half (1, (x, y)) net.chi (quarterTensor o net (blockSite net.nx net.ny b 1) 1)
        (quarterTensor o net (blockSite net.nx net.ny b 0) 4)) ∧
    (∃ b, InCell net.nx net.ny b ∧ blockSite net.nx net.ny b 2 = (x, y) ∧ calcRight o .full net x y =
      o.full (2, (x, y)) net.chi (quarterTensor o net (blockSite net.nx net.ny b 2) 2)
        (quarterTensor o net (blockSite net.nx net.ny b 3) 3) (quarterTensor o net (blockSite net.nx net.ny b 0) 4)
        (quarterTensor o net (blockSite net.nx net.ny b 1) 5) ∧
      calcRight o .half net x y = o.half (2, (x, y)) net.chi (quarterTensor o net (blockSite net.nx net.ny b 2) 2)
        (quarterTensor o net (blockSite net.nx net.ny b 1) 5)) ∧
    (∃ b, InCell net.nx net.ny b ∧ blockSite net.nx net.ny b 3 = (x, y) ∧ calcDown o .full net x y =
      o.full (3, (x, y)) net.chi (quarterTensor o net (blockSite net.nx net.ny b 3) 3)
        (quarterTensor o net (blockSite net.nx net.ny b 0) 4) (quarterTensor o net (blockSite net.nx net.ny b 1) 5)
        (quarterTensor o net (blockSite net.nx net.ny b 2) 6) ∧
      calcDown o .half net x y = o.half (3, (x, y)) net.chi (quarterTensor o net (blockSite net.nx net.ny b 3) 3)
        (quarterTensor o net (blockSite net.nx net.ny b 2) 6)) := by
  have hx0 : 0 < net.nx := by omega
  have hy0 : 0 < net.ny := by omega
  have ex : ((x + net.nx - 1) % net.nx + 1) % net.nx = x := pred_succ_mod hx
  have ey : ((y + net.ny - 1) % net.ny + 1) % net.ny = y := pred_succ_mod hy
  refine ⟨⟨(x, (y + net.ny - 1) % net.ny), ⟨hx, Nat.mod_lt _ hy0⟩, ?_, ?_, ?_⟩,
    ⟨((x + net.nx - 1) % net.nx, (y + net.ny - 1) % net.ny), ⟨Nat.mod_lt _ hx0, Nat.mod_lt _ hy0⟩, ?_, ?_, ?_⟩,
    ⟨((x + net.nx - 1) % net.nx, y), ⟨Nat.mod_lt _ hx0, hy⟩, ?_, ?_, ?_⟩, ⟨(x, y), ⟨hx, hy⟩, ?_, ?_, ?_⟩⟩ <;>
  simp only [blockSite, neighbour, int_mod_toNat_succ, ex, ey, calcLeft, calcUp, calcRight, calcDown, calcProjectors]

end sites

end AceTN
