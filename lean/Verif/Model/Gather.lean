import Verif.Model.ProcessGroup
import Mathlib.Data.List.Range

/-!
The exchange of projectors between the ranks: `all_gather_tensor`, `acetn/utils/distributed.py` 85-108, and its use in
the distributed moves, `acetn/renormalization/directional_mover.py` 205-212 and 250-257, with the devices the tensors
are on.  `Model/Dist.lean` has the values only.

SPMD in lockstep as there: `t r` is the tensor of rank `r`.  All ranks run on one machine (a rank is the index of its
GPU, distributed.py 62-64).
-/

set_option autoImplicit false

namespace AceTN.PG
open Cfg (Device Val)

/-- Where the memory of a tensor is. -/
inductive Place
  | cpu
  | cuda (i : ℕ)
  deriving DecidableEq, Repr

/-- A tensor with its device and shape. -/
structure DevT (V : Type) where
  place : Place
  shape : List ℕ
  data : V

/-- The backend of the process group. -/
inductive Backend
  | nccl
  | gloo
  deriving DecidableEq, Repr

/-- Line 58; `torch.cuda.is_available()` is "some GPU is there". -/
def backendOf (cudaCount : ℕ) : Backend := if 0 < cudaCount then .nccl else .gloo

/-- The device on which the tensors of an `Ipeps` with device `d` are created: an integer is a GPU, the bare `cuda` is the
current GPU. -/
def placeOf (g : Group) : Val → Place
  | .int i => .cuda i.toNat
  | .device d => if d.type = "cpu" then .cpu else .cuda (d.index.getD g.cuda)
  | _ => .cpu

variable {V : Type}

/-- `t.to(rank)`: an integer names a GPU; torch raises if there is no such GPU. -/
def toRank (cudaCount rank : ℕ) (t : DevT V) : Except PyErr (DevT V) :=
  if rank < cudaCount then .ok { t with place := .cuda rank } else .error .runtimeError

/-- The tensors a backend can gather (torch, assumed): nccl needs every rank's tensor on a GPU and no two ranks on the
same one; gloo needs tensors in main memory, all of one shape. -/
def Backend.serves (b : Backend) (ws : ℕ) (t : ℕ → DevT V) : Prop :=
  match b with
  | .nccl => ∃ gpu : ℕ → ℕ, (∀ r < ws, (t r).place = .cuda (gpu r)) ∧ ∀ r < ws, ∀ r' < ws, gpu r = gpu r' → r = r'
  | .gloo => ∀ r < ws, (t r).place = .cpu ∧ (t r).shape = (t 0).shape

open Classical in
/-- `dist.all_gather(bufs, t)` on all ranks (torch, assumed): a rank's buffers must be on the device of its tensor, and as
many and as large as the tensors that are sent.  Then buffer `i` of every rank has the tensor of rank `i`. -/
noncomputable def collGather (b : Backend) (ws : ℕ) (bufs : ℕ → List (Place × List ℕ)) (t : ℕ → DevT V) :
    Except PyErr (ℕ → List (DevT V)) :=
  if b.serves ws t ∧ ∀ r < ws, bufs r = (List.range ws).map (fun i => ((t r).place, (t i).shape)) then
    .ok fun r => (List.range ws).map fun i => ⟨(t r).place, (t i).shape, (t i).data⟩
  else .error .runtimeError

/-- Something done by each of the ranks; an exception on one of them is the outcome. -/
def eachRank {α : Type} (dflt : α) (f : ℕ → Except PyErr α) : ℕ → Except PyErr (ℕ → α)
  | 0 => .ok fun _ => dflt
  | r + 1 => do
    let xs ← eachRank dflt f r
    let x ← f r
    return Function.update xs r x

/-- `all_gather_tensor(tensor, rank, ws)` on all ranks, distributed.py 85-108. -/
noncomputable def allGatherTensor (cudaCount ws : ℕ) (t : ℕ → DevT V) : Except PyErr (ℕ → List (DevT V)) := do
  -- lines 98-100: the shapes, received in buffers of four numbers
  let shapes ← collGather (backendOf cudaCount) ws (fun r => List.replicate ws ((t r).place, [4]))
    (fun r => (⟨(t r).place, [(t r).shape.length], (t r).shape⟩ : DevT (List ℕ)))
  -- lines 102-106
  let bufs ← eachRank [] (fun rank => (shapes rank).mapM fun s => do
    let s ← toRank cudaCount rank s
    return ((t rank).place, s.data)) ws
  -- line 107
  collGather (backendOf cudaCount) ws bufs t

/-- The exchange in a pass of a distributed move, directional_mover.py 205-212 and 250-257: both projectors are gathered,
and those of the first `2 * (ws // 2)` ranks are taken to the rank's GPU. -/
noncomputable def exchange (cudaCount ws : ℕ) (p1 p2 : ℕ → DevT V) : Except PyErr (ℕ → List (DevT V × DevT V)) := do
  let all1 ← allGatherTensor cudaCount ws p1
  let all2 ← allGatherTensor cudaCount ws p2
  eachRank [] (fun rank => (((all1 rank).zip (all2 rank)).take (2 * (ws / 2))).mapM fun p => do
    let a ← toRank cudaCount rank p.1
    let b ← toRank cudaCount rank p.2
    return (a, b)) ws

end AceTN.PG
