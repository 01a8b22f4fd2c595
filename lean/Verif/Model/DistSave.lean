import Verif.Model.Py
import Mathlib.Data.List.Basic

/-!
`TensorNetwork.save`, `acetn/ipeps/tensor_network.py` 94-109, and the `load` in it, 111-122, called by the processes of a
distributed run.  All processes run the same program, nothing in `save` depends on the rank, and there is no
synchronisation in it: each process opens the file, writes its state, closes the file and reads it again, interleaved with
the others in any way.
-/

set_option autoImplicit false

namespace AceTN.DistSave

/-- How far a rank has come in `save`.
* `start`: before `torch.save` opens the file, line 108;
* `writing k`: the file is open and `k` bytes have been written;
* `reading`: the file is closed, `self.load` (line 109) comes next;
* `done out`: `save` has returned (`out` is the state now in the live network) or raised. -/
inductive Phase (S : Type)
  | start
  | writing (k : ℕ)
  | reading
  | done (out : Except PyErr S)

/-- The contents of the files and the progress of the ranks. -/
structure World (S : Type) where
  files : ℕ → List ℕ
  phase : ℕ → Phase S

/-- Write the byte `b` at offset `i`; a gap behind the end of the file is filled with zeros (POSIX). -/
def writeAt (f : List ℕ) (i b : ℕ) : List ℕ :=
  if i < f.length then f.set i b else f ++ List.replicate (i - f.length) 0 ++ [b]

section
variable {S : Type} (ser : S → List ℕ) (deser : List ℕ → Except PyErr S) (fname : ℕ → ℕ) (s : ℕ → S)

/-- One system call of rank `r`, whose network is `s r` and whose file has the name `fname r`.  `ser` is what `torch.save`
writes (one byte at a time: writing in larger pieces gives fewer interleavings), `deser` what `torch.load` makes of the
contents of a file.  It is read at once; reading in pieces adds interleavings, in which the theorems that exclude errors
still hold, since there the file is complete and no longer changes from the closing of a rank on.  Opening a file for
writing empties it. -/
def step (w : World S) (r : ℕ) : World S :=
  match w.phase r with
  | .start => ⟨Function.update w.files (fname r) [], Function.update w.phase r (.writing 0)⟩
  | .writing k =>
    match (ser (s r))[k]? with
    | some b => ⟨Function.update w.files (fname r) (writeAt (w.files (fname r)) k b),
        Function.update w.phase r (.writing (k + 1))⟩
    | none => ⟨w.files, Function.update w.phase r .reading⟩
  | .reading => ⟨w.files, Function.update w.phase r (.done (deser (w.files (fname r))))⟩
  | .done _ => w

/-- The ranks take turns as in `sched`. -/
def run (w : World S) (sched : List ℕ) : World S := sched.foldl (step ser deser fname s) w

/-- Before the call: any files, and no rank has begun. -/
def before (files : ℕ → List ℕ) : World S := ⟨files, fun _ => .start⟩

end

end AceTN.DistSave
