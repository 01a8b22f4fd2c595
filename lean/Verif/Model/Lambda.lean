import Verif.Model.Lattice
import Verif.Model.Py

/-!
Bookkeeping of the simple-update bond weights: `acetn/evolution/lambda_tensors.py`.
The weight vectors themselves are an arbitrary type `W` here.
-/

set_option autoImplicit false

namespace AceTN

/-- The two dictionaries of a `LambdaTensors` object; lambda_tensors.py 15-16. -/
structure LambdaTensors (W : Type) where
  data : PyDict Bond W
  siteBonds : PyDict Site (PyDict ℕ Bond)

namespace LambdaTensors
variable {W : Type}

/-- `self._site_bonds.setdefault(s, {})[d] = bond`, lambda_tensors.py 20-21. -/
def register (sb : PyDict Site (PyDict ℕ Bond)) (s : Site) (d : ℕ) (b : Bond) :
    PyDict Site (PyDict ℕ Bond) :=
  sb.set s (((sb.get? s).getD []).set d b)

/-- One iteration of the constructor loop, lambda_tensors.py 18-21. -/
def initStep (ones : W) (lt : LambdaTensors W) (b : Bond) : LambdaTensors W :=
  { data := lt.data.set b ones
    siteBonds := register (register lt.siteBonds b.s1 b.k b) b.s2 ((b.k + 2) % 4) b }

/-- `LambdaTensors.__init__`, lambda_tensors.py 14-21. -/
def init (bondList : List Bond) (ones : W) : LambdaTensors W :=
  bondList.foldl (initStep ones) ⟨[], []⟩

/-- `__setitem__`, lambda_tensors.py 26-27. -/
def setItem (lt : LambdaTensors W) (b : Bond) (w : W) : LambdaTensors W :=
  { lt with data := lt.data.set b w }

/-- `__getitem__`, lambda_tensors.py 23-24. -/
def getItem (lt : LambdaTensors W) (b : Bond) : Except PyErr W := lt.data.getItem b

/-- `get(site, direction)`, lambda_tensors.py 29-31: two nested dictionary look-ups, each of which
can raise `KeyError`. -/
def get (lt : LambdaTensors W) (s : Site) (d : ℕ) : Except PyErr W := do
  let ds ← lt.siteBonds.getItem s
  let b ← ds.getItem d
  lt.data.getItem b

end LambdaTensors
end AceTN
