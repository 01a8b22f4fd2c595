import Mathlib.Data.List.Range
import Mathlib.Data.List.Nodup
import Mathlib.Data.List.Count

/-!
Lattice bookkeeping: `acetn/ipeps/bond.py` and the list builders of `acetn/ipeps/tensor_network.py`.
-/

set_option autoImplicit false

namespace AceTN

/-- A site is a python tuple `(xi, yi)` of non-negative ints (tensor_network.py 189-192). -/
abbrev Site := ℕ × ℕ

/-- `Bond(s1, s2, k)`, a frozen (hence hashable, structurally compared) dataclass; bond.py 4-22.
`k`: 0 = left, 1 = up, 2 = right, 3 = down. -/
structure Bond where
  s1 : Site
  s2 : Site
  k : ℕ
  deriving DecidableEq, Repr

/-- `TensorNetwork.build_site_list`, tensor_network.py 179-193. `for xi … for yi … append((xi,yi))`. -/
def buildSiteList (nx ny : ℕ) : List Site :=
  (List.range nx).flatMap fun xi => (List.range ny).map fun yi => (xi, yi)

/-- The horizontal half of `TensorNetwork.build_bond_list`, tensor_network.py 163-169. -/
def horizontalBonds (nx ny : ℕ) : List Bond :=
  (List.range nx).flatMap fun xi => (List.range ny).map fun yi =>
    ⟨(xi, yi), ((xi + 1) % nx, yi), 2⟩

/-- The vertical half of `TensorNetwork.build_bond_list`, tensor_network.py 170-176
(`yi` is the outer loop here). -/
def verticalBonds (nx ny : ℕ) : List Bond :=
  (List.range ny).flatMap fun yi => (List.range nx).map fun xi =>
    ⟨(xi, yi), (xi, (yi + 1) % ny), 1⟩

/-- `TensorNetwork.build_bond_list`, tensor_network.py 153-177. -/
def buildBondList (nx ny : ℕ) : List Bond :=
  horizontalBonds nx ny ++ verticalBonds nx ny

end AceTN
