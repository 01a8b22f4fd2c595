import Verif.Model.Lattice
import Verif.Model.Py
import Mathlib.Data.Rat.Defs
import Mathlib.Algebra.BigOperators.Group.List.Basic
import Mathlib.Algebra.Field.Rat

/-!
Run-time bookkeeping: `acetn/evolution/evolve.py` 33-55 and the return values of the two `bond_update` methods.  Times
are rational numbers; what a phase really took (measured by `record_runtime`, `acetn/utils/benchmarking.py` 7-42) is a
parameter.
-/

set_option autoImplicit false

namespace AceTN.Tm

/-- What one bond update really spends in its two phases. -/
structure Spent where
  tensor : ℚ
  boundary : ℚ

/-- `FastFullUpdater.bond_update`, fast_full_update.py 48-69, on rank 0: `return ctm_time, upd_time`, where `upd_time` is
the time `update` took (49) and `ctm_time` the time `absorb_bond` took (64-67). -/
def fullReturn (s : Spent) : ℚ × ℚ := (s.boundary, s.tensor)

/-- `SimpleUpdater.bond_update`, simple_update.py 75-76: `return 0, upd_time`. -/
def simpleReturn (s : Spent) : ℚ × ℚ := (0, s.tensor)

/-- The accumulators and the lines logged so far: iteration, "full update", "ctm update". -/
structure Acc where
  upd : ℚ := 0
  ctm : ℚ := 0
  log : List (ℕ × ℚ × ℚ) := []

/-- `for bond in ipeps.bond_list: …; upd_time += runtimes[0]; ctm_time += runtimes[1]`, evolve.py 40-43. -/
def pass (ret : Bond → ℚ × ℚ) (bl : List Bond) (a : Acc) : Acc :=
  bl.foldl (fun a b => { a with upd := a.upd + (ret b).1, ctm := a.ctm + (ret b).2 }) a

/-- Iteration `i`, evolve.py 40-55, in debug mode or not; returns the reversed bond list as well. -/
def iteration (debug : Bool) (ret : ℕ → Bond → ℚ × ℚ) (i : ℕ) (st : List Bond × Acc) : List Bond × Acc :=
  let a := pass (ret i) st.1 st.2
  let bl := st.1.reverse
  if debug && decide (i % 10 = 0) then
    let ctm := a.ctm / bl.length
    let upd := a.upd / bl.length
    (bl, { upd := 0, ctm := 0, log := a.log ++ [(i, upd / 10, ctm / 10)] })
  else (bl, a)

/-- The step loop, evolve.py 34-55: `for i in range(1, steps+1)`. -/
def loop (debug : Bool) (ret : ℕ → Bond → ℚ × ℚ) (steps : ℕ) (bl : List Bond) : List Bond × Acc :=
  (List.range' 1 steps).foldl (fun st i => iteration debug ret i st) (bl, {})

end AceTN.Tm
