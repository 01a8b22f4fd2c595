import Verif.Model.Network

/-!
Intended behaviour of networks as objects, in terms of what a user reads through object `i` (`readSite w i s`) before
and after API calls.
-/

set_option autoImplicit false

namespace AceTN.Spec
variable {V : Type} (cast : DType → DType → V → V)

/-- C15, first half: an assignment through one network is invisible through any other. -/
def AssignIsolated : Prop :=
  ∀ (ops : List (NOp V)) (i j : ℕ) (s s' : Site) (st : SiteT V), i ≠ j →
    let w := runOps cast .empty ops
    i < w.tns.length → j < w.tns.length →
      readSite ((NOp.assign i s st).run cast w) j s' = readSite w j s'

/-- C15, second half: a network constructed with cell `nx × ny` raises `ValueError` for a site outside the cell,
unless that site was assigned. -/
def OutsideRaises : Prop :=
  ∀ (ops : List (NOp V)) (nx ny : ℕ) (dt : DType) (dv : Dev) (f : Site → V) (s : Site),
    (∀ i st, NOp.assign i s st ∉ ops) → ¬ (s.1 < nx ∧ s.2 < ny) →
      let w := runOps cast .empty ops
      readSite ((NOp.new nx ny dt dv f).run cast w) w.tns.length s = .error .valueError

/-- C16: assignments through the original are invisible through the copy, and vice versa. -/
def CopyIndependent : Prop :=
  ∀ (ops : List (NOp V)) (i : ℕ) (s s' : Site) (st : SiteT V),
    let w := runOps cast .empty ops
    i < w.tns.length →
      let w' := (NOp.copy i).run cast w
      readSite ((NOp.assign i s st).run cast w') w.tns.length s' = readSite w' w.tns.length s' ∧
      readSite ((NOp.assign w.tns.length s st).run cast w') i s' = readSite w' i s'

/-- C17: `to` does not touch the original. -/
def ToLeavesOriginal : Prop :=
  ∀ (ops : List (NOp V)) (i : ℕ) (dt : Option DType) (dv : Option Dev) (s : Site),
    let w := runOps cast .empty ops
    readSite ((NOp.to i dt dv).run cast w) i s = readSite w i s

/-- C17: `to` gives tensors on the requested device. -/
def ToHonoursDevice : Prop :=
  ∀ (ops : List (NOp V)) (i : ℕ) (dv : Dev) (s : Site) (st : SiteT V),
    let w := runOps cast .empty ops
    i < w.tns.length →
    readSite ((NOp.to i none (some dv)).run cast w) w.tns.length s = .ok st → st.t.device = dv

/-- C18: `save` does not change what can be read. -/
def SaveTransparent : Prop :=
  ∀ (ops : List (NOp V)) (i : ℕ) (file : String) (s : Site),
    let w := runOps cast .empty ops
    readSite ((NOp.save i file).run cast w) i s = readSite w i s

/-- C18: `save` does not change what a later `evolve` does. -/
def SaveKeepsStart : Prop :=
  ∀ (ops : List (NOp V)) (i : ℕ) (file : String) (f : Site → V) (g : Site → V → V) (s : Site),
    let w := runOps cast .empty ops
    readSite ((NOp.evolve i f g).run cast ((NOp.save i file).run cast w)) i s
      = readSite ((NOp.evolve i f g).run cast w) i s

/-- C19: whatever step of `save` is the last one performed, every site of the network reads as before. -/
def CrashSafe : Prop :=
  ∀ (ops : List (NOp V)) (i : ℕ) (t : Tn) (file : String) (k : ℕ) (s : Site),
    let w := runOps cast .empty ops
    w.tns[i]? = some t → readSite (saveUpTo cast k w i t file) i s = readSite w i s

/-- C20: a network constructed from another one starts its first evolution from the tensors it was given
(here with an evolution that changes nothing). -/
def GivenTensorsKept : Prop :=
  ∀ (ops : List (NOp V)) (i nx ny : ℕ) (dt : DType) (dv : Dev) (f : Site → V) (s : Site),
    let w := runOps cast .empty ops
    i < w.tns.length →
      let w' := (NOp.newFrom i nx ny dt dv).run cast w
      readSite ((NOp.evolve w.tns.length f (fun _ v => v)).run cast w') w.tns.length s
        = readSite w' w.tns.length s

/-- All constructions of the script use the cell `nx × ny`. -/
def OneCellSize (nx ny : ℕ) : NOp V → Prop
  | .new a b _ _ _ => a = nx ∧ b = ny
  | .newFrom _ a b _ _ => a = nx ∧ b = ny
  | _ => True

end AceTN.Spec
