import Verif.Model.SiteTensor

/-! Vocabulary for C21: programs that work on other objects. -/

set_option autoImplicit false

namespace AceTN.ST

section
variable {V : Type} {cast : DType → DType → V → V}

/-- No dangling references. -/
def WF (m : Mem V) : Prop := ∀ o ∈ m.objs, ∀ k, ∀ a ∈ o.refs k, a < m.next

/-- A step of a program that works on objects other than `j`, using tensors the program made itself after time
`start` (addresses from `start` on) or obtained from an object other than `j`. -/
def Elsewhere (m : Mem V) (j : ℕ) (start : ℕ) : Op V → Prop
  | .alloc _ => True
  | .set i _ vals => i ≠ j ∧ ∀ v ∈ vals, v < m.next
  | .elem i _ _ a => i ≠ j ∧ start ≤ a ∧ a < m.next
  | .inplace a _ => (∃ i o k, i ≠ j ∧ m.objs[i]? = some o ∧ a ∈ o.refs k) ∨ (start ≤ a ∧ a < m.next)
  | .copy _ => True
  | .to _ _ _ => True

/-- All steps of the program are `Elsewhere` in the state they are executed in. -/
def ElsewhereAll (cast : DType → DType → V → V) (j : ℕ) (start : ℕ) : Mem V → List (Op V) → Prop
  | _, [] => True
  | m, op :: ops => Elsewhere m j start op ∧ ElsewhereAll cast j start ((op.run cast m).toOption.getD m) ops

end
end AceTN.ST
