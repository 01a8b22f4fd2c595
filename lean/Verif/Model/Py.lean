import Mathlib.Data.List.Basic

/-!
The fragment of python used by the control-flow models: exceptions as values and dictionaries.
-/

set_option autoImplicit false

namespace AceTN

/-- Python exceptions that the modelled code can raise. -/
inductive PyErr
  | keyError
  | valueError
  | typeError
  | attributeError
  | indexError
  | unboundLocalError
  | runtimeError
  | notImplementedError
  | fileNotFound
  | interrupted
  deriving DecidableEq, Repr

/-- A python dictionary as an insertion-ordered association list (keys are compared with `==`,
here decidable equality). -/
abbrev PyDict (κ ν : Type*) := List (κ × ν)

namespace PyDict
variable {κ ν : Type*} [DecidableEq κ]

/-- `d.get(k)`: the value stored under `k`, if any. -/
def get? (d : PyDict κ ν) (k : κ) : Option ν :=
  match d with
  | [] => none
  | (k', v) :: d => if k' = k then some v else get? d k

/-- `d[k] = v`: an existing key keeps its position, a new key is appended. -/
def set (d : PyDict κ ν) (k : κ) (v : ν) : PyDict κ ν :=
  match d with
  | [] => [(k, v)]
  | (k', v') :: d => if k' = k then (k', v) :: d else (k', v') :: set d k v

/-- `d[k]` as an expression: `KeyError` when the key is missing. -/
def getItem (d : PyDict κ ν) (k : κ) : Except PyErr ν :=
  match get? d k with
  | some v => .ok v
  | none => .error .keyError

/-- `list(d.keys())`. -/
def keys (d : PyDict κ ν) : List κ := d.map Prod.fst

theorem get?_set_self (d : PyDict κ ν) (k : κ) (v : ν) : get? (set d k v) k = some v := by
  induction d with
  | nil => simp [set, get?]
  | cons p d ih =>
    obtain ⟨k', v'⟩ := p
    by_cases h : k' = k
    · simp [set, get?, h]
    · simp [set, get?, h, ih]

theorem get?_set_ne (d : PyDict κ ν) {k k' : κ} (v : ν) (h : k ≠ k') :
    get? (set d k v) k' = get? d k' := by
  induction d with
  | nil => simp [set, get?, h]
  | cons p d ih =>
    obtain ⟨k₀, v₀⟩ := p
    by_cases h₀ : k₀ = k
    · subst h₀
      simp [set, get?, h]
    · by_cases h₁ : k₀ = k'
      · subst h₁; simp [set, get?, h₀]
      · simp [set, get?, h₀, h₁, ih]

theorem get?_set (d : PyDict κ ν) (k k' : κ) (v : ν) :
    get? (set d k v) k' = if k = k' then some v else get? d k' := by
  by_cases h : k = k'
  · subst h; simp [get?_set_self]
  · simp [get?_set_ne d v h, h]

theorem mem_keys_set (d : PyDict κ ν) (k k' : κ) (v : ν) :
    k' ∈ keys (set d k v) ↔ k' = k ∨ k' ∈ keys d := by
  induction d with
  | nil => simp [set, keys]
  | cons p d ih =>
    obtain ⟨k₀, v₀⟩ := p
    by_cases h₀ : k₀ = k
    · subst h₀
      simp [set, keys]
    · simp only [set, h₀, if_false]
      simp only [keys, List.map_cons, List.mem_cons] at ih ⊢
      rw [ih]; tauto

theorem get?_isSome_iff (d : PyDict κ ν) (k : κ) : (get? d k).isSome ↔ k ∈ keys d := by
  induction d with
  | nil => simp [get?, keys]
  | cons p d ih =>
    obtain ⟨k₀, v₀⟩ := p
    by_cases h₀ : k₀ = k
    · subst h₀; simp [get?, keys]
    · have : k ≠ k₀ := fun h => h₀ h.symm
      simp only [get?, h₀, if_false, ih, keys, List.map_cons, List.mem_cons, this, false_or]

end PyDict
end AceTN
