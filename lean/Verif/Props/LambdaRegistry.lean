import Verif.Model.Lambda
import Verif.Props.Lattice

/-!
Property C03: bond weights are found from both ends of a bond, for any order of the bond list and any
history of assignments.
-/

set_option autoImplicit false

namespace AceTN
open Spec
namespace LambdaTensors
variable {W : Type}

/-- The bond registered for a side, as an option (helper). -/
def side (sb : PyDict Site (PyDict ℕ Bond)) (s : Site) (d : ℕ) : Option Bond :=
  (sb.get? s).bind fun ds => ds.get? d

theorem side_register (sb : PyDict Site (PyDict ℕ Bond)) (s s' : Site) (d d' : ℕ) (b : Bond) :
    side (register sb s d b) s' d' = if s = s' ∧ d = d' then some b else side sb s' d' := by
  unfold side register
  rw [PyDict.get?_set]
  by_cases hs : s = s'
  · subst hs
    simp only [if_true, Option.bind_some, true_and]
    rw [PyDict.get?_set]
    by_cases hd : d = d'
    · simp [hd]
    · simp only [hd, if_false]
      cases h : PyDict.get? sb s with
      | none => simp [PyDict.get?]
      | some ds => simp
  · simp [hs]

theorem opposite_eq {k : ℕ} (hk : k < 4) : (k + 2) % 4 = opposite k := by
  have : k = 0 ∨ k = 1 ∨ k = 2 ∨ k = 3 := by omega
  rcases this with rfl | rfl | rfl | rfl <;> rfl

theorem side_initStep (ones : W) (lt : LambdaTensors W) (b : Bond) (hb : b.k < 4) (s : Site) (d : ℕ) :
    side (initStep ones lt b).siteBonds s d = some b ∨
      (¬ HasEnd b s d ∧ side (initStep ones lt b).siteBonds s d = side lt.siteBonds s d) := by
  unfold initStep
  simp only [side_register, opposite_eq hb, HasEnd]
  by_cases h2 : b.s2 = s ∧ opposite b.k = d
  · left; simp [h2]
  · by_cases h1 : b.s1 = s ∧ b.k = d
    · left; simp [h1]
    · right
      exact ⟨by tauto, by simp [h1, h2]⟩

theorem side_initStep_of_not (ones : W) (lt : LambdaTensors W) (b : Bond) (hb : b.k < 4)
    (s : Site) (d : ℕ) (h : ¬ HasEnd b s d) :
    side (initStep ones lt b).siteBonds s d = side lt.siteBonds s d := by
  unfold initStep
  simp only [side_register, opposite_eq hb]
  rw [HasEnd] at h
  have h2 : ¬ (b.s2 = s ∧ opposite b.k = d) := fun hh => h (Or.inr hh)
  have h1 : ¬ (b.s1 = s ∧ b.k = d) := fun hh => h (Or.inl hh)
  simp [h1, h2]

theorem side_initStep_of (ones : W) (lt : LambdaTensors W) (b : Bond) (hb : b.k < 4)
    (s : Site) (d : ℕ) (h : HasEnd b s d) :
    side (initStep ones lt b).siteBonds s d = some b := by
  rcases side_initStep ones lt b hb s d with h' | ⟨h', _⟩
  · exact h'
  · exact absurd h h'

theorem side_foldl (ones : W) (L : List Bond) (hk : ∀ b ∈ L, b.k < 4) (lt : LambdaTensors W)
    (s : Site) (d : ℕ) (b : Bond) (hb : HasEnd b s d)
    (huniq : ∀ b' ∈ L, HasEnd b' s d → b' = b)
    (hin : b ∈ L ∨ side lt.siteBonds s d = some b) :
    side (L.foldl (initStep ones) lt).siteBonds s d = some b := by
  induction L generalizing lt with
  | nil =>
    rcases hin with h | h
    · simp at h
    · simpa using h
  | cons b₀ L ih =>
    rw [List.foldl_cons]
    have hk₀ : b₀.k < 4 := hk b₀ (by simp)
    apply ih (fun b' h' => hk b' (List.mem_cons_of_mem _ h'))
      (initStep ones lt b₀) (fun b' h' => huniq b' (List.mem_cons_of_mem _ h'))
    by_cases hE : HasEnd b₀ s d
    · right
      rw [side_initStep_of ones lt b₀ hk₀ s d hE, huniq b₀ (by simp) hE]
    · have hne : b ≠ b₀ := fun h => hE (h ▸ hb)
      rw [side_initStep_of_not ones lt b₀ hk₀ s d hE]
      rcases hin with h | h
      · left
        rcases List.mem_cons.1 h with h | h
        · exact absurd h hne
        · exact h
      · right; exact h

theorem data_foldl (ones : W) (L : List Bond) (lt : LambdaTensors W) (b : Bond)
    (h : b ∈ L ∨ lt.data.get? b = some ones) :
    (L.foldl (initStep ones) lt).data.get? b = some ones := by
  induction L generalizing lt with
  | nil => simpa using h
  | cons b₀ L ih =>
    rw [List.foldl_cons]
    apply ih
    by_cases hb : b = b₀
    · right; subst hb; simp [initStep, PyDict.get?_set_self]
    · rcases h with h | h
      · left; rcases List.mem_cons.1 h with h | h
        · exact absurd h hb
        · exact h
      · right
        rw [initStep, PyDict.get?_set_ne _ _ (Ne.symm hb)]
        exact h

/-- Specification: the weight a bond should have after a history of assignments — the last value
assigned to it, or the initial one. -/
def lastAssigned (ones : W) (ws : List (Bond × W)) (b : Bond) : W :=
  ws.foldl (fun w p => if p.1 = b then p.2 else w) ones

theorem data_setItems (ws : List (Bond × W)) (lt : LambdaTensors W) (b : Bond) (w : W)
    (h : lt.data.get? b = some w) :
    (ws.foldl (fun l p => setItem l p.1 p.2) lt).data.get? b
      = some (ws.foldl (fun w p => if p.1 = b then p.2 else w) w) := by
  induction ws generalizing lt w with
  | nil => simpa using h
  | cons p ws ih =>
    rw [List.foldl_cons, List.foldl_cons]
    apply ih
    rw [setItem, PyDict.get?_set]
    by_cases hp : p.1 = b
    · simp [hp]
    · simp [hp, h]

theorem siteBonds_setItems (ws : List (Bond × W)) (lt : LambdaTensors W) :
    (ws.foldl (fun l p => setItem l p.1 p.2) lt).siteBonds = lt.siteBonds := by
  induction ws generalizing lt with
  | nil => rfl
  | cons p ws ih => rw [List.foldl_cons, ih]; rfl

end LambdaTensors

open LambdaTensors in
/-- **C03 (weights).** Build the weights from the bond list in any order (`L` is any permutation of
it), then assign weights to bonds any number of times.  Looking up the weight of a side `(s, d)` of any
site succeeds and returns the weight last assigned to the one bond that has `(s, d)` as an end. -/
theorem C03_weight_lookup {W : Type} (nx ny : ℕ) (L : List Bond) (hL : L.Perm (buildBondList nx ny))
    (ones : W) (ws : List (Bond × W)) (s : Site) (hs : InCell nx ny s) (d : ℕ) (hd : d < 4)
    (b : Bond) (hb : b ∈ buildBondList nx ny) (hE : HasEnd b s d) :
    (ws.foldl (fun l p => l.setItem p.1 p.2) (LambdaTensors.init L ones)).get s d
      = .ok (lastAssigned ones ws b) := by
  have hk : ∀ b ∈ L, b.k < 4 := by
    intro b' hb'
    have := (mem_buildBondList.1 (hL.subset hb')).2
    omega
  have huniq : ∀ b' ∈ L, HasEnd b' s d → b' = b := fun b' hb' hE' =>
    (C03_unique_bond_per_side nx ny s hs d hd).unique ⟨hL.subset hb', hE'⟩ ⟨hb, hE⟩
  have hside : side (LambdaTensors.init L ones).siteBonds s d = some b :=
    side_foldl ones L hk ⟨[], []⟩ s d b hE huniq (Or.inl (hL.symm.subset hb))
  have hdata : (LambdaTensors.init L ones).data.get? b = some ones :=
    data_foldl ones L ⟨[], []⟩ b (Or.inl (hL.symm.subset hb))
  unfold LambdaTensors.get
  rw [siteBonds_setItems]
  unfold side at hside
  cases h1 : PyDict.get? (LambdaTensors.init L ones).siteBonds s with
  | none => rw [h1] at hside; simp at hside
  | some ds =>
    rw [h1] at hside
    simp only [Option.bind_some] at hside
    simp only [PyDict.getItem, h1, hside, bind, Except.bind]
    rw [data_setItems ws _ b ones hdata]
    rfl

open LambdaTensors in
/-- **C03 (both ends).** The weight seen from the first site of a bond and the weight seen from the
second site are the same, and are the weight stored for the bond. -/
theorem C03_both_ends {W : Type} (nx ny : ℕ) (L : List Bond) (hL : L.Perm (buildBondList nx ny))
    (ones : W) (ws : List (Bond × W)) (b : Bond) (hb : b ∈ buildBondList nx ny) :
    let lt := ws.foldl (fun l p => l.setItem p.1 p.2) (LambdaTensors.init L ones)
    lt.get b.s1 b.k = lt.getItem b ∧ lt.get b.s2 (opposite b.k) = lt.getItem b ∧
      lt.getItem b = .ok (lastAssigned ones ws b) := by
  intro lt
  obtain ⟨h1, h2⟩ := C02_bond_ends_in_cell nx ny b hb
  rw [mem_buildSiteList] at h1 h2
  have hk : b.k < 4 := by have := (mem_buildBondList.1 hb).2; omega
  have hk' : opposite b.k < 4 := by rw [← opposite_eq hk]; omega
  have hdata : (LambdaTensors.init L ones).data.get? b = some ones :=
    data_foldl ones L ⟨[], []⟩ b (Or.inl (hL.symm.subset hb))
  have hget : lt.getItem b = .ok (lastAssigned ones ws b) := by
    show PyDict.getItem lt.data b = _
    rw [PyDict.getItem, data_setItems ws _ b ones hdata]; rfl
  rw [hget]
  exact ⟨C03_weight_lookup nx ny L hL ones ws b.s1 h1 b.k hk b hb (Or.inl ⟨rfl, rfl⟩),
    C03_weight_lookup nx ny L hL ones ws b.s2 h2 _ hk' b hb (Or.inr ⟨rfl, rfl⟩), rfl⟩

/-- Non-vacuity: the reversed bond list of a 2 × 2 cell, one assignment, looked up from both ends. -/
example :
    let b : Bond := ⟨(1,0),(0,0),2⟩
    let lt := (LambdaTensors.init (buildBondList 2 2).reverse (1 : ℕ)).setItem b 7
    (lt.get (1,0) 2).toOption = some 7 ∧ (lt.get (0,0) 0).toOption = some 7 ∧
      (lt.get (0,0) 2).toOption = some 1 := by decide

end AceTN
