import Verif.Model.MeasurePrint

/-!
How the tables printed by `measure` are read.
-/

set_option autoImplicit false

namespace AceTN.Meas.Spec

/-- The heading of the column of an observable: its name, padded with blanks or cut to ten characters. -/
def columnTitle (name : String) : Text := (name.toList ++ List.replicate 10 ' ').take 10

/-- The cells of a line are separated by tabs. -/
def cells (line : Text) : List Text := line.splitOn '\t'

/-- The cell of a line under a heading. -/
def cellUnder (header line title : Text) : Option Text := ((cells header).zip (cells line)).lookup title

/-- The line of headings and the `n` lines below it, in the table with a given first line. -/
def findTable (title : Text) (n : ℕ) (out : List Text) : Option (Text × List Text) :=
  match out.dropWhile (· ≠ title) with
  | _ :: header :: rest => some (header, rest.take n)
  | _ => none

/-- Texts of sites and numbers contain no tab. -/
structure Plain (f : Format) : Prop where
  site : ∀ s, '\t' ∉ f.site s
  value : ∀ v, '\t' ∉ f.value v

/-- The output has a table with the given first line and one line for each place, which begins with the sites of the
place; the values of the observables of a place are in the columns with their names. -/
def ShowsTable {S O : Type} (f : Format) (title : Text) (at_ : S → List Site) (places : List S) (obs : S → PyDict String O)
    (value : S → O → ℝ) (out : List Text) : Prop :=
  ∃ header rows, findTable title places.length out = some (header, rows) ∧
    List.Forall₂ (fun s row => (at_ s).map f.site <+: cells row ∧ ∀ name op, (name, op) ∈ obs s →
      cellUnder header row (columnTitle name) = some (f.value (value s op))) places rows

/-- The observables have the same names in the same order at all places, and the headings distinguish them. -/
structure Consistent {S O : Type} (places : List S) (first : S) (obs : S → PyDict String O) : Prop where
  order : ∀ s ∈ places, (obs s).keys = (obs first).keys
  nodup : (obs first).keys.Nodup
  titles : ∀ n ∈ (obs first).keys, ∀ n' ∈ (obs first).keys, columnTitle n = columnTitle n' → n = n'
  tabs : ∀ n ∈ (obs first).keys, '\t' ∉ n.toList.take 10

/-- What users expect of the printed tables: observables with names that do not depend on the place are found under
their names. -/
def TablesReadable : Prop :=
  ∀ (O₁ O₂ : Type) (f : Format), Plain f → ∀ (model : MeasModel O₁ O₂) (v1 : Site → O₁ → ℝ) (v2 : Bond → O₂ → ℝ)
    (sites : List Site) (bonds : List Bond) (ave : PyDict String ℝ) (out : List Text),
    (∀ s, (model.one_site_observables s).keys.Nodup) → (∀ b, (model.two_site_observables b).keys.Nodup) →
    (∀ s n, n ∈ (model.one_site_observables s).keys ↔ n ∈ (model.one_site_observables (0, 0)).keys) →
    measurePrint f model v1 v2 sites bonds = .ok (ave, out) →
    (model.one_site_observables (0, 0)).keys ≠ [] →
    ShowsTable f "Calculated one-site measurements:".toList (fun s => [s]) sites model.one_site_observables v1 out

/-- The same for observables that are also in the same order on all sites. -/
def OrderedTablesReadable : Prop :=
  ∀ (O₁ O₂ : Type) (f : Format), Plain f → ∀ (model : MeasModel O₁ O₂) (v1 : Site → O₁ → ℝ) (v2 : Bond → O₂ → ℝ)
    (sites : List Site) (bonds : List Bond) (ave : PyDict String ℝ) (out : List Text),
    (∀ s, (model.one_site_observables s).keys.Nodup) → (∀ b, (model.two_site_observables b).keys.Nodup) →
    (∀ s, (model.one_site_observables s).keys = (model.one_site_observables (0, 0)).keys) →
    measurePrint f model v1 v2 sites bonds = .ok (ave, out) →
    (model.one_site_observables (0, 0)).keys ≠ [] →
    ShowsTable f "Calculated one-site measurements:".toList (fun s => [s]) sites model.one_site_observables v1 out

end AceTN.Meas.Spec
