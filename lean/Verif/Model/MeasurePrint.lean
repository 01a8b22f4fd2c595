import Verif.Model.Measure

/-!
The text printed by `measure`, `acetn/measurement/measure.py`.  A text is a list of characters, the output a list of the
texts passed to `tqdm.write`.  Output of a call that raises is not modelled.
-/

set_option autoImplicit false

namespace AceTN.Meas

abbrev Text := List Char

/-- How python turns sites and numbers into text: `f"{site}"`, `f"{value.item():.8f}"` and `f"{value}"`. -/
structure Format where
  site : Site → Text
  value : ℝ → Text
  average : ℝ → Text

/-- `key[:10].ljust(10)`, measure.py 130 and 160. -/
def heading (key : String) : Text :=
  let t := key.toList.take 10
  t ++ List.replicate (10 - t.length) ' '

/-- `measurement_str` after the loop, measure.py 83-88 and 104-110: every value is appended after a tab. -/
noncomputable def rowText (f : Format) (label : Text) (values : List ℝ) : Text :=
  values.foldl (fun str v => str ++ ('\t' :: f.value v)) label

/-- `measure_site_observables`, measure.py 71-89, and `measure_bond_observables`, 92-111. -/
noncomputable def printAll {O : Type} (f : Format) (label : Text) (value : O → ℝ) (obs : PyDict String O) (ave : PyDict String ℝ) :
    Except PyErr (PyDict String ℝ × Text) := do
  let ave ← addAll value obs ave
  return (ave, rowText f label (obs.map fun p => value p.2))

/-- `calculate_one_site_measurements`, measure.py 114-141, and `calculate_two_site_measurements`, 144-170, with the
printed lines.  `title` is the first line, `corner` the beginning of the line of headings. -/
noncomputable def calculatePrint {S O : Type} (f : Format) (title corner : Text) (label : S → Text) (places : List S) (first : S)
    (obs : S → PyDict String O) (energy : S → ℝ) (value : S → O → ℝ) (ave : PyDict String ℝ) :
    Except PyErr (PyDict String ℝ × List Text) := do
  let keys := (obs first).keys
  let out := if keys ≠ [] then [title, corner ++ ['\t'].intercalate (keys.map heading)] else []
  let ave := zeroKeys keys ave
  let (ave, out) ← places.foldlM (fun (ave, out) s => do
    let ave ← addTo ave "Energy" (energy s)
    if keys ≠ [] then
      let (ave, row) ← printAll f (label s) (value s) (obs s) ave
      return (ave, out ++ [row])
    else return (ave, out)) (ave, out)
  let ave ← divKeys keys places.length ave
  return (ave, out)

variable {O₁ O₂ : Type}

/-- `measure`, measure.py 5-28, with the printed lines. -/
noncomputable def measurePrint (f : Format) (model : MeasModel O₁ O₂) (v1 : Site → O₁ → ℝ) (v2 : Bond → O₂ → ℝ)
    (site_list : List Site) (bond_list : List Bond) : Except PyErr (PyDict String ℝ × List Text) := do
  let ave : PyDict String ℝ := [("Energy", 0)]
  let (ave, out1) ← calculatePrint f "Calculated one-site measurements:".toList "site\t".toList f.site site_list (0, 0)
    model.one_site_observables (fun s => match model.one_site_hamiltonian s with | some h => v1 s h | none => 0) v1 ave
  let first ← match bond_list.head? with | some b => Except.ok b | none => .error .indexError
  let (ave, out2) ← calculatePrint f "Calculated two-site measurements:".toList "site 1\tsite 2\t".toList
    (fun b => f.site b.s1 ++ '\t' :: f.site b.s2) bond_list first
    model.two_site_observables (fun b => v2 b (model.two_site_hamiltonian b)) v2 ave
  let e ← ave.getItem "Energy"
  let ave := ave.set "Energy" (e / site_list.length)
  return (ave, out1 ++ out2 ++ ["Measurement averages:".toList,
    ['\n'].intercalate (ave.map fun p => p.1.toList ++ ": ".toList ++ f.average p.2)])

end AceTN.Meas
