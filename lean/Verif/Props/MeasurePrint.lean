import Verif.Spec.MeasurePrint
import Verif.Props.MeasureAverages

/-!
# C80: The printed tables show every value under its name
-/

set_option autoImplicit false

namespace AceTN.Meas

open _root_.AceTN.Meas.Spec

theorem columnTitle_eq (name : String) : columnTitle name = heading name := by
  unfold columnTitle heading
  rw [List.take_append, List.take_replicate]
  congr 2
  simp
  omega

theorem rowText_cells (f : Format) (hv : ∀ v, '\t' ∉ f.value v) (vs : List ℝ) : ∀ label : Text,
    cells (rowText f label vs) = cells label ++ vs.map f.value := by
  induction vs with
  | nil => intro label; simp [rowText]
  | cons v vs ih =>
    intro label
    have h := ih (label ++ ('\t' :: f.value v))
    unfold rowText at h ⊢
    rw [List.foldl_cons, h]
    unfold cells
    rw [List.splitOn_append_cons_self, List.splitOn_eq_singleton (hv v)]
    simp

/-- The line of headings. -/
def headerText (corner : Text) (keys : List String) : Text := corner ++ ['\t'].intercalate (keys.map heading)

section lines

variable {S O : Type} (f : Format) (title corner : Text) (label : S → Text) (places : List S) (first : S)
  (obs : S → PyDict String O) (energy : S → ℝ) (value : S → O → ℝ)

/-- The lines a call prints. -/
noncomputable def tableLines : List Text :=
  if (obs first).keys ≠ [] then
    title :: headerText corner (obs first).keys :: places.map fun s => rowText f (label s) ((obs s).map fun p => value s p.2)
  else []

theorem calculatePrint_eq (ave : PyDict String ℝ) :
    calculatePrint f title corner label places first obs energy value ave =
      (calculate places first obs energy value ave).map fun a => (a, tableLines f title corner label places first obs value) := by
  unfold calculatePrint calculate tableLines
  have key : ∀ (ps : List S) (a : PyDict String ℝ) (out : List Text),
      ps.foldlM (fun (x : PyDict String ℝ × List Text) s => (do
        let ave ← addTo x.1 "Energy" (energy s)
        if (obs first).keys ≠ [] then
          let (ave, row) ← printAll f (label s) (value s) (obs s) ave
          return (ave, x.2 ++ [row])
        else return (ave, x.2) : Except PyErr (PyDict String ℝ × List Text))) (a, out) =
      (ps.foldlM (fun ave s => (do
        let ave ← addTo ave "Energy" (energy s)
        if (obs first).keys ≠ [] then addAll (value s) (obs s) ave else return ave : Except PyErr (PyDict String ℝ))) a).map
          fun a => (a, out ++ if (obs first).keys ≠ [] then ps.map fun s => rowText f (label s) ((obs s).map fun p => value s p.2) else []) := by
    intro ps
    induction ps with
    | nil => intro a out; simp [Except.map, pure, Except.pure]
    | cons s ps ih =>
      intro a out
      rw [List.foldlM_cons, List.foldlM_cons]
      cases h1 : addTo a "Energy" (energy s) with
      | error e => simp [bind, Except.bind, Except.map]
      | ok a1 =>
        by_cases hk : (obs first).keys ≠ []
        · simp only [hk, if_true, printAll, ne_eq, not_false_eq_true]
          cases h2 : addAll (value s) (obs s) a1 with
          | error e => simp [bind, Except.bind, Except.map, h2]
          | ok a2 =>
            have := ih a2 (out ++ [rowText f (label s) ((obs s).map fun p => value s p.2)])
            simp only [hk, if_true, printAll, ne_eq, not_false_eq_true] at this
            simp only [bind, Except.bind, pure, Except.pure, h2] at this ⊢
            rw [this]
            simp
        · have := ih a1 out
          simp only [hk, if_false] at this ⊢
          simp only [bind, Except.bind, pure, Except.pure] at this ⊢
          rw [this]
  have := key places (zeroKeys (obs first).keys ave)
    (if (obs first).keys ≠ [] then [title, corner ++ ['\t'].intercalate ((obs first).keys.map heading)] else [])
  simp only [bind, Except.bind] at this ⊢
  rw [this]
  generalize (List.foldlM _ (zeroKeys (obs first).keys ave) places : Except PyErr (PyDict String ℝ)) = r
  cases r with
  | error e => simp [Except.map]
  | ok a1 =>
    simp only [Except.map]
    cases h2 : divKeys (obs first).keys places.length a1 with
    | error e => rfl
    | ok a2 =>
      by_cases hk : (obs first).keys ≠ []
      · simp [hk, pure, Except.pure, headerText]
      · simp [hk, pure, Except.pure]

end lines

section whole

variable {O₁ O₂ : Type} (f : Format) (model : MeasModel O₁ O₂) (v1 : Site → O₁ → ℝ) (v2 : Bond → O₂ → ℝ)
  (sites : List Site)

/-- The two lines with the averages. -/
noncomputable def averageLines (ave : PyDict String ℝ) : List Text :=
  ["Measurement averages:".toList, ['\n'].intercalate (ave.map fun p => p.1.toList ++ ": ".toList ++ f.average p.2)]

/-- The table of the sites. -/
noncomputable def siteLines : List Text :=
  tableLines f "Calculated one-site measurements:".toList "site\t".toList f.site sites (0, 0) model.one_site_observables v1

/-- The table of the bonds. -/
noncomputable def bondLines (b : Bond) (bonds : List Bond) : List Text :=
  tableLines f "Calculated two-site measurements:".toList "site 1\tsite 2\t".toList (fun b => f.site b.s1 ++ '\t' :: f.site b.s2)
    (b :: bonds) b model.two_site_observables v2

theorem measurePrint_nil : measurePrint f model v1 v2 sites [] = (measure model v1 v2 sites []).map fun a => (a, []) := by
  unfold measurePrint measure
  simp only [calculatePrint_eq, bind, Except.bind]
  generalize calculate sites (0, 0) model.one_site_observables _ v1 _ = r
  cases r <;> rfl

theorem measurePrint_cons (b : Bond) (bonds : List Bond) : measurePrint f model v1 v2 sites (b :: bonds) =
    (measure model v1 v2 sites (b :: bonds)).map fun a => (a, siteLines f model v1 sites ++ bondLines f model v2 b bonds ++ averageLines f a) := by
  unfold measurePrint measure
  simp only [calculatePrint_eq, bind, Except.bind, List.head?_cons]
  generalize calculate sites (0, 0) model.one_site_observables _ v1 _ = r
  cases r with
  | error e => rfl
  | ok a =>
    simp only [Except.map]
    generalize calculate (b :: bonds) b model.two_site_observables _ v2 _ = r
    cases r with
    | error e => rfl
    | ok a =>
      simp only
      generalize PyDict.getItem a "Energy" = r
      cases r with
      | error e => rfl
      | ok e => rfl

/-- **C80 (printing changes nothing).** `measure` returns the averages of C48, or raises, whatever is printed. -/
theorem C80_refines (bonds : List Bond) : (measurePrint f model v1 v2 sites bonds).map Prod.fst = measure model v1 v2 sites bonds := by
  cases bonds with
  | nil => rw [measurePrint_nil]; cases measure model v1 v2 sites [] <;> rfl
  | cons b bonds => rw [measurePrint_cons]; cases measure model v1 v2 sites (b :: bonds) <;> rfl

end whole

/-! ### Reading the tables -/

theorem lookup_zip {O : Type} (g : O → Text) (d : List (String × O)) (name : String) (op : O) (hm : (name, op) ∈ d)
    (hn : (d.map Prod.fst).Nodup) (ht : ∀ n ∈ d.map Prod.fst, columnTitle n = columnTitle name → n = name) :
    ((d.map fun p => heading p.1).zip (d.map fun p => g p.2)).lookup (columnTitle name) = some (g op) := by
  induction d with
  | nil => simp at hm
  | cons p d ih =>
    obtain ⟨n, o⟩ := p
    simp only [List.map_cons, List.zip_cons_cons, List.lookup_cons]
    by_cases h : n = name
    · subst h
      rw [columnTitle_eq, beq_self_eq_true]
      rcases List.mem_cons.1 hm with h | h
      · rw [(Prod.mk.inj h).2]
      · exact absurd (List.mem_map.2 ⟨_, h, rfl⟩) (List.nodup_cons.1 hn).1
    · have hne : (columnTitle name == heading n) = false := by
        rw [beq_eq_false_iff_ne, ← columnTitle_eq]
        exact fun h' => h (ht n (by simp) h'.symm)
      rw [hne]
      refine ih ((List.mem_cons.1 hm).resolve_left fun h' => h (Prod.mk.inj h').1.symm) (List.nodup_cons.1 hn).2
        fun m hm' => ht m (by simp only [List.map_cons, List.mem_cons]; exact Or.inr hm')

theorem lookup_append_of_not_mem {A B : List (Text × Text)} {t : Text} (h : ∀ p ∈ A, p.1 ≠ t) : (A ++ B).lookup t = B.lookup t := by
  induction A with
  | nil => rfl
  | cons p A ih =>
    rw [List.cons_append, List.lookup_cons, beq_eq_false_iff_ne.2 (h p (by simp)).symm]
    exact ih fun q hq => h q (by simp [hq])

theorem columnTitle_length (n : String) : (columnTitle n).length = 10 := by
  unfold columnTitle
  rw [List.length_take, List.length_append, List.length_replicate]
  omega

/-- A row of a table, read. -/
theorem cellUnder_row {O : Type} (f : Format) (hv : ∀ v, '\t' ∉ f.value v) (d0 d : PyDict String O) (hne : d ≠ []) (hk : d0.keys = d.keys)
    (g : O → ℝ) (corner : List Text) (hc : ∀ c ∈ corner, '\t' ∉ c ∧ c.length ≠ 10) (label : Text) (hl : (cells label).length = corner.length)
    (hn : d.keys.Nodup) (htab : ∀ n ∈ d.keys, '\t' ∉ n.toList.take 10) (name : String) (op : O) (hm : (name, op) ∈ d)
    (ht : ∀ n ∈ d.keys, columnTitle n = columnTitle name → n = name) (cs : Text) (hcs : cs = corner.flatMap fun c => c ++ ['\t']) :
    cellUnder (headerText cs d0.keys) (rowText f label (d.map fun p => g p.2)) (columnTitle name) = some (f.value (g op)) := by
  have h1 : cells (headerText cs d0.keys) = corner ++ d.keys.map heading := by
    have : ∀ (corner : List Text), (∀ c ∈ corner, '\t' ∉ c ∧ c.length ≠ 10) → ∀ t : Text,
        cells ((corner.flatMap fun c => c ++ ['\t']) ++ t) = corner ++ cells t := by
      intro corner
      induction corner with
      | nil => intro _ t; rfl
      | cons c cs ih =>
        intro hc t
        rw [List.flatMap_cons, List.append_assoc, List.append_assoc, List.singleton_append]
        unfold cells at ih ⊢
        rw [List.splitOn_append_cons_self, List.splitOn_eq_singleton (hc c (by simp)).1, ih (fun c' h' => hc c' (by simp [h']))]
        rfl
    unfold headerText
    rw [hcs, this corner hc, hk]
    congr 1
    unfold cells
    refine List.splitOn_intercalate _ ?_ ?_
    · intro l hl
      obtain ⟨n, hn', rfl⟩ := List.mem_map.1 hl
      unfold heading
      simp only [List.mem_append, List.mem_replicate, not_or]
      exact ⟨htab n hn', fun h => absurd h.2 (by decide)⟩
    · intro h
      rw [List.map_eq_nil_iff] at h
      unfold PyDict.keys at h
      rw [List.map_eq_nil_iff] at h
      exact hne h
  unfold cellUnder
  rw [h1, rowText_cells f hv, List.zip_append hl.symm, lookup_append_of_not_mem, List.map_map]
  · have := lookup_zip (fun o => f.value (g o)) d name op hm hn ht
    rw [← this]
    unfold PyDict.keys
    rw [List.map_map]
    rfl
  · intro p hp h
    have := (hc p.1 (List.of_mem_zip hp).1).2
    rw [h, columnTitle_length] at this
    exact this rfl

section table

variable {S O : Type} (f : Format) (hf : Plain f) (title : Text) (corner : List Text) (at_ : S → List Site) (label : S → Text)
  (places : List S) (first : S) (obs : S → PyDict String O) (value : S → O → ℝ)
  (hcorner : ∀ c ∈ corner, '\t' ∉ c ∧ c.length ≠ 10) (hlabel : ∀ s, cells (label s) = (at_ s).map f.site)
  (hat : ∀ s, (at_ s).length = corner.length) (hc : Consistent places first obs) (hne : (obs first).keys ≠ [])

include hf hcorner hlabel hat hc hne in
theorem tableLines_shows (pre post : List Text) (hpre : ∀ l ∈ pre, l ≠ title) :
    ShowsTable f title at_ places obs value
      (pre ++ tableLines f title (corner.flatMap fun c => c ++ ['\t']) label places first obs value ++ post) := by
  refine ⟨headerText (corner.flatMap fun c => c ++ ['\t']) (obs first).keys,
    places.map fun s => rowText f (label s) ((obs s).map fun p => value s p.2), ?_, ?_⟩
  · unfold findTable tableLines
    rw [if_pos hne, List.append_assoc, List.dropWhile_append_of_pos (fun l hl => by simpa using hpre l hl)]
    simp
  · rw [List.forall₂_map_right_iff]
    refine List.forall₂_same.2 fun s hs => ⟨?_, fun name op hm => ?_⟩
    · rw [rowText_cells f hf.value, hlabel]
      exact List.prefix_append _ _
    · have hk := hc.order s hs
      refine cellUnder_row f hf.value _ _ ?_ hk.symm (value s) corner hcorner (label s) ?_ ?_ ?_ name op hm ?_ _ rfl
      · intro h; rw [h] at hm; simp at hm
      · rw [hlabel, List.length_map, hat]
      · rw [hk]; exact hc.nodup
      · rw [hk]; exact hc.tabs
      · rw [hk]
        exact fun n hn => hc.titles n hn name (by rw [← hk]; exact List.mem_map.2 ⟨_, hm, rfl⟩)

omit hcorner hlabel hat in
/-- Lines of a table other than its first have tabs. -/
theorem tableLines_tab (hcr : corner ≠ []) (l : Text) (hord : ∀ s ∈ places, (obs s).keys = (obs first).keys)
    (hl : l ∈ tableLines f title (corner.flatMap fun c => c ++ ['\t']) label places first obs value) :
    l = title ∨ '\t' ∈ l := by
  unfold tableLines at hl
  split_ifs at hl with hne
  · rcases List.mem_cons.1 hl with h | h
    · exact Or.inl h
    right
    rcases List.mem_cons.1 h with h | h
    · rw [h]
      obtain ⟨c, cs, rfl⟩ := List.exists_cons_of_ne_nil hcr
      simp [headerText]
    · obtain ⟨s, hs, rfl⟩ := List.mem_map.1 h
      have hne' : obs s ≠ [] := by
        intro h0
        have := hord s hs
        rw [h0] at this
        exact hne this.symm
      obtain ⟨p, ps, hp⟩ := List.exists_cons_of_ne_nil hne'
      rw [hp]
      have key : ∀ (vs : List ℝ) (t : Text), '\t' ∈ t → '\t' ∈ rowText f t vs := by
        intro vs
        induction vs with
        | nil => intro t h; exact h
        | cons v vs ih => intro t h; exact ih _ (by simp)
      exact key (ps.map fun p => value s p.2) (label s ++ ('\t' :: f.value (value s p.2))) (by simp)
  · simp at hl

end table

section whole

variable {O₁ O₂ : Type} (f : Format) (hf : Plain f) (model : MeasModel O₁ O₂) (v1 : Site → O₁ → ℝ) (v2 : Bond → O₂ → ℝ)
  (sites : List Site) (bonds : List Bond) (ave : PyDict String ℝ) (out : List Text)
  (h : measurePrint f model v1 v2 sites bonds = .ok (ave, out))

include h

theorem output_eq : ∃ b bs, bonds = b :: bs ∧ out = siteLines f model v1 sites ++ bondLines f model v2 b bs ++ averageLines f ave := by
  cases bonds with
  | nil =>
    rw [measurePrint_nil] at h
    unfold measure at h
    simp only [bind, Except.bind] at h
    generalize calculate sites (0, 0) model.one_site_observables _ v1 _ = r at h
    cases r <;> simp [Except.map] at h
  | cons b bs =>
    rw [measurePrint_cons] at h
    cases hm : measure model v1 v2 sites (b :: bs) with
    | error e => rw [hm] at h; simp [Except.map] at h
    | ok a =>
      rw [hm] at h
      simp only [Except.map, Except.ok.injEq, Prod.mk.injEq] at h
      exact ⟨b, bs, rfl, by rw [← h.2, h.1]⟩

include hf

/-- **C80 (table of the sites), partial.** If the observables have the same names in the same order on all sites and no two
of them agree in the first ten characters, the value of every observable on every site is printed in the line of the site
and the column with its name.  In general this is false (`C80_violated_order`, `C80_violated_long_names`). -/
theorem C80_sites_partial (hc : Consistent sites (0, 0) model.one_site_observables)
    (hne : (model.one_site_observables (0, 0)).keys ≠ []) :
    ShowsTable f "Calculated one-site measurements:".toList (fun s => [s]) sites model.one_site_observables v1 out := by
  obtain ⟨b, bs, -, rfl⟩ := output_eq f model v1 v2 sites bonds ave out h
  have := tableLines_shows f hf "Calculated one-site measurements:".toList ["site".toList] (fun s => [s]) f.site sites (0, 0)
    model.one_site_observables v1 (by decide) (fun s => List.splitOn_eq_singleton (hf.site s)) (fun _ => rfl) hc hne []
    (bondLines f model v2 b bs ++ averageLines f ave) (by simp)
  rw [List.nil_append] at this
  rw [List.append_assoc]
  exact this

/-- **C80 (table of the bonds), partial.** The same for the bonds. -/
theorem C80_bonds_partial (first : Bond) (hb : bonds.head? = some first) (hs : ∀ s ∈ sites,
      (model.one_site_observables s).keys = (model.one_site_observables (0, 0)).keys)
    (hc : Consistent bonds first model.two_site_observables) (hne : (model.two_site_observables first).keys ≠ []) :
    ShowsTable f "Calculated two-site measurements:".toList (fun b => [b.s1, b.s2]) bonds model.two_site_observables v2 out := by
  obtain ⟨b, bs, rfl, rfl⟩ := output_eq f model v1 v2 sites bonds ave out h
  obtain rfl : b = first := by simpa using hb
  refine tableLines_shows f hf "Calculated two-site measurements:".toList ["site 1".toList, "site 2".toList] (fun b => [b.s1, b.s2])
    (fun b => f.site b.s1 ++ '\t' :: f.site b.s2) (b :: bs) b
    model.two_site_observables v2 (by decide) (fun b => ?_) (fun _ => rfl) hc hne (siteLines f model v1 sites)
    (averageLines f ave) fun l hl => ?_
  · unfold cells
    rw [List.splitOn_append_cons_self, List.splitOn_eq_singleton (hf.site _), List.splitOn_eq_singleton (hf.site _)]
    rfl
  · rcases tableLines_tab f "Calculated one-site measurements:".toList ["site".toList] f.site sites (0, 0) _ v1 (by simp) l hs hl with h | h
    · rw [h]; decide
    · intro h'
      rw [h'] at h
      exact absurd h (by decide)

omit hf in
/-- **C80 (averages).** The last two lines show the returned averages, in the order of the returned dictionary. -/
theorem C80_averages : ["Measurement averages:".toList,
    ['\n'].intercalate (ave.map fun p => p.1.toList ++ ": ".toList ++ f.average p.2)] <:+ out := by
  obtain ⟨b, bs, -, rfl⟩ := output_eq f model v1 v2 sites bonds ave out h
  exact List.suffix_append _ _

end whole

/-! ### Where it fails -/

open Classical in
/-- A format that tells zero from other numbers. -/
noncomputable def zeroFormat : Format := ⟨fun _ => [], fun v => if v = 0 then ['0'] else ['1'], fun _ => []⟩

theorem zeroFormat_plain : Plain zeroFormat := by
  refine ⟨fun _ => by simp [zeroFormat], fun v => ?_⟩
  unfold zeroFormat
  simp only
  split_ifs <;> decide

/-- The table of a run whose one-site observables are numbers. -/
theorem shows_inv {O : Type} (f : Format) (title header : Text) (places : List Site) (obs : Site → PyDict String O) (value : Site → O → ℝ)
    (rows post : List Text) (hl : rows.length = places.length) (h : ShowsTable f title (fun s => [s]) places obs value (title :: header :: rows ++ post)) :
    List.Forall₂ (fun s row => ∀ name op, (name, op) ∈ obs s →
      cellUnder header row (columnTitle name) = some (f.value (value s op))) places rows := by
  obtain ⟨h', r', h1, h2⟩ := h
  unfold findTable at h1
  rw [List.cons_append, List.cons_append, List.dropWhile_cons_of_neg (by simp)] at h1
  simp only [Option.some.injEq, Prod.mk.injEq] at h1
  obtain ⟨rfl, rfl⟩ := h1
  rw [List.take_append_of_le_length hl.ge, List.take_of_length_le hl.le] at h2
  exact h2.imp fun _ _ h => h.2

/-- A model with one-site observables that are numbers and none on bonds. -/
def numberModel (obs : Site → PyDict String ℝ) : MeasModel ℝ Unit :=
  { one_site_observables := obs, two_site_observables := fun _ => [], one_site_hamiltonian := fun _ => none
    two_site_hamiltonian := fun _ => () }

theorem numberModel_prints (obs : Site → PyDict String ℝ) (sites : List Site) (hn : ∀ s, (obs s).keys.Nodup)
    (hk : ∀ s n, n ∈ (obs s).keys ↔ n ∈ (obs (0, 0)).keys) (he : "Energy" ∉ (obs (0, 0)).keys) (hne : (obs (0, 0)).keys ≠ []) :
    ∃ ave post, measurePrint zeroFormat (numberModel obs) (fun _ v => v) (fun _ _ => 0) sites [⟨(0, 0), (0, 0), 0⟩] =
      .ok (ave, "Calculated one-site measurements:".toList :: headerText "site\t".toList (obs (0, 0)).keys ::
        (sites.map fun s => rowText zeroFormat [] ((obs s).map Prod.snd)) ++ post) := by
  obtain ⟨d, hd, -⟩ := C48_partial (numberModel obs) (fun _ v => v) (fun _ _ => 0) sites [⟨(0, 0), (0, 0), 0⟩] (by simp)
    ⟨hn, fun _ => by simp [numberModel, PyDict.keys], fun s _ n => hk s n, fun _ _ _ _ _ => Iff.rfl, he,
      fun _ _ => by simp [numberModel, PyDict.keys], fun _ _ _ _ => by simp [numberModel, PyDict.keys]⟩
  refine ⟨d, averageLines zeroFormat d, ?_⟩
  rw [measurePrint_cons, hd]
  have h1 : (numberModel obs).one_site_observables = obs := rfl
  have h2 : bondLines zeroFormat (numberModel obs) (fun _ _ => 0) ⟨(0, 0), (0, 0), 0⟩ [] = [] := by
    simp [bondLines, tableLines, numberModel, PyDict.keys]
  rw [h2, List.append_nil]
  unfold siteLines tableLines
  rw [h1, if_pos hne]
  rfl

/-- **C80 is violated** for observables that are not in the same order on all sites: the headings are those of the site
`(0, 0)`, so that the values of the site `(1, 0)` are printed under the wrong names. -/
theorem C80_violated_order : ¬ TablesReadable := by
  intro h
  let obs : Site → PyDict String ℝ := fun s => if s = (0, 0) then [("a", 0), ("b", 1)] else [("b", 1), ("a", 0)]
  have hn : ∀ s, (obs s).keys.Nodup := by
    intro s
    by_cases hs : s = (0, 0) <;> simp [obs, hs, PyDict.keys]
  have hk : ∀ s n, n ∈ (obs s).keys ↔ n ∈ (obs (0, 0)).keys := by
    intro s n
    by_cases hs : s = (0, 0)
    · rw [hs]
    · simp [obs, hs, PyDict.keys, or_comm]
  have h0 : (obs (0, 0)).keys = ["a", "b"] := by simp [obs, PyDict.keys]
  obtain ⟨ave, post, hm⟩ := numberModel_prints obs [(1, 0)] hn hk (by rw [h0]; decide) (by rw [h0]; decide)
  have hs := shows_inv _ _ _ _ _ _ _ _ rfl (h ℝ Unit zeroFormat zeroFormat_plain (numberModel obs) (fun _ v => v) (fun _ _ => 0) _ _ _ _ hn
    (fun _ => by simp [numberModel, PyDict.keys]) hk hm (by rw [show (numberModel obs).one_site_observables = obs from rfl, h0]; decide))
  obtain ⟨h1, -⟩ := List.forall₂_cons.1 hs
  have h2 := h1 "a" 0 (by simp [numberModel, obs])
  have h3 : rowText zeroFormat [] ((obs (1, 0)).map Prod.snd) = ['\t', '1', '\t', '0'] := by
    simp [rowText, obs, zeroFormat]
  beta_reduce at h2
  rw [h3, h0] at h2
  simp only [zeroFormat, if_true] at h2
  revert h2
  decide

/-- **C80 is violated** for names that agree in their first ten characters: their columns have the same heading. -/
theorem C80_violated_long_names : ¬ OrderedTablesReadable := by
  intro h
  let obs : Site → PyDict String ℝ := fun _ => [("magnetization_x", 0), ("magnetization_z", 1)]
  have h0 : ∀ s, (obs s).keys = ["magnetization_x", "magnetization_z"] := fun _ => rfl
  have hn : ∀ s, (obs s).keys.Nodup := by
    intro s
    rw [h0 s]
    decide
  obtain ⟨ave, post, hm⟩ := numberModel_prints obs [(0, 0)] hn (fun _ _ => Iff.rfl) (by rw [h0 (0, 0)]; decide) (by rw [h0 (0, 0)]; decide)
  have hs := shows_inv _ _ _ _ _ _ _ _ rfl (h ℝ Unit zeroFormat zeroFormat_plain (numberModel obs) (fun _ v => v) (fun _ _ => 0) _ _ _ _ hn
    (fun _ => by simp [numberModel, PyDict.keys]) (fun _ => rfl) hm (by rw [show (numberModel obs).one_site_observables = obs from rfl, h0 (0, 0)]; decide))
  obtain ⟨h1, -⟩ := List.forall₂_cons.1 hs
  have h2 := h1 "magnetization_z" 1 (by simp [numberModel, obs])
  have h3 : rowText zeroFormat [] ((obs (0, 0)).map Prod.snd) = ['\t', '0', '\t', '1'] := by
    simp [rowText, obs, zeroFormat]
  beta_reduce at h2
  rw [h3, h0 (0, 0)] at h2
  simp only [zeroFormat, one_ne_zero, if_false] at h2
  revert h2
  decide

/-- The hypotheses of the tables are met by the Ising model: `sx` and `sz` on every site. -/
example (sites : List Site) : Consistent sites (0, 0) fun _ => [("sx", ()), ("sz", ())] :=
  ⟨fun _ _ => rfl, by decide, by decide, by decide⟩

end AceTN.Meas
