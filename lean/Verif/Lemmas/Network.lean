import Verif.Model.Network
import Verif.Lemmas.Lattice
import Mathlib.Data.List.Nodup

/-! Helper lemmas for the object model of networks. -/

set_option autoImplicit false

namespace AceTN

namespace PyDict
variable {κ ν : Type} [DecidableEq κ]

theorem nodup_keys_set (d : PyDict κ ν) (k : κ) (v : ν) (h : d.keys.Nodup) : (d.set k v).keys.Nodup := by
  induction d with
  | nil => simp [set, keys]
  | cons p d ih =>
    obtain ⟨k', v'⟩ := p
    simp only [keys, List.map_cons, List.nodup_cons] at h ih ⊢
    by_cases hk : k' = k
    · simp only [set, hk, if_true, List.map_cons, List.nodup_cons]; subst hk; exact h
    · simp only [set, hk, if_false, List.map_cons, List.nodup_cons]
      refine ⟨?_, ih h.2⟩
      intro hm
      have := (mem_keys_set d k k' v).1 hm
      rcases this with h1 | h1
      · exact hk h1
      · exact h.1 h1

theorem keys_set_of_mem (d : PyDict κ ν) (k : κ) (v : ν) (h : k ∈ d.keys) : (d.set k v).keys = d.keys := by
  induction d with
  | nil => simp [keys] at h
  | cons p d ih =>
    obtain ⟨k', v'⟩ := p
    by_cases hk : k' = k
    · simp [set, hk, keys]
    · simp only [set, hk, if_false]
      simp only [keys, List.map_cons, List.mem_cons] at h ih ⊢
      rw [ih (h.resolve_left (fun h => hk h.symm))]

theorem mem_keys_iff (d : PyDict κ ν) (k : κ) : k ∈ d.keys ↔ ∃ v, d.get? k = some v := by
  rw [← get?_isSome_iff, Option.isSome_iff_exists]

end PyDict

section
variable {V : Type} {cast : DType → DType → V → V}

theorem conv_conv (dt : DType) (dv dv' : Dev) (t : Tens V) :
    (t.conv cast dt dv).conv cast dt dv' = t.conv cast dt dv' := by
  simp [Tens.conv]

theorem conv_self (t : Tens V) : t.conv cast t.dtype t.device = t := by
  simp [Tens.conv]

theorem copyOf_copyOf (dt : DType) (dv dv' : Dev) (st : SiteT V) :
    (st.copyOf cast dt dv).copyOf cast dt dv' = st.copyOf cast dt dv' := by
  simp [SiteT.copyOf, conv_conv]

theorem get?_initSites (dt : DType) (dv : Dev) (f : Site → V) (ss : List Site) (w : World V) (s : Site) :
    (initSites dt dv f ss w).dict.get? s
      = if s ∈ ss then some (.fresh dt dv (f s)) else w.dict.get? s := by
  induction ss generalizing w with
  | nil => simp [initSites]
  | cons a ss ih =>
    rw [initSites, ih]
    by_cases h : s ∈ ss
    · simp [h]
    · by_cases h' : a = s
      · subst h'; simp [h, World.setItem, PyDict.get?_set_self]
      · have : s ≠ a := fun h => h' h.symm
        simp [h, this, World.setItem, PyDict.get?_set_ne _ _ h']

theorem initSites_tns (dt : DType) (dv : Dev) (f : Site → V) (ss : List Site) (w : World V) :
    (initSites dt dv f ss w).tns = w.tns ∧ (initSites dt dv f ss w).files = w.files := by
  induction ss generalizing w with
  | nil => exact ⟨rfl, rfl⟩
  | cons a ss ih => rw [initSites]; have := ih (w.setItem a (.fresh dt dv (f a))); exact ⟨this.1.trans rfl, this.2.trans rfl⟩

theorem copySites_ok (dt : DType) (dv : Dev) (ss : List Site) (w : World V)
    (h : ∀ s ∈ ss, ∃ st, w.dict.get? s = some st) :
    ∃ w', copySites cast dt dv ss w = .ok w' ∧ w'.tns = w.tns ∧ w'.files = w.files ∧
      ∀ s, w'.dict.get? s = if s ∈ ss then (w.dict.get? s).map (SiteT.copyOf cast dt dv) else w.dict.get? s := by
  induction ss generalizing w with
  | nil => exact ⟨w, rfl, rfl, rfl, fun s => by simp⟩
  | cons a ss ih =>
    obtain ⟨st, hst⟩ := h a (List.mem_cons_self ..)
    have hget : w.getItem a = .ok st := by simp [World.getItem, hst]
    obtain ⟨w', r, t, f, g⟩ := ih (w.setItem a (st.copyOf cast dt dv)) (by
      intro s hs
      by_cases h' : a = s
      · exact ⟨_, by rw [← h', World.setItem, PyDict.get?_set_self]⟩
      · obtain ⟨x, hx⟩ := h s (List.mem_cons_of_mem _ hs)
        exact ⟨x, by rw [World.setItem, PyDict.get?_set_ne _ _ h', hx]⟩)
    refine ⟨w', ?_, t.trans rfl, f.trans rfl, ?_⟩
    · simp only [copySites, hget, bind, Except.bind]; exact r
    · intro s
      rw [g]
      by_cases h' : a = s
      · subst h'
        by_cases hm : a ∈ ss
        · simp [hm, World.setItem, PyDict.get?_set_self, hst, copyOf_copyOf]
        · simp [hm, World.setItem, PyDict.get?_set_self, hst]
      · have : s ≠ a := fun h => h' h.symm
        simp [World.setItem, PyDict.get?_set_ne _ _ h', this]

/-! ### the dictionary and the files keep their keys distinct -/

/-- Keys of the dictionary and of every file are distinct. -/
structure WF (w : World V) : Prop where
  dict : w.dict.keys.Nodup
  files : ∀ f d, w.files f = some d → d.keys.Nodup

theorem WF.setItem {w : World V} (h : WF w) (s : Site) (st : SiteT V) : WF (w.setItem s st) :=
  ⟨PyDict.nodup_keys_set _ _ _ h.dict, h.files⟩

theorem WF.setTn {w : World V} (h : WF w) (i : ℕ) (t : Tn) : WF (w.setTn i t) := ⟨h.dict, h.files⟩

theorem WF.addTn {w : World V} (h : WF w) (t : List Tn) : WF { w with tns := t } := ⟨h.dict, h.files⟩

theorem WF.initSites {w : World V} (h : WF w) (dt : DType) (dv : Dev) (f : Site → V) (ss : List Site) :
    WF (initSites dt dv f ss w) := by
  induction ss generalizing w with
  | nil => exact h
  | cons a ss ih => exact ih (h.setItem _ _)

theorem WF.copySites {w w' : World V} (h : WF w) (dt : DType) (dv : Dev) (ss : List Site)
    (r : copySites cast dt dv ss w = .ok w') : WF w' := by
  induction ss generalizing w with
  | nil => cases r; exact h
  | cons a ss ih =>
    simp only [AceTN.copySites] at r
    cases hg : w.getItem a with
    | error e => rw [hg] at r; cases r
    | ok st => rw [hg] at r; exact ih (h.setItem _ _) r

theorem WF.loadItems {w : World V} (h : WF w) (dt : DType) (dv : Dev) (d : PyDict Site (SiteT V)) :
    WF (loadItems cast dt dv d w) := by
  induction d generalizing w with
  | nil => exact h
  | cons p d ih => obtain ⟨s, st⟩ := p; exact ih (h.setItem _ _)

theorem WF.saveStep {w : World V} (h : WF w) (i : ℕ) (t : Tn) (file : String) (x : SaveStep) :
    WF (SaveStep.run cast i t file w x) := by
  cases x with
  | copySite s =>
    simp only [SaveStep.run]
    split
    · exact h
    · exact h.setItem _ _
  | writeFile =>
    refine ⟨h.dict, ?_⟩
    intro f d hd
    simp only [SaveStep.run] at hd
    split at hd
    · cases hd; exact h.dict
    · exact h.files f d hd
  | loadSite s =>
    simp only [SaveStep.run]
    split
    · exact h
    · exact h.setItem _ _
  | setFlag => exact h.setTn _ _

theorem WF.mapSites {w : World V} (h : WF w) (g : Site → V → V) (ss : List Site) : WF (mapSites g ss w) := by
  induction ss generalizing w with
  | nil => exact h
  | cons a ss ih =>
    simp only [AceTN.mapSites]
    split
    · exact ih h
    · exact ih (h.setItem _ _)

theorem WF.newFrom {w w' : World V} (h : WF w) (t : Tn) (nx ny : ℕ) (dt : DType) (dv : Dev)
    (r : newIpepsFrom cast w t nx ny dt dv = .ok w') : WF w' := by
  simp only [newIpepsFrom] at r
  cases hc : AceTN.copySites cast dt dv t.siteList w with
  | error e => rw [hc] at r; cases r
  | ok w1 => rw [hc] at r; cases r; exact (h.copySites _ _ _ hc).addTn _

theorem WF.newTnFrom {w w' : World V} (h : WF w) (t : Tn) (dt : DType) (dv : Dev)
    (r : newTnFrom cast w t dt dv = .ok w') : WF w' := by
  simp only [AceTN.newTnFrom] at r
  cases hc : AceTN.copySites cast dt dv t.siteList w with
  | error e => rw [hc] at r; cases r
  | ok w1 => rw [hc] at r; cases r; exact (h.copySites _ _ _ hc).addTn _

theorem toOption_getD_wf {w : World V} (h : WF w) {r : Except PyErr (World V)}
    (hr : ∀ w', r = .ok w' → WF w') : WF (r.toOption.getD w) := by
  cases r with
  | error e => exact h
  | ok w' => exact hr w' rfl

theorem WF.run {w : World V} (h : WF w) (op : NOp V) : WF (op.run cast w) := by
  cases op with
  | new nx ny dt dv f => exact (h.initSites _ _ _ _).addTn _
  | newFrom i nx ny dt dv =>
    simp only [NOp.run]; split
    · exact h
    · exact toOption_getD_wf h fun w' r => h.newFrom _ _ _ _ _ r
  | copy i =>
    simp only [NOp.run]; split
    · exact h
    · exact toOption_getD_wf h fun w' r => h.newTnFrom _ _ _ r
  | «to» i dt dv =>
    simp only [NOp.run]; split
    · exact h
    · exact toOption_getD_wf h fun w' r => h.newTnFrom _ _ _ r
  | assign i s st =>
    simp only [NOp.run]; split
    · exact h
    · exact h.setItem _ _
  | save i file =>
    simp only [NOp.run]; split
    · exact h
    · next t _ =>
      have : ∀ (l : List SaveStep) (w : World V), WF w → WF (l.foldl (SaveStep.run cast i t file) w) := by
        intro l
        induction l with
        | nil => intro w h; exact h
        | cons x l ih => intro w h; exact ih _ (h.saveStep i t file x)
      exact this _ _ h
  | load i file =>
    simp only [NOp.run]; split
    · exact h
    · refine toOption_getD_wf h fun w' r => ?_
      simp only [tnLoad] at r
      split at r
      · cases r
      · cases r; exact (h.loadItems _ _ _).setTn _ _
  | evolve i f g =>
    simp only [NOp.run]; split
    · exact h
    · split
      · apply WF.mapSites
        simp only [evolveStart]; split
        · exact h
        · exact (h.initSites _ _ _ _).setTn _ _
      · exact h
  | renormalize i g =>
    simp only [NOp.run]; split
    · exact h
    · split
      · exact h.mapSites _ _
      · exact h
  | measure i => exact h

theorem WF.runOps {w : World V} (h : WF w) (ops : List (NOp V)) : WF (runOps cast w ops) := by
  induction ops generalizing w with
  | nil => exact h
  | cons op ops ih => exact ih (h.run op)

theorem WF.empty : WF (World.empty : World V) := ⟨by simp [World.empty, PyDict.keys], by simp [World.empty]⟩

/-! ### load and save in closed form -/

theorem get?_loadItems (dt : DType) (dv : Dev) (d : PyDict Site (SiteT V)) (hd : d.keys.Nodup) (w : World V)
    (s : Site) :
    (loadItems cast dt dv d w).dict.get? s
      = ((d.get? s).map (SiteT.to cast (some dt) (some dv))).or (w.dict.get? s) := by
  induction d generalizing w with
  | nil => simp [loadItems, PyDict.get?]
  | cons p d ih =>
    obtain ⟨a, st⟩ := p
    simp only [PyDict.keys, List.map_cons, List.nodup_cons] at hd
    rw [loadItems, ih hd.2]
    by_cases h : a = s
    · subst h
      have : PyDict.get? d a = none := by
        by_contra hne
        have := (PyDict.get?_isSome_iff d a).1 (Option.isSome_iff_ne_none.2 hne)
        exact hd.1 this
      simp [PyDict.get?, this, World.setItem, PyDict.get?_set_self]
    · simp [PyDict.get?, h, World.setItem, PyDict.get?_set_ne _ _ h]

/-- The state inside `save` after the copy loop over `ss`. -/
theorem saveCopies (i : ℕ) (t : Tn) (file : String) (ss : List Site) (w : World V) :
    let w' := (ss.map SaveStep.copySite).foldl (SaveStep.run cast i t file) w
    w'.tns = w.tns ∧ w'.files = w.files ∧ w'.dict.keys = w.dict.keys ∧
      ∀ s, w'.dict.get? s = if s ∈ ss then (w.dict.get? s).map (SiteT.copyOf cast t.dtype .cpu)
        else w.dict.get? s := by
  induction ss generalizing w with
  | nil => exact ⟨rfl, rfl, rfl, fun s => by simp⟩
  | cons a ss ih =>
    simp only [List.map_cons, List.foldl_cons]
    obtain ⟨h1, h2, h3, h4⟩ := ih (SaveStep.run cast i t file w (.copySite a))
    cases hg : w.dict.get? a with
    | none =>
      have e : SaveStep.run cast i t file w (.copySite a) = w := by simp [SaveStep.run, hg]
      rw [e] at h1 h2 h3 h4 ⊢
      refine ⟨h1, h2, h3, fun s => ?_⟩
      rw [h4]
      by_cases hs : s = a
      · subst hs; simp [hg]
      · simp [hs]
    | some st =>
      have e : SaveStep.run cast i t file w (.copySite a) = w.setItem a (st.copyOf cast t.dtype .cpu) := by
        simp [SaveStep.run, hg]
      rw [e] at h1 h2 h3 h4 ⊢
      refine ⟨h1, h2, ?_, fun s => ?_⟩
      · rw [h3]; exact PyDict.keys_set_of_mem _ _ _ ((PyDict.mem_keys_iff _ _).2 ⟨st, hg⟩)
      · rw [h4]
        by_cases hs : a = s
        · subst hs
          by_cases hm : a ∈ ss
          · simp [hm, World.setItem, PyDict.get?_set_self, hg, copyOf_copyOf]
          · simp [hm, World.setItem, PyDict.get?_set_self, hg]
        · have : s ≠ a := fun h => hs h.symm
          simp [World.setItem, PyDict.get?_set_ne _ _ hs, this]

/-- The state inside `save` after the load loop over `ss`. -/
theorem saveLoads (i : ℕ) (t : Tn) (file : String) (ss : List Site) (w : World V)
    (d : PyDict Site (SiteT V)) (hd : w.files file = some d) :
    let w' := (ss.map SaveStep.loadSite).foldl (SaveStep.run cast i t file) w
    w'.tns = w.tns ∧ w'.files = w.files ∧
      ∀ s, w'.dict.get? s = if s ∈ ss then
          ((d.get? s).map (SiteT.to cast (some t.dtype) (some t.device))).or (w.dict.get? s)
        else w.dict.get? s := by
  induction ss generalizing w with
  | nil => exact ⟨rfl, rfl, fun s => by simp⟩
  | cons a ss ih =>
    simp only [List.map_cons, List.foldl_cons]
    cases hg : d.get? a with
    | none =>
      have e : SaveStep.run cast i t file w (.loadSite a) = w := by simp [SaveStep.run, hd, hg]
      rw [e]
      obtain ⟨h1, h2, h4⟩ := ih w hd
      refine ⟨h1, h2, fun s => ?_⟩
      rw [h4]
      by_cases hs : s = a
      · subst hs; simp [hg]
      · simp [hs]
    | some st =>
      have e : SaveStep.run cast i t file w (.loadSite a)
          = w.setItem a (st.to cast (some t.dtype) (some t.device)) := by
        simp [SaveStep.run, hd, hg]
      rw [e]
      obtain ⟨h1, h2, h4⟩ := ih (w.setItem a (st.to cast (some t.dtype) (some t.device))) hd
      refine ⟨h1, h2, fun s => ?_⟩
      rw [h4]
      by_cases hs : a = s
      · subst hs
        simp [World.setItem, PyDict.get?_set_self, hg]
      · have : s ≠ a := fun h => hs h.symm
        simp [World.setItem, PyDict.get?_set_ne _ _ hs, this]

theorem tnSave_spec (w : World V) (i : ℕ) (t : Tn) (file : String) :
    ∃ d : PyDict Site (SiteT V), (tnSave cast w i t file).files
        = (fun f => if f = file then some d else w.files f) ∧
      (tnSave cast w i t file).tns = w.tns.set i { t with initialized := true } ∧
      d.keys = w.dict.keys ∧
      (∀ s, d.get? s = if s ∈ t.siteList then (w.dict.get? s).map (SiteT.copyOf cast t.dtype .cpu)
        else w.dict.get? s) ∧
      (∀ s, (tnSave cast w i t file).dict.get? s
        = (d.get? s).map (SiteT.to cast (some t.dtype) (some t.device))) := by
  obtain ⟨c1, c2, c3, c4⟩ := saveCopies (cast := cast) i t file t.siteList w
  simp only [tnSave, saveSteps, List.foldl_append]
  set w1 := (t.siteList.map SaveStep.copySite).foldl (SaveStep.run cast i t file) w with hw1
  set w2 := [SaveStep.writeFile].foldl (SaveStep.run cast i t file) w1 with hw2
  have f2 : w2.files file = some w1.dict := by simp [hw2, SaveStep.run]
  obtain ⟨l1, l2, l3⟩ := saveLoads (cast := cast) i t file w.dict.keys w2 w1.dict f2
  refine ⟨w1.dict, ?_, ?_, c3, c4, ?_⟩
  · simp only [List.foldl_cons, List.foldl_nil, SaveStep.run, World.setTn]
    rw [l2]; simp only [hw2, List.foldl_cons, List.foldl_nil, SaveStep.run, c2]
  · simp only [List.foldl_cons, List.foldl_nil, SaveStep.run, World.setTn]
    rw [l1]; simp only [hw2, List.foldl_cons, List.foldl_nil, SaveStep.run, c1]
  · intro s
    simp only [List.foldl_cons, List.foldl_nil, SaveStep.run, World.setTn]
    rw [l3]
    have d2 : w2.dict = w1.dict := by simp [hw2, SaveStep.run]
    rw [d2]
    by_cases hs : s ∈ w.dict.keys
    · rw [← c3] at hs
      obtain ⟨st, hst⟩ := (PyDict.mem_keys_iff _ _).1 hs
      rw [c3] at hs
      simp [hs, hst]
    · have hn : w1.dict.get? s = none := by
        rw [← c3] at hs
        by_contra hne
        exact hs ((PyDict.get?_isSome_iff _ _).1 (Option.isSome_iff_ne_none.2 hne))
      simp [hs, hn]

theorem mapSites_tns (g : Site → V → V) (ss : List Site) (w : World V) :
    (mapSites g ss w).tns = w.tns ∧ (mapSites g ss w).files = w.files := by
  induction ss generalizing w with
  | nil => exact ⟨rfl, rfl⟩
  | cons a ss ih =>
    simp only [mapSites]
    split
    · exact ih w
    · next st _ =>
      have := ih (w.setItem a { st with t := { st.t with val := g a st.t.val } })
      exact ⟨this.1.trans rfl, this.2.trans rfl⟩

end
end AceTN

namespace AceTN
section
variable {V : Type} {cast : DType → DType → V → V}

/-! ### what API calls do to the attributes of existing objects and to the files -/

theorem copySites_tns {dt : DType} {dv : Dev} {ss : List Site} {w w' : World V}
    (r : copySites cast dt dv ss w = .ok w') : w'.tns = w.tns ∧ w'.files = w.files := by
  induction ss generalizing w with
  | nil => cases r; exact ⟨rfl, rfl⟩
  | cons a ss ih =>
    simp only [copySites] at r
    cases hg : w.getItem a with
    | error e => rw [hg] at r; cases r
    | ok st =>
      rw [hg] at r
      have := ih (w := w.setItem a (st.copyOf cast dt dv)) r
      exact ⟨this.1.trans rfl, this.2.trans rfl⟩

theorem newIpepsFrom_tns {w w' : World V} {t : Tn} {nx ny : ℕ} {dt : DType} {dv : Dev}
    (r : newIpepsFrom cast w t nx ny dt dv = .ok w') :
    w'.tns = w.tns ++ [⟨nx, ny, dt, dv, t.siteList, false, true⟩] ∧ w'.files = w.files := by
  simp only [newIpepsFrom] at r
  cases hc : copySites cast dt dv t.siteList w with
  | error e => rw [hc] at r; cases r
  | ok w1 => rw [hc] at r; cases r; exact ⟨by rw [(copySites_tns hc).1], (copySites_tns hc).2⟩

theorem newTnFrom_tns {w w' : World V} {t : Tn} {dt : DType} {dv : Dev}
    (r : newTnFrom cast w t dt dv = .ok w') :
    w'.tns = w.tns ++ [⟨t.nx, t.ny, dt, dv, t.siteList, false, false⟩] ∧ w'.files = w.files := by
  simp only [newTnFrom] at r
  cases hc : copySites cast dt dv t.siteList w with
  | error e => rw [hc] at r; cases r
  | ok w1 => rw [hc] at r; cases r; exact ⟨by rw [(copySites_tns hc).1], (copySites_tns hc).2⟩

theorem loadItems_tns (dt : DType) (dv : Dev) (d : PyDict Site (SiteT V)) (w : World V) :
    (loadItems cast dt dv d w).tns = w.tns ∧ (loadItems cast dt dv d w).files = w.files := by
  induction d generalizing w with
  | nil => exact ⟨rfl, rfl⟩
  | cons p d ih =>
    obtain ⟨s, st⟩ := p
    have := ih (w.setItem s (st.to cast (some dt) (some dv)))
    exact ⟨this.1.trans rfl, this.2.trans rfl⟩

/-- The call may set the initialisation flag of object `i`. -/
def NOp.marks (i : ℕ) : NOp V → Prop
  | .save j _ | .load j _ | .evolve j _ _ => j = i
  | _ => False

/-- Attributes of an existing object change only through the flag and the site list, and only by `save`, `load` or
`evolve` on that object; the flag is never cleared. -/
theorem tns_run (w : World V) (op : NOp V) (i : ℕ) (t : Tn) (ht : w.tns[i]? = some t) :
    ∃ t', (op.run cast w).tns[i]? = some t' ∧ t'.nx = t.nx ∧ t'.ny = t.ny ∧ t'.dtype = t.dtype ∧
      t'.device = t.device ∧ t'.isIpeps = t.isIpeps ∧ (t.initialized = true → t' = t) ∧
      (¬ op.marks i → t' = t) := by
  have hi : i < w.tns.length := (List.getElem?_eq_some_iff.1 ht).1
  have keep : ∀ w' : World V, w'.tns = w.tns → ∃ t', w'.tns[i]? = some t' ∧ t'.nx = t.nx ∧
      t'.ny = t.ny ∧ t'.dtype = t.dtype ∧
      t'.device = t.device ∧ t'.isIpeps = t.isIpeps ∧ (t.initialized = true → t' = t) ∧
      (¬ op.marks i → t' = t) :=
    fun w' h => ⟨t, by rw [h, ht], rfl, rfl, rfl, rfl, rfl, fun _ => rfl, fun _ => rfl⟩
  have app : ∀ (w' : World V) (l : List Tn), w'.tns = w.tns ++ l → ∃ t', w'.tns[i]? = some t' ∧ t'.nx = t.nx ∧
      t'.ny = t.ny ∧ t'.dtype = t.dtype ∧
      t'.device = t.device ∧ t'.isIpeps = t.isIpeps ∧ (t.initialized = true → t' = t) ∧
      (¬ op.marks i → t' = t) :=
    fun w' l h => ⟨t, by rw [h, List.getElem?_append_left hi, ht], rfl, rfl, rfl, rfl, rfl,
      fun _ => rfl, fun _ => rfl⟩
  have mark : ∀ (w' : World V) (j : ℕ) (tj : Tn) (sl : List Site), w.tns[j]? = some tj →
      (tj.initialized = true → sl = tj.siteList) →
      w'.tns = w.tns.set j { tj with siteList := sl, initialized := true } → (op.marks i ↔ j = i) →
      ∃ t', w'.tns[i]? = some t' ∧ t'.nx = t.nx ∧
      t'.ny = t.ny ∧ t'.dtype = t.dtype ∧
      t'.device = t.device ∧ t'.isIpeps = t.isIpeps ∧ (t.initialized = true → t' = t) ∧
      (¬ op.marks i → t' = t) := by
    intro w' j tj sl hj hsl h hm
    by_cases hji : j = i
    · subst hji
      rw [hj] at ht
      cases ht
      refine ⟨{ t with siteList := sl, initialized := true }, by rw [h, List.getElem?_set_self hi],
        rfl, rfl, rfl, rfl, rfl, ?_, ?_⟩
      · intro ht
        have := hsl ht
        cases t
        simp_all
      · intro hn; exact absurd (hm.2 rfl) hn
    · exact ⟨t, by rw [h, List.getElem?_set_ne hji, ht], rfl, rfl, rfl, rfl, rfl, fun _ => rfl, fun _ => rfl⟩
  cases op with
  | new nx ny dt dv f => exact app _ _ (by simp only [NOp.run, newIpeps]; rw [(initSites_tns ..).1])
  | newFrom j nx ny dt dv =>
    simp only [NOp.run]; split
    · exact keep _ rfl
    · next tj _ =>
      cases hr : newIpepsFrom cast w tj nx ny dt dv with
      | error e => exact keep _ rfl
      | ok w' => exact app _ _ (newIpepsFrom_tns hr).1
  | copy j =>
    simp only [NOp.run]; split
    · exact keep _ rfl
    · next tj _ =>
      cases hr : tnCopy cast w tj with
      | error e => exact keep _ rfl
      | ok w' => exact app _ _ (newTnFrom_tns hr).1
  | «to» j dt dv =>
    simp only [NOp.run]; split
    · exact keep _ rfl
    · next tj _ =>
      cases hr : tnTo cast w tj dt dv with
      | error e => exact keep _ rfl
      | ok w' => exact app _ _ (newTnFrom_tns hr).1
  | assign j s st => simp only [NOp.run]; split <;> exact keep _ rfl
  | save j file =>
    simp only [NOp.run]; split
    · exact keep _ rfl
    · next tj hj =>
      obtain ⟨d, _, h, _⟩ := tnSave_spec (cast := cast) w j tj file
      exact mark _ j tj tj.siteList hj (fun _ => rfl) h Iff.rfl
  | load j file =>
    simp only [NOp.run]; split
    · exact keep _ rfl
    · next tj hj =>
      simp only [tnLoad]; split
      · exact keep _ rfl
      · exact mark _ j tj tj.siteList hj (fun _ => rfl)
          (by simp only [Except.toOption, Option.getD_some, World.setTn, (loadItems_tns ..).1]) Iff.rfl
  | evolve j f g =>
    simp only [NOp.run]; split
    · exact keep _ rfl
    · next tj hj =>
      split
      · simp only [evolveStart]; split
        · exact keep _ (mapSites_tns ..).1
        · next hf =>
          exact mark _ j tj (buildSiteList tj.nx tj.ny) hj (fun h => absurd h hf)
            (by rw [(mapSites_tns ..).1, World.setTn, (initSites_tns ..).1]) Iff.rfl
      · exact keep _ rfl
  | renormalize j g =>
    simp only [NOp.run]; split
    · exact keep _ rfl
    · split
      · exact keep _ (mapSites_tns ..).1
      · exact keep _ rfl
  | measure j => exact keep _ rfl

theorem tns_runOps (ops : List (NOp V)) (w : World V) (i : ℕ) (t : Tn) (ht : w.tns[i]? = some t) :
    ∃ t', (runOps cast w ops).tns[i]? = some t' ∧ t'.nx = t.nx ∧ t'.ny = t.ny ∧ t'.dtype = t.dtype ∧
      t'.device = t.device ∧ t'.isIpeps = t.isIpeps ∧ (t.initialized = true → t' = t) ∧
      ((∀ op ∈ ops, ¬ op.marks i) → t' = t) := by
  induction ops generalizing w t with
  | nil => exact ⟨t, ht, rfl, rfl, rfl, rfl, rfl, fun _ => rfl, fun _ => rfl⟩
  | cons op ops ih =>
    obtain ⟨t1, h1, a1, a2, a3, a4, a5, a6, a7⟩ := tns_run (cast := cast) w op i t ht
    obtain ⟨t2, h2, b1, b2, b3, b4, b5, b6, b7⟩ := ih (op.run cast w) t1 h1
    refine ⟨t2, h2, b1.trans a1, b2.trans a2, b3.trans a3, b4.trans a4, b5.trans a5, ?_, ?_⟩
    · intro h
      have := a6 h
      subst this
      exact b6 h
    · intro h
      have := a7 (h op (List.mem_cons_self ..))
      subst this
      exact b7 fun o ho => h o (List.mem_cons_of_mem _ ho)

/-- Files other than the one saved to are kept. -/
theorem files_run (w : World V) (op : NOp V) (f : String) (h : ∀ i, op ≠ .save i f) :
    (op.run cast w).files f = w.files f := by
  cases op with
  | new nx ny dt dv g => simp only [NOp.run, newIpeps, (initSites_tns ..).2]
  | newFrom j nx ny dt dv =>
    simp only [NOp.run]; split
    · rfl
    · next tj _ =>
      cases hr : newIpepsFrom cast w tj nx ny dt dv with
      | error e => rfl
      | ok w' => simp [Except.toOption, (newIpepsFrom_tns hr).2]
  | copy j =>
    simp only [NOp.run]; split
    · rfl
    · next tj _ =>
      cases hr : tnCopy cast w tj with
      | error e => rfl
      | ok w' => simp [Except.toOption, (newTnFrom_tns hr).2]
  | «to» j dt dv =>
    simp only [NOp.run]; split
    · rfl
    · next tj _ =>
      cases hr : tnTo cast w tj dt dv with
      | error e => rfl
      | ok w' => simp [Except.toOption, (newTnFrom_tns hr).2]
  | assign j s st => simp only [NOp.run]; split <;> rfl
  | save j file =>
    simp only [NOp.run]; split
    · rfl
    · next tj hj =>
      obtain ⟨d, h1, _⟩ := tnSave_spec (cast := cast) w j tj file
      rw [h1]
      have : f ≠ file := by
        rintro rfl
        exact h j rfl
      simp [this]
  | load j file =>
    simp only [NOp.run]; split
    · rfl
    · simp only [tnLoad]; split
      · rfl
      · simp only [Except.toOption, Option.getD_some, World.setTn, (loadItems_tns ..).2]
  | evolve j g g' =>
    simp only [NOp.run]; split
    · rfl
    · split
      · rw [(mapSites_tns ..).2]
        simp only [evolveStart]; split
        · rfl
        · simp only [World.setTn, (initSites_tns ..).2]
      · rfl
  | renormalize j g =>
    simp only [NOp.run]; split
    · rfl
    · split
      · rw [(mapSites_tns ..).2]
      · rfl
  | measure j => rfl

theorem files_runOps (ops : List (NOp V)) (w : World V) (f : String) (h : ∀ i, NOp.save i f ∉ ops) :
    (runOps cast w ops).files f = w.files f := by
  induction ops generalizing w with
  | nil => rfl
  | cons op ops ih =>
    have := files_run (cast := cast) w op f fun j hj => h j (hj ▸ List.mem_cons_self ..)
    rw [← this]
    exact ih (op.run cast w) fun i hi => h i (List.mem_cons_of_mem _ hi)

end
end AceTN
