import Verif.Lemmas.Network
import Verif.Spec.Network

/-! Invariants of API histories on networks. -/

set_option autoImplicit false

namespace AceTN
section
variable {V : Type} {cast : DType → DType → V → V}

/-- Invariant: every site in the dictionary or in a file is allowed, every object has the cell. -/
structure KeysIn (P : Site → Prop) (nx ny : ℕ) (w : World V) : Prop where
  dict : ∀ s st, w.dict.get? s = some st → P s
  files : ∀ f d s st, w.files f = some d → d.get? s = some st → P s
  cell : ∀ (i : ℕ) (t : Tn), w.tns[i]? = some t → t.nx = nx ∧ t.ny = ny
  sites : ∀ (i : ℕ) (t : Tn), w.tns[i]? = some t → t.siteList = buildSiteList nx ny

theorem mem_dict_mapSites (g : Site → V → V) (ss : List Site) (w : World V) (s : Site) :
    ((mapSites g ss w).dict.get? s).isSome = (w.dict.get? s).isSome := by
  induction ss generalizing w with
  | nil => rfl
  | cons a ss ih =>
    simp only [mapSites]
    split
    · exact ih w
    · next st hst =>
      rw [ih]
      by_cases h : a = s
      · subst h; simp [World.setItem, PyDict.get?_set_self, hst]
      · simp [World.setItem, PyDict.get?_set_ne _ _ h]

theorem mem_dict_copySites {dt : DType} {dv : Dev} {ss : List Site} {w w' : World V}
    (r : copySites cast dt dv ss w = .ok w') (s : Site) :
    (w'.dict.get? s).isSome = (w.dict.get? s).isSome := by
  induction ss generalizing w with
  | nil => cases r; rfl
  | cons a ss ih =>
    simp only [copySites] at r
    cases hg : w.dict.get? a with
    | none => simp [World.getItem, hg, bind, Except.bind] at r
    | some st =>
      have hg' : w.getItem a = .ok st := by simp [World.getItem, hg]
      rw [hg'] at r
      rw [ih (w := w.setItem a (st.copyOf cast dt dv)) r]
      by_cases h : a = s
      · subst h; simp [World.setItem, PyDict.get?_set_self, hg]
      · simp [World.setItem, PyDict.get?_set_ne _ _ h]

theorem KeysIn.run {P : Site → Prop} {nx ny : ℕ} (hP : ∀ s : Site, s ∈ buildSiteList nx ny → P s)
    {w : World V} (wf : WF w) (h : KeysIn P nx ny w) (op : NOp V) (hc : Spec.OneCellSize nx ny op)
    (ha : ∀ i s st, op = .assign i s st → P s) : KeysIn P nx ny (op.run cast w) := by
  have some_dict : ∀ w' : World V, (∀ s, (w'.dict.get? s).isSome → P s) →
      ∀ s st, w'.dict.get? s = some st → P s := fun w' h s st hs => h s (by simp [hs])
  have base : ∀ s, (w.dict.get? s).isSome → P s := fun s hs => by
    obtain ⟨st, e⟩ := Option.isSome_iff_exists.1 hs; exact h.dict s st e
  have app : ∀ (w' : World V) (tn : Tn), w'.tns = w.tns ++ [tn] → tn.nx = nx → tn.ny = ny →
      tn.siteList = buildSiteList nx ny →
      (∀ (i : ℕ) (t : Tn), w'.tns[i]? = some t → t.nx = nx ∧ t.ny = ny) ∧
      (∀ (i : ℕ) (t : Tn), w'.tns[i]? = some t → t.siteList = buildSiteList nx ny) := by
    intro w' tn e e1 e2 e3
    have key : ∀ (i : ℕ) (t : Tn), w'.tns[i]? = some t → w.tns[i]? = some t ∨ t = tn := by
      intro i t ht
      rw [e] at ht
      rcases List.mem_append.1 (List.mem_of_getElem? ht) with hm | hm
      · by_cases hi : i < w.tns.length
        · rw [List.getElem?_append_left hi] at ht; exact Or.inl ht
        · rw [List.getElem?_append_right (by omega)] at ht
          exact Or.inr (by simpa using List.mem_of_getElem? ht)
      · exact Or.inr (by simpa using hm)
    exact ⟨fun i t ht => (key i t ht).elim (h.cell i t) (fun e => by rw [e]; exact ⟨e1, e2⟩),
      fun i t ht => (key i t ht).elim (h.sites i t) (fun e => by rw [e]; exact e3)⟩
  have upd : ∀ (w' : World V) (j : ℕ) (tj : Tn), w'.tns = w.tns.set j tj → tj.nx = nx → tj.ny = ny →
      tj.siteList = buildSiteList nx ny →
      (∀ (i : ℕ) (t : Tn), w'.tns[i]? = some t → t.nx = nx ∧ t.ny = ny) ∧
      (∀ (i : ℕ) (t : Tn), w'.tns[i]? = some t → t.siteList = buildSiteList nx ny) := by
    intro w' j tj e e1 e2 e3
    have key : ∀ (i : ℕ) (t : Tn), w'.tns[i]? = some t → w.tns[i]? = some t ∨ t = tj := by
      intro i t ht
      rw [e, List.getElem?_set] at ht
      by_cases hji : j = i
      · subst hji
        simp only [if_true] at ht
        split at ht
        · cases ht; exact Or.inr rfl
        · cases ht
      · simp only [hji, if_false] at ht; exact Or.inl ht
    exact ⟨fun i t ht => (key i t ht).elim (h.cell i t) (fun e => by rw [e]; exact ⟨e1, e2⟩),
      fun i t ht => (key i t ht).elim (h.sites i t) (fun e => by rw [e]; exact e3)⟩
  cases op with
  | new a b dt dv f =>
    obtain ⟨rfl, rfl⟩ := hc
    obtain ⟨c1, c2⟩ := app ((NOp.new a b dt dv f).run cast w) ⟨a, b, dt, dv, buildSiteList a b, false, true⟩
      (by simp only [NOp.run, newIpeps, (initSites_tns ..).1]) rfl rfl rfl
    refine ⟨?_, ?_, c1, c2⟩
    · intro s st hs
      simp only [NOp.run, newIpeps, get?_initSites] at hs
      split at hs
      · next hm => exact hP s hm
      · exact h.dict s st hs
    · intro f' d s st hf
      simp only [NOp.run, newIpeps, (initSites_tns ..).2] at hf
      exact h.files f' d s st hf
  | newFrom j a b dt dv =>
    obtain ⟨rfl, rfl⟩ := hc
    simp only [NOp.run]
    split
    · exact h
    · next tj hj =>
      cases hr : newIpepsFrom cast w tj a b dt dv with
      | error e => exact h
      | ok w' =>
        obtain ⟨e1, e2⟩ := newIpepsFrom_tns hr
        obtain ⟨c1, c2⟩ := app w' _ e1 rfl rfl (h.sites j tj hj)
        refine ⟨some_dict _ fun s hs => ?_, ?_, c1, c2⟩
        · simp only [newIpepsFrom] at hr
          cases hcs : copySites cast dt dv tj.siteList w with
          | error e => rw [hcs] at hr; cases hr
          | ok w1 =>
            rw [hcs] at hr; cases hr
            exact base s (by rw [← mem_dict_copySites hcs]; exact hs)
        · intro f d s st hf; rw [show (Except.ok w' : Except PyErr (World V)).toOption.getD w = w' from rfl, e2] at hf
          exact h.files f d s st hf
  | copy j =>
    simp only [NOp.run]
    split
    · exact h
    · next tj hj =>
      cases hr : tnCopy cast w tj with
      | error e => exact h
      | ok w' =>
        obtain ⟨e1, e2⟩ := newTnFrom_tns hr
        obtain ⟨c1, c2⟩ := app w' _ e1 (h.cell j tj hj).1 (h.cell j tj hj).2 (h.sites j tj hj)
        refine ⟨some_dict _ fun s hs => ?_, ?_, c1, c2⟩
        · simp only [tnCopy, newTnFrom] at hr
          cases hcs : copySites cast tj.dtype tj.device tj.siteList w with
          | error e => rw [hcs] at hr; cases hr
          | ok w1 =>
            rw [hcs] at hr; cases hr
            exact base s (by rw [← mem_dict_copySites hcs]; exact hs)
        · intro f d s st hf; rw [show (Except.ok w' : Except PyErr (World V)).toOption.getD w = w' from rfl, e2] at hf
          exact h.files f d s st hf
  | «to» j dt dv =>
    simp only [NOp.run]
    split
    · exact h
    · next tj hj =>
      cases hr : tnTo cast w tj dt dv with
      | error e => exact h
      | ok w' =>
        obtain ⟨e1, e2⟩ := newTnFrom_tns hr
        obtain ⟨c1, c2⟩ := app w' _ e1 (h.cell j tj hj).1 (h.cell j tj hj).2 (h.sites j tj hj)
        refine ⟨some_dict _ fun s hs => ?_, ?_, c1, c2⟩
        · simp only [tnTo, newTnFrom] at hr
          cases hcs : copySites cast (dtypeOr dt tj.dtype) (devOr dv tj.device) tj.siteList w with
          | error e => rw [hcs] at hr; cases hr
          | ok w1 =>
            rw [hcs] at hr; cases hr
            exact base s (by rw [← mem_dict_copySites hcs]; exact hs)
        · intro f d s st hf; rw [show (Except.ok w' : Except PyErr (World V)).toOption.getD w = w' from rfl, e2] at hf
          exact h.files f d s st hf
  | assign j s0 st0 =>
    simp only [NOp.run]
    split
    · exact h
    · refine ⟨?_, h.files, h.cell, h.sites⟩
      intro s st hs
      by_cases e : s0 = s
      · subst e; exact ha j s0 st0 rfl
      · rw [World.setItem, PyDict.get?_set_ne _ _ e] at hs; exact h.dict s st hs
  | save j file =>
    simp only [NOp.run]
    split
    · exact h
    · next tj hj =>
      obtain ⟨d, f1, f2, f3, f4, f5⟩ := tnSave_spec (cast := cast) w j tj file
      obtain ⟨c1, c2⟩ := upd (tnSave cast w j tj file) j _ f2 (h.cell j tj hj).1 (h.cell j tj hj).2 (h.sites j tj hj)
      have hd : ∀ s st, d.get? s = some st → P s := by
        intro s st hs
        have : s ∈ w.dict.keys := by rw [← f3]; exact (PyDict.mem_keys_iff _ _).2 ⟨st, hs⟩
        obtain ⟨st', e⟩ := (PyDict.mem_keys_iff _ _).1 this
        exact h.dict s st' e
      refine ⟨?_, ?_, c1, c2⟩
      · intro s st hs
        rw [f5] at hs
        cases hds : d.get? s with
        | none => rw [hds] at hs; cases hs
        | some st' => exact hd s st' hds
      · intro f d' s st hf hs
        rw [f1] at hf
        simp only at hf
        split at hf
        · cases hf; exact hd s st hs
        · exact h.files f d' s st hf hs
  | load j file =>
    simp only [NOp.run]
    split
    · exact h
    · next tj hj =>
      simp only [tnLoad]
      split
      · exact h
      · next d hf =>
        obtain ⟨c1, c2⟩ := upd ((loadItems cast tj.dtype tj.device d w).setTn j { tj with initialized := true })
          j { tj with initialized := true } (by simp only [World.setTn, (loadItems_tns ..).1]) (h.cell j tj hj).1
          (h.cell j tj hj).2 (h.sites j tj hj)
        refine ⟨?_, ?_, c1, c2⟩
        · intro s st hs
          simp only [Except.toOption, Option.getD_some, World.setTn] at hs
          rw [get?_loadItems _ _ _ (wf.files _ _ hf)] at hs
          cases hds : d.get? s with
          | none => rw [hds] at hs; exact h.dict s st hs
          | some st' => exact h.files file d s st' hf hds
        · intro f d' s st hf' hs
          simp only [Except.toOption, Option.getD_some, World.setTn, (loadItems_tns ..).2] at hf'
          exact h.files f d' s st hf' hs
  | evolve j f g =>
    simp only [NOp.run]
    split
    · exact h
    · next tj hj =>
      split
      · simp only [evolveStart]
        split
        · refine ⟨some_dict _ fun s hs => base s (by rw [← mem_dict_mapSites]; exact hs), ?_, ?_, ?_⟩
          · rw [(mapSites_tns ..).2]; exact h.files
          · rw [(mapSites_tns ..).1]; exact h.cell
          · rw [(mapSites_tns ..).1]; exact h.sites
        · set w1 := (initSites tj.dtype tj.device f (buildSiteList tj.nx tj.ny) w).setTn j
            { tj with siteList := buildSiteList tj.nx tj.ny, initialized := true } with hw1
          obtain ⟨c1, c2⟩ := upd w1 j
            { tj with siteList := buildSiteList tj.nx tj.ny, initialized := true }
            (by simp only [hw1, World.setTn, (initSites_tns ..).1])
            (h.cell j tj hj).1 (h.cell j tj hj).2 (by simp only [(h.cell j tj hj).1, (h.cell j tj hj).2])
          refine ⟨some_dict _ fun s hs => ?_, ?_, ?_, ?_⟩
          · rw [mem_dict_mapSites] at hs
            simp only [hw1, World.setTn, get?_initSites, (h.cell j tj hj).1, (h.cell j tj hj).2] at hs
            split at hs
            · next hm => exact hP s hm
            · exact base s hs
          · rw [(mapSites_tns ..).2]; simp only [hw1, World.setTn, (initSites_tns ..).2]; exact h.files
          · rw [(mapSites_tns ..).1]; exact c1
          · rw [(mapSites_tns ..).1]; exact c2
      · exact h
  | renormalize j g =>
    simp only [NOp.run]
    split
    · exact h
    · split
      · refine ⟨some_dict _ fun s hs => base s (by rw [← mem_dict_mapSites]; exact hs), ?_, ?_, ?_⟩
        · rw [(mapSites_tns ..).2]; exact h.files
        · rw [(mapSites_tns ..).1]; exact h.cell
        · rw [(mapSites_tns ..).1]; exact h.sites
      · exact h
  | measure j => exact h

theorem KeysIn.runOps {P : Site → Prop} {nx ny : ℕ} (hP : ∀ s : Site, s ∈ buildSiteList nx ny → P s)
    {w : World V} (wf : WF w) (h : KeysIn P nx ny w) (ops : List (NOp V)) (hc : ∀ op ∈ ops, Spec.OneCellSize nx ny op)
    (ha : ∀ i s st, NOp.assign i s st ∈ ops → P s) : KeysIn P nx ny (runOps cast w ops) := by
  induction ops generalizing w with
  | nil => exact h
  | cons op ops ih =>
    exact ih (wf.run op) (h.run hP wf op (hc op (List.mem_cons_self ..))
        fun i s st e => ha i s st (e ▸ List.mem_cons_self ..))
      (fun o ho => hc o (List.mem_cons_of_mem _ ho)) (fun i s st hm => ha i s st (List.mem_cons_of_mem _ hm))

/-- Sites never disappear from the dictionary. -/
theorem dict_grows (w : World V) (wf : WF w) (op : NOp V) (s : Site) (h : (w.dict.get? s).isSome) :
    ((op.run cast w).dict.get? s).isSome := by
  cases op with
  | new a b dt dv f => simp only [NOp.run, newIpeps, get?_initSites]; split <;> simp [h]
  | newFrom j a b dt dv =>
    simp only [NOp.run]
    split
    · exact h
    · next tj hj =>
      cases hr : newIpepsFrom cast w tj a b dt dv with
      | error e => exact h
      | ok w' =>
        simp only [newIpepsFrom] at hr
        cases hcs : copySites cast dt dv tj.siteList w with
        | error e => rw [hcs] at hr; cases hr
        | ok w1 => rw [hcs] at hr; cases hr; rw [← mem_dict_copySites hcs] at h; exact h
  | copy j =>
    simp only [NOp.run]
    split
    · exact h
    · next tj hj =>
      cases hr : tnCopy cast w tj with
      | error e => exact h
      | ok w' =>
        simp only [tnCopy, newTnFrom] at hr
        cases hcs : copySites cast tj.dtype tj.device tj.siteList w with
        | error e => rw [hcs] at hr; cases hr
        | ok w1 => rw [hcs] at hr; cases hr; rw [← mem_dict_copySites hcs] at h; exact h
  | «to» j dt dv =>
    simp only [NOp.run]
    split
    · exact h
    · next tj hj =>
      cases hr : tnTo cast w tj dt dv with
      | error e => exact h
      | ok w' =>
        simp only [tnTo, newTnFrom] at hr
        cases hcs : copySites cast (dtypeOr dt tj.dtype) (devOr dv tj.device) tj.siteList w with
        | error e => rw [hcs] at hr; cases hr
        | ok w1 => rw [hcs] at hr; cases hr; rw [← mem_dict_copySites hcs] at h; exact h
  | assign j s0 st0 =>
    simp only [NOp.run]
    split
    · exact h
    · by_cases e : s0 = s
      · subst e; simp [World.setItem, PyDict.get?_set_self]
      · rw [World.setItem, PyDict.get?_set_ne _ _ e]; exact h
  | save j file =>
    simp only [NOp.run]
    split
    · exact h
    · next tj hj =>
      obtain ⟨d, f1, f2, f3, f4, f5⟩ := tnSave_spec (cast := cast) w j tj file
      rw [f5, f4]
      split <;> simpa using h
  | load j file =>
    simp only [NOp.run]
    split
    · exact h
    · next tj hj =>
      simp only [tnLoad]
      split
      · exact h
      · next d hf =>
        simp only [Except.toOption, Option.getD_some, World.setTn]
        rw [get?_loadItems _ _ _ (wf.files _ _ hf)]
        simp [h]
  | evolve j f g =>
    simp only [NOp.run]
    split
    · exact h
    · split
      · rw [mem_dict_mapSites]
        simp only [evolveStart]
        split
        · exact h
        · simp only [World.setTn, get?_initSites]; split <;> simp [h]
      · exact h
  | renormalize j g =>
    simp only [NOp.run]
    split
    · exact h
    · split
      · rw [mem_dict_mapSites]; exact h
      · exact h
  | measure j => exact h

theorem dict_grows_ops (ops : List (NOp V)) (w : World V) (wf : WF w) (s : Site) (h : (w.dict.get? s).isSome) :
    ((runOps cast w ops).dict.get? s).isSome := by
  induction ops generalizing w with
  | nil => exact h
  | cons op ops ih => exact ih _ (wf.run op) (dict_grows w wf op s h)

/-- All sites hold some payload `vals s` in type `dt`. -/
def Holds (w : World V) (dt : DType) (vals : Site → Option V) (ok : Dev → Prop) : Prop :=
  ∀ s, (w.dict.get? s).map (fun st => (st.dtype, st.t.dtype, st.t.val)) = (vals s).map (fun v => (dt, dt, v)) ∧
    ∀ st, w.dict.get? s = some st → ok st.device ∧ st.device = st.t.device

theorem Holds.setItem {w : World V} {dt : DType} {vals : Site → Option V} {ok : Dev → Prop} (h : Holds w dt vals ok)
    (s : Site) (st : SiteT V) (v : V) (hv : vals s = some v) (h1 : st.dtype = dt) (h2 : st.t.dtype = dt)
    (h3 : st.t.val = v) (h4 : ok st.device) (h5 : st.device = st.t.device) : Holds (w.setItem s st) dt vals ok := by
  intro s'
  by_cases e : s = s'
  · subst e
    simp only [World.setItem, PyDict.get?_set_self, hv, Option.map_some, h1, h2, h3, true_and]
    rintro st' hst'
    cases hst'
    exact ⟨h4, h5⟩
  · simp only [World.setItem, PyDict.get?_set_ne _ _ e]
    exact h s'

theorem holds_step (i : ℕ) (t : Tn) (file : String) (vals : Site → Option V) (ok : Dev → Prop) (hok : ok .cpu)
    (hokt : ∀ o, ok o → ok (devOr (some t.device) o)) (w : World V) (x : SaveStep)
    (h : Holds w t.dtype vals ok)
    (hfile : x matches .loadSite _ → ∀ d, w.files file = some d →
      Holds { w with dict := d } t.dtype vals ok) :
    Holds (SaveStep.run cast i t file w x) t.dtype vals ok := by
  cases x with
  | copySite s =>
    simp only [SaveStep.run]
    split
    · exact h
    · next st hst =>
      have := (h s).1
      rw [hst] at this
      cases hv : vals s with
      | none => rw [hv] at this; cases this
      | some v =>
        rw [hv] at this
        simp only [Option.map_some, Option.some.injEq, Prod.mk.injEq] at this
        exact h.setItem s _ v hv rfl rfl (by simp [SiteT.copyOf, Tens.conv, this.2.1, this.2.2]) hok rfl
  | writeFile => exact h
  | loadSite s =>
    simp only [SaveStep.run]
    split
    · exact h
    · next st hst =>
      cases hf : w.files file with
      | none => rw [hf] at hst; cases hst
      | some d =>
        rw [hf] at hst
        have hd := hfile rfl d hf
        have hst' : d.get? s = some st := hst
        have h1 := (hd s).1
        simp only [hst'] at h1
        cases hv : vals s with
        | none => rw [hv] at h1; cases h1
        | some v =>
          rw [hv] at h1
          simp only [Option.map_some, Option.some.injEq, Prod.mk.injEq] at h1
          exact h.setItem s _ v hv rfl rfl (by simp [SiteT.to, SiteT.copyOf, Tens.conv, dtypeOr, h1.2.1, h1.2.2])
            (hokt _ ((hd s).2 st hst').1) rfl
  | setFlag => exact h

theorem holds_steps (i : ℕ) (t : Tn) (file : String) (vals : Site → Option V) (ok : Dev → Prop) (hok : ok .cpu)
    (hokt : ∀ o, ok o → ok (devOr (some t.device) o)) (steps : List SaveStep) (w : World V)
    (h : Holds w t.dtype vals ok)
    (hfile : (∃ s, SaveStep.loadSite s ∈ steps) →
      (∃ l r, steps = l ++ SaveStep.writeFile :: r ∧ ∀ s, SaveStep.loadSite s ∉ l) ∨
      ∀ d, w.files file = some d → Holds { w with dict := d } t.dtype vals ok) :
    Holds (steps.foldl (SaveStep.run cast i t file) w) t.dtype vals ok := by
  induction steps generalizing w with
  | nil => exact h
  | cons x xs ih =>
    simp only [List.foldl_cons]
    apply ih
    · apply holds_step i t file vals ok hok hokt w x h
      intro hx d hd
      cases x with
      | loadSite s =>
        rcases hfile ⟨s, List.mem_cons_self ..⟩ with ⟨l, r, e, hl⟩ | hfile
        · cases l with
          | nil => simp at e
          | cons y l =>
            simp only [List.cons_append, List.cons.injEq] at e
            exact absurd (e.1 ▸ List.mem_cons_self ..) (hl s)
        · exact hfile d hd
      | copySite s => cases hx
      | writeFile => cases hx
      | setFlag => cases hx
    · rintro ⟨s, hs⟩
      rcases hfile ⟨s, List.mem_cons_of_mem _ hs⟩ with ⟨l, r, e, hl⟩ | hfile
      · cases l with
        | nil =>
          simp only [List.nil_append, List.cons.injEq] at e
          right
          intro d hd
          rw [e.1] at hd
          simp only [SaveStep.run, if_true, Option.some.injEq] at hd
          subst hd
          exact h
        | cons y l =>
          simp only [List.cons_append, List.cons.injEq] at e
          left
          exact ⟨l, r, e.2, fun s hs => hl s (List.mem_cons_of_mem _ hs)⟩
      · right
        intro d hd
        have : (SaveStep.run cast i t file w x).files file = w.files file ∨
            (SaveStep.run cast i t file w x).files file = some w.dict := by
          cases x with
          | copySite s => simp only [SaveStep.run]; split <;> exact Or.inl rfl
          | writeFile => right; simp [SaveStep.run]
          | loadSite s => simp only [SaveStep.run]; split <;> exact Or.inl rfl
          | setFlag => exact Or.inl rfl
        rcases this with e | e
        · exact hfile d (e ▸ hd)
        · rw [e] at hd; cases hd; exact h

end
end AceTN
