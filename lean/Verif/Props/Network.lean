import Verif.Lemmas.NetworkInv
import Verif.Spec.Network

/-! C15–C20: networks as objects. -/

set_option autoImplicit false

namespace AceTN

section Witness

/-- Witness payload conversion: nothing is lost. -/
def noCast : DType → DType → ℕ → ℕ := fun _ _ v => v

/-- A payload for tests of visibility. -/
def st7 : SiteT ℕ := .fresh "float64" .cpu 7

theorem okT_inj {a b : SiteT ℕ} (h : (Except.ok a : Except PyErr (SiteT ℕ)) = .ok b) : a = b := Except.ok.inj h

end Witness

/-! ## C15 -/

/-- C15 fails: an assignment through one network is visible through another. -/
theorem C15_violated_shared : ¬ Spec.AssignIsolated noCast := by
  intro h
  have := h [.new 1 1 "float64" .cpu (fun _ => 1), .new 1 1 "float64" .cpu (fun _ => 2)] 0 1 (0, 0) (0, 0) st7
    (by decide) (by decide) (by decide)
  exact absurd (okT_inj this) (by decide)

/-- The sharing is total: whatever the history, an assignment through any object is read through every object. -/
theorem C15_violated_everywhere {V : Type} (cast : DType → DType → V → V) (w : World V) (i j : ℕ) (s : Site)
    (st : SiteT V) (hi : i < w.tns.length) : readSite ((NOp.assign i s st).run cast w) j s = .ok st := by
  have : w.tns[i]? = some w.tns[i] := List.getElem?_eq_getElem hi
  simp [NOp.run, this, readSite, World.getItem, World.setItem, PyDict.get?_set_self]

/-- C15 fails: after a 2×2 network was made, a 1×1 network answers for site (1,1). -/
theorem C15_violated_stale : ¬ Spec.OutsideRaises noCast := by
  intro h
  have := h [.new 2 2 "float64" .cpu (fun _ => 1)] 1 1 "float64" .cpu (fun _ => 2) (1, 1) (by simp) (by decide)
  cases this

section
variable {V : Type} {cast : DType → DType → V → V}

/-- C15, what holds: in a process in which every network is constructed with the same cell, after any calls (copies,
conversions, saves, loads, evolutions, …) reading a site raises `ValueError` exactly if the site is outside the cell
and was never assigned; every other read succeeds.  Missing: isolation between networks (false, see above), and the
`ValueError` when cells of different size are used (false, see above). -/
theorem C15_same_cell_partial (cast : DType → DType → V → V) (nx ny : ℕ) (dt : DType) (dv : Dev) (f : Site → V)
    (ops : List (NOp V)) (hc : ∀ op ∈ ops, Spec.OneCellSize nx ny op) (i : ℕ) (s : Site) :
    let w := runOps cast .empty (.new nx ny dt dv f :: ops)
    ((∀ j st, NOp.assign j s st ∉ ops) → ¬ (s.1 < nx ∧ s.2 < ny) → readSite w i s = .error .valueError) ∧
    (s.1 < nx ∧ s.2 < ny → ∃ st, readSite w i s = .ok st) := by
  have mem : ∀ s : Site, s ∈ buildSiteList nx ny ↔ s.1 < nx ∧ s.2 < ny := by
    intro s; simp [mem_buildSiteList]
  intro w
  constructor
  · intro hno hout
    have k0 : KeysIn (fun x => x ≠ s) nx ny (World.empty : World V) :=
      ⟨by simp [World.empty, PyDict.get?], by simp [World.empty], by simp [World.empty], by simp [World.empty]⟩
    have k := k0.runOps (cast := cast) (P := fun x => x ≠ s)
      (fun x hx (e : x = s) => hout ((mem s).1 (e ▸ hx))) WF.empty
      (.new nx ny dt dv f :: ops)
      (by
        intro op hop
        rcases List.mem_cons.1 hop with rfl | hop
        · exact ⟨rfl, rfl⟩
        · exact hc op hop)
      (by
        rintro j x st hm rfl
        rcases List.mem_cons.1 hm with h | h
        · cases h
        · exact hno j st h)
    cases hg : w.dict.get? s with
    | none => simp [readSite, World.getItem, hg]
    | some st => exact absurd rfl (k.dict s st hg)
  · intro hin
    have h1 : (((NOp.new nx ny dt dv f).run cast .empty).dict.get? s).isSome := by
      simp [NOp.run, newIpeps, get?_initSites, (mem s).2 hin]
    have := dict_grows_ops (cast := cast) ops _ (WF.empty.run (.new nx ny dt dv f)) s h1
    obtain ⟨st, hst⟩ := Option.isSome_iff_exists.1 this
    exact ⟨st, by
      simp only [readSite, World.getItem]
      rw [show w = runOps cast ((NOp.new nx ny dt dv f).run cast .empty) ops from rfl, hst]⟩

/-- Within one network: a read returns what was last assigned, and assigning one site leaves the other sites alone. -/
theorem C15_read_over_write_partial (cast : DType → DType → V → V) (w : World V) (i : ℕ) (s s' : Site) (st : SiteT V)
    (hi : i < w.tns.length) :
    readSite ((NOp.assign i s st).run cast w) i s = .ok st ∧
    (s ≠ s' → readSite ((NOp.assign i s st).run cast w) i s' = readSite w i s') := by
  refine ⟨C15_violated_everywhere cast w i i s st hi, fun h => ?_⟩
  have : w.tns[i]? = some w.tns[i] := List.getElem?_eq_getElem hi
  simp [NOp.run, this, readSite, World.getItem, World.setItem, PyDict.get?_set_ne _ _ h]

/-- Non-vacuity: a script with two networks of the same cell, a save and a load. -/
example : readSite (runOps noCast .empty [.new 2 1 "float64" .cpu (fun _ => 1), .new 2 1 "float32" .cpu (fun _ => 2),
    .save 0 "f", .evolve 1 (fun _ => 3) (fun _ v => v + 1), .load 0 "f"]) 1 (5, 5) = .error .valueError :=
  (C15_same_cell_partial noCast 2 1 "float64" .cpu (fun _ => 1) _ (by simp [Spec.OneCellSize]) 1 (5, 5)).1
    (by simp) (by decide)

/-! ## C16 -/

/-- C16 fails: an assignment through the original shows in the copy. -/
theorem C16_violated : ¬ Spec.CopyIndependent noCast := by
  intro h
  have := (h [.new 1 1 "float64" .cpu (fun _ => 1)] 0 (0, 0) (0, 0) st7 (by decide)).1
  exact absurd (okT_inj this) (by decide)

/-- C16, what holds: at the moment of copying, every site reads the same through the copy as through the original
(if its tensors have the network's type and device), and sites outside the network are untouched.  Missing: independence
afterwards (false). -/
theorem C16_copy_reads_same_partial (cast : DType → DType → V → V) (w : World V) (i : ℕ) (t : Tn)
    (ht : w.tns[i]? = some t) (hs : ∀ s ∈ t.siteList, ∃ v, w.dict.get? s = some (.fresh t.dtype t.device v)) :
    let w' := (NOp.copy i).run cast w
    (∃ t', w'.tns[w.tns.length]? = some t' ∧ t'.siteList = t.siteList ∧ t'.dtype = t.dtype ∧ t'.device = t.device) ∧
    ∀ s, readSite w' w.tns.length s = readSite w i s := by
  obtain ⟨w1, r, h1, h2, h3⟩ := copySites_ok (cast := cast) t.dtype t.device t.siteList w
    (fun s h => (hs s h).imp' (fun v => .fresh t.dtype t.device v) fun _ => id)
  have e : (NOp.copy i).run cast w
      = { w1 with tns := w1.tns ++ [⟨t.nx, t.ny, t.dtype, t.device, t.siteList, false, false⟩] } := by
    simp [NOp.run, ht, tnCopy, newTnFrom, r, bind, Except.bind, pure, Except.pure, Except.toOption]
  intro w'
  refine ⟨⟨⟨t.nx, t.ny, t.dtype, t.device, t.siteList, false, false⟩, by rw [show w' = _ from e, ← h1]; simp,
    rfl, rfl, rfl⟩, fun s => ?_⟩
  rw [show w' = _ from e]
  simp only [readSite, World.getItem, h3]
  by_cases hm : s ∈ t.siteList
  · obtain ⟨v, hv⟩ := hs s hm
    simp [hm, hv, SiteT.copyOf, SiteT.fresh, Tens.conv]
  · simp [hm]

example : readSite ((NOp.copy 0).run noCast (runOps noCast .empty [.new 2 2 "float64" .cuda (fun s => s.1)])) 1 (1, 0)
    = .ok (.fresh "float64" .cuda 1) := by
  refine ((C16_copy_reads_same_partial noCast (runOps noCast .empty [.new 2 2 "float64" .cuda (fun s => s.1)]) 0
    ⟨2, 2, "float64", .cuda, buildSiteList 2 2, false, true⟩ rfl ?_).2 (1, 0)).trans ?_
  · intro s hs
    exact ⟨s.1, by simp [runOps, NOp.run, newIpeps, get?_initSites, hs]⟩
  · rfl

/-! ## C17 -/

/-- C17 fails: converting to float32 converts the original's tensors too. -/
theorem C17_violated_original : ¬ Spec.ToLeavesOriginal noCast := by
  intro h
  have := h [.new 1 1 "float64" .cpu (fun _ => 1)] 0 (some "float32") none (0, 0)
  exact absurd (okT_inj this) (by decide)

/-- C17 fails: `to(device=0)` leaves the tensors where they were. -/
theorem C17_violated_device_zero : ¬ Spec.ToHonoursDevice noCast := by
  intro h
  have := h [.new 1 1 "float64" .cpu (fun _ => 1)] 0 (.idx 0) (0, 0) (.fresh "float64" .cpu 1) (by decide) rfl
  exact absurd this (by decide)

/-- C17, what holds: all tensors of the returned network have the requested type, and the requested device unless that
device is the integer 0; values are kept, up to the conversion of the type.  Missing: the original is changed as well
(false), device 0 (false). -/
theorem C17_to_converts_partial (cast : DType → DType → V → V) (w : World V) (i : ℕ) (t : Tn)
    (ht : w.tns[i]? = some t) (hs : ∀ s ∈ t.siteList, ∃ st, w.dict.get? s = some st)
    (dt : DType) (dv : Dev) (hdv : dv ≠ .idx 0) (s : Site) (hsite : s ∈ t.siteList) (st : SiteT V)
    (hst : w.dict.get? s = some st) :
    let w' := (NOp.to i (some dt) (some dv)).run cast w
    ∃ st', readSite w' w.tns.length s = .ok st' ∧ st'.dtype = dt ∧ st'.device = dv ∧ st'.t.dtype = dt ∧
      st'.t.device = dv ∧ (st.t.dtype = dt → st'.t.val = st.t.val) ∧
      (st.t.dtype ≠ dt → st'.t.val = cast st.t.dtype dt st.t.val) := by
  have hdv' : devOr (some dv) t.device = dv := by
    cases dv with
    | cpu => rfl
    | cuda => rfl
    | idx n => cases n with
      | zero => exact absurd rfl hdv
      | succ n => rfl
  obtain ⟨w1, r, h1, h2, h3⟩ := copySites_ok (cast := cast) dt dv t.siteList w hs
  have e : (NOp.to i (some dt) (some dv)).run cast w
      = { w1 with tns := w1.tns ++ [⟨t.nx, t.ny, dt, dv, t.siteList, false, false⟩] } := by
    simp [NOp.run, ht, tnTo, newTnFrom, dtypeOr, hdv', r, bind, Except.bind, pure, Except.pure, Except.toOption]
  intro w'
  refine ⟨st.copyOf cast dt dv, ?_, rfl, rfl, rfl, rfl, ?_, ?_⟩
  · rw [show w' = _ from e]; simp [readSite, World.getItem, h3, hsite, hst]
  · intro h; simp [SiteT.copyOf, Tens.conv, h]
  · intro h; simp [SiteT.copyOf, Tens.conv, h]

example : ∃ st', readSite ((NOp.to 0 (some "float32") (some .cuda)).run noCast
    (runOps noCast .empty [.new 2 2 "float64" .cpu (fun s => s.1)])) 1 (1, 0) = .ok st' ∧ st'.t.device = .cuda := by
  obtain ⟨st', h, _, _, _, h', _⟩ := C17_to_converts_partial noCast
    (runOps noCast .empty [.new 2 2 "float64" .cpu (fun s => s.1)]) 0
    ⟨2, 2, "float64", .cpu, buildSiteList 2 2, false, true⟩ rfl
    (fun s hs => ⟨_, by simp only [runOps, List.foldl, NOp.run, newIpeps, get?_initSites, hs, if_true]; rfl⟩)
    "float32" .cuda (by decide) (1, 0) (by decide) (.fresh "float64" .cpu 1) rfl
  exact ⟨st', h, h'⟩

/-! ## C18 -/

/-- C18 fails for a network on device index 0: after `save` its tensors are on the cpu. -/
theorem C18_violated_device_zero : ¬ Spec.SaveTransparent noCast := by
  intro h
  have := h [.new 1 1 "float64" (.idx 0) (fun _ => 1)] 0 "f" (0, 0)
  exact absurd (okT_inj this) (by decide)

/-- C18 fails: saving before the first evolution changes the state the evolution starts from. -/
theorem C18_violated_start : ¬ Spec.SaveKeepsStart noCast := by
  intro h
  have := h [.new 1 1 "float64" .cpu (fun _ => 1)] 0 "f" (fun _ => 2) (fun _ v => v) (0, 0)
  exact absurd (okT_inj this) (by decide)

/-- C18, round trip: after `save(f)` through a network, then any calls that do not save to `f` again, then `load(f)` by
any network whose device is not the integer 0, every site of the saved network holds the saved tensor converted to the
loader's type and device. The saved site's tensors must have the saving network's type. -/
theorem C18_round_trip_partial (cast : DType → DType → V → V) (hist : List (NOp V)) (i : ℕ) (t : Tn) (file : String)
    (ops : List (NOp V)) (hf : ∀ k, NOp.save k file ∉ ops) (j : ℕ) (u : Tn) (hu : u.device ≠ .idx 0)
    (s : Site) (hs : s ∈ t.siteList) (st : SiteT V) (hdt : st.t.dtype = t.dtype) :
    let w := runOps cast .empty hist
    let w2 := runOps cast ((NOp.save i file).run cast w) ops
    w.tns[i]? = some t → readSite w i s = .ok st → w2.tns[j]? = some u →
      ∃ st', readSite ((NOp.load j file).run cast w2) j s = .ok st' ∧
        st'.t.dtype = u.dtype ∧ st'.t.device = u.device ∧
        (st.t.dtype = u.dtype → st'.t.val = st.t.val) ∧
        (st.t.dtype ≠ u.dtype → st'.t.val = cast st.t.dtype u.dtype st.t.val) := by
  intro w w2 ht hread hj
  have hst : w.dict.get? s = some st := by
    simp only [readSite, World.getItem] at hread
    split at hread
    · next x hx => cases hread; exact hx
    · cases hread
  have wfw : WF w := WF.empty.runOps hist
  obtain ⟨d, f1, f2, f3, f4, f5⟩ := tnSave_spec (cast := cast) w i t file
  have esave : (NOp.save i file).run cast w = tnSave cast w i t file := by simp [NOp.run, ht]
  have hfile : w2.files file = some d := by
    show (runOps cast ((NOp.save i file).run cast w) ops).files file = _
    rw [files_runOps _ _ _ hf, esave, f1]; simp
  have wfd : d.keys.Nodup := by rw [f3]; exact wfw.dict
  have hds : d.get? s = some (st.copyOf cast t.dtype .cpu) := by rw [f4]; simp [hs, hst]
  have hudev : devOr (some u.device) .cpu = u.device := by
    cases hd : u.device with
    | cpu => rfl
    | cuda => rfl
    | idx n => cases n with
      | zero => exact absurd hd hu
      | succ n => rfl
  have hl : readSite ((NOp.load j file).run cast w2) j s
      = .ok ((st.copyOf cast t.dtype .cpu).to cast (some u.dtype) (some u.device)) := by
    simp only [NOp.run, hj, tnLoad, hfile, Except.toOption, Option.getD_some, readSite, World.getItem, World.setTn]
    rw [get?_loadItems _ _ _ wfd, hds]
    rfl
  refine ⟨_, hl, rfl, ?_, ?_, ?_⟩
  · simp [SiteT.to, SiteT.copyOf, Tens.conv, hudev]
  · intro h; simp [SiteT.to, SiteT.copyOf, Tens.conv, dtypeOr, hdt, ← h]
  · intro h
    have h' : t.dtype ≠ u.dtype := hdt ▸ h
    simp [SiteT.to, SiteT.copyOf, Tens.conv, dtypeOr, hdt, h']

/-- C18, transparency: `save` leaves every readable site exactly as it was, if the tensors have the network's type and
device and that device is not the integer 0.  Missing: device 0 and the initialisation flag (both false, above). -/
theorem C18_save_keeps_tensors_partial (cast : DType → DType → V → V) (w : World V) (i : ℕ) (t : Tn)
    (ht : w.tns[i]? = some t) (hdev : t.device ≠ .idx 0) (file : String)
    (hhome : ∀ s st, w.dict.get? s = some st → ∃ v, st = .fresh t.dtype t.device v) (j : ℕ) (s : Site) :
    readSite ((NOp.save i file).run cast w) j s = readSite w j s := by
  obtain ⟨d, f1, f2, f3, f4, f5⟩ := tnSave_spec (cast := cast) w i t file
  have hudev : ∀ o, devOr (some t.device) o = t.device := by
    intro o
    cases hd : t.device with
    | cpu => rfl
    | cuda => rfl
    | idx n => cases n with
      | zero => exact absurd hd hdev
      | succ n => rfl
  simp only [NOp.run, ht, readSite, World.getItem, f5, f4]
  cases hg : w.dict.get? s with
  | none => simp
  | some st =>
    obtain ⟨v, rfl⟩ := hhome s st hg
    by_cases hm : s ∈ t.siteList
    · simp [hm, SiteT.to, SiteT.copyOf, SiteT.fresh, Tens.conv, dtypeOr, hudev]
    · simp [hm, SiteT.to, SiteT.copyOf, SiteT.fresh, Tens.conv, dtypeOr, hudev]

/-- Loading a file that was never written raises and changes nothing. -/
theorem C18_load_missing_partial (cast : DType → DType → V → V) (w : World V) (i : ℕ) (t : Tn)
    (file : String) (hf : w.files file = none) : tnLoad cast w i t file = .error .fileNotFound := by
  simp [tnLoad, hf]

example : ∃ st', readSite ((NOp.load 1 "f").run noCast (runOps noCast ((NOp.save 0 "f").run noCast
      (runOps noCast .empty [.new 1 1 "float64" .cuda (fun _ => 5)]))
        [.new 1 1 "float32" .cpu (fun _ => 6), .evolve 0 (fun _ => 8) (fun _ v => v + 1)])) 1 (0, 0) = .ok st' ∧
    st'.t.dtype = "float32" ∧ st'.t.val = 5 := by
  obtain ⟨st', h1, h2, _, _, h5⟩ := C18_round_trip_partial noCast [.new 1 1 "float64" .cuda (fun _ => 5)] 0
    ⟨1, 1, "float64", .cuda, [(0, 0)], false, true⟩ "f"
    [.new 1 1 "float32" .cpu (fun _ => 6), .evolve 0 (fun _ => 8) (fun _ v => v + 1)] (by simp) 1
    ⟨1, 1, "float32", .cpu, [(0, 0)], false, true⟩ (by decide) (0, 0) (by decide) (.fresh "float64" .cuda 5) rfl
    rfl rfl rfl
  exact ⟨st', h1, h2, h5 (by decide)⟩

/-! ## C19 -/

/-- C19 fails: a `cuda` network whose `save` is interrupted after moving the first site to the cpu. -/
theorem C19_violated : ¬ Spec.CrashSafe noCast := by
  intro h
  have := h [.new 1 1 "float64" .cuda (fun _ => 1)] 0 ⟨1, 1, "float64", .cuda, [(0, 0)], false, true⟩ "f" 1 (0, 0) rfl
  exact absurd (okT_inj this) (by decide)

/-- C19, what holds: wherever `save` stops, every site still has its values and type, and each site's tensors are
either on the network's device or on the cpu; in particular a network on the cpu is untouched.  Missing: the device of
networks that are not on the cpu (false). -/
theorem C19_crash_keeps_values_partial (cast : DType → DType → V → V) (w : World V) (i : ℕ) (t : Tn) (file : String)
    (k : ℕ) (hhome : ∀ s st, w.dict.get? s = some st → ∃ v, st = .fresh t.dtype t.device v) (s : Site) :
    (∀ st, readSite w i s = .ok st → ∃ dv, (dv = t.device ∨ dv = .cpu) ∧
      readSite (saveUpTo cast k w i t file) i s = .ok (.fresh t.dtype dv st.t.val)) ∧
    (readSite w i s = .error .valueError → readSite (saveUpTo cast k w i t file) i s = .error .valueError) ∧
    (t.device = .cpu → readSite (saveUpTo cast k w i t file) i s = readSite w i s) := by
  have h0 : Holds w t.dtype (fun s => (w.dict.get? s).map (·.t.val)) (fun dv => dv = t.device ∨ dv = .cpu) := by
    intro s
    cases hg : w.dict.get? s with
    | none => simp [hg]
    | some st =>
      obtain ⟨v, rfl⟩ := hhome s st hg
      simp [hg, SiteT.fresh]
  have hall := holds_steps (cast := cast) i t file _ (fun dv => dv = t.device ∨ dv = .cpu) (Or.inr rfl)
    (by
      rintro o ho
      simp only [devOr]
      split
      · exact Or.inl rfl
      · exact ho)
    ((saveSteps w t).take k) w h0
    (by
      rintro ⟨x, hx⟩
      left
      have hnl : ∀ s, SaveStep.loadSite s ∉ t.siteList.map SaveStep.copySite := by simp
      have htk : (saveSteps w t).take k = (t.siteList.map SaveStep.copySite).take k ++
          ((SaveStep.writeFile :: (w.dict.keys.map .loadSite ++ [.setFlag])).take (k - t.siteList.length)) := by
        simp [saveSteps, List.take_append]
      rw [htk] at hx ⊢
      cases hk : k - t.siteList.length with
      | zero =>
        rw [hk] at hx
        simp only [List.take_zero, List.append_nil] at hx
        exact absurd (List.mem_of_mem_take hx) (hnl x)
      | succ m =>
        refine ⟨(t.siteList.map SaveStep.copySite).take k, _, by rw [List.take_succ_cons], ?_⟩
        intro s hs
        exact absurd (List.mem_of_mem_take hs) (hnl s))
  have key : ∀ st, w.dict.get? s = some st → ∃ dv, (dv = t.device ∨ dv = .cpu) ∧
      (saveUpTo cast k w i t file).dict.get? s = some (.fresh t.dtype dv st.t.val) := by
    intro st hst
    obtain ⟨h1, h2⟩ := hall s
    simp only [hst, Option.map_some] at h1
    obtain ⟨st', e⟩ : ∃ st', (saveUpTo cast k w i t file).dict.get? s = some st' := by
      cases hg : (saveUpTo cast k w i t file).dict.get? s with
      | none => rw [show List.foldl _ _ _ = saveUpTo cast k w i t file from rfl, hg] at h1; cases h1
      | some st' => exact ⟨st', rfl⟩
    rw [show List.foldl _ _ _ = saveUpTo cast k w i t file from rfl, e] at h1
    simp only [Option.map_some, Option.some.injEq, Prod.mk.injEq] at h1
    obtain ⟨h3, h4⟩ := h2 st' e
    refine ⟨st'.device, h3, ?_⟩
    rw [e]
    obtain ⟨a, b, c, d, e⟩ := st'
    simp only at h1 h4
    obtain ⟨rfl, rfl, rfl⟩ := h1
    subst h4
    rfl
  have knone : w.dict.get? s = none → (saveUpTo cast k w i t file).dict.get? s = none := by
    intro hn
    have h1 := (hall s).1
    simp only [hn, Option.map_none] at h1
    exact Option.map_eq_none_iff.1 h1
  refine ⟨?_, ?_, ?_⟩
  · intro st hst
    simp only [readSite, World.getItem] at hst ⊢
    cases hg : w.dict.get? s with
    | none => rw [hg] at hst; cases hst
    | some st0 =>
      rw [hg] at hst; cases hst
      obtain ⟨dv, h1, h2⟩ := key st hg
      exact ⟨dv, h1, by rw [h2]⟩
  · intro hst
    simp only [readSite, World.getItem] at hst ⊢
    cases hg : w.dict.get? s with
    | none => rw [knone hg]
    | some st0 => rw [hg] at hst; cases hst
  · intro hc
    simp only [readSite, World.getItem]
    cases hg : w.dict.get? s with
    | none => rw [knone hg]
    | some st0 =>
      obtain ⟨dv, h1, h2⟩ := key st0 hg
      have : dv = t.device := by rcases h1 with h | h <;> simp [h, hc]
      obtain ⟨v, rfl⟩ := hhome s st0 hg
      rw [h2, this]
      rfl

example : readSite (saveUpTo noCast 3 (runOps noCast .empty [.new 2 1 "float64" .cpu (fun s => s.1)]) 0
    ⟨2, 1, "float64", .cpu, [(0, 0), (1, 0)], false, true⟩ "f") 0 (1, 0) = .ok (.fresh "float64" .cpu 1) := by
  rw [(C19_crash_keeps_values_partial noCast _ 0 ⟨2, 1, "float64", .cpu, [(0, 0), (1, 0)], false, true⟩ "f" 3
    (by
      intro s st hs
      simp only [runOps, List.foldl, NOp.run, newIpeps, get?_initSites] at hs
      split at hs
      · cases hs; exact ⟨_, rfl⟩
      · cases hs) (1, 0)).2.2 rfl]
  rfl

/-! ## C20 -/

/-- C20 fails: an `Ipeps` built from another one forgets the tensors it was given. -/
theorem C20_violated_given : ¬ Spec.GivenTensorsKept noCast := by
  intro h
  have := h [.new 1 1 "float64" .cpu (fun _ => 1)] 0 1 1 "float64" .cpu (fun _ => 2) (0, 0) (by decide)
  exact absurd (okT_inj this) (by decide)

/-- C20, new networks: as long as a new `Ipeps` has not been evolved, loaded or saved, whatever else happens in the
process, evolution starts from the product state of the model on every site of the cell. -/
theorem C20_new_starts_from_product_state_partial (cast : DType → DType → V → V) (w : World V) (nx ny : ℕ) (dt : DType)
    (dv : Dev) (f0 : Site → V) (ops : List (NOp V))
    (hops : ∀ op ∈ ops, ∀ file f g, op ≠ .save w.tns.length file ∧ op ≠ .load w.tns.length file ∧
      op ≠ .evolve w.tns.length f g) :
    let i := w.tns.length
    let w1 := runOps cast ((NOp.new nx ny dt dv f0).run cast w) ops
    ∃ t, w1.tns[i]? = some t ∧ t.isIpeps = true ∧ ∀ (f : Site → V) (s : Site), s.1 < nx → s.2 < ny →
      readSite (evolveStart w1 i t f) i s = .ok (.fresh dt dv (f s)) := by
  intro i w1
  have ht : ((NOp.new nx ny dt dv f0).run cast w).tns[i]?
      = some ⟨nx, ny, dt, dv, buildSiteList nx ny, false, true⟩ := by
    simp only [NOp.run, newIpeps, (initSites_tns ..).1]
    simp [i]
  obtain ⟨t', h1, _, _, _, _, _, _, h7⟩ := tns_runOps (cast := cast) ops _ i _ ht
  have e := h7 (by
    intro op hop hm
    cases op with
    | save j file => cases hm; exact (hops _ hop file (fun _ => f0 (0, 0)) (fun _ v => v)).1 rfl
    | load j file => cases hm; exact (hops _ hop file (fun _ => f0 (0, 0)) (fun _ v => v)).2.1 rfl
    | evolve j f g => cases hm; exact (hops _ hop "" f g).2.2 rfl
    | _ => exact hm)
  refine ⟨t', h1, by rw [e], fun f s hx hy => ?_⟩
  subst e
  have : s ∈ buildSiteList nx ny := by simp [mem_buildSiteList, hx, hy]
  simp [readSite, World.getItem, evolveStart, World.setTn, get?_initSites, this]

/-- C20, later calls: once an `Ipeps` has been evolved or has loaded a file, whatever happens afterwards, its next
evolution starts from the tensors as they are. -/
theorem C20_continues_partial (cast : DType → DType → V → V) (w : World V) (i : ℕ) (t : Tn) (ht : w.tns[i]? = some t)
    (hip : t.isIpeps = true) (op : NOp V)
    (hop : (∃ f g, op = .evolve i f g) ∨ (∃ file, op = .load i file ∧ (w.files file).isSome))
    (ops : List (NOp V)) :
    let w1 := runOps cast (op.run cast w) ops
    ∃ t', w1.tns[i]? = some t' ∧ ∀ f, evolveStart w1 i t' f = w1 := by
  intro w1
  have hi : i < w.tns.length := (List.getElem?_eq_some_iff.1 ht).1
  have h1 : ∃ t1, (op.run cast w).tns[i]? = some t1 ∧ t1.initialized = true := by
    rcases hop with ⟨f, g, rfl⟩ | ⟨file, rfl, hf⟩
    · simp only [NOp.run, ht, hip, if_true, (mapSites_tns ..).1, evolveStart]
      split
      · next h => exact ⟨t, ht, h⟩
      · exact ⟨_, by rw [World.setTn, (initSites_tns ..).1, List.getElem?_set_self hi], rfl⟩
    · obtain ⟨d, hd⟩ := Option.isSome_iff_exists.1 hf
      simp only [NOp.run, ht, tnLoad, hd, Except.toOption, Option.getD_some, World.setTn, (loadItems_tns ..).1]
      exact ⟨_, by rw [List.getElem?_set_self hi], rfl⟩
  obtain ⟨t1, ht1, hinit⟩ := h1
  obtain ⟨t2, ht2, _, _, _, _, _, h6, _⟩ := tns_runOps (cast := cast) ops _ i t1 ht1
  have e := h6 hinit
  subst e
  exact ⟨t2, ht2, fun f => by simp [evolveStart, hinit]⟩

theorem get?_mapSites (g : Site → V → V) (ss : List Site) (hss : ss.Nodup) (w : World V) (s : Site) :
    (mapSites g ss w).dict.get? s = if s ∈ ss then
      (w.dict.get? s).map (fun st => { st with t := { st.t with val := g s st.t.val } }) else w.dict.get? s := by
  induction ss generalizing w with
  | nil => simp [mapSites]
  | cons a ss ih =>
    obtain ⟨ha, hss⟩ := List.nodup_cons.1 hss
    simp only [mapSites]
    cases hg : w.dict.get? a with
    | none =>
      dsimp only
      rw [ih hss]
      by_cases h : s = a
      · subst h; simp [ha, hg]
      · simp [h]
    | some st =>
      dsimp only
      rw [ih hss]
      by_cases h : s = a
      · subst h; simp [ha, hg, World.setItem, PyDict.get?_set_self]
      · have h' : a ≠ s := fun e => h e.symm
        simp [h, World.setItem, PyDict.get?_set_ne _ _ h']

/-- C20, the first call: whatever object is not marked as initialised, also one constructed from another network with
another unit cell, `evolve` works on every site of its own cell, starting from the product state, and on no other site. -/
theorem C20_first_evolve_partial (cast : DType → DType → V → V) (w : World V) (i : ℕ) (t : Tn) (ht : w.tns[i]? = some t)
    (hip : t.isIpeps = true) (hinit : t.initialized = false) (f : Site → V) (g : Site → V → V) (s : Site) :
    readSite ((NOp.evolve i f g).run cast w) i s =
      if s.1 < t.nx ∧ s.2 < t.ny then .ok (.fresh t.dtype t.device (g s (f s))) else readSite w i s := by
  have hm : s ∈ buildSiteList t.nx t.ny ↔ s.1 < t.nx ∧ s.2 < t.ny := by simp [mem_buildSiteList]
  simp only [NOp.run, ht, hip, hinit, if_true, readSite, World.getItem, get?_mapSites _ _ (nodup_buildSiteList _ _),
    Bool.false_eq_true, if_false, evolveStart, World.setTn, get?_initSites, hm]
  by_cases h : s.1 < t.nx ∧ s.2 < t.ny
  · simp [h, SiteT.fresh]
  · simp [h]

example : readSite ((NOp.evolve 1 (fun _ => 3) (fun _ v => v + 1)).run noCast
    (runOps noCast .empty [.new 1 1 "float64" .cpu (fun _ => 1), .newFrom 0 1 2 "float64" .cpu])) 1 (0, 1) =
      .ok (.fresh "float64" .cpu 4) :=
  (C20_first_evolve_partial noCast _ 1 ⟨1, 2, "float64", .cpu, buildSiteList 1 1, false, true⟩ rfl rfl rfl _ _ _).trans rfl

example : ∃ t, (runOps noCast .empty [.new 1 2 "float64" .cpu (fun _ => 1), .assign 0 (0, 1) st7]).tns[0]? = some t ∧
    readSite (evolveStart (runOps noCast .empty [.new 1 2 "float64" .cpu (fun _ => 1), .assign 0 (0, 1) st7]) 0 t
      (fun s => s.2 + 10)) 0 (0, 1) = .ok (.fresh "float64" .cpu 11) := by
  obtain ⟨t, h1, _, h2⟩ := C20_new_starts_from_product_state_partial noCast .empty 1 2 "float64" .cpu (fun _ => 1)
    [.assign 0 (0, 1) st7] (by simp)
  exact ⟨t, h1, h2 _ (0, 1) (by decide) (by decide)⟩

example : ∃ t', (runOps noCast ((NOp.evolve 0 (fun _ => 3) (fun _ v => v + 1)).run noCast
      (runOps noCast .empty [.new 1 2 "float64" .cpu (fun _ => 1)])) [.measure 0]).tns[0]? = some t' := by
  obtain ⟨t', h, _⟩ := C20_continues_partial noCast (runOps noCast .empty [.new 1 2 "float64" .cpu (fun _ => 1)]) 0
    ⟨1, 2, "float64", .cpu, buildSiteList 1 2, false, true⟩ rfl rfl _ (Or.inl ⟨fun _ => 3, fun _ v => v + 1, rfl⟩)
    [.measure 0]
  exact ⟨t', h⟩

end
end AceTN
