import Verif.Spec.Config
import Mathlib.Tactic.NormNum

/-! C23: configuration fallbacks. -/

set_option autoImplicit false

namespace AceTN.Cfg

theorem mapM_fields (kw : PyDict String Val) (fields : List (String × Option Val)) (d : PyDict String Val)
    (h : fields.mapM (fun f => (match kw.get? f.1 with
      | some v => .ok (f.1, v)
      | none =>
        match f.2 with
        | some v => .ok (f.1, v)
        | none => .error .typeError : Except PyErr (String × Val))) = .ok d)
    (hnd : (fields.map Prod.fst).Nodup) (f : String × Option Val) (hf : f ∈ fields) :
    d.get? f.1 = (kw.get? f.1).or f.2 ∧ (d.get? f.1).isSome := by
  induction fields generalizing d with
  | nil => cases hf
  | cons g gs ih =>
    simp only [List.mapM_cons] at h
    cases hg : (match kw.get? g.1 with
      | some v => .ok (g.1, v)
      | none =>
        match g.2 with
        | some v => .ok (g.1, v)
        | none => .error .typeError : Except PyErr (String × Val)) with
    | error e => rw [hg] at h; cases h
    | ok x =>
      rw [hg] at h
      cases hr : gs.mapM (fun f => (match kw.get? f.1 with
        | some v => .ok (f.1, v)
        | none =>
          match f.2 with
          | some v => .ok (f.1, v)
          | none => .error .typeError : Except PyErr (String × Val))) with
      | error e => rw [hr] at h; cases h
      | ok d' =>
        rw [hr] at h
        have hd : x :: d' = d := Except.ok.inj h
        subst hd
        have hx : x.1 = g.1 ∧ some x.2 = (kw.get? g.1).or g.2 := by
          cases e : kw.get? g.1 with
          | some v => rw [e] at hg; cases hg; exact ⟨rfl, rfl⟩
          | none =>
            rw [e] at hg
            cases e2 : g.2 with
            | some v => simp only [e2] at hg; cases hg; exact ⟨rfl, rfl⟩
            | none => simp only [e2] at hg; cases hg
        rw [List.map_cons, List.nodup_cons] at hnd
        rcases List.mem_cons.1 hf with rfl | hf
        · obtain ⟨x1, x2⟩ := x
          simp only at hx
          simp [PyDict.get?, hx.1, ← hx.2]
        · have hne : g.1 ≠ f.1 := fun e => hnd.1 (e ▸ List.mem_map_of_mem hf)
          obtain ⟨x1, x2⟩ := x
          simp only at hx
          have := ih d' hr hnd.2 hf
          simpa [PyDict.get?, hx.1, hne] using this

theorem dataclass_get (fields : List (String × Option Val)) (hnd : (fields.map Prod.fst).Nodup)
    (kw d : PyDict String Val) (h : dataclass fields kw = .ok d) (f : String × Option Val) (hf : f ∈ fields) :
    d.get? f.1 = (kw.get? f.1).or f.2 ∧ (d.get? f.1).isSome := by
  unfold dataclass at h
  split at h
  · exact mapM_fields kw fields d h hnd f hf
  · cases h

theorem dataclass_known (fields : List (String × Option Val)) (kw d : PyDict String Val)
    (h : dataclass fields kw = .ok d) (k : String) (v : Val) (hk : kw.get? k = some v) :
    k ∈ fields.map Prod.fst := by
  unfold dataclass at h
  split at h
  · next hall =>
    have : k ∈ kw.keys := (PyDict.get?_isSome_iff kw k).1 (by simp [hk])
    obtain ⟨p, hp, rfl⟩ := List.mem_map.1 this
    have := List.all_eq_true.1 hall p hp
    simpa using this
  · cases h

theorem dataclass_kept (fields : List (String × Option Val)) (hnd : (fields.map Prod.fst).Nodup)
    (kw d : PyDict String Val) (h : dataclass fields kw = .ok d) (k : String) (v : Val) (hk : kw.get? k = some v) :
    d.get? k = some v := by
  obtain ⟨f, hf, rfl⟩ := List.mem_map.1 (dataclass_known fields kw d h k v hk)
  rw [(dataclass_get fields hnd kw d h f hf).1, hk]
  rfl

theorem bind_ok {ε α β : Type} {x : Except ε α} {f : α → Except ε β} {b : β} (h : x.bind f = .ok b) :
    ∃ a, x = .ok a ∧ f a = .ok b := by
  cases x with
  | error e => cases h
  | ok a => exact ⟨a, rfl, h⟩

theorem attr_ok {d : PyDict String Val} {k : String} {v : Val} (h : attr d k = .ok v) : d.get? k = some v := by
  unfold attr at h
  split at h
  · next w e => rw [e, Except.ok.inj h]
  · cases h

theorem unpack_ok {v : Val} {d : PyDict String Val} (h : unpack v = .ok d) : v = .dict d := by
  cases v <;> simp only [unpack] at h <;> cases h
  rfl

/-- What a successful construction says. -/
structure Parts (mc : Machine) (config : PyDict String Val) (c : Config) : Prop where
  dtype : ∃ v, ((config.get? "dtype").or (some (.str "float64"))) = some v ∧ setDtype mc v = .ok c.dtype
  device : ∃ v, ((config.get? "device").or (some (.str "cpu"))) = some v ∧ setDevice mc v = .ok c.device
  tn : dataclass tnFields (Spec.section? config "TN") = .ok c.TN
  ctmrg : ∃ d, dataclass ctmrgFields (Spec.section? config "ctmrg") = .ok d ∧ c.ctmrg = slurmPbar mc d
  evolution : ∃ d, dataclass evolutionFields (Spec.section? config "evolution") = .ok d ∧
    c.evolution = slurmPbar mc (validateBackend mc d)
  model : ∃ dim, physDim c.TN = .ok dim ∧
    mkModelConfig c.dtype c.device dim (Spec.section? config "model") = .ok c.model

theorem ipepsFields_nodup : (ipepsFields.map Prod.fst).Nodup := by decide
theorem tnFields_nodup : (tnFields.map Prod.fst).Nodup := by decide
theorem ctmrgFields_nodup : (ctmrgFields.map Prod.fst).Nodup := by decide
theorem evolutionFields_nodup : (evolutionFields.map Prod.fst).Nodup := by decide
theorem modelFields_nodup : (modelFields.map Prod.fst).Nodup := by decide

theorem section_of {config top : PyDict String Val} (ht : dataclass ipepsFields config = .ok top) {name : String}
    {o : Option Val} (hf : (name, o) ∈ ipepsFields) (ho : o = none ∨ o = some (.dict [])) {d : PyDict String Val}
    (h : top.get? name = some (.dict d)) : Spec.section? config name = d := by
  have := (dataclass_get ipepsFields ipepsFields_nodup config top ht _ hf).1
  rw [h] at this
  simp only [Spec.section?]
  cases e : config.get? name with
  | none =>
    rw [e] at this
    rcases ho with rfl | rfl
    · cases this
    · simp only [Option.none_or, Option.some.injEq, Val.dict.injEq] at this
      exact this.symm
  | some v => rw [e] at this; simp only [Option.some_or, Option.some.injEq] at this; rw [← this]

theorem mkConfig_parts {mc : Machine} {config : PyDict String Val} {c : Config} (h : mkConfig mc config = .ok c) :
    Parts mc config c := by
  obtain ⟨top, ht, h⟩ := bind_ok h
  obtain ⟨dtype, h1, h⟩ := bind_ok h
  obtain ⟨device, h2, h⟩ := bind_ok h
  obtain ⟨tn, h3, h⟩ := bind_ok h
  obtain ⟨ctm, h4, h⟩ := bind_ok h
  obtain ⟨ev, h5, h⟩ := bind_ok h
  obtain ⟨dim, h6, h⟩ := bind_ok h
  obtain ⟨mkw, h7, h⟩ := bind_ok h
  obtain ⟨model, h8, h⟩ := bind_ok h
  have hc := Except.ok.inj h
  subst hc
  have hget := fun f hf => (dataclass_get ipepsFields ipepsFields_nodup config top ht f hf).1
  refine ⟨?_, ?_, ?_, ?_, ?_, ?_⟩
  · obtain ⟨v, hv, hv'⟩ := bind_ok h1
    exact ⟨v, by rw [← attr_ok hv]; exact (hget ("dtype", some (.str "float64")) (by simp [ipepsFields])).symm, hv'⟩
  · obtain ⟨v, hv, hv'⟩ := bind_ok h2
    exact ⟨v, by rw [← attr_ok hv]; exact (hget ("device", some (.str "cpu")) (by simp [ipepsFields])).symm, hv'⟩
  · obtain ⟨d, hd, hd'⟩ := bind_ok h3
    obtain ⟨w, hw, hw'⟩ := bind_ok hd
    have := attr_ok hw
    rw [unpack_ok hw'] at this
    rw [section_of ht (name := "TN") (o := none) (by simp [ipepsFields]) (Or.inl rfl) this]
    exact hd'
  · obtain ⟨d, hd, hd'⟩ := bind_ok h4
    obtain ⟨w, hw, hw'⟩ := bind_ok hd
    have := attr_ok hw
    rw [unpack_ok hw'] at this
    rw [section_of ht (name := "ctmrg") (by simp [ipepsFields]) (Or.inr rfl) this]
    exact ⟨ctm, hd', rfl⟩
  · obtain ⟨d, hd, hd'⟩ := bind_ok h5
    obtain ⟨w, hw, hw'⟩ := bind_ok hd
    have := attr_ok hw
    rw [unpack_ok hw'] at this
    rw [section_of ht (name := "evolution") (by simp [ipepsFields]) (Or.inr rfl) this]
    exact ⟨ev, hd', rfl⟩
  · obtain ⟨w, hw, hw'⟩ := bind_ok h7
    have := attr_ok hw
    rw [unpack_ok hw'] at this
    rw [section_of ht (name := "model") (by simp [ipepsFields]) (Or.inr rfl) this]
    exact ⟨dim, h6, h8⟩

theorem get?_slurmPbar (mc : Machine) (d : PyDict String Val) (k : String)
    (h : k ≠ "disable_progressbar" ∨ mc.slurm = false) : (slurmPbar mc d).get? k = d.get? k := by
  unfold slurmPbar
  split
  · next hs =>
    rcases h with h | h
    · exact PyDict.get?_set_ne d _ (Ne.symm h)
    · rw [h] at hs; cases hs
  · rfl

theorem get?_validateBackend (mc : Machine) (d : PyDict String Val) (k : String) (h : k ≠ "backend") :
    (validateBackend mc d).get? k = d.get? k := by
  unfold validateBackend
  split
  · split
    · exact PyDict.get?_set_ne d _ (Ne.symm h)
    · rfl
  · rfl

/-- C23, backend: a finished configuration never selects the cuTENSOR backend on a machine without the extension, and
keeps every other choice. -/
theorem C23_backend (mc : Machine) (config : PyDict String Val) (c : Config) (h : mkConfig mc config = .ok c) :
    (c.evolution.get? "backend" = some (.str "cutensor") → mc.cutensor = true) ∧
    (∀ v, (Spec.section? config "evolution").get? "backend" = some v → (v = .str "cutensor" → mc.cutensor = true) →
      c.evolution.get? "backend" = some v) ∧
    ((Spec.section? config "evolution").get? "backend" = some (.str "cutensor") → mc.cutensor = false →
      c.evolution.get? "backend" = some (.str "torch")) := by
  obtain ⟨d, hd, hc⟩ := (mkConfig_parts h).evolution
  rw [hc, get?_slurmPbar _ _ _ (Or.inl (by decide))]
  refine ⟨?_, ?_, ?_⟩
  · unfold validateBackend
    split
    · next s e =>
      split
      · rw [PyDict.get?_set_self]; intro h; simp at h
      · next hn =>
        intro h
        rw [e] at h
        have : s = "cutensor" := by simpa using h
        by_contra hx
        exact hn ⟨this, by simpa using hx⟩
    · next hn => intro h; exact absurd h (hn _)
  · intro v hv hx
    have hk := dataclass_kept _ evolutionFields_nodup _ _ hd _ _ hv
    unfold validateBackend
    rw [hk]
    cases v with
    | str s =>
      simp only
      split
      · next hs =>
        obtain ⟨rfl, h2⟩ := hs
        rw [hx rfl] at h2; cases h2
      · exact hk
    | _ => exact hk
  · intro hv hm
    have hk := dataclass_kept _ evolutionFields_nodup _ _ hd _ _ hv
    unfold validateBackend
    rw [hk]
    simp [hm, PyDict.get?_set_self]

/-- C23, data type: missing or `None` means float64; a documented name is honoured; a `torch.dtype` is kept; the model
is built with the same type and device as the network. -/
theorem C23_dtype (mc : Machine) (ht : Spec.TorchOk mc) (config : PyDict String Val) (c : Config)
    (h : mkConfig mc config = .ok c) :
    (config.get? "dtype" = none ∨ config.get? "dtype" = some .none → c.dtype = .dtype "float64") ∧
    (∀ s, s = "float64" ∨ s = "float32" → config.get? "dtype" = some (.str s) → c.dtype = .dtype s) ∧
    (∀ s, config.get? "dtype" = some (.dtype s) → c.dtype = .dtype s) ∧
    c.model.get? "dtype" = some c.dtype ∧ c.model.get? "device" = some c.device := by
  obtain ⟨v, hv, hv'⟩ := (mkConfig_parts h).dtype
  refine ⟨?_, ?_, ?_, ?_⟩
  · rintro (e | e)
    · rw [e] at hv; cases hv
      simp only [setDtype, ht.f64] at hv'
      exact (Except.ok.inj hv').symm
    · rw [e] at hv; cases hv
      exact (Except.ok.inj hv').symm
  · rintro s (rfl | rfl) e
    · rw [e] at hv; cases hv
      simp only [setDtype, ht.f64] at hv'
      exact (Except.ok.inj hv').symm
    · rw [e] at hv; cases hv
      simp only [setDtype, ht.f32] at hv'
      exact (Except.ok.inj hv').symm
  · intro s e
    rw [e] at hv; cases hv
    exact (Except.ok.inj hv').symm
  · obtain ⟨dim, _, hm⟩ := (mkConfig_parts h).model
    unfold mkModelConfig at hm
    split at hm
    · cases hm
    · exact ⟨dataclass_kept _ modelFields_nodup _ _ hm _ _ rfl, dataclass_kept _ modelFields_nodup _ _ hm _ _ rfl⟩

/-- C23, the model: it is built with the physical dimension of the network. -/
theorem C23_model_dim (mc : Machine) (config : PyDict String Val) (c : Config) (h : mkConfig mc config = .ok c) :
    ∃ d v, c.TN.get? "dims" = some (.dict d) ∧ PyDict.get? d "phys" = some v ∧ c.model.get? "dim" = some v := by
  obtain ⟨dim, hd, hm⟩ := (mkConfig_parts h).model
  unfold physDim at hd
  split at hd
  · next d e =>
    refine ⟨d, dim, e, ?_, ?_⟩
    · unfold PyDict.getItem at hd
      split at hd
      · next v e' => rw [e', Except.ok.inj hd]
      · cases hd
    · unfold mkModelConfig at hm
      split at hm
      · cases hm
      · exact dataclass_kept _ modelFields_nodup _ _ hm _ _ rfl
  · cases hd

/-- C23, device, for the documented values `"cpu"`, `"cuda"`, a missing setting and `None`: the device is usable; a
missing setting means the CPU; `"cpu"` is honoured; `"cuda"` and `None` mean CUDA exactly when there is CUDA.
Missing: device strings with an index (false, see `C23_violated`). -/
theorem C23_device_partial (mc : Machine) (ht : Spec.TorchOk mc) (config : PyDict String Val) (c : Config)
    (h : mkConfig mc config = .ok c) :
    (config.get? "device" = none ∨ config.get? "device" = some (.str "cpu") → c.device = .device ⟨"cpu", none⟩) ∧
    (config.get? "device" = some .none ∨ config.get? "device" = some (.str "cuda") ∨
        config.get? "device" = some (.device ⟨"cuda", none⟩) →
      c.device = .device ⟨if mc.cuda then "cuda" else "cpu", none⟩) ∧
    (config.get? "device" ∈ [none, some .none, some (.str "cpu"), some (.str "cuda")] → Spec.Usable mc c.device) := by
  obtain ⟨v, hv, hv'⟩ := (mkConfig_parts h).device
  have key1 : config.get? "device" = none ∨ config.get? "device" = some (.str "cpu") →
      c.device = .device ⟨"cpu", none⟩ := by
    rintro (e | e) <;> rw [e] at hv <;> cases hv <;>
      (simp only [setDevice, readDevice, ht.cpu, Except.map, cudaFallback] at hv'
       exact (Except.ok.inj hv').symm)
  have key2 : config.get? "device" = some .none ∨ config.get? "device" = some (.str "cuda") ∨
        config.get? "device" = some (.device ⟨"cuda", none⟩) →
      c.device = .device ⟨if mc.cuda then "cuda" else "cpu", none⟩ := by
    rintro (e | e | e) <;> rw [e] at hv <;> cases hv <;>
      (simp only [setDevice, readDevice, ht.cuda, Except.map, cudaFallback] at hv'
       have := Except.ok.inj hv'
       rw [← this]
       cases mc.cuda <;> rfl)
  refine ⟨key1, key2, fun hin => ?_⟩
  simp only [List.mem_cons, List.not_mem_nil, or_false] at hin
  rcases hin with e | e | e | e
  · rw [key1 (Or.inl e)]; exact Or.inl rfl
  · rw [key2 (Or.inl e)]
    cases hm : mc.cuda
    · exact Or.inl rfl
    · exact Or.inr ⟨rfl, hm⟩
  · rw [key1 (Or.inr e)]; exact Or.inl rfl
  · rw [key2 (Or.inr (Or.inl e))]
    cases hm : mc.cuda
    · exact Or.inl rfl
    · exact Or.inr ⟨rfl, hm⟩

/-- C23, documented defaults: every setting of the three sections that is not given has its documented default, the
three dimensions when `dims` is not given at all.  Missing: single dimensions left out of a given `dims` (false, see
`C23_violated`), the progress bars under SLURM. -/
theorem C23_defaults_partial (mc : Machine) (config : PyDict String Val) (c : Config) (h : mkConfig mc config = .ok c) :
    (∀ kv ∈ Spec.tnDefaults, (Spec.section? config "TN").get? kv.1 = none → c.TN.get? kv.1 = some kv.2) ∧
    ((Spec.section? config "TN").get? "dims" = none → c.TN.get? "dims" = some (.dict
      (Spec.dimDefaults.map fun kv => (kv.1, Val.int kv.2)))) ∧
    (∀ kv ∈ Spec.ctmrgDefaults, (kv.1 ≠ "disable_progressbar" ∨ mc.slurm = false) →
      (Spec.section? config "ctmrg").get? kv.1 = none → c.ctmrg.get? kv.1 = some kv.2) ∧
    (∀ kv ∈ Spec.evolutionDefaults, (kv.1 ≠ "disable_progressbar" ∨ mc.slurm = false) →
      (Spec.section? config "evolution").get? kv.1 = none → c.evolution.get? kv.1 = some kv.2) := by
  have hp := mkConfig_parts h
  have tnf : ∀ kv ∈ Spec.tnDefaults, (kv.1, some kv.2) ∈ tnFields := by
    simp [Spec.tnDefaults, tnFields]
  have ctf : ∀ kv ∈ Spec.ctmrgDefaults, (kv.1, some kv.2) ∈ ctmrgFields := by
    simp [Spec.ctmrgDefaults, ctmrgFields]; norm_num
  have evf : ∀ kv ∈ Spec.evolutionDefaults, (kv.1, some kv.2) ∈ evolutionFields := by
    simp [Spec.evolutionDefaults, evolutionFields]; norm_num
  refine ⟨fun kv hkv hn => ?_, fun hn => ?_, fun kv hkv hs hn => ?_, fun kv hkv hs hn => ?_⟩
  · have := (dataclass_get _ tnFields_nodup _ _ hp.tn _ (tnf kv hkv)).1
    rw [hn] at this; exact this
  · have := (dataclass_get _ tnFields_nodup _ _ hp.tn ("dims", _) (by simp [tnFields]; rfl)).1
    rw [hn] at this; exact this
  · obtain ⟨d, hd, hc⟩ := hp.ctmrg
    have := (dataclass_get _ ctmrgFields_nodup _ _ hd _ (ctf kv hkv)).1
    rw [hc, get?_slurmPbar _ _ _ hs, this, hn]; rfl
  · obtain ⟨d, hd, hc⟩ := hp.evolution
    have := (dataclass_get _ evolutionFields_nodup _ _ hd _ (evf kv hkv)).1
    rw [hn] at this
    rw [hc, get?_slurmPbar _ _ _ hs]
    by_cases e : kv.1 = "backend"
    · have hv : kv.2 = .str "torch" := by
        have : ∀ kv ∈ Spec.evolutionDefaults, kv.1 = "backend" → kv.2 = .str "torch" := by
          simp [Spec.evolutionDefaults]
        exact this kv hkv e
      simp only [Option.none_or] at this
      rw [e, hv] at this
      rw [e, hv]
      unfold validateBackend
      rw [this]
      simpa using this
    · rw [get?_validateBackend _ _ _ e, this]; rfl

/-- C23, explicit settings: whatever is given in a section is what the finished section says, apart from the backend
(`C23_backend`) and, under SLURM, the progress bars (false there, see `C23_violated`). -/
theorem C23_kept_partial (mc : Machine) (config : PyDict String Val) (c : Config) (h : mkConfig mc config = .ok c)
    (key : String) (v : Val) :
    ((Spec.section? config "TN").get? key = some v → c.TN.get? key = some v) ∧
    ((key ≠ "disable_progressbar" ∨ mc.slurm = false) → (Spec.section? config "ctmrg").get? key = some v →
      c.ctmrg.get? key = some v) ∧
    ((key ≠ "disable_progressbar" ∨ mc.slurm = false) → key ≠ "backend" →
      (Spec.section? config "evolution").get? key = some v → c.evolution.get? key = some v) ∧
    ((Spec.section? config "model").get? key = some v → c.model.get? key = some v) := by
  have hp := mkConfig_parts h
  refine ⟨fun hv => dataclass_kept _ tnFields_nodup _ _ hp.tn _ _ hv, fun hs hv => ?_, fun hs hb hv => ?_,
    fun hv => ?_⟩
  · obtain ⟨d, hd, hc⟩ := hp.ctmrg
    rw [hc, get?_slurmPbar _ _ _ hs]
    exact dataclass_kept _ ctmrgFields_nodup _ _ hd _ _ hv
  · obtain ⟨d, hd, hc⟩ := hp.evolution
    rw [hc, get?_slurmPbar _ _ _ hs, get?_validateBackend _ _ _ hb]
    exact dataclass_kept _ evolutionFields_nodup _ _ hd _ _ hv
  · obtain ⟨dim, _, hm⟩ := hp.model
    unfold mkModelConfig at hm
    split at hm
    · cases hm
    · next hany =>
      refine dataclass_kept _ modelFields_nodup _ _ hm _ _ ?_
      have hmem : key ∈ PyDict.keys (Spec.section? config "model") :=
        (PyDict.get?_isSome_iff _ key).1 (by simp [hv])
      obtain ⟨p, hp, rfl⟩ := List.mem_map.1 hmem
      have : ¬ ((p.1 == "dtype" || p.1 == "device" || p.1 == "dim") = true) := fun hx =>
        hany (List.any_eq_true.2 ⟨p, hp, hx⟩)
      simp only [Bool.or_eq_true, beq_iff_eq, not_or] at this
      simp [PyDict.get?, Ne.symm this.1.1, Ne.symm this.1.2, Ne.symm this.2, hv]

/-- **C23 (progress bars).** In a SLURM job the progress bars are hidden exactly if the job is not interactive. -/
theorem C23_progressbar (mc : Machine) (config : PyDict String Val) (c : Config) (h : mkConfig mc config = .ok c)
    (hs : mc.slurm = true) :
    c.ctmrg.get? "disable_progressbar" = some (.bool (!mc.slurmInteractive)) ∧
    c.evolution.get? "disable_progressbar" = some (.bool (!mc.slurmInteractive)) := by
  obtain ⟨d, _, hd⟩ := (mkConfig_parts h).ctmrg
  obtain ⟨d', _, hd'⟩ := (mkConfig_parts h).evolution
  rw [hd, hd']
  simp only [slurmPbar, hs, if_true]
  exact ⟨PyDict.get?_set_self _ _ _, PyDict.get?_set_self _ _ _⟩

/-- C23, misspelt settings: an unknown setting in a section is a `TypeError`, nothing is silently ignored. -/
theorem C23_unknown_setting (mc : Machine) (config : PyDict String Val) (key : String) (v : Val)
    (h : config.get? key = some v ∧ key ∉ ["TN", "dtype", "device", "ctmrg", "evolution", "model"] ∨
      (Spec.section? config "TN").get? key = some v ∧ key ∉ ["nx", "ny", "dims"] ∨
      (Spec.section? config "ctmrg").get? key = some v ∧ key ∉ Spec.ctmrgDefaults.map Prod.fst ∨
      (Spec.section? config "evolution").get? key = some v ∧ key ∉ Spec.evolutionDefaults.map Prod.fst ∨
      (Spec.section? config "model").get? key = some v ∧ key ∉ ["name", "params"]) :
    ¬ ∃ c, mkConfig mc config = .ok c := by
  rintro ⟨c, hc⟩
  have hp := mkConfig_parts hc
  rcases h with h | h | h | h | h
  · obtain ⟨top, ht, -⟩ := bind_ok hc
    exact h.2 (dataclass_known _ _ _ ht key v h.1)
  · exact h.2 (dataclass_known _ _ _ hp.tn key v h.1)
  · obtain ⟨d, hd, -⟩ := hp.ctmrg
    exact h.2 (dataclass_known _ _ _ hd key v h.1)
  · obtain ⟨d, hd, -⟩ := hp.evolution
    exact h.2 (dataclass_known _ _ _ hd key v h.1)
  · obtain ⟨dim, _, hm⟩ := hp.model
    unfold mkModelConfig at hm
    split at hm
    · cases hm
    · next hany =>
      have hmem : key ∈ PyDict.keys (Spec.section? config "model") :=
        (PyDict.get?_isSome_iff _ key).1 (by simp [h.1])
      obtain ⟨p, hp, rfl⟩ := List.mem_map.1 hmem
      have hx : ¬ ((p.1 == "dtype" || p.1 == "device" || p.1 == "dim") = true) := fun hx =>
        hany (List.any_eq_true.2 ⟨p, hp, hx⟩)
      simp only [Bool.or_eq_true, beq_iff_eq, not_or] at hx
      have hk := dataclass_known _ _ _ hm p.1 v (by
        simp [PyDict.get?, Ne.symm hx.1.1, Ne.symm hx.1.2, Ne.symm hx.2, h.1])
      have : p.1 ∈ ["dtype", "device", "dim", "name", "params"] := hk
      simp only [List.mem_cons, List.not_mem_nil, or_false] at this h
      tauto

/-- A machine without CUDA and without the extension. -/
def plainMachine : Machine where
  cuda := false
  cutensor := false
  torchAttr s := if s = "float64" ∨ s = "float32" then some (.dtype s) else none
  parseDevice s := if s = "cuda:0" then some ⟨"cuda", some 0⟩ else some ⟨s, none⟩
  slurm := true
  slurmInteractive := true

/-- C23 in full is false in three ways: `"cuda:0"` is kept on a machine without CUDA; naming one dimension loses the
documented default of another; an interactive SLURM job overrides an explicit `disable_progressbar = true`. -/
theorem C23_violated :
    (∃ config c, mkConfig plainMachine config = .ok c ∧ ¬ Spec.Usable plainMachine c.device) ∧
    (∃ config c, mkConfig plainMachine config = .ok c ∧ ∃ d, c.TN.get? "dims" = some (.dict d) ∧
      PyDict.get? d "chi" = none) ∧
    (∃ config c, mkConfig plainMachine config = .ok c ∧ ¬ Spec.Kept config "ctmrg" c.ctmrg) := by
  refine ⟨⟨[("TN", .dict []), ("device", .str "cuda:0")], _, rfl, ?_⟩,
    ⟨[("TN", .dict [("dims", .dict [("phys", .int 2), ("bond", .int 3)])])], _, rfl, _, rfl, rfl⟩,
    ⟨[("TN", .dict []), ("ctmrg", .dict [("disable_progressbar", .bool true)])], _, rfl, ?_⟩⟩
  · rintro (h | ⟨-, h⟩)
    · exact absurd h (by decide)
    · cases h
  · intro h
    have : some (Val.bool false) = some (Val.bool true) := h "disable_progressbar" (.bool true) rfl
    cases this

example : Spec.TorchOk plainMachine := ⟨rfl, rfl, rfl, rfl⟩

example : ∃ c, mkConfig plainMachine [("TN", .dict [("nx", .int 3)]), ("device", .str "cuda"),
    ("evolution", .dict [("backend", .str "cutensor"), ("als_niter", .int 7)])] = .ok c ∧
    c.device = .device ⟨"cpu", none⟩ := ⟨_, rfl, rfl⟩

end AceTN.Cfg
