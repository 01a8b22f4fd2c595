import Verif.Lemmas.SiteTensor

/-! C21: site tensors as checked records, independence of copies. -/

set_option autoImplicit false

namespace AceTN.ST

section
variable {V : Type} {cast : DType → DType → V → V}

/-! ## Theorems -/

/-- C21: reading a component returns the value last assigned, each tensor converted to the object's type and device
(values kept if the type is the same); the other components and all other objects read as before.  The assigned tensors
may be any existing tensors, including the object's own. -/
theorem C21_read_over_write (cast : DType → DType → V → V) (m : Mem V) (hm : WF m) (i : ℕ) (o : Obj)
    (ho : m.objs[i]? = some o) (key : String) (k : Key) (hk : keyOf key = .ok k) (vals : List ℕ)
    (hv : ∀ v ∈ vals, v < m.next) :
    ∃ m', (Op.set i key vals).run cast m = .ok m' ∧ WF m' ∧
      (∃ ts, read m' i key = .ok ts ∧ ts.length = vals.length ∧ ∀ (n : ℕ) (t : Tens V) (v : ℕ), ts[n]? = some t → vals[n]? = some v →
        t.dtype = o.dtype ∧ t.device = o.device ∧
        t.val = if (m.heap v).dtype = o.dtype then (m.heap v).val
          else cast (m.heap v).dtype o.dtype (m.heap v).val) ∧
      (∀ key' , key' ≠ key → read m' i key' = read m i key') ∧
      (∀ j, j ≠ i → ∀ key', read m' j key' = read m j key') := by
  obtain ⟨h1, h2, h3, h4, h5⟩ := cloneAll_spec (cast := cast) o.dtype o.device vals m hv
  have hi : i < m.objs.length := (List.getElem?_eq_some_iff.1 ho).1
  refine ⟨setKey cast m i o k vals, by simp [Op.run, ho, hk], wf_setKey hm ho k vals hv, ?_, ?_, ?_⟩
  · refine ⟨(cloneAll cast o.dtype o.device vals m).1.map (cloneAll cast o.dtype o.device vals m).2.heap, ?_, ?_, ?_⟩
    · simp [read, hk, setKey, h1, List.getElem?_set_self hi, refs_setRefs]
    · rw [h4]; simp
    · intro n t v ht hv
      rw [h4, List.getElem?_map, hv] at ht
      simp only [Option.map_some, Option.some.injEq] at ht
      subst ht
      exact ⟨rfl, rfl, rfl⟩
  · intro key' hne
    cases hk' : keyOf key' with
    | error e => simp [read, hk', setKey, h1, List.getElem?_set_self hi, ho]
    | ok k' =>
      have hkk : k ≠ k' := by
        rintro rfl
        exact hne (keyOf_inj hk' hk)
      simp only [read, hk', setKey, h1, List.getElem?_set_self hi, ho, refs_setRefs, hkk, if_false]
      congr 1
      apply List.map_congr_left
      intro x hx
      exact h3 x (hm o (List.mem_of_getElem? ho) k' x hx)
  · intro j hj key'
    simp only [read, setKey, h1, List.getElem?_set_ne (Ne.symm hj)]
    cases hoj : m.objs[j]? with
    | none => rfl
    | some oj =>
      cases hk' : keyOf key' with
      | error e => rfl
      | ok k' =>
        simp only
        congr 1
        apply List.map_congr_left
        intro x hx
        exact h3 x (hm oj (List.mem_of_getElem? hoj) k' x hx)

/-- C21: a key other than A, C, E raises `ValueError`, for reading and for assigning; an assignment that raises
changes nothing. -/
theorem C21_unknown_key (cast : DType → DType → V → V) (m : Mem V) (i : ℕ) (o : Obj) (ho : m.objs[i]? = some o)
    (key : String) (hA : key ≠ "A") (hC : key ≠ "C") (hE : key ≠ "E") (vals : List ℕ) :
    read m i key = .error .valueError ∧ (Op.set i key vals).run cast m = .error .valueError ∧
      runAll cast m [.set i key vals] = m := by
  have hk : keyOf key = .error .valueError := by simp [keyOf, hA, hC, hE]
  have hs : (Op.set i key vals).run cast m = .error .valueError := by simp [Op.run, ho, hk]
  refine ⟨by simp [read, ho, hk], hs, ?_⟩
  simp only [runAll, List.foldl, hs]
  rfl

/-- C21: right after copying, the copy reads the same as the original (for tensors of the object's own type and
device), and nothing that existed before has changed. -/
theorem C21_copy_reads_same (cast : DType → DType → V → V) (m : Mem V) (hm : WF m) (i : ℕ) (o : Obj)
    (ho : m.objs[i]? = some o) :
    ∃ m', (Op.copy i).run cast m = .ok m' ∧ WF m' ∧
      (∀ j < m.objs.length, ∀ key, read m' j key = read m j key) ∧
      (∀ key ts, read m i key = .ok ts → (∀ t ∈ ts, t.dtype = o.dtype ∧ t.device = o.device) →
        read m' m.objs.length key = .ok ts) := by
  have hol := List.mem_of_getElem? ho
  obtain ⟨o', h1, h2, h3, h4, h5, h6⟩ := copyObj_spec (cast := cast) m o o.dtype o.device (hm o hol)
  refine ⟨copyObj cast m o o.dtype o.device, by simp [Op.run, ho], ?_, ?_, ?_⟩
  · intro x hx k a ha
    rw [h1] at hx
    rcases List.mem_append.1 hx with hx | hx
    · exact Nat.lt_of_lt_of_le (hm x hx k a ha) h2
    · rw [List.mem_singleton.1 hx] at ha; exact ((h6 k).2 a ha).2
  · intro j hj key
    simp only [read, h1, List.getElem?_append_left hj]
    cases hoj : m.objs[j]? with
    | none => rfl
    | some oj =>
      cases hk : keyOf key with
      | error e => rfl
      | ok k =>
        simp only
        congr 1
        apply List.map_congr_left
        intro x hx
        exact h3 x (hm oj (List.mem_of_getElem? hoj) k x hx)
  · intro key ts hts hhome
    simp only [read, ho] at hts
    simp only [read, h1, List.getElem?_append_right (Nat.le_refl _), Nat.sub_self, List.getElem?_cons_zero]
    cases hk : keyOf key with
    | error e => rw [hk] at hts; cases hts
    | ok k =>
      rw [hk] at hts
      simp only [Except.ok.injEq] at hts ⊢
      rw [(h6 k).1]
      rw [← hts]
      apply List.map_congr_left
      intro x hx
      obtain ⟨e1, e2⟩ := hhome (m.heap x) (by rw [← hts]; exact List.mem_map_of_mem hx)
      rw [← e1, ← e2]
      simp [Tens.conv]

/-- C21: `to(dtype, device)` makes a new object with the requested type and device (its own ones where nothing is requested), whose
components are those of the original converted to them, and nothing that existed before has changed. -/
theorem C21_to (cast : DType → DType → V → V) (m : Mem V) (hm : WF m) (i : ℕ) (o : Obj) (ho : m.objs[i]? = some o)
    (dt : Option DType) (dv : Option Dev) (hdv : ∀ d, dv = some d → d.truthy = true) :
    ∃ m' o', (Op.to i dt dv).run cast m = .ok m' ∧ WF m' ∧ m'.objs = m.objs ++ [o'] ∧
      o'.dtype = dt.getD o.dtype ∧ o'.device = dv.getD o.device ∧
      (∀ j < m.objs.length, ∀ key, read m' j key = read m j key) ∧
      ∀ key ts, read m i key = .ok ts → ∃ ts', read m' m.objs.length key = .ok ts' ∧ ts'.length = ts.length ∧
        ∀ (n : ℕ) (t t' : Tens V), ts[n]? = some t → ts'[n]? = some t' → t'.dtype = dt.getD o.dtype ∧ t'.device = dv.getD o.device ∧
          t'.val = if t.dtype = dt.getD o.dtype then t.val else cast t.dtype (dt.getD o.dtype) t.val := by
  have hd : devOr dv o.device = dv.getD o.device := by
    cases dv with
    | none => rfl
    | some d => simp [devOr, hdv d rfl]
  have hol := List.mem_of_getElem? ho
  obtain ⟨o', h1, h2, h3, h4, h5, h6⟩ := copyObj_spec (cast := cast) m o (dt.getD o.dtype) (dv.getD o.device) (hm o hol)
  refine ⟨copyObj cast m o (dt.getD o.dtype) (dv.getD o.device), o', by simp [Op.run, ho, hd, dtypeOr], ?_, h1, h4, h5, ?_, ?_⟩
  · intro x hx k a ha
    rw [h1] at hx
    rcases List.mem_append.1 hx with hx | hx
    · exact Nat.lt_of_lt_of_le (hm x hx k a ha) h2
    · rw [List.mem_singleton.1 hx] at ha; exact ((h6 k).2 a ha).2
  · intro j hj key
    simp only [read, h1, List.getElem?_append_left hj]
    cases hoj : m.objs[j]? with
    | none => rfl
    | some oj =>
      cases hk : keyOf key with
      | error e => rfl
      | ok k =>
        simp only
        congr 1
        apply List.map_congr_left
        intro x hx
        exact h3 x (hm oj (List.mem_of_getElem? hoj) k x hx)
  · intro key ts hts
    simp only [read, ho] at hts
    simp only [read, h1, List.getElem?_append_right (Nat.le_refl _), Nat.sub_self, List.getElem?_cons_zero]
    cases hk : keyOf key with
    | error e => rw [hk] at hts; cases hts
    | ok k =>
      rw [hk] at hts
      simp only [Except.ok.injEq] at hts
      refine ⟨_, rfl, ?_, ?_⟩
      · rw [(h6 k).1, ← hts]
        simp
      · intro n t t' ht ht'
        rw [(h6 k).1, List.getElem?_map] at ht'
        rw [← hts, List.getElem?_map] at ht
        cases hv : (o.refs k)[n]? with
        | none => rw [hv] at ht; cases ht
        | some v =>
          rw [hv] at ht ht'
          simp only [Option.map_some, Option.some.injEq] at ht ht'
          subst ht ht'
          exact ⟨rfl, rfl, rfl⟩

/-- C21, independence: after `copy`, no program working on objects other than the copy — assigning components,
storing newly made tensors into the lists, changing tensors in place, making further copies — changes what the copy
reads. -/
theorem C21_copy_unaffected (cast : DType → DType → V → V) (m : Mem V) (hm : WF m) (i : ℕ) (o : Obj)
    (ho : m.objs[i]? = some o) (m' : Mem V) (hc : (Op.copy i).run cast m = .ok m') (ops : List (Op V))
    (hops : ElsewhereAll cast m.objs.length m'.next m' ops) (key : String) :
    read (runAll cast m' ops) m.objs.length key = read m' m.objs.length key := by
  have hol := List.mem_of_getElem? ho
  obtain ⟨o', h1, h2, h3, h4, h5, h6⟩ := copyObj_spec (cast := cast) m o o.dtype o.device (hm o hol)
  have e : m' = copyObj cast m o o.dtype o.device := by
    simp [Op.run, ho] at hc; exact hc.symm
  subst e
  have hs : Sep (copyObj cast m o o.dtype o.device) m.objs.length o' (copyObj cast m o o.dtype o.device).next := by
    refine ⟨?_, by rw [h1]; simp, fun k a ha => ((h6 k).2 a ha).2, Nat.le_refl _, ?_⟩
    · intro x hx k a ha
      rw [h1] at hx
      rcases List.mem_append.1 hx with hx | hx
      · exact Nat.lt_of_lt_of_le (hm x hx k a ha) h2
      · rw [List.mem_singleton.1 hx] at ha; exact ((h6 k).2 a ha).2
    · intro i' x hij hx k k' a ha hc'
      rw [h1] at hx
      have hi' : i' < m.objs.length := by
        have := (List.getElem?_eq_some_iff.1 hx).1
        simp at this
        omega
      rw [List.getElem?_append_left hi'] at hx
      have e1 := hm x (List.mem_of_getElem? hx) k a ha
      have e2 := ((h6 k').2 a hc').1
      omega
  exact hs.read_all ops hops key

/-- C21, independence, other direction: after `copy`, no program working on objects other than the original changes what
the original reads, provided the original shared no tensor with another object before (true as long as lists were
filled with tensors of their own). -/
theorem C21_original_unaffected (cast : DType → DType → V → V) (m : Mem V) (hm : WF m) (i : ℕ) (o : Obj)
    (ho : m.objs[i]? = some o)
    (halone : ∀ i' o', i' ≠ i → m.objs[i']? = some o' → ∀ k k', ∀ a ∈ o'.refs k, a ∉ o.refs k')
    (m' : Mem V) (hc : (Op.copy i).run cast m = .ok m') (ops : List (Op V))
    (hops : ElsewhereAll cast i m'.next m' ops) (key : String) :
    read (runAll cast m' ops) i key = read m i key := by
  have hol := List.mem_of_getElem? ho
  have hs : Sep m i o m.next := ⟨hm, ho, hm o hol, Nat.le_refl _, halone⟩
  have e : m' = copyObj cast m o o.dtype o.device := by
    simp [Op.run, ho] at hc; exact hc.symm
  subst e
  obtain ⟨h1, h2⟩ := hs.copyObj (cast := cast) o hol o.dtype o.device
  obtain ⟨_, _, hle, _⟩ := copyObj_spec (cast := cast) m o o.dtype o.device (hm o hol)
  have hs' : Sep (copyObj cast m o o.dtype o.device) i o (copyObj cast m o o.dtype o.device).next :=
    ⟨h1.wf, h1.here, fun k a ha => Nat.lt_of_lt_of_le (h1.old k a ha) hle, Nat.le_refl _, h1.alone⟩
  refine (hs'.read_all ops hops key).trans ?_
  simp only [read, h1.here, ho]
  cases hk : keyOf key with
  | error e => rfl
  | ok k =>
    simp only
    congr 1
    apply List.map_congr_left
    intro x hx
    exact h2 k x hx

/-- The restriction to newly made tensors is needed: storing one object's tensor into another object's list makes them
share it (python reference semantics), and an in-place change through one is then seen through the other. -/
theorem C21_list_store_aliases :
    ∃ (m : Mem ℕ), WF m ∧ read (runAll (fun _ _ v => v) m [.elem 0 .C 0 1, .inplace 1 (· + 1)]) 0 "C"
      = .ok [⟨21, "float64", .cpu⟩] ∧ read m 0 "C" = .ok [⟨10, "float64", .cpu⟩] ∧
      read (runAll (fun _ _ v => v) m [.elem 0 .C 0 1, .inplace 1 (· + 1)]) 1 "C" = .ok [⟨21, "float64", .cpu⟩] := by
  refine ⟨⟨fun a => if a = 0 then ⟨10, "float64", .cpu⟩ else ⟨20, "float64", .cpu⟩, 2,
    [⟨"float64", .cpu, [], [0], []⟩, ⟨"float64", .cpu, [], [1], []⟩]⟩, ?_, rfl, rfl, rfl⟩
  intro o ho k a ha
  simp only [List.mem_cons, List.not_mem_nil, or_false] at ho
  rcases ho with rfl | rfl <;> cases k <;> simp [Obj.refs] at ha <;> simp [ha]

/-- A memory with one site tensor, for the witnesses. -/
def mem1 : Mem ℕ := ⟨fun a => ⟨a, "float64", .cpu⟩, 4, [⟨"float64", .cpu, [0], [1, 2], [3]⟩]⟩

theorem wf_mem1 : WF mem1 := by
  intro o ho k a ha
  simp only [mem1, List.mem_singleton] at ho
  subst ho
  cases k <;> simp [Obj.refs] at ha <;> simp [mem1] <;> omega

example : ∃ m', (Op.set 0 "C" [3, 1]).run (fun _ _ v => v) mem1 = .ok m' ∧ WF m' := by
  obtain ⟨m', h, hw, _⟩ := C21_read_over_write (fun _ _ v => v) mem1 wf_mem1 0 _ rfl "C" .C rfl [3, 1]
    (by simp [mem1])
  exact ⟨m', h, hw⟩

/-- Non-vacuity of `C21_to`. -/
example : ∃ m', (Op.to 0 (some "float32") none).run (fun _ _ v => v + 1) mem1 = .ok m' ∧
    read m' 1 "C" = .ok [⟨2, "float32", .cpu⟩, ⟨3, "float32", .cpu⟩] := ⟨_, rfl, rfl⟩

/-- Non-vacuity of the independence theorem: change the original's tensors in place and re-assign its corners. -/
example : ∃ m', (Op.copy 0).run (fun _ _ v => v) mem1 = .ok m' ∧
    read (runAll (fun _ _ v => v) m' [.inplace 0 (· + 100), .set 0 "C" [0, 0], .alloc ⟨5, "float32", .cpu⟩,
      .elem 0 .E 0 10]) 1 "A" = .ok [⟨0, "float64", .cpu⟩] := by
  refine ⟨_, rfl, ?_⟩
  refine (C21_copy_unaffected (fun _ _ v => v) mem1 wf_mem1 0 _ rfl _ rfl _ ?_ "A").trans rfl
  refine ⟨Or.inl ⟨0, _, .A, by decide, rfl, by decide⟩, ⟨by decide, by decide⟩, trivial, ⟨by decide, by decide, by decide⟩,
    trivial⟩

end
end AceTN.ST
