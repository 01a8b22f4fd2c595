import Verif.Spec.SiteTensor
import Mathlib.Data.List.Basic
import Mathlib.Tactic.SplitIfs

/-! Helper lemmas for C21. -/

set_option autoImplicit false

namespace AceTN.ST

section
variable {V : Type} {cast : DType → DType → V → V}

theorem keyOf_inj {a b : String} {k : Key} (ha : keyOf a = .ok k) (hb : keyOf b = .ok k) : a = b := by
  have key : ∀ (a : String) (k : Key), keyOf a = .ok k → a = (match k with | .A => "A" | .C => "C" | .E => "E") := by
    intro a k h
    simp only [keyOf] at h
    split_ifs at h with h1 h2 h3
    · cases h; exact h1
    · cases h; exact h2
    · cases h; exact h3
  rw [key a k ha, key b k hb]

theorem cloneAll_spec (dt : DType) (dv : Dev) (vs : List ℕ) (m : Mem V) (hv : ∀ v ∈ vs, v < m.next) :
    let r := cloneAll cast dt dv vs m
    r.2.objs = m.objs ∧ m.next ≤ r.2.next ∧ (∀ a < m.next, r.2.heap a = m.heap a) ∧
    r.1.map r.2.heap = vs.map (fun v => (m.heap v).conv cast dt dv) ∧
    (∀ a ∈ r.1, m.next ≤ a ∧ a < r.2.next) := by
  induction vs generalizing m with
  | nil => simp [cloneAll]
  | cons v vs ih =>
    have hv0 : v < m.next := hv v (List.mem_cons_self ..)
    obtain ⟨h1, h2, h3, h4, h5⟩ := ih (m.alloc ((m.heap v).conv cast dt dv))
      (fun x hx => Nat.lt_succ_of_lt (hv x (List.mem_cons_of_mem _ hx)))
    have hn : (m.alloc ((m.heap v).conv cast dt dv)).next = m.next + 1 := rfl
    have hh : ∀ a < m.next, (m.alloc ((m.heap v).conv cast dt dv)).heap a = m.heap a := by
      intro a ha
      simp [Mem.alloc, Function.update_of_ne (Nat.ne_of_lt ha)]
    rw [hn] at h2 h3 h5
    refine ⟨h1.trans rfl, by simp only [cloneAll]; omega, ?_, ?_, ?_⟩
    · intro a ha
      simp only [cloneAll]
      rw [h3 a (by omega), hh a ha]
    · simp only [cloneAll, List.map_cons, List.cons.injEq]
      refine ⟨?_, ?_⟩
      · rw [h3 m.next (by omega)]; simp [Mem.alloc]
      · rw [h4]
        apply List.map_congr_left
        intro x hx
        rw [hh x (hv x (List.mem_cons_of_mem _ hx))]
    · intro a ha
      simp only [cloneAll] at ha ⊢
      rcases List.mem_cons.1 ha with rfl | ha
      · omega
      · have := h5 a ha; omega

theorem refs_setRefs (o : Obj) (k k' : Key) (l : List ℕ) :
    (o.setRefs k l).refs k' = if k = k' then l else o.refs k' := by
  cases k <;> cases k' <;> rfl

theorem wf_setKey {m : Mem V} (h : WF m) {i : ℕ} {o : Obj} (ho : m.objs[i]? = some o) (k : Key) (vals : List ℕ)
    (hv : ∀ v ∈ vals, v < m.next) : WF (setKey cast m i o k vals) := by
  obtain ⟨h1, h2, h3, h4, h5⟩ := cloneAll_spec (cast := cast) o.dtype o.device vals m hv
  intro o' ho' k' a ha
  simp only [setKey, h1] at ho' ⊢
  rcases List.mem_or_eq_of_mem_set ho' with hm | rfl
  · exact Nat.lt_of_lt_of_le (h o' hm k' a ha) h2
  · rw [refs_setRefs] at ha
    split at ha
    · exact (h5 a ha).2
    · exact Nat.lt_of_lt_of_le (h o (List.mem_of_getElem? ho) k' a ha) h2

theorem copyObj_spec (m : Mem V) (o : Obj) (dt : DType) (dv : Dev) (ho : ∀ k, ∀ a ∈ o.refs k, a < m.next) :
    ∃ o', (copyObj cast m o dt dv).objs = m.objs ++ [o'] ∧ m.next ≤ (copyObj cast m o dt dv).next ∧
      (∀ a < m.next, (copyObj cast m o dt dv).heap a = m.heap a) ∧ o'.dtype = dt ∧ o'.device = dv ∧
      ∀ k, (o'.refs k).map (copyObj cast m o dt dv).heap
          = (o.refs k).map (fun v => (m.heap v).conv cast dt dv) ∧
        ∀ a ∈ o'.refs k, m.next ≤ a ∧ a < (copyObj cast m o dt dv).next := by
  obtain ⟨a1, a2, a3, a4, a5⟩ := cloneAll_spec (cast := cast) dt dv o.a m (ho .A)
  have hc : ∀ v ∈ o.c, v < (cloneAll cast dt dv o.a m).2.next := fun v hv => Nat.lt_of_lt_of_le (ho .C v hv) a2
  obtain ⟨c1, c2, c3, c4, c5⟩ := cloneAll_spec (cast := cast) dt dv o.c _ hc
  have he : ∀ v ∈ o.e, v < (cloneAll cast dt dv o.c (cloneAll cast dt dv o.a m).2).2.next :=
    fun v hv => Nat.lt_of_lt_of_le (Nat.lt_of_lt_of_le (ho .E v hv) a2) c2
  obtain ⟨e1, e2, e3, e4, e5⟩ := cloneAll_spec (cast := cast) dt dv o.e _ he
  refine ⟨⟨dt, dv, (cloneAll cast dt dv o.a m).1, (cloneAll cast dt dv o.c (cloneAll cast dt dv o.a m).2).1,
    (cloneAll cast dt dv o.e (cloneAll cast dt dv o.c (cloneAll cast dt dv o.a m).2).2).1⟩, ?_, ?_, ?_, rfl, rfl, ?_⟩
  · simp only [copyObj, e1, c1, a1]
  · simp only [copyObj]; omega
  · intro x hx
    simp only [copyObj]
    rw [e3 x (by omega), c3 x (by omega), a3 x hx]
  · intro k
    cases k with
    | A =>
      constructor
      · simp only [Obj.refs, copyObj]
        rw [← a4]
        apply List.map_congr_left
        intro x hx
        have := a5 x hx
        rw [e3 x (by omega), c3 x (by omega)]
      · intro x hx
        have := a5 x hx
        simp only [copyObj]; omega
    | C =>
      constructor
      · simp only [Obj.refs, copyObj]
        have hh : o.c.map (fun v => (m.heap v).conv cast dt dv)
            = o.c.map (fun v => ((cloneAll cast dt dv o.a m).2.heap v).conv cast dt dv) := by
          apply List.map_congr_left
          intro x hx
          rw [a3 x (ho .C x hx)]
        rw [hh, ← c4]
        apply List.map_congr_left
        intro x hx
        have := c5 x hx
        rw [e3 x (by omega)]
      · intro x hx
        have := c5 x hx
        simp only [copyObj]; omega
    | E =>
      constructor
      · simp only [Obj.refs, copyObj]
        rw [e4]
        apply List.map_congr_left
        intro x hx
        have := ho .E x hx
        rw [c3 x (by omega), a3 x (by omega)]
      · intro x hx
        have := e5 x hx
        simp only [copyObj]; omega

/-- Separation of object `j` from everything else: its tensors are older than `start` and belong to no other object. -/
structure Sep (m : Mem V) (j : ℕ) (oj : Obj) (start : ℕ) : Prop where
  wf : WF m
  here : m.objs[j]? = some oj
  old : ∀ k, ∀ a ∈ oj.refs k, a < start
  le : start ≤ m.next
  alone : ∀ i o, i ≠ j → m.objs[i]? = some o → ∀ k k', ∀ a ∈ o.refs k, a ∉ oj.refs k'

theorem Sep.copyObj {m : Mem V} {j : ℕ} {oj : Obj} {start : ℕ} (h : Sep m j oj start) (o : Obj)
    (ho : o ∈ m.objs) (dt : DType) (dv : Dev) :
    Sep (copyObj cast m o dt dv) j oj start ∧ ∀ k, ∀ a ∈ oj.refs k, (copyObj cast m o dt dv).heap a = m.heap a := by
  obtain ⟨o', h1, h2, h3, h4, h5, h6⟩ := copyObj_spec (cast := cast) m o dt dv (h.wf o ho)
  have hj : j < m.objs.length := (List.getElem?_eq_some_iff.1 h.here).1
  refine ⟨⟨?_, ?_, h.old, Nat.le_trans h.le h2, ?_⟩, ?_⟩
  · intro x hx k a ha
    rw [h1] at hx
    rcases List.mem_append.1 hx with hx | hx
    · exact Nat.lt_of_lt_of_le (h.wf x hx k a ha) h2
    · rw [List.mem_singleton.1 hx] at ha; exact ((h6 k).2 a ha).2
  · rw [h1, List.getElem?_append_left hj]; exact h.here
  · intro i x hij hx k k' a ha
    rw [h1] at hx
    by_cases hi : i < m.objs.length
    · rw [List.getElem?_append_left hi] at hx; exact h.alone i x hij hx k k' a ha
    · rw [List.getElem?_append_right (by omega)] at hx
      have := List.mem_of_getElem? hx
      rw [List.mem_singleton.1 this] at ha
      intro hc
      have e1 := ((h6 k).2 a ha).1
      have e2 := h.old k' a hc
      have e3 := h.le
      omega
  · intro k a ha
    exact h3 a (Nat.lt_of_lt_of_le (h.old k a ha) h.le)

theorem Sep.step {m : Mem V} {j : ℕ} {oj : Obj} {start : ℕ} (h : Sep m j oj start) (op : Op V)
    (hop : Elsewhere m j start op) :
    let m' := (op.run cast m).toOption.getD m
    Sep m' j oj start ∧ ∀ k, ∀ a ∈ oj.refs k, m'.heap a = m.heap a := by
  have stay : Sep m j oj start ∧ ∀ k, ∀ a ∈ oj.refs k, m.heap a = m.heap a := ⟨h, fun _ _ _ => rfl⟩
  cases op with
  | alloc t =>
    refine ⟨⟨?_, h.here, h.old, Nat.le_succ_of_le h.le, h.alone⟩, ?_⟩
    · intro o ho k a ha; exact Nat.lt_succ_of_lt (h.wf o ho k a ha)
    · intro k a ha
      have e := Nat.lt_of_lt_of_le (h.old k a ha) h.le
      simp [Op.run, Except.toOption, Mem.alloc, Function.update_of_ne (Nat.ne_of_lt e)]
  | set i key vals =>
    obtain ⟨hij, hv⟩ := hop
    simp only [Op.run]
    split
    · exact stay
    · exact stay
    · next o k hoi hk =>
      obtain ⟨h1, h2, h3, h4, h5⟩ := cloneAll_spec (cast := cast) o.dtype o.device vals m hv
      have hi : i < m.objs.length := (List.getElem?_eq_some_iff.1 hoi).1
      refine ⟨⟨wf_setKey h.wf hoi k vals hv, ?_, h.old, Nat.le_trans h.le h2, ?_⟩, ?_⟩
      · simp only [Except.toOption, Option.getD_some, setKey, h1, List.getElem?_set_ne hij]; exact h.here
      · intro i' x hij' hx k1 k2 a ha hc
        simp only [Except.toOption, Option.getD_some, setKey, h1] at hx
        by_cases hii : i = i'
        · subst hii
          rw [List.getElem?_set_self hi] at hx
          cases hx
          rw [refs_setRefs] at ha
          split at ha
          · have e1 := (h5 a ha).1
            have e2 := h.old k2 a hc
            have e3 := h.le
            omega
          · exact h.alone i o hij hoi k1 k2 a ha hc
        · rw [List.getElem?_set_ne hii] at hx
          exact h.alone i' x hij' hx k1 k2 a ha hc
      · intro k' a ha
        exact h3 a (Nat.lt_of_lt_of_le (h.old k' a ha) h.le)
  | elem i k n a0 =>
    obtain ⟨hij, hs, hlt⟩ := hop
    simp only [Op.run]
    split
    · exact stay
    · next o hoi =>
      have hi : i < m.objs.length := (List.getElem?_eq_some_iff.1 hoi).1
      have key : ∀ k1, ∀ a ∈ (o.setRefs k ((o.refs k).set n a0)).refs k1, a = a0 ∨ a ∈ o.refs k1 := by
        intro k1 a ha
        rw [refs_setRefs] at ha
        split at ha
        · next e => subst e; exact (List.mem_or_eq_of_mem_set ha).symm
        · exact Or.inr ha
      refine ⟨⟨?_, ?_, h.old, h.le, ?_⟩, fun _ _ _ => rfl⟩
      · intro x hx k1 a ha
        rcases List.mem_or_eq_of_mem_set hx with hx | rfl
        · exact h.wf x hx k1 a ha
        · rcases key k1 a ha with rfl | ha
          · exact hlt
          · exact h.wf o (List.mem_of_getElem? hoi) k1 a ha
      · simp only [Except.toOption, Option.getD_some, List.getElem?_set_ne hij]; exact h.here
      · intro i' x hij' hx k1 k2 a ha hc
        simp only [Except.toOption, Option.getD_some] at hx
        by_cases hii : i = i'
        · subst hii
          rw [List.getElem?_set_self hi] at hx
          cases hx
          rcases key k1 a ha with rfl | ha
          · have := h.old k2 a hc
            omega
          · exact h.alone i o hij hoi k1 k2 a ha hc
        · rw [List.getElem?_set_ne hii] at hx
          exact h.alone i' x hij' hx k1 k2 a ha hc
  | inplace a0 f =>
    refine ⟨⟨h.wf, h.here, h.old, h.le, h.alone⟩, ?_⟩
    intro k a ha
    have hne : a ≠ a0 := by
      rintro rfl
      rcases hop with ⟨i, o, k', hij, hoi, hm⟩ | ⟨hs, _⟩
      · exact h.alone i o hij hoi k' k a hm ha
      · have := h.old k a ha
        omega
    simp [Op.run, Except.toOption, Function.update_of_ne hne]
  | copy i =>
    simp only [Op.run]
    split
    · exact stay
    · next o hoi => exact h.copyObj o (List.mem_of_getElem? hoi) _ _
  | «to» i dt dv =>
    simp only [Op.run]
    split
    · exact stay
    · next o hoi => exact h.copyObj o (List.mem_of_getElem? hoi) _ _

theorem Sep.read_all {m : Mem V} {j : ℕ} {oj : Obj} {start : ℕ} (h : Sep m j oj start) (ops : List (Op V))
    (hops : ElsewhereAll cast j start m ops) (key : String) : read (runAll cast m ops) j key = read m j key := by
  induction ops generalizing m with
  | nil => rfl
  | cons op ops ih =>
    obtain ⟨h1, h2⟩ := h.step (cast := cast) op hops.1
    refine (ih h1 hops.2).trans ?_
    simp only [read, h1.here, h.here]
    cases hk : keyOf key with
    | error e => rfl
    | ok k =>
      simp only
      congr 1
      apply List.map_congr_left
      intro x hx
      exact h2 k x hx

end
end AceTN.ST
