import Verif.Model.Registry

/-! C22 (model selection) and C24 (isolation of settings). -/

set_option autoImplicit false

namespace AceTN.Reg
section
variable {P : Type} {lower : String → String} {defaultDims : PyDict String P}

theorem writeAll_spec (a : ℕ) (kw : List (String × P)) (s : St P) :
    (writeAll a kw s).models = s.models ∧ (writeAll a kw s).ips = s.ips ∧ (writeAll a kw s).next = s.next ∧
      (∀ b, b ≠ a → (writeAll a kw s).heap b = s.heap b) ∧
      (writeAll a kw s).heap a = kw.foldl (fun d p => d.set p.1 p.2) (s.heap a) := by
  induction kw generalizing s with
  | nil => exact ⟨rfl, rfl, rfl, fun _ _ => rfl, rfl⟩
  | cons p kw ih =>
    obtain ⟨k, v⟩ := p
    obtain ⟨h1, h2, h3, h4, h5⟩ := ih (s.write a k v)
    refine ⟨h1, h2, h3, fun b hb => ?_, ?_⟩
    · simp only [writeAll]; rw [h4 b hb]; simp [St.write, Function.update_of_ne hb]
    · simp only [writeAll, List.foldl_cons]; rw [h5]; simp [St.write]

/-! ## C22 -/

/-- The intended statement: after `set_model` on object `i`, as long as nobody calls `set_model` or
`set_model_params` on `i` or edits its parameter dictionary, `i` builds that class with those parameters. -/
def Spec.ModelKept (lower : String → String) (defaultDims : PyDict String P) : Prop :=
  ∀ (s : St P) (i : ℕ) (cls : Cls) (a : ℕ) (name : Option String) (s' : St P) (ops : List (Op P)),
    (Op.setModel i cls (some a) name).run lower defaultDims s = .ok s' → a < s.next →
    (∀ op ∈ ops, ∀ c p n kw k v, op ≠ .setModel i c p n ∧ op ≠ .setParams i kw ∧ op ≠ .userWrite a k v) →
    (∀ j o, s.ips[j]? = some o → j ≠ i → o.params ≠ some a ∧ o.dims ≠ a) →
    (∀ op ∈ ops, ∀ d n, op ≠ .new d n (some a) ∧ op ≠ .new (some a) n none) →
    build (runAll lower defaultDims s' ops) i = .ok (cls, some (s.heap a))

/-- A process with two Ipeps objects that have no model yet, and two parameter dictionaries. -/
def st2 : St ℕ :=
  ⟨[], fun a => if a = 2 then [("J", 1)] else [("hx", 2)], 4, [⟨0, none, none⟩, ⟨1, none, none⟩]⟩

/-- C22 fails: two objects given models without a name; the second registration replaces the class of the first. -/
theorem C22_violated_default_name (lower : String → String) : ¬ Spec.ModelKept lower ([] : PyDict String ℕ) := by
  intro h
  have := h st2 0 ⟨7, true⟩ 2 none _ [.setModel 1 ⟨8, true⟩ (some 3) none] rfl (by decide) (by simp)
    (by
      intro j o ho hj
      match j with
      | 0 => exact absurd rfl hj
      | 1 => simp [st2] at ho; subst ho; simp
      | (n + 2) => simp [st2] at ho) (by simp)
  have h2 : build (runAll lower ([] : PyDict String ℕ)
      (⟨[("custom", ⟨7, true⟩)], st2.heap, 4, [⟨0, some "custom", some 2⟩, ⟨1, none, none⟩]⟩ : St ℕ)
      [.setModel 1 ⟨8, true⟩ (some 3) none]) 0 = .ok (⟨8, true⟩, some [("J", 1)]) := rfl
  have h3 := this.symm.trans h2
  simp at h3

/-- The steps that may change what object `i` with model name `n` and parameter dictionary `a` builds. -/
def Harmless (lower : String → String) (i : ℕ) (cls : Cls) (n : String) (a : ℕ) (s : St P) : Op P → Prop
  | .mkDict _ => True
  | .userWrite b _ _ => b ≠ a
  | .new _ _ _ => True
  | .setChi j _ => ∀ o, s.ips[j]? = some o → o.dims ≠ a
  | .setModel j c _ name => j ≠ i ∧ (regName lower name = n → c = cls)
  | .setParams j _ => ∀ o, s.ips[j]? = some o → o.params ≠ some a

/-- Every step is harmless in the state it is executed in. -/
def HarmlessAll (lower : String → String) (defaultDims : PyDict String P) (i : ℕ) (cls : Cls) (n : String) (a : ℕ) :
    St P → List (Op P) → Prop
  | _, [] => True
  | s, op :: ops => Harmless lower i cls n a s op ∧
      HarmlessAll lower defaultDims i cls n a ((op.run lower defaultDims s).toOption.getD s) ops

theorem harmless_step (i : ℕ) (cls : Cls) (n : String) (a : ℕ) (s : St P) (op : Op P) (o : Ip)
    (ho : s.ips[i]? = some o) (hc : s.models.get? n = some cls)
    (ha : a < s.next) (hop : Harmless lower i cls n a s op) :
    let s' := (op.run lower defaultDims s).toOption.getD s
    s'.ips[i]? = some o ∧ s'.models.get? n = some cls ∧ a < s'.next ∧ s'.heap a = s.heap a := by
  have hi : i < s.ips.length := (List.getElem?_eq_some_iff.1 ho).1
  have stay : s.ips[i]? = some o ∧ s.models.get? n = some cls ∧ a < s.next ∧ s.heap a = s.heap a :=
    ⟨ho, hc, ha, rfl⟩
  cases op with
  | mkDict d =>
    exact ⟨ho, hc, Nat.lt_succ_of_lt ha, by
      simp [Op.run, Except.toOption, St.alloc, Function.update_of_ne (Nat.ne_of_lt ha)]⟩
  | userWrite b k v =>
    exact ⟨ho, hc, ha, by simp [Op.run, Except.toOption, St.write, Function.update_of_ne (Ne.symm hop)]⟩
  | new dims name params =>
    cases dims with
    | some b =>
      exact ⟨by simp [Op.run, Except.toOption, List.getElem?_append_left hi, ho], hc, ha, rfl⟩
    | none =>
      refine ⟨?_, hc, Nat.lt_succ_of_lt ha, ?_⟩
      · simp [Op.run, Except.toOption, St.alloc, List.getElem?_append_left hi, ho]
      · simp [Op.run, Except.toOption, St.alloc, Function.update_of_ne (Nat.ne_of_lt ha)]
  | setChi j chi =>
    simp only [Op.run]
    split
    · exact stay
    · next oj hj =>
      exact ⟨ho, hc, ha, by
        simp [Except.toOption, St.write, Function.update_of_ne (Ne.symm (hop oj hj))]⟩
  | setModel j c p name =>
    simp only [Op.run]
    split
    · exact stay
    · next oj hj =>
      split
      · refine ⟨?_, ?_, ha, rfl⟩
        · simp [Except.toOption, List.getElem?_set_ne hop.1, ho]
        · simp only [Except.toOption, Option.getD_some]
          rw [PyDict.get?_set]
          split
          · next e => rw [hop.2 e]
          · exact hc
      · exact stay
  | setParams j kw0 =>
    simp only [Op.run]
    split
    · exact stay
    · next oj hj =>
      split
      · exact stay
      · exact stay
      · next kw1 _ kw2 b hb _ =>
        obtain ⟨h1, h2, h3, h4, h5⟩ := writeAll_spec b kw1 s
        refine ⟨by simp [Except.toOption, h2, ho], by simp [Except.toOption, h1, hc], by
          simp [Except.toOption, h3, ha], ?_⟩
        have hne : a ≠ b := by
          rintro rfl
          exact hop oj hj hb
        simp [Except.toOption, h4 a hne]

/-- C22, what holds: after `set_model(cls, params, name)`, object `i` builds `cls` with the content `params` has, through
any calls on any objects, as long as no later `set_model` registers a *different* class under the same name and nobody
changes that dictionary.  Missing: later registrations under the same (or the default) name, which do change the class
(false, above). -/
theorem C22_model_kept_partial (lower : String → String) (defaultDims : PyDict String P) (s : St P) (i : ℕ) (cls : Cls)
    (a : ℕ) (name : Option String) (s' : St P) (ops : List (Op P))
    (hset : (Op.setModel i cls (some a) name).run lower defaultDims s = .ok s') (ha : a < s.next)
    (hops : HarmlessAll lower defaultDims i cls (regName lower name) a s' ops) :
    build (runAll lower defaultDims s' ops) i = .ok (cls, some (s.heap a)) := by
  simp only [Op.run] at hset
  split at hset
  · cases hset
  · next o ho =>
    split at hset
    · have hs' := Except.ok.inj hset
      have hi : i < s.ips.length := (List.getElem?_eq_some_iff.1 ho).1
      have main : ∀ (ops : List (Op P)) (s1 : St P) (o1 : Ip), s1.ips[i]? = some o1 →
          o1.name = some (regName lower name) → o1.params = some a →
          s1.models.get? (regName lower name) = some cls → a < s1.next → s1.heap a = s.heap a →
          HarmlessAll lower defaultDims i cls (regName lower name) a s1 ops →
          build (runAll lower defaultDims s1 ops) i = .ok (cls, some (s.heap a)) := by
        intro ops
        induction ops with
        | nil =>
          intro s1 o1 h1 h2 h3 h4 h5 h6 _
          simp [runAll, build, h1, h2, h3, h4, h6]
        | cons op ops ih =>
          intro s1 o1 h1 h2 h3 h4 h5 h6 h7
          obtain ⟨k1, k2, k3, k4⟩ := harmless_step (lower := lower) (defaultDims := defaultDims) i cls _ a s1 op o1
            h1 h4 h5 h7.1
          exact ih _ o1 k1 h2 h3 k2 k3 (k4.trans h6) h7.2
      refine main ops s' { o with name := some (regName lower name), params := some a } ?_ rfl rfl ?_ ?_ ?_ hops
      · rw [← hs']; simp [List.getElem?_set_self hi]
      · rw [← hs']; simp [PyDict.get?_set_self]
      · rw [← hs']; exact ha
      · rw [← hs']
    · cases hset

/-- C22: `set_model_params(k=v, …)` updates exactly those keys of the parameters the object builds with, in order. -/
theorem C22_params_update_partial (lower : String → String) (defaultDims : PyDict String P) (s : St P) (i : ℕ)
    (cls : Cls) (d : PyDict String P) (kw : List (String × P)) (hb : build s i = .ok (cls, some d)) :
    ∃ s', (Op.setParams i kw).run lower defaultDims s = .ok s' ∧
      build s' i = .ok (cls, some (kw.foldl (fun d p => d.set p.1 p.2) d)) := by
  simp only [build] at hb
  split at hb
  · cases hb
  · next o ho =>
    split at hb
    · cases hb
    · next n hn =>
      split at hb
      · cases hb
      · next c hc =>
        have hb := Except.ok.inj hb
        simp only [Prod.mk.injEq] at hb
        obtain ⟨rfl, hp⟩ := hb
        cases hpp : o.params with
        | none => rw [hpp] at hp; cases hp
        | some a =>
          rw [hpp] at hp
          simp only [Option.map_some, Option.some.injEq] at hp
          cases kw with
          | nil =>
            refine ⟨s, by simp [Op.run, ho], ?_⟩
            simp [build, ho, hn, hc, hpp, hp]
          | cons p kw =>
            obtain ⟨h1, h2, h3, h4, h5⟩ := writeAll_spec a (p :: kw) s
            refine ⟨writeAll a (p :: kw) s, by simp [Op.run, ho, hpp], ?_⟩
            simp [build, h2, ho, hn, h1, hc, hpp, h5, hp]

/-- C22, errors: no model name gives `ValueError`, an unregistered name `KeyError`, a class that is not a `Model`
`TypeError` — and then neither the registry nor any object has changed; setting parameters of an object that has none is a
`TypeError` too. -/
theorem C22_errors_partial (lower : String → String) (defaultDims : PyDict String P) (s : St P) (i : ℕ) (o : Ip)
    (ho : s.ips[i]? = some o) :
    (o.name = none → build s i = .error .valueError) ∧
    (∀ n, o.name = some n → s.models.get? n = none → build s i = .error .keyError) ∧
    (∀ cls p name, cls.isModel = false → (Op.setModel i cls p name).run lower defaultDims s = .error .typeError ∧
      runAll lower defaultDims s [.setModel i cls p name] = s) ∧
    (∀ kw, o.params = none → kw ≠ [] → (Op.setParams i kw).run lower defaultDims s = .error .typeError) := by
  refine ⟨fun h => by simp [build, ho, h], fun n h1 h2 => by simp [build, ho, h1, h2], fun cls p name h => ?_,
    fun kw h hk => by cases kw with
      | nil => exact absurd rfl hk
      | cons x kw => simp [Op.run, ho, h]⟩
  have : (Op.setModel i cls p name).run lower defaultDims s = .error .typeError := by simp [Op.run, ho, h]
  refine ⟨this, ?_⟩
  simp only [runAll, List.foldl, this]
  rfl

/-- Non-vacuity: two objects with explicit names keep their models. -/
example (lower : String → String) (hl : lower "b" ≠ lower "a") :
    build (runAll lower [] (⟨[(lower "a", ⟨7, true⟩)], st2.heap, 4, [⟨0, some (lower "a"), some 2⟩, ⟨1, none, none⟩]⟩)
      [.setModel 1 ⟨8, true⟩ (some 3) (some "b"), .setChi 0 5, .setParams 1 [("hx", 9)]]) 0
      = .ok (⟨7, true⟩, some [("J", 1)]) := by
  refine C22_model_kept_partial lower [] st2 0 ⟨7, true⟩ 2 (some "a") _ _ rfl (by decide) ?_
  refine ⟨⟨by decide, fun h => absurd h hl⟩, ?_, ?_, trivial⟩
  · intro o ho
    simp [Op.run, Except.toOption] at ho
    subst ho
    simp
  · intro o ho
    simp [Op.run, Except.toOption, St.write] at ho
    subst ho
    simp

/-! ## C24 -/

/-- The intended statement: the two setters called on object `i` change neither the settings of another object nor a
dictionary of the caller. -/
def Spec.SettersIsolated (lower : String → String) (defaultDims : PyDict String P) : Prop :=
  ∀ (ops : List (Op P)) (i j : ℕ) (chi : P) (kw : List (String × P)), i ≠ j →
    let s := runAll lower defaultDims ⟨[], fun _ => [], 0, []⟩ ops
    shows (runAll lower defaultDims s [.setChi i chi]) j = shows s j ∧
    shows (runAll lower defaultDims s [.setParams i kw]) j = shows s j

/-- C24 fails: two objects made from one configuration dictionary share `dims`. -/
theorem C24_violated_shared_chi (lower : String → String) :
    ¬ Spec.SettersIsolated lower ([] : PyDict String ℕ) := by
  intro h
  have := (h [.mkDict [("chi", 20)], .new (some 0) none none, .new (some 0) none none] 0 1 99 [] (by decide)).1
  have e : shows (P := ℕ) (runAll lower ([] : PyDict String ℕ) (runAll lower ([] : PyDict String ℕ)
      ⟨[], fun _ => [], 0, []⟩ [.mkDict [("chi", 20)], .new (some 0) none none, .new (some 0) none none])
      [.setChi 0 99]) 1 = some ([("chi", 99)], none) := rfl
  have e' : shows (P := ℕ) (runAll lower ([] : PyDict String ℕ)
      ⟨[], fun _ => [], 0, []⟩ [.mkDict [("chi", 20)], .new (some 0) none none, .new (some 0) none none]) 1
      = some ([("chi", 20)], none) := rfl
  rw [e, e'] at this
  simp at this

/-- C24 fails: `set_model_params` on an object changes the parameters of another one given the same dictionary. -/
theorem C24_violated_shared_params (lower : String → String) :
    ¬ Spec.SettersIsolated lower ([] : PyDict String ℕ) := by
  intro h
  have := (h [.mkDict [("J", 1)], .new none (some "ising") (some 0), .new none (some "ising") (some 0)] 0 1 0
    [("J", 5)] (by decide)).2
  have e : shows (P := ℕ) (runAll lower ([] : PyDict String ℕ) (runAll lower ([] : PyDict String ℕ)
      ⟨[], fun _ => [], 0, []⟩ [.mkDict [("J", 1)], .new none (some "ising") (some 0),
        .new none (some "ising") (some 0)])
      [.setParams 0 [("J", 5)]]) 1 = some ([], some [("J", 5)]) := rfl
  have e' : shows (P := ℕ) (runAll lower ([] : PyDict String ℕ)
      ⟨[], fun _ => [], 0, []⟩ [.mkDict [("J", 1)], .new none (some "ising") (some 0),
        .new none (some "ising") (some 0)]) 1
      = some ([], some [("J", 1)]) := rfl
  rw [e, e'] at this
  simp at this

/-- C24, caller's dictionary: the setter writes into the very dictionary the caller passed. -/
theorem C24_violated_caller (lower : String → String) (defaultDims : PyDict String P) (s : St P) (a : ℕ)
    (chi : P) : let s' := runAll lower defaultDims s [.new (some a) none none, .setChi s.ips.length chi]
    (s'.heap a).get? "chi" = some chi := by
  simp [runAll, Op.run, Except.toOption, St.write, PyDict.get?_set_self]

/-- C24, what holds: the setters change exactly the intended setting of the object they are called on, and leave every
other object alone that does not hold a reference to the same dictionary; dictionaries the object does not refer to
are untouched.  In particular objects whose configuration gives no `dims` have their own.  Missing: objects made from
a shared dictionary (false, above). -/
theorem C24_setters_partial (lower : String → String) (defaultDims : PyDict String P) (s : St P) (i : ℕ) (o : Ip)
    (ho : s.ips[i]? = some o) (chi : P) (kw : List (String × P)) :
    (∃ s', (Op.setChi i chi).run lower defaultDims s = .ok s' ∧
      (s'.heap o.dims).get? "chi" = some chi ∧ (∀ k, k ≠ "chi" → (s'.heap o.dims).get? k = (s.heap o.dims).get? k) ∧
      (∀ b, b ≠ o.dims → s'.heap b = s.heap b) ∧
      (∀ (j : ℕ) (oj : Ip), s.ips[j]? = some oj → oj.dims ≠ o.dims → oj.params ≠ some o.dims →
        shows s' j = shows s j)) ∧
    (∀ a, o.params = some a → ∃ s', (Op.setParams i kw).run lower defaultDims s = .ok s' ∧
      (∀ b, b ≠ a → s'.heap b = s.heap b) ∧
      (∀ (j : ℕ) (oj : Ip), s.ips[j]? = some oj → oj.dims ≠ a → oj.params ≠ some a → shows s' j = shows s j)) := by
  constructor
  · refine ⟨s.write o.dims "chi" chi, by simp [Op.run, ho], by simp [St.write, PyDict.get?_set_self], ?_, ?_, ?_⟩
    · intro k hk; simp [St.write, PyDict.get?_set_ne _ _ (Ne.symm hk)]
    · intro b hb; simp [St.write, Function.update_of_ne hb]
    · intro j oj hj h1 h2
      have e : ∀ b, b ≠ o.dims → (s.write o.dims "chi" chi).heap b = s.heap b := fun b hb => by
        simp [St.write, Function.update_of_ne hb]
      simp only [shows]
      rw [show (s.write o.dims "chi" chi).ips = s.ips from rfl, hj]
      simp only [Option.map_some, e oj.dims h1]
      cases hp : oj.params with
      | none => rfl
      | some b => rw [hp] at h2; simp [e b (fun h => h2 (by rw [h]))]
  · intro a hpa
    have key : ∃ s', (Op.setParams i kw).run lower defaultDims s = .ok s' ∧ s' = writeAll a kw s := by
      cases kw with
      | nil => exact ⟨s, by simp [Op.run, ho], rfl⟩
      | cons p kw => exact ⟨_, by simp [Op.run, ho, hpa], rfl⟩
    obtain ⟨s', h, rfl⟩ := key
    obtain ⟨h1, h2, h3, h4, h5⟩ := writeAll_spec a kw s
    refine ⟨_, h, h4, ?_⟩
    intro j oj hj k1 k2
    simp only [shows, h2, hj, Option.map_some, h4 oj.dims k1]
    cases hp : oj.params with
    | none => rfl
    | some b => rw [hp] at k2; simp [h4 b (fun h => k2 (by rw [h]))]

/-- Objects constructed without `dims` in their configuration get a dictionary of their own. -/
theorem C24_fresh_dims_partial (lower : String → String) (defaultDims : PyDict String P) (s : St P)
    (hwf : ∀ (j : ℕ) (oj : Ip), s.ips[j]? = some oj → oj.dims < s.next ∧ ∀ b, oj.params = some b → b < s.next)
    (n : Option String) (p : Option ℕ) (j : ℕ) (hj : j < s.ips.length) (chi : P) :
    let s' := runAll lower defaultDims s [.new none n p]
    shows (runAll lower defaultDims s' [.setChi s.ips.length chi]) j = shows s' j ∧
    (p ≠ some (s.ips[j]).dims →
      shows (runAll lower defaultDims s' [.setChi j chi]) s.ips.length = shows s' s.ips.length) := by
  intro s'
  have hjs : s.ips[j]? = some s.ips[j] := List.getElem?_eq_getElem hj
  obtain ⟨w1, w2⟩ := hwf j _ hjs
  have es' : s' = { s.alloc defaultDims with ips := s.ips ++ [⟨s.next, n, p⟩] } := rfl
  have hlast : s'.ips[s.ips.length]? = some ⟨s.next, n, p⟩ := by rw [es']; simp
  have hj' : s'.ips[j]? = some s.ips[j] := by rw [es']; simp [List.getElem?_append_left hj]
  constructor
  · obtain ⟨⟨s1, r, _, _, _, h⟩, _⟩ := C24_setters_partial lower defaultDims s' s.ips.length _ hlast chi []
    have e : runAll lower defaultDims s' [.setChi s.ips.length chi] = s1 := by simp [runAll, r, Except.toOption]
    rw [e]
    refine h j _ hj' (by simp; omega) ?_
    intro hc
    have := w2 _ hc
    simp at this
  · obtain ⟨⟨s1, r, _, _, _, h⟩, _⟩ := C24_setters_partial lower defaultDims s' j _ hj' chi []
    have e : runAll lower defaultDims s' [.setChi j chi] = s1 := by simp [runAll, r, Except.toOption]
    intro hne
    rw [e]
    exact h _ _ hlast (by simp; omega) hne

example : ∃ s', (Op.setChi 0 (50 : ℕ)).run id [] (⟨[], fun _ => [("chi", 20)], 2, [⟨0, none, none⟩, ⟨1, none, none⟩]⟩)
    = .ok s' ∧ shows s' 1 = some ([("chi", 20)], none) := by
  obtain ⟨⟨s', h, _, _, _, h'⟩, _⟩ := C24_setters_partial id []
    (⟨[], fun _ => [("chi", 20)], 2, [⟨0, none, none⟩, ⟨1, none, none⟩]⟩ : St ℕ) 0 ⟨0, none, none⟩ rfl 50 []
  exact ⟨s', h, (h' 1 ⟨1, none, none⟩ rfl (by decide) (by decide)).trans rfl⟩

end
end AceTN.Reg
