import Verif.Model.Native
import Mathlib.Algebra.BigOperators.Group.List.Basic
import Mathlib.Data.List.Forall2
import Mathlib.Tactic.Ring
import Mathlib.Tactic.Linarith

/-! C55: the native contraction planner. -/

set_option autoImplicit false

namespace AceTN.Native

theorem stridesAux_prod (shape : List ℕ) : (stridesAux shape).2 = shape.prod := by
  induction shape with
  | nil => rfl
  | cons n s ih => simp [stridesAux, ih, Nat.mul_comm]

/-- C55, strides: there is one stride per axis, and it is the number of elements spanned by the later axes. -/
theorem C55_strides (shape : List ℕ) :
    (rowMajorStrides shape).length = shape.length ∧
    ∀ i, i < shape.length → (rowMajorStrides shape)[i]? = some (shape.drop (i + 1)).prod := by
  induction shape with
  | nil => exact ⟨rfl, by simp⟩
  | cons n s ih =>
    refine ⟨by simpa [rowMajorStrides, stridesAux] using ih.1, fun i hi => ?_⟩
    cases i with
    | zero => simp [rowMajorStrides, stridesAux, stridesAux_prod]
    | succ i =>
      have := ih.2 i (by simpa using hi)
      simpa [rowMajorStrides, stridesAux] using this

theorem offset_cons (i n : ℕ) (idx shape : List ℕ) :
    offset (i :: idx) (rowMajorStrides (n :: shape)) = i * shape.prod + offset idx (rowMajorStrides shape) := by
  simp [offset, rowMajorStrides, stridesAux, stridesAux_prod]

/-- C55, addresses: every in-range index tuple has an address below the number of elements. -/
theorem C55_offset_lt (shape idx : List ℕ) (h : List.Forall₂ (· < ·) idx shape) :
    offset idx (rowMajorStrides shape) < shape.prod := by
  induction h with
  | nil => simp [offset]
  | @cons i n idx shape hi _ ih =>
    rw [offset_cons, List.prod_cons]
    have : (i + 1) * shape.prod ≤ n * shape.prod := Nat.mul_le_mul_right _ hi
    nlinarith

/-- C55, addresses: distinct in-range index tuples have distinct addresses. -/
theorem C55_offset_injective (shape idx idx' : List ℕ) (h : List.Forall₂ (· < ·) idx shape)
    (h' : List.Forall₂ (· < ·) idx' shape)
    (e : offset idx (rowMajorStrides shape) = offset idx' (rowMajorStrides shape)) : idx = idx' := by
  induction h generalizing idx' with
  | nil => cases h'; rfl
  | @cons i n idx shape hi hr ih =>
    cases h' with
    | @cons i' _ idx' _ hi' hr' =>
      rw [offset_cons, offset_cons] at e
      have l := C55_offset_lt shape idx hr
      have l' := C55_offset_lt shape idx' hr'
      have hp : 0 < shape.prod := by omega
      have d1 : (i * shape.prod + offset idx (rowMajorStrides shape)) / shape.prod = i := by
        rw [Nat.mul_comm, Nat.mul_add_div hp, Nat.div_eq_of_lt l]; simp
      have d2 : (i' * shape.prod + offset idx' (rowMajorStrides shape)) / shape.prod = i' := by
        rw [Nat.mul_comm, Nat.mul_add_div hp, Nat.div_eq_of_lt l']; simp
      have ei : i = i' := by rw [← d1, ← d2, e]
      subst ei
      rw [ih idx' hr' (by omega)]

/-- C55, addresses: every address below the number of elements belongs to an in-range index tuple. -/
theorem C55_offset_surjective (shape : List ℕ) (a : ℕ) (ha : a < shape.prod) :
    ∃ idx, List.Forall₂ (· < ·) idx shape ∧ offset idx (rowMajorStrides shape) = a := by
  induction shape generalizing a with
  | nil => exact ⟨[], .nil, by simp only [List.prod_nil] at ha; simp [offset]; omega⟩
  | cons n s ih =>
    rw [List.prod_cons] at ha
    have hp : 0 < s.prod := by
      rcases Nat.eq_zero_or_pos s.prod with h | h
      · rw [h] at ha; omega
      · exact h
    obtain ⟨idx, h1, h2⟩ := ih (a % s.prod) (Nat.mod_lt _ hp)
    refine ⟨(a / s.prod) :: idx, .cons (Nat.div_lt_of_lt_mul (by rwa [Nat.mul_comm] at ha)) h1, ?_⟩
    rw [offset_cons, h2, Nat.mul_comm, Nat.div_add_mod]

/-! ### The parser -/

/-- The text `A,B->C`. -/
def Spec.expr (A B C : List Char) : List Char := A ++ ',' :: (B ++ '-' :: '>' :: C)

/-- The operands fit the labels: one extent per label throughout, and every output label occurs in an input. -/
def Spec.Meaningful (A B C : List Char) (extA extB extC : List ℕ) : Prop :=
  ∃ dims : Char → ℕ, extA = A.map dims ∧ extB = B.map dims ∧ extC = C.map dims ∧ ∀ c ∈ C, c ∈ A ∨ c ∈ B

theorem splitArrow_of {l r : List Char} (h : '-' ∉ l) : splitArrow (l ++ '-' :: '>' :: r) = some (l, r) := by
  induction l with
  | nil => rfl
  | cons c l ih =>
    have hc : c ≠ '-' := fun e => h (e ▸ List.mem_cons_self ..)
    have := ih fun hm => h (List.mem_cons_of_mem _ hm)
    simp only [List.cons_append]
    rw [splitArrow]
    · simp [this]
    · intro r' hx; exact absurd hx hc

theorem splitComma_of {l r : List Char} (h : ',' ∉ l) : splitComma (l ++ ',' :: r) = some (l, r) := by
  induction l with
  | nil => rfl
  | cons c l ih =>
    have hc : c ≠ ',' := fun e => h (e ▸ List.mem_cons_self ..)
    have := ih fun hm => h (List.mem_cons_of_mem _ hm)
    simp only [List.cons_append]
    rw [splitComma]
    · simp [this]
    · intro hx; exact absurd hx hc

theorem splitArrow_sound {s l r : List Char} (h : splitArrow s = some (l, r)) : s = l ++ '-' :: '>' :: r := by
  induction s generalizing l with
  | nil => simp [splitArrow] at h
  | cons c cs ih =>
    unfold splitArrow at h
    split at h
    · next r' e =>
      simp only [Option.some.injEq, Prod.mk.injEq] at h
      obtain ⟨rfl, rfl⟩ := h
      simpa using e
    · next c' cs' _ e =>
      obtain ⟨rfl, rfl⟩ := List.cons.inj e
      cases hs : splitArrow cs with
      | none => rw [hs] at h; cases h
      | some p =>
        rw [hs] at h
        simp only [Option.map_some, Option.some.injEq, Prod.mk.injEq] at h
        obtain ⟨rfl, rfl⟩ := h
        simp [← ih hs]
    · next e => cases e

theorem splitComma_sound {s l r : List Char} (h : splitComma s = some (l, r)) : s = l ++ ',' :: r ∧ ',' ∉ l := by
  induction s generalizing l with
  | nil => simp [splitComma] at h
  | cons c cs ih =>
    unfold splitComma at h
    split at h
    · next r' e =>
      simp only [Option.some.injEq, Prod.mk.injEq] at h
      obtain ⟨rfl, rfl⟩ := h
      exact ⟨by simpa using e, by simp⟩
    · next c' cs' hne e =>
      obtain ⟨rfl, rfl⟩ := List.cons.inj e
      cases hs : splitComma cs with
      | none => rw [hs] at h; cases h
      | some p =>
        rw [hs] at h
        simp only [Option.map_some, Option.some.injEq, Prod.mk.injEq] at h
        obtain ⟨rfl, rfl⟩ := h
        obtain ⟨h1, h2⟩ := ih hs
        refine ⟨by simp [← h1], ?_⟩
        simp only [List.mem_cons, not_or]
        exact ⟨fun e => hne e.symm, h2⟩
    · next e => cases e

theorem zip_map_dims (A : List Char) (dims : Char → ℕ) : A.zip (A.map dims) = A.map fun c => (c, dims c) := by
  induction A with
  | nil => rfl
  | cons c A ih => simp [ih]

theorem addA_dims (dims : Char → ℕ) (A : List Char) (d : PyDict Char ℕ) (hd : ∀ c n, d.get? c = some n → n = dims c) :
    (∀ c n, (addA (A.map fun c => (c, dims c)) d).get? c = some n → n = dims c) ∧
    (∀ c, c ∈ A ∨ (d.get? c).isSome → (addA (A.map fun c => (c, dims c)) d).get? c = some (dims c)) := by
  induction A generalizing d with
  | nil =>
    refine ⟨hd, fun c h => ?_⟩
    rcases h with h | h
    · cases h
    · obtain ⟨n, hn⟩ := Option.isSome_iff_exists.1 h
      show d.get? c = _
      rw [hn, hd c n hn]
  | cons a A ih =>
    simp only [List.map_cons, addA]
    have key : ∀ d' : PyDict Char ℕ, d' = (match d.get? a with | none => d.set a (dims a) | some _ => d) →
        (∀ c n, d'.get? c = some n → n = dims c) ∧ (d'.get? a).isSome ∧ ∀ c, (d.get? c).isSome → (d'.get? c).isSome := by
      intro d' e
      cases h : d.get? a with
      | none =>
        rw [h] at e
        simp only at e
        subst e
        refine ⟨fun c n hc => ?_, by simp [PyDict.get?_set_self], fun c hc => ?_⟩
        · rw [PyDict.get?_set] at hc
          split at hc
          · next e => subst e; exact (Option.some.inj hc).symm
          · exact hd c n hc
        · rw [PyDict.get?_set]; split <;> simp [hc]
      | some m =>
        rw [h] at e
        simp only at e
        subst e
        exact ⟨hd, by simp [h], fun _ h => h⟩
    obtain ⟨k1, k2, k3⟩ := key _ rfl
    obtain ⟨i1, i2⟩ := ih _ k1
    refine ⟨i1, fun c h => i2 c ?_⟩
    rcases h with h | h
    · rcases List.mem_cons.1 h with rfl | h
      · exact Or.inr k2
      · exact Or.inl h
    · exact Or.inr (k3 c h)

theorem addB_dims (dims : Char → ℕ) (B : List Char) (d : PyDict Char ℕ) (hd : ∀ c n, d.get? c = some n → n = dims c) :
    ∃ d', addB (B.map fun c => (c, dims c)) d = .ok d' ∧
      (∀ c, c ∈ B ∨ (d.get? c).isSome → d'.get? c = some (dims c)) := by
  induction B generalizing d with
  | nil =>
    refine ⟨d, rfl, fun c h => ?_⟩
    rcases h with h | h
    · cases h
    · obtain ⟨n, hn⟩ := Option.isSome_iff_exists.1 h
      rw [hn, hd c n hn]
  | cons b B ih =>
    simp only [List.map_cons, addB]
    cases h : d.get? b with
    | none =>
      have hd' : ∀ c n, (d.set b (dims b)).get? c = some n → n = dims c := by
        intro c n hc
        rw [PyDict.get?_set] at hc
        split at hc
        · next e => subst e; exact (Option.some.inj hc).symm
        · exact hd c n hc
      obtain ⟨d', e1, e2⟩ := ih _ hd'
      refine ⟨d', e1, fun c hc => e2 c ?_⟩
      rcases hc with hc | hc
      · rcases List.mem_cons.1 hc with rfl | hc
        · right; simp [PyDict.get?_set_self]
        · exact Or.inl hc
      · right; rw [PyDict.get?_set]; split <;> simp [hc]
    | some m =>
      have hm := hd b m h
      subst hm
      simp only [ne_eq, not_true_eq_false, if_false]
      obtain ⟨d', e1, e2⟩ := ih _ hd
      refine ⟨d', e1, fun c hc => e2 c ?_⟩
      rcases hc with hc | hc
      · rcases List.mem_cons.1 hc with rfl | hc
        · right; simp [h]
        · exact Or.inl hc
      · exact Or.inr hc

theorem outExtents_dims (dims : Char → ℕ) (d : PyDict Char ℕ) (C : List Char)
    (h : ∀ c ∈ C, d.get? c = some (dims c)) : outExtents d C = .ok (C.map dims) := by
  induction C with
  | nil => rfl
  | cons c C ih =>
    simp only [outExtents, h c (List.mem_cons_self ..), ih fun x hx => h x (List.mem_cons_of_mem _ hx)]
    rfl

/-- C55, parser: a meaningful expression is accepted, and the parser returns its labels and the extents of the output. -/
theorem C55_parse_accepts (A B C : List Char) (extA extB extC : List ℕ) (h : Spec.Meaningful A B C extA extB extC)
    (hA : ',' ∉ A) (hA' : '-' ∉ A) (hB : '-' ∉ B) :
    parse (Spec.expr A B C) extA extB = .ok ⟨A, B, C, extC⟩ := by
  obtain ⟨dims, rfl, rfl, rfl, hC⟩ := h
  have e1 : splitArrow (Spec.expr A B C) = some (A ++ ',' :: B, C) := by
    have := splitArrow_of (l := A ++ ',' :: B) (r := C) (by
      simp only [List.mem_append, List.mem_cons, not_or]
      exact ⟨hA', by decide, hB⟩)
    rw [← this]
    simp [Spec.expr]
  unfold parse
  rw [e1]
  simp only [splitComma_of hA, List.length_map, ne_eq, not_true_eq_false, if_false]
  split
  · next hc => subst hc; rfl
  · simp only [zip_map_dims]
    obtain ⟨a1, a2⟩ := addA_dims dims A [] (by simp [PyDict.get?])
    obtain ⟨d', b1, b2⟩ := addB_dims dims B _ a1
    rw [b1]
    simp only
    rw [outExtents_dims dims d' C fun c hc => b2 c ?_]
    · rfl
    · rcases hC c hc with h | h
      · right; simp [a2 c (Or.inl h)]
      · exact Or.inl h

/-- C55, parser: text without an arrow, or without a comma before the arrow, is rejected. -/
theorem C55_parse_rejects_text (s : List Char) (extA extB : List ℕ)
    (h : (∀ l r, s ≠ l ++ '-' :: '>' :: r) ∨ ∀ A B C, s ≠ Spec.expr A B C) :
    parse s extA extB = .error .runtimeError := by
  unfold parse
  cases e : splitArrow s with
  | none => rfl
  | some p =>
    obtain ⟨l, r⟩ := p
    have h1 := splitArrow_sound e
    simp only
    cases e2 : splitComma l with
    | none => rfl
    | some q =>
      obtain ⟨A, B⟩ := q
      have h2 := (splitComma_sound e2).1
      exfalso
      rcases h with h | h
      · exact h l r h1
      · exact h A B r (by rw [h1, h2]; simp [Spec.expr])

theorem addA_nodup (l : List (Char × ℕ)) (hn : (l.map Prod.fst).Nodup) (d : PyDict Char ℕ)
    (hd : ∀ p ∈ l, d.get? p.1 = none) :
    (∀ p ∈ l, (addA l d).get? p.1 = some p.2) ∧ ∀ c n, d.get? c = some n → (addA l d).get? c = some n := by
  induction l generalizing d with
  | nil => exact ⟨by simp, fun _ _ h => h⟩
  | cons p l ih =>
    obtain ⟨c, n⟩ := p
    rw [List.map_cons, List.nodup_cons] at hn
    have h0 := hd (c, n) (List.mem_cons_self ..)
    simp only at h0
    simp only [addA, h0]
    obtain ⟨i1, i2⟩ := ih hn.2 (d.set c n) (by
      intro p hp
      rw [PyDict.get?_set_ne]
      · exact hd p (List.mem_cons_of_mem _ hp)
      · intro e; exact hn.1 (List.mem_map.2 ⟨p, hp, e.symm⟩))
    refine ⟨fun p hp => ?_, fun c' n' h => ?_⟩
    · rcases List.mem_cons.1 hp with rfl | hp
      · exact i2 c n (PyDict.get?_set_self ..)
      · exact i1 p hp
    · refine i2 c' n' ?_
      rw [PyDict.get?_set_ne]
      · exact h
      · rintro rfl; rw [h0] at h; cases h

theorem addA_keys (l : List (Char × ℕ)) (d : PyDict Char ℕ) (c : Char) (h : ((addA l d).get? c).isSome) :
    c ∈ l.map Prod.fst ∨ (d.get? c).isSome := by
  induction l generalizing d with
  | nil => exact Or.inr h
  | cons p l ih =>
    obtain ⟨a, n⟩ := p
    simp only [addA] at h
    rcases ih _ h with h | h
    · exact Or.inl (List.mem_cons_of_mem _ h)
    · cases e : d.get? a with
      | none =>
        simp only [e, PyDict.get?_set] at h
        split at h
        · next e => left; simp [e]
        · exact Or.inr h
      | some m => simp only [e] at h; exact Or.inr h

theorem addB_sound (l : List (Char × ℕ)) (d d' : PyDict Char ℕ) (h : addB l d = .ok d') :
    (∀ p ∈ l, d'.get? p.1 = some p.2) ∧ (∀ c n, d.get? c = some n → d'.get? c = some n) ∧
    ∀ c, (d'.get? c).isSome → c ∈ l.map Prod.fst ∨ (d.get? c).isSome := by
  induction l generalizing d with
  | nil => cases h; exact ⟨by simp, fun _ _ h => h, fun _ h => Or.inr h⟩
  | cons p l ih =>
    obtain ⟨c, n⟩ := p
    simp only [addB] at h
    cases e : d.get? c with
    | none =>
      rw [e] at h
      obtain ⟨i1, i2, i3⟩ := ih _ h
      refine ⟨fun p hp => ?_, fun c' n' hc => i2 c' n' ?_, fun c' hc => ?_⟩
      · rcases List.mem_cons.1 hp with rfl | hp
        · exact i2 c n (PyDict.get?_set_self ..)
        · exact i1 p hp
      · rw [PyDict.get?_set_ne]
        · exact hc
        · rintro rfl; rw [e] at hc; cases hc
      · rcases i3 c' hc with h | h
        · exact Or.inl (List.mem_cons_of_mem _ h)
        · rw [PyDict.get?_set] at h
          split at h
          · next e => left; simp [e]
          · exact Or.inr h
    | some m =>
      rw [e] at h
      simp only at h
      split at h
      · cases h
      · next hm =>
        simp only [ne_eq, not_not] at hm
        subst hm
        obtain ⟨i1, i2, i3⟩ := ih _ h
        refine ⟨fun p hp => ?_, i2, fun c' hc => ?_⟩
        · rcases List.mem_cons.1 hp with rfl | hp
          · exact i2 c m e
          · exact i1 p hp
        · rcases i3 c' hc with h | h
          · exact Or.inl (List.mem_cons_of_mem _ h)
          · exact Or.inr h

theorem outExtents_sound (d : PyDict Char ℕ) (C : List Char) (e : List ℕ) (h : outExtents d C = .ok e) :
    (∀ c ∈ C, (d.get? c).isSome) ∧ e = C.map fun c => (d.get? c).getD 0 := by
  induction C generalizing e with
  | nil => cases h; exact ⟨by simp, rfl⟩
  | cons c C ih =>
    simp only [outExtents] at h
    cases hc : d.get? c with
    | none => rw [hc] at h; cases h
    | some n =>
      rw [hc] at h
      cases hr : outExtents d C with
      | error x => rw [hr] at h; cases h
      | ok e' =>
        rw [hr] at h
        have := Except.ok.inj h
        subst this
        obtain ⟨i1, i2⟩ := ih e' hr
        refine ⟨fun x hx => ?_, by simp [hc, i2]⟩
        rcases List.mem_cons.1 hx with rfl | hx
        · simp [hc]
        · exact i1 x hx

theorem eq_map_of_zip (A : List Char) (ext : List ℕ) (dims : Char → ℕ) (hl : A.length = ext.length)
    (h : ∀ p ∈ A.zip ext, p.2 = dims p.1) : ext = A.map dims := by
  induction A generalizing ext with
  | nil => cases ext with
    | nil => rfl
    | cons _ _ => cases hl
  | cons a A ih => cases ext with
    | nil => cases hl
    | cons n ext =>
      have h1 := h (a, n) (List.mem_cons_self ..)
      simp only at h1
      rw [List.map_cons, ← h1, ← ih ext (by simpa using hl) fun p hp => h p (List.mem_cons_of_mem _ hp)]

/-- The intended statement: whatever the parser accepts is `A,B->C` with plain labels and fitting operands. -/
def Spec.Rejects : Prop :=
  ∀ (s : List Char) (extA extB : List ℕ) (p : Parsed), parse s extA extB = .ok p →
    s = Spec.expr p.modeA p.modeB p.modeC ∧ ',' ∉ p.modeA ∧ ',' ∉ p.modeB ∧
    Spec.Meaningful p.modeA p.modeB p.modeC extA extB p.extentC

/-- C55 fails: `ab,ab->` with operands of different sizes is accepted, because the sizes are compared only when there is
an output label. -/
theorem C55_violated_scalar_output : ¬ Spec.Rejects := by
  intro h
  obtain ⟨-, -, -, dims, h1, h2, -⟩ := h "ab,ab->".toList [2, 3] [2, 4] ⟨['a', 'b'], ['a', 'b'], [], []⟩ (by decide)
  simp only [List.map_cons, List.map_nil, List.cons.injEq] at h1 h2
  omega

/-- C55 fails: a label repeated in the first operand with two sizes is accepted. -/
theorem C55_violated_repeated_label : ∃ p, parse "aa,b->b".toList [2, 3] [4] = .ok p ∧
    ¬ Spec.Meaningful p.modeA p.modeB p.modeC [2, 3] [4] p.extentC := by
  refine ⟨⟨['a', 'a'], ['b'], ['b'], [4]⟩, by decide, ?_⟩
  rintro ⟨dims, h1, -⟩
  simp only [List.map_cons, List.map_nil, List.cons.injEq] at h1
  omega

/-- C55 fails: an expression with three operands is accepted, the second comma being taken for a label. -/
theorem C55_violated_three_operands : ∃ p, parse "a,b,c->a".toList [2] [3, 4, 5] = .ok p ∧ ',' ∈ p.modeB :=
  ⟨⟨['a'], ['b', ',', 'c'], ['a'], [2]⟩, by decide, by decide⟩

/-- C55, what holds of rejection: whatever the parser accepts has the form `A,B->C` with one extent per label; and if
there is an output label and the labels of the first operand are distinct, the operands fit.
Missing: scalar outputs, repeated labels, further commas (false, above). -/
theorem C55_parse_rejects_partial (s : List Char) (extA extB : List ℕ) (p : Parsed) (h : parse s extA extB = .ok p) :
    s = Spec.expr p.modeA p.modeB p.modeC ∧ ',' ∉ p.modeA ∧ p.modeA.length = extA.length ∧
    p.modeB.length = extB.length ∧ p.extentC.length = p.modeC.length ∧
    (p.modeC ≠ [] → p.modeA.Nodup → Spec.Meaningful p.modeA p.modeB p.modeC extA extB p.extentC) := by
  unfold parse at h
  cases e : splitArrow s with
  | none => rw [e] at h; cases h
  | some q =>
    obtain ⟨l, C⟩ := q
    rw [e] at h
    simp only at h
    cases e2 : splitComma l with
    | none => rw [e2] at h; cases h
    | some q =>
      obtain ⟨A, B⟩ := q
      rw [e2] at h
      simp only at h
      have hs : s = Spec.expr A B C := by
        rw [splitArrow_sound e, (splitComma_sound e2).1]; simp [Spec.expr]
      have hc := (splitComma_sound e2).2
      split at h
      · cases h
      next lA =>
      split at h
      · cases h
      next lB =>
      simp only [ne_eq, not_not] at lA lB
      split at h
      · next hC =>
        have := Except.ok.inj h
        subst this
        exact ⟨hs, hc, lA, lB, by simp [hC], fun hn => absurd hC hn⟩
      · cases hb : addB (B.zip extB) (addA (A.zip extA) []) with
        | error x => rw [hb] at h; cases h
        | ok d =>
          rw [hb] at h
          simp only at h
          cases ho : outExtents d C with
          | error x => rw [ho] at h; cases h
          | ok ext =>
            rw [ho] at h
            have := Except.ok.inj h
            subst this
            obtain ⟨b1, b2, b3⟩ := addB_sound _ _ _ hb
            obtain ⟨o1, o2⟩ := outExtents_sound _ _ _ ho
            refine ⟨hs, hc, lA, lB, by simp [o2], fun _ hnd => ?_⟩
            have hfst : (A.zip extA).map Prod.fst = A := List.map_fst_zip (by omega)
            have hfstB : (B.zip extB).map Prod.fst = B := List.map_fst_zip (by omega)
            obtain ⟨a1, -⟩ := addA_nodup (A.zip extA) (by rw [hfst]; exact hnd) [] (by simp [PyDict.get?])
            refine ⟨fun c => (d.get? c).getD 0, ?_, ?_, o2, ?_⟩
            · exact eq_map_of_zip A extA _ lA fun p hp => by simp [b2 _ _ (a1 p hp)]
            · exact eq_map_of_zip B extB _ lB fun p hp => by simp [b1 p hp]
            · intro c hcC
              rcases b3 c (o1 c hcC) with h | h
              · right; rwa [hfstB] at h
              · rcases addA_keys _ _ _ h with h | h
                · left; rwa [hfst] at h
                · simp [PyDict.get?] at h

example : Spec.Meaningful "yxYX".toList "xuq".toList "yYXuq".toList [5, 6, 7, 8] [6, 2, 3] [5, 7, 8, 2, 3] :=
  ⟨fun c => if c = 'y' then 5 else if c = 'x' then 6 else if c = 'Y' then 7 else if c = 'X' then 8
    else if c = 'u' then 2 else 3, by decide, by decide, by decide, by decide⟩

example : List.Forall₂ (· < ·) [1, 2, 0] [2, 3, 4] := by decide

end AceTN.Native
