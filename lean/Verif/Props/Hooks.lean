import Verif.Model.Hooks

/-!
C93: what the Hamiltonian hooks of a model may return.
-/

set_option autoImplicit false

namespace AceTN

open Hk

namespace Spec

variable {M P 𝕜 : Type}

/-- The matrix a returned value stands for. -/
def Hook.value : Ret M → Option M
  | .none => none
  | .tensor a => some a
  | .object a => some a

/-- The hooks return the terms `t`, as tensors or as objects with an attribute `mat`; only one-site terms may be missing. -/
def Hook.Returns (m : Hooks P 𝕜) (t : ModelTerms P 𝕜) : Prop :=
  (∀ b, Hook.value (m.two b) = some (t.two b)) ∧ ∀ s, Hook.value (m.one s) = t.one s

variable [Fintype P] [DecidableEq P] [RCLike 𝕜]

/-- `measure` evaluates the terms `t`. -/
def Hook.Measured (m : Hooks P 𝕜) (t : ModelTerms P 𝕜) : Prop :=
  (∀ s, siteTerm m s = .ok (t.one s)) ∧ ∀ b, bondTerm m b = .ok (t.two b)

/-- The gates of the given sites and bonds are built, and are those of the terms `t`. -/
def Hook.Gated (m : Hooks P 𝕜) (t : ModelTerms P 𝕜) (dtau : ℝ) (bonds : List Bond) (sites : List Site) (g : Gates P 𝕜) : Prop :=
  ∃ g', newGate m dtau bonds sites g = .ok g' ∧
    (∀ b ∈ bonds, g'.getItem (.bond b) = .ok (.two (twoSiteGate t dtau b))) ∧
    ∀ s ∈ sites, ∀ h, t.one s = some h → g'.getItem (.site s) = .ok (.one (calculateGate h dtau))

/-- Every model whose hooks return what the documentation allows can be measured and evolved. -/
def HooksWork : Prop :=
  ∀ (pD : ℕ) (m : Hooks (Fin pD) ℝ) (t : ModelTerms (Fin pD) ℝ), Hook.Returns m t →
    Hook.Measured m t ∧ ∀ dtau bonds sites g, Hook.Gated m t dtau bonds sites g

end Spec

open Spec

variable {P 𝕜 : Type} [Fintype P] [DecidableEq P] [RCLike 𝕜]

omit [Fintype P] [DecidableEq P] [RCLike 𝕜] in
/-- Measurements take tensors and objects alike. -/
theorem C93_measured (m : Hooks P 𝕜) (t : ModelTerms P 𝕜) (h : Hook.Returns m t) : Hook.Measured m t := by
  obtain ⟨h2, h1⟩ := h
  refine ⟨fun s => ?_, fun b => ?_⟩
  · have := h1 s
    unfold siteTerm
    cases hr : m.one s <;> rw [hr] at this <;> simp only [Hook.value] at this <;> rw [← this] <;> rfl
  · have := h2 b
    unfold bondTerm
    cases hr : m.two b <;> rw [hr] at this <;> simp only [Hook.value, Option.some.injEq, reduceCtorEq] at this <;>
      rw [← this] <;> rfl

/-- One pass over the sites. -/
private theorem sites_ok (m : Hooks P 𝕜) (dtau : ℝ) (hm : ∀ s, ∀ a, m.one s ≠ .tensor a) (sites : List Site) (g : Gates P 𝕜) :
    ∃ g', sites.foldlM (stepOne m dtau) g = .ok g' ∧
      ∀ s a, (s ∈ sites ∨ g.getItem (.site s) = .ok (.one (calculateGate a dtau))) → m.one s = .object a →
        g'.getItem (.site s) = .ok (.one (calculateGate a dtau)) := by
  induction sites generalizing g with
  | nil => exact ⟨g, rfl, fun s a h _ => by simpa using h⟩
  | cons x xs ih =>
    have hstep : ∃ g₁, stepOne m dtau g x = .ok g₁ ∧
        ∀ s a, (s = x ∨ g.getItem (.site s) = .ok (.one (calculateGate a dtau))) → m.one s = .object a →
          g₁.getItem (.site s) = .ok (.one (calculateGate a dtau)) := by
      unfold stepOne
      cases hx : m.one x with
      | none =>
        refine ⟨g, rfl, fun s a h hs => ?_⟩
        rcases h with rfl | h
        · rw [hx] at hs; cases hs
        · exact h
      | tensor a => exact absurd hx (hm x a)
      | object a =>
        refine ⟨_, rfl, fun s a' h hs => ?_⟩
        unfold PyDict.getItem
        rw [PyDict.get?_set]
        by_cases hsx : x = s
        · subst hsx
          rw [hx] at hs
          cases hs
          simp
        · rcases h with rfl | h
          · exact absurd rfl hsx
          · rw [if_neg (by simpa using hsx)]
            exact h
    obtain ⟨g₁, hg₁, hv₁⟩ := hstep
    obtain ⟨g', hg', hv⟩ := ih g₁
    refine ⟨g', by rw [List.foldlM_cons, hg₁]; exact hg', fun s a h hs => hv s a ?_ hs⟩
    rcases h with h | h
    · rcases List.mem_cons.1 h with rfl | h
      · exact Or.inr (hv₁ _ a (Or.inl rfl) hs)
      · exact Or.inl h
    · exact Or.inr (hv₁ s a (Or.inr h) hs)

/-- The step of a bond whose hooks return objects (or `None` for the sites). -/
private theorem stepTwo_ok (m : Hooks P 𝕜) (t : ModelTerms P 𝕜) (h : Hook.Returns m t) (dtau : ℝ)
    (h1 : ∀ s a, m.one s ≠ .tensor a) (b : Bond) (h2 : ∀ a, m.two b ≠ .tensor a) (g : Gates P 𝕜) :
    stepTwo m dtau g b = .ok (g.set (.bond b) (.two (twoSiteGate t dtau b))) := by
  have hb := h.1 b
  have e1 := h.2 b.s1
  have e2 := h.2 b.s2
  unfold stepTwo twoSiteGate bondHam
  cases hr : m.two b with
  | none => rw [hr] at hb; simp [Hook.value] at hb
  | tensor a => exact absurd hr (h2 a)
  | object a =>
    rw [hr] at hb
    simp only [Hook.value, Option.some.injEq] at hb
    cases hs1 : m.one b.s1 with
    | tensor a => exact absurd hs1 (h1 _ a)
    | none =>
      rw [hs1] at e1
      simp only [Hook.value] at e1
      rw [← e1, ← hb]
      rfl
    | object a1 =>
      rw [hs1] at e1
      simp only [Hook.value] at e1
      cases hs2 : m.one b.s2 with
      | tensor a => exact absurd hs2 (h1 _ a)
      | none =>
        rw [hs2] at e2
        simp only [Hook.value] at e2
        rw [← e1, ← e2, ← hb]
        rfl
      | object a2 =>
        rw [hs2] at e2
        simp only [Hook.value] at e2
        rw [← e1, ← e2, ← hb]
        rfl

private theorem bonds_ok (m : Hooks P 𝕜) (t : ModelTerms P 𝕜) (h : Hook.Returns m t) (dtau : ℝ)
    (h1 : ∀ s a, m.one s ≠ .tensor a) (bonds : List Bond) (h2 : ∀ b ∈ bonds, ∀ a, m.two b ≠ .tensor a) (g : Gates P 𝕜) :
    ∃ g', bonds.foldlM (stepTwo m dtau) g = .ok g' ∧
      (∀ b, (b ∈ bonds ∨ g.getItem (.bond b) = .ok (.two (twoSiteGate t dtau b))) →
        g'.getItem (.bond b) = .ok (.two (twoSiteGate t dtau b))) ∧
      ∀ s, g'.getItem (.site s) = g.getItem (.site s) := by
  induction bonds generalizing g with
  | nil => exact ⟨g, rfl, fun b hb => by simpa using hb, fun s => rfl⟩
  | cons x xs ih =>
    obtain ⟨g', hg', hv, hs⟩ := ih (fun b hb => h2 b (List.mem_cons_of_mem _ hb))
      (g.set (.bond x) (.two (twoSiteGate t dtau x)))
    refine ⟨g', by rw [List.foldlM_cons, stepTwo_ok m t h dtau h1 x (h2 x List.mem_cons_self)]; exact hg',
      fun b hb => hv b ?_, fun s => ?_⟩
    · by_cases hbx : x = b
      · subst hbx
        refine Or.inr ?_
        unfold PyDict.getItem
        rw [PyDict.get?_set_self]
      · rcases hb with hb | hb
        · rcases List.mem_cons.1 hb with rfl | hb
          · exact absurd rfl hbx
          · exact Or.inl hb
        · refine Or.inr ?_
          unfold PyDict.getItem at hb ⊢
          rw [PyDict.get?_set_ne _ _ (by simpa using hbx)]
          exact hb
    · rw [hs s]
      unfold PyDict.getItem
      rw [PyDict.get?_set_ne _ _ (by simp)]

/-- **C93** for models whose hooks return objects with an attribute `mat`, as Pauli expressions are (one-site terms may
be missing).  Missing: tensors, see `C93_violated_tensor`. -/
theorem C93_gates_partial (m : Hooks P 𝕜) (t : ModelTerms P 𝕜) (h : Hook.Returns m t) (dtau : ℝ) (bonds : List Bond)
    (sites : List Site) (h1 : ∀ s a, m.one s ≠ .tensor a) (h2 : ∀ b ∈ bonds, ∀ a, m.two b ≠ .tensor a) (g : Gates P 𝕜) :
    Hook.Gated m t dtau bonds sites g := by
  obtain ⟨g₁, hg₁, hv₁⟩ := sites_ok m dtau h1 sites g
  obtain ⟨g', hg', hv, hs⟩ := bonds_ok m t h dtau h1 bonds h2 g₁
  refine ⟨g', ?_, fun b hb => hv b (Or.inl hb), fun s hsm a ha => ?_⟩
  · unfold newGate
    rw [hg₁]
    exact hg'
  · rw [hs s]
    have := h.2 s
    rw [ha] at this
    refine hv₁ s a (Or.inl hsm) ?_
    cases hr : m.one s with
    | none => rw [hr] at this; simp [Hook.value] at this
    | tensor a => exact absurd hr (h1 s a)
    | object a' => rw [hr] at this; simp only [Hook.value, Option.some.injEq] at this; rw [this]

private theorem foldlM_error {α β : Type} (f : β → α → Except PyErr β) (e : PyErr) (x : α) (hx : ∀ b, f b x = .error e)
    (he : ∀ y b e', f b y = .error e' → e' = e) (l : List α) (hl : x ∈ l) (b : β) : l.foldlM f b = .error e := by
  induction l generalizing b with
  | nil => cases hl
  | cons y l ih =>
    rw [List.foldlM_cons]
    cases hy : f b y with
    | error e' => rw [he y b e' hy]; rfl
    | ok b' =>
      rcases List.mem_cons.1 hl with rfl | hl
      · rw [hx b] at hy; cases hy
      · exact ih hl b'

private theorem foldlM_ok_or {α β : Type} (f : β → α → Except PyErr β) (e : PyErr)
    (he : ∀ y b e', f b y = .error e' → e' = e) (l : List α) (b : β) : (∃ b', l.foldlM f b = .ok b') ∨ l.foldlM f b = .error e := by
  induction l generalizing b with
  | nil => exact Or.inl ⟨b, rfl⟩
  | cons y l ih =>
    rw [List.foldlM_cons]
    cases hy : f b y with
    | error e' => rw [he y b e' hy]; exact Or.inr rfl
    | ok b' => exact ih b'

private theorem stepOne_err (m : Hooks P 𝕜) (dtau : ℝ) (s : Site) (g : Gates P 𝕜) (e : PyErr)
    (h : stepOne m dtau g s = .error e) : e = .attributeError := by
  unfold stepOne at h
  cases hx : m.one s <;> rw [hx] at h <;> cases h
  rfl

private theorem stepTwo_err (m : Hooks P 𝕜) (dtau : ℝ) (b : Bond) (g : Gates P 𝕜) (e : PyErr)
    (h : stepTwo m dtau g b = .error e) : e = .attributeError := by
  unfold stepTwo at h
  cases hx : m.two b <;> rw [hx] at h <;> [skip; skip; (cases h1 : m.one b.s1 <;> cases h2 : m.one b.s2 <;> rw [h1, h2] at h)] <;>
    cases h <;> rfl

/-- One tensor returned for a bond, or for a site, is enough for the gates not to be built. -/
theorem C93_raises (m : Hooks P 𝕜) (dtau : ℝ) (bonds : List Bond) (sites : List Site) (g : Gates P 𝕜)
    (h : (∃ s ∈ sites, ∃ a, m.one s = .tensor a) ∨ ∃ b ∈ bonds, ∃ a, m.two b = .tensor a) :
    newGate m dtau bonds sites g = .error .attributeError := by
  unfold newGate
  rcases h with ⟨s, hs, a, ha⟩ | ⟨b, hb, a, ha⟩
  · rw [foldlM_error (stepOne m dtau) .attributeError s (fun g => by unfold stepOne; rw [ha]; rfl)
      (fun y g e => stepOne_err m dtau y g e) sites hs]
    rfl
  · rcases foldlM_ok_or (stepOne m dtau) .attributeError (fun y g e => stepOne_err m dtau y g e) sites g with ⟨g', hg⟩ | hg
    · rw [hg]
      exact foldlM_error (stepTwo m dtau) .attributeError b (fun g => by unfold stepTwo; rw [ha]; rfl)
        (fun y g e => stepTwo_err m dtau y g e) bonds hb g'
    · rw [hg]
      rfl

/-- A model that forgets to return the two-site term of a bond can neither be measured nor evolved. -/
theorem C93_forgotten (m : Hooks P 𝕜) (b : Bond) (h : m.two b = .none) :
    bondTerm m b = .error .attributeError ∧
    ∀ (dtau : ℝ) (bonds : List Bond) (sites : List Site) (g : Gates P 𝕜), b ∈ bonds → newGate m dtau bonds sites g = .error .attributeError := by
  refine ⟨?_, fun dtau bonds sites g hb => ?_⟩
  · unfold bondTerm
    rw [h]
    rfl
  · unfold newGate
    rcases foldlM_ok_or (stepOne m dtau) .attributeError (fun y g e => stepOne_err m dtau y g e) sites g with ⟨g', hg⟩ | hg
    · rw [hg]
      refine foldlM_error (stepTwo m dtau) .attributeError b (fun g => ?_) (fun y g e => stepTwo_err m dtau y g e) bonds hb g'
      unfold stepTwo
      rw [h]
      cases m.one b.s1 <;> cases m.one b.s2 <;> rfl
    · rw [hg]
      rfl

/-- The property fails: a model that returns its two-site term as a `torch.Tensor`, the documented type, can be measured
but not evolved. -/
theorem C93_violated_tensor : ¬ HooksWork := by
  intro h
  have h0 := (h 2 ⟨fun _ => .tensor 1, fun _ => .none⟩ ⟨fun _ => 1, fun _ => none⟩ ⟨fun _ => rfl, fun _ => rfl⟩).2 1
    [⟨(0, 0), (1, 0), 2⟩] [] []
  obtain ⟨g', hg, -⟩ := h0
  rw [C93_raises _ _ _ _ _ (Or.inr ⟨_, List.mem_cons_self, 1, rfl⟩)] at hg
  cases hg

/-- The hypotheses of `C93_measured` and `C93_gates_partial` are met by a model with a coupling on every bond and a field
on some sites only. -/
example : ∃ (m : Hooks (Fin 2) ℝ) (t : ModelTerms (Fin 2) ℝ), Hook.Returns m t ∧ (∀ s a, m.one s ≠ .tensor a) ∧
    (∀ b a, m.two b ≠ .tensor a) ∧ t.two ⟨(0, 0), (1, 0), 2⟩ ≠ 0 ∧ t.one (0, 0) ≠ none ∧ t.one (1, 0) = none := by
  refine ⟨⟨fun _ => .object 1, fun s => if s = (0, 0) then .object 1 else .none⟩,
    ⟨fun _ => 1, fun s => if s = (0, 0) then some 1 else none⟩, ⟨fun _ => rfl, fun s => ?_⟩, fun s a => ?_, fun b a => ?_, ?_, ?_, ?_⟩
  · by_cases hs : s = (0, 0) <;> simp [hs, Hook.value]
  · by_cases hs : s = (0, 0) <;> simp [hs]
  · simp
  · exact one_ne_zero
  · simp
  · simp

/-- The hypothesis of `C93_raises` is met by a model that returns one tensor among objects. -/
example : ∃ m : Hooks (Fin 2) ℝ, (∃ b ∈ [(⟨(0, 0), (1, 0), 2⟩ : Bond)], ∃ a, m.two b = .tensor a) ∧ ∃ a, m.one (0, 0) = .object a :=
  ⟨⟨fun _ => .tensor 1, fun _ => .object 1⟩, ⟨_, List.mem_cons_self, 1, rfl⟩, 1, rfl⟩

end AceTN
