import Verif.Model.GateHeap
import Mathlib.Data.List.Nodup
import Mathlib.Tactic.Abel

/-! C28: side effects of building gates. -/

set_option autoImplicit false

namespace AceTN.GH
section
variable {M N D : Type} [AddCommGroup M] {wrap : N → N → M} {gateOf : D → M → M} {gate1 : D → N → M}

omit [AddCommGroup M] in
theorem buildOne_spec (m : Mdl M N) (dtau : D) (sites : List Site) (s : St M) :
    (buildOne gate1 m dtau sites s).heap = s.heap ∧
    ∀ k, (∀ x ∈ sites, k ≠ .site x) → (buildOne gate1 m dtau sites s).gates.get? k = s.gates.get? k := by
  induction sites generalizing s with
  | nil => exact ⟨rfl, fun _ _ => rfl⟩
  | cons x xs ih =>
    simp only [buildOne]
    split
    · exact ⟨(ih s).1, fun k hk => (ih s).2 k fun y hy => hk y (List.mem_cons_of_mem _ hy)⟩
    · next h _ =>
      obtain ⟨h1, h2⟩ := ih { s with gates := s.gates.set (.site x) (gate1 dtau h) }
      refine ⟨h1, fun k hk => ?_⟩
      rw [h2 k fun y hy => hk y (List.mem_cons_of_mem _ hy)]
      exact PyDict.get?_set_ne _ _ fun e => hk x (List.mem_cons_self ..) e.symm

theorem stepTwo_gates (m : Mdl M N) (dtau : D) (b : Bond) (s : St M) (k : Key) (hk : k ≠ .bond b) :
    (stepTwo wrap gateOf m dtau b s).gates.get? k = s.gates.get? k := by
  simp only [stepTwo]
  split <;> exact PyDict.get?_set_ne _ _ (Ne.symm hk)

theorem buildTwo_gates (m : Mdl M N) (dtau : D) (bonds : List Bond) (s : St M) (k : Key)
    (hk : ∀ b ∈ bonds, k ≠ .bond b) : (buildTwo wrap gateOf m dtau bonds s).gates.get? k = s.gates.get? k := by
  induction bonds generalizing s with
  | nil => rfl
  | cons b bs ih =>
    simp only [buildTwo]
    rw [ih _ fun y hy => hk y (List.mem_cons_of_mem _ hy), stepTwo_gates m dtau b s k (hk b (List.mem_cons_self ..))]

/-- The intended statement, first half: building gates leaves the Hamiltonian of every model as it was. -/
def Spec.HamKept (wrap : N → N → M) (gateOf : D → M → M) (gate1 : D → N → M) : Prop :=
  ∀ (s : St M) (m m' : Mdl M N) (dtau : D) (bonds : List Bond) (sites : List Site) (b : Bond),
    ham (newGate wrap gateOf gate1 m dtau bonds sites s) m' b = ham s m' b

/-- The intended statement, second half: building a second set of gates leaves the first set as it was. -/
def Spec.FirstSetKept (wrap : N → N → M) (gateOf : D → M → M) (gate1 : D → N → M) : Prop :=
  ∀ (s : St M) (m m' : Mdl M N) (dtau dtau' : D) (bonds bonds' : List Bond) (sites sites' : List Site) (k : Key),
    let s1 := newGate wrap gateOf gate1 m dtau bonds sites s
    look (newGate wrap gateOf gate1 m' dtau' bonds' sites' s1) k = look s1 k

/-- A bond for the witnesses. -/
def bond0 : Bond := ⟨(0, 0), (1, 0), 2⟩

/-- C28 fails: a model that keeps its two-site matrix and has one-site terms finds it changed. -/
theorem C28_violated_hamiltonian :
    ¬ Spec.HamKept (fun a b : ℤ => a + b) (fun (d h : ℤ) => d * h) (fun (d h : ℤ) => d * h) := by
  intro h
  have := h ⟨fun _ => 10, []⟩ ⟨fun _ => .cached 0, fun _ => some 1⟩ ⟨fun _ => .cached 0, fun _ => some 1⟩ 1 [bond0] []
    bond0
  exact absurd this (by decide)

/-- C28 fails: two `Gate` objects for different time steps share one dictionary. -/
theorem C28_violated_shared :
    ¬ Spec.FirstSetKept (fun a b : ℤ => a + b) (fun (d h : ℤ) => d * h) (fun (d h : ℤ) => d * h) := by
  intro h
  have := h ⟨fun _ => 10, []⟩ ⟨fun _ => .fresh 5, fun _ => none⟩ ⟨fun _ => .fresh 5, fun _ => none⟩ 1 2 [bond0] [bond0]
    [] [] (.bond bond0)
  exact absurd (Except.ok.inj this) (by decide)

/-- How a kept matrix drifts: after gates were built for `n` evolutions (any time steps), the two-site matrix a model
keeps for a bond has grown by `n` times the one-site contribution. -/
theorem C28_violated_drift (wrap : N → N → M) (gateOf : D → M → M) (gate1 : D → N → M) (m : Mdl M N)
    (bonds : List Bond) (hnd : bonds.Nodup) (sites : List Site) (addr : Bond → ℕ)
    (hinj : ∀ b ∈ bonds, ∀ b' ∈ bonds, addr b = addr b' → b = b')
    (hc : ∀ b ∈ bonds, m.two b = .cached (addr b)) (one : Site → N) (h1 : ∀ x, m.one x = some (one x))
    (dtaus : List D) (s : St M) (b : Bond) (hb : b ∈ bonds) :
    ham (dtaus.foldl (fun s d => newGate wrap gateOf gate1 m d bonds sites s) s) m b
      = ham s m b + dtaus.length • wrap (one b.s1) (one b.s2) := by
  have hstep : ∀ (d : D) (b' : Bond) (s : St M), b' ∈ bonds → ∀ x ∈ bonds,
      ham (stepTwo wrap gateOf m d b' s) m x
        = ham s m x + (if x = b' then wrap (one b'.s1) (one b'.s2) else 0) := by
    intro d b' s hb' x hx
    simp only [stepTwo, h1, hc b' hb', ham, hc x hx]
    by_cases e : x = b'
    · subst e; simp
    · have : addr x ≠ addr b' := fun h => e (hinj x hx b' hb' h)
      simp [e, Function.update_of_ne this]
  have hmany : ∀ (d : D) (l : List Bond) (s : St M), (∀ y ∈ l, y ∈ bonds) → l.Nodup → ∀ x ∈ bonds,
      ham (buildTwo wrap gateOf m d l s) m x
        = ham s m x + (if x ∈ l then wrap (one x.s1) (one x.s2) else 0) := by
    intro d l
    induction l with
    | nil => intro s _ _ x _; simp [buildTwo]
    | cons y l ih =>
      intro s hl hn x hx
      simp only [buildTwo]
      rw [ih _ (fun z hz => hl z (List.mem_cons_of_mem _ hz)) (List.nodup_cons.1 hn).2 x hx,
        hstep d y s (hl y (List.mem_cons_self ..)) x hx]
      by_cases e : x = y
      · subst e
        simp [(List.nodup_cons.1 hn).1]
      · simp [e]
  have hone : ∀ (d : D) (s : St M), ham (newGate wrap gateOf gate1 m d bonds sites s) m b
      = ham s m b + wrap (one b.s1) (one b.s2) := by
    intro d s
    simp only [newGate]
    rw [hmany d bonds _ (fun _ h => h) hnd b hb]
    simp only [ham, hc b hb, (buildOne_spec m d sites s).1, hb, if_true]
  induction dtaus generalizing s with
  | nil => simp
  | cons d ds ih =>
    simp only [List.foldl_cons]
    rw [ih, hone, List.length_cons, succ_nsmul]
    abel

/-- C28, what holds: if the model computes its two-site matrices anew (as the built-in models do), or has no pair of
one-site terms where it keeps them, building gates changes no Hamiltonian of any model; and the gates of this set are
those of the current Hamiltonian.  Missing: models that keep matrices and have one-site terms (false, above). -/
theorem C28_hamiltonian_kept_partial (wrap : N → N → M) (gateOf : D → M → M) (gate1 : D → N → M) (m : Mdl M N)
    (dtau : D) (bonds : List Bond) (sites : List Site)
    (hfresh : ∀ b ∈ bonds, (∃ h, m.two b = .fresh h) ∨ m.one b.s1 = none ∨ m.one b.s2 = none) (s : St M) :
    (∀ (m' : Mdl M N) b, ham (newGate wrap gateOf gate1 m dtau bonds sites s) m' b = ham s m' b) ∧
    (∀ b ∈ bonds, look (newGate wrap gateOf gate1 m dtau bonds sites s) (.bond b) = .ok (gateOf dtau
      (match m.one b.s1, m.one b.s2 with
        | some h1, some h2 => ham s m b + wrap h1 h2
        | _, _ => ham s m b))) := by
  have hstep : ∀ b ∈ bonds, ∀ s : St M, (stepTwo wrap gateOf m dtau b s).heap = s.heap := by
    intro b hb s
    simp only [stepTwo]
    split
    · next h1 h2 e1 e2 =>
      rcases hfresh b hb with ⟨h, e⟩ | e | e
      · simp [e]
      · rw [e] at e1; cases e1
      · rw [e] at e2; cases e2
    · rfl
  have hall : ∀ (l : List Bond), (∀ b ∈ l, b ∈ bonds) → ∀ s : St M,
      (buildTwo wrap gateOf m dtau l s).heap = s.heap := by
    intro l
    induction l with
    | nil => intro _ s; rfl
    | cons b l ih =>
      intro hl s
      simp only [buildTwo]
      rw [ih (fun x hx => hl x (List.mem_cons_of_mem _ hx)), hstep b (hl b (List.mem_cons_self ..))]
  have hheap : (newGate wrap gateOf gate1 m dtau bonds sites s).heap = s.heap := by
    simp only [newGate]; rw [hall bonds (fun _ h => h), (buildOne_spec m dtau sites s).1]
  refine ⟨fun m' b => by simp only [ham, hheap], fun b hb => ?_⟩
  have hlook : ∀ (l : List Bond), (∀ b ∈ l, b ∈ bonds) → b ∈ l → ∀ s' : St M, s'.heap = s.heap →
      (buildTwo wrap gateOf m dtau l s').gates.get? (.bond b) = some (gateOf dtau
        (match m.one b.s1, m.one b.s2 with
          | some h1, some h2 => ham s m b + wrap h1 h2
          | _, _ => ham s m b)) := by
    intro l
    induction l with
    | nil => intro _ h; cases h
    | cons y l ih =>
      intro hl hbl s' hs'
      simp only [buildTwo]
      by_cases hin : b ∈ l
      · exact ih (fun x hx => hl x (List.mem_cons_of_mem _ hx)) hin _
          ((hstep y (hl y (List.mem_cons_self ..)) s').trans hs')
      · have e : b = y := by
          rcases List.mem_cons.1 hbl with h | h
          · exact h
          · exact absurd h hin
        subst e
        rw [buildTwo_gates m dtau l _ _ (fun x hx h => hin (by cases h; exact hx))]
        have : ham s' m b = ham s m b := by simp only [ham, hs']
        simp only [stepTwo, this]
        rcases e1 : m.one b.s1 with _ | h1 <;> rcases e2 : m.one b.s2 with _ | h2 <;>
          exact PyDict.get?_set_self _ _ _
  simp only [look, PyDict.getItem, newGate]
  rw [hlook bonds (fun _ h => h) hb _ (buildOne_spec m dtau sites s).1]

/-- C28, what holds: building a second set leaves alone the gates of sites and bonds that are not in its lists. -/
theorem C28_other_gates_kept_partial (wrap : N → N → M) (gateOf : D → M → M) (gate1 : D → N → M) (m : Mdl M N)
    (dtau : D) (bonds : List Bond) (sites : List Site) (s : St M) (k : Key) (hb : ∀ b ∈ bonds, k ≠ .bond b)
    (hs : ∀ x ∈ sites, k ≠ .site x) : look (newGate wrap gateOf gate1 m dtau bonds sites s) k = look s k := by
  simp only [look, PyDict.getItem, newGate]
  rw [buildTwo_gates m dtau bonds _ k hb, (buildOne_spec m dtau sites s).2 k hs]

example : look (newGate (fun a b : ℤ => a + b) (fun (d h : ℤ) => d * h) (fun (d h : ℤ) => d * h)
    ⟨fun _ => .fresh 5, fun _ => some 1⟩ 3 (buildBondList 2 2) (buildSiteList 2 2) ⟨fun _ => 0, []⟩) (.bond bond0)
    = .ok 21 :=
  (C28_hamiltonian_kept_partial (fun a b : ℤ => a + b) (fun (d h : ℤ) => d * h) (fun (d h : ℤ) => d * h)
    ⟨fun _ => .fresh 5, fun _ => some 1⟩ 3 (buildBondList 2 2) (buildSiteList 2 2) (fun _ _ => Or.inl ⟨5, rfl⟩)
    ⟨fun _ => 0, []⟩).2 bond0 (by decide)

example : ham ([1, 2, 3].foldl (fun s d => newGate (fun a b : ℤ => a + b) (fun (d h : ℤ) => d * h)
    (fun (d h : ℤ) => d * h) ⟨fun b => .cached b.k, fun _ => some 1⟩ d [bond0] [] s) ⟨fun _ => 10, []⟩)
    ⟨fun b => .cached b.k, fun _ => some 1⟩ bond0 = 16 :=
  (C28_violated_drift (fun a b : ℤ => a + b) (fun (d h : ℤ) => d * h) (fun (d h : ℤ) => d * h)
    ⟨fun b => .cached b.k, fun _ => some 1⟩ [bond0] (by simp) [] (·.k) (by simp) (by simp) (fun _ => 1) (by simp)
    [1, 2, 3] ⟨fun _ => 10, []⟩ bond0 (by simp)).trans (by decide)

end
end AceTN.GH
