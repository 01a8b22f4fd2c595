import Verif.Model.Measure
import Mathlib.Algebra.BigOperators.Group.List.Basic

/-!
Property C48: the averages reported by `measure`.
-/

set_option autoImplicit false

namespace AceTN

namespace Spec

variable {S O : Type}

/-- The value of the observable `name` at `s`, zero if it is not defined there. -/
noncomputable def contribution (obs : S → PyDict String O) (value : S → O → ℝ) (name : String) (s : S) : ℝ :=
  match (obs s).get? name with
  | some o => value s o
  | none => 0

/-- The same names are defined everywhere. -/
def SameNames (places : List S) (obs : S → PyDict String O) (first : S) : Prop :=
  ∀ s ∈ places, ∀ name, name ∈ (obs s).keys ↔ name ∈ (obs first).keys

/-- The energy of a site. -/
noncomputable def siteEnergy {O₁ O₂ : Type} (model : MeasModel O₁ O₂) (v1 : Site → O₁ → ℝ) (s : Site) : ℝ :=
  match model.one_site_hamiltonian s with
  | some h => v1 s h
  | none => 0

/-- The energy per site. -/
noncomputable def energyPerSite {O₁ O₂ : Type} (model : MeasModel O₁ O₂) (v1 : Site → O₁ → ℝ) (v2 : Bond → O₂ → ℝ)
    (site_list : List Site) (bond_list : List Bond) : ℝ :=
  ((site_list.map (siteEnergy model v1)).sum + (bond_list.map fun b => v2 b (model.two_site_hamiltonian b)).sum) /
    site_list.length

/-- The average of a value over a list of places. -/
noncomputable def average (places : List S) (f : S → ℝ) : ℝ := (places.map f).sum / places.length

end Spec

namespace Meas

open Spec PyDict

theorem mem_keys {O : Type} (d : PyDict String O) (k : String) : k ∈ d.keys ↔ ∃ v, d.get? k = some v := by
  induction d with
  | nil => simp [keys, get?]
  | cons p d ih =>
    obtain ⟨k', v'⟩ := p
    by_cases h : k' = k
    · subst h
      simp [keys, get?]
    · have h' : ¬ k = k' := fun e => h e.symm
      simp only [keys, List.map_cons, List.mem_cons, get?, if_neg h, h', false_or]
      exact ih

theorem addTo_ok (ave : PyDict String ℝ) (name : String) (v old : ℝ) (h : ave.get? name = some old) :
    addTo ave name v = .ok (ave.set name (old + v)) := by
  unfold addTo getItem
  rw [h]
  rfl

/-- What a sequence of successful additions does. -/
theorem addAll_ok {O : Type} (value : O → ℝ) (obs : PyDict String O) : ∀ (ave : PyDict String ℝ), obs.keys.Nodup →
    (∀ k ∈ obs.keys, ∃ v, ave.get? k = some v) →
    ∃ ave', addAll value obs ave = .ok ave' ∧ ∀ k, ave'.get? k = (ave.get? k).map fun x =>
      x + (match obs.get? k with | some o => value o | none => 0) := by
  induction obs with
  | nil =>
    intro ave _ _
    exact ⟨ave, rfl, fun k => by simp [get?]⟩
  | cons p obs ih =>
    intro ave hnd hk
    obtain ⟨name, o⟩ := p
    obtain ⟨old, hold⟩ := hk name (by simp [keys])
    have hnd' := List.nodup_cons.1 hnd
    have hpres : ∀ k ∈ keys obs, ∃ v, (ave.set name (old + value o)).get? k = some v := by
      intro k hk'
      rw [get?_set]
      split
      · exact ⟨_, rfl⟩
      · exact hk k (by simp only [keys, List.map_cons, List.mem_cons]; exact Or.inr hk')
    obtain ⟨ave', h1, h2⟩ := ih (ave.set name (old + value o)) hnd'.2 hpres
    refine ⟨ave', ?_, fun k => ?_⟩
    · unfold addAll
      rw [List.foldlM_cons]
      dsimp only
      rw [addTo_ok _ _ _ _ hold]
      exact h1
    · rw [h2 k, get?_set]
      by_cases hkn : name = k
      · subst hkn
        have hnone : get? obs name = none := by
          by_contra hc
          obtain ⟨v, hv⟩ := Option.ne_none_iff_exists'.1 hc
          exact hnd'.1 ((mem_keys obs name).2 ⟨v, hv⟩)
        rw [if_pos rfl, hold, hnone]
        simp [get?]
      · rw [if_neg hkn]
        simp only [get?, if_neg hkn]

theorem zeroKeys_get (ks : List String) : ∀ (ave : PyDict String ℝ) (k : String),
    (zeroKeys ks ave).get? k = if k ∈ ks then some 0 else ave.get? k := by
  induction ks with
  | nil => intro ave k; simp [zeroKeys]
  | cons k' ks ih =>
    intro ave k
    unfold zeroKeys at ih ⊢
    rw [List.foldl_cons, ih, get?_set]
    by_cases h1 : k ∈ ks
    · simp [h1]
    · by_cases h2 : k' = k
      · subst h2; simp
      · have h2' : ¬ k = k' := fun e => h2 e.symm
        simp [h1, h2, h2']

theorem divKeys_ok (n : ℕ) (ks : List String) : ∀ (ave : PyDict String ℝ), ks.Nodup → (∀ k ∈ ks, ∃ v, ave.get? k = some v) →
    ∃ ave', divKeys ks n ave = .ok ave' ∧ ∀ k, ave'.get? k = if k ∈ ks then (ave.get? k).map (· / (n : ℝ)) else ave.get? k := by
  induction ks with
  | nil => intro ave _ _; exact ⟨ave, rfl, fun k => by simp⟩
  | cons k' ks ih =>
    intro ave hnd hk
    obtain ⟨old, hold⟩ := hk k' (by simp)
    have hnd' := List.nodup_cons.1 hnd
    obtain ⟨ave', h1, h2⟩ := ih (ave.set k' (old / n)) hnd'.2 (fun k hk' => by
      rw [get?_set]
      split
      · exact ⟨_, rfl⟩
      · exact hk k (by simp [hk']))
    refine ⟨ave', ?_, fun k => ?_⟩
    · unfold divKeys
      rw [List.foldlM_cons]
      have : (do let old ← ave.getItem k'; return ave.set k' (old / n) : Except PyErr _) = .ok (ave.set k' (old / n)) := by
        unfold getItem
        rw [hold]
        rfl
      rw [this]
      exact h1
    · rw [h2 k, get?_set]
      by_cases hkk : k' = k
      · subst hkk
        simp [hnd'.1, hold]
      · have hkk' : ¬ k = k' := fun e => hkk e.symm
        simp [hkk, hkk']

/-- What `calculate` does when the observables have the same names everywhere and none of them is `Energy`. -/
theorem calculate_ok {S O : Type} (places : List S) (first : S) (obs : S → PyDict String O) (energy : S → ℝ)
    (value : S → O → ℝ) (ave : PyDict String ℝ) (hnd : ∀ s, (obs s).keys.Nodup) (hsame : SameNames places obs first)
    (hE : "Energy" ∉ (obs first).keys) (e : ℝ) (he : ave.get? "Energy" = some e) :
    ∃ ave', calculate places first obs energy value ave = .ok ave' ∧
      ave'.get? "Energy" = some (e + (places.map energy).sum) ∧
      (∀ k ∈ (obs first).keys, ave'.get? k = some (average places (contribution obs value k))) ∧
      (∀ k, k ≠ "Energy" → k ∉ (obs first).keys → ave'.get? k = ave.get? k) := by
  set ks := (obs first).keys with hks
  -- the loop over the places
  have loop : ∀ (l : List S) (ave : PyDict String ℝ) (e : ℝ), SameNames l obs first → ave.get? "Energy" = some e →
      (∀ k ∈ ks, ∃ v, ave.get? k = some v) →
      ∃ ave', l.foldlM (fun ave s => do
          let ave ← addTo ave "Energy" (energy s)
          if ks ≠ [] then addAll (value s) (obs s) ave else return ave) ave = .ok ave' ∧
        ave'.get? "Energy" = some (e + (l.map energy).sum) ∧
        (∀ k ∈ ks, ave'.get? k = (ave.get? k).map (· + (l.map (contribution obs value k)).sum)) ∧
        (∀ k, k ≠ "Energy" → k ∉ ks → ave'.get? k = ave.get? k) := by
    intro l
    induction l with
    | nil =>
      intro ave e _ h1 h2
      refine ⟨ave, rfl, by simpa using h1, fun k hk => ?_, fun _ _ _ => rfl⟩
      obtain ⟨v, hv⟩ := h2 k hk
      simp [hv]
    | cons s l ih =>
      intro ave e hsame h1 h2
      have hs := hsame s (by simp)
      -- after the energy
      have hset : ∀ k, k ≠ "Energy" → (ave.set "Energy" (e + energy s)).get? k = ave.get? k := fun k hk =>
        get?_set_ne _ _ (fun h => hk h.symm)
      have hne : ∀ k ∈ ks, k ≠ "Energy" := fun k hk h => hE (h ▸ hk)
      -- after the observables
      have mid : ∃ ave1, (if ks ≠ [] then addAll (value s) (obs s) (ave.set "Energy" (e + energy s))
          else return (ave.set "Energy" (e + energy s)) : Except PyErr _) = .ok ave1 ∧
          ave1.get? "Energy" = some (e + energy s) ∧
          (∀ k ∈ ks, ave1.get? k = (ave.get? k).map (· + contribution obs value k s)) ∧
          (∀ k, k ≠ "Energy" → k ∉ ks → ave1.get? k = ave.get? k) := by
        by_cases hks0 : ks = []
        · rw [if_neg (by simpa using hks0)]
          refine ⟨_, rfl, get?_set_self _ _ _, fun k hk => ?_, fun k hk _ => hset k hk⟩
          rw [hks0] at hk
          simp at hk
        · rw [if_pos hks0]
          obtain ⟨ave1, h3, h4⟩ := addAll_ok (value s) (obs s) (ave.set "Energy" (e + energy s)) (hnd s) (fun k hk => by
            rw [get?_set]
            split
            · exact ⟨_, rfl⟩
            · exact h2 k ((hs k).1 hk))
          have hnone : ∀ k, k ∉ ks → (obs s).get? k = none := by
            intro k hk
            by_contra hc
            obtain ⟨v, hv⟩ := Option.ne_none_iff_exists'.1 hc
            exact hk ((hs k).1 ((mem_keys _ _).2 ⟨v, hv⟩))
          refine ⟨ave1, h3, ?_, fun k hk => ?_, fun k hk1 hk2 => ?_⟩
          · rw [h4, get?_set_self, hnone _ hE]
            simp
          · rw [h4, hset k (hne k hk)]
            rfl
          · rw [h4, hset k hk1, hnone k hk2]
            simp
      obtain ⟨ave1, m1, m2, m3, m4⟩ := mid
      obtain ⟨ave', i1, i2, i3, i4⟩ := ih ave1 (e + energy s) (fun s' hs' => hsame s' (by simp [hs'])) m2 (fun k hk => by
        obtain ⟨v, hv⟩ := h2 k hk
        exact ⟨_, by rw [m3 k hk, hv]; rfl⟩)
      refine ⟨ave', ?_, ?_, fun k hk => ?_, fun k hk1 hk2 => ?_⟩
      · rw [List.foldlM_cons]
        rw [addTo_ok _ _ _ _ h1]
        change ((if ks ≠ [] then addAll (value s) (obs s) (ave.set "Energy" (e + energy s))
          else return (ave.set "Energy" (e + energy s)) : Except PyErr _) >>= _) = _
        rw [m1]
        exact i1
      · rw [i2, List.map_cons, List.sum_cons]
        congr 1
        ring
      · rw [i3 k hk, m3 k hk, List.map_cons, List.sum_cons, Option.map_map]
        congr 1
        funext x
        simp only [Function.comp]
        ring
      · rw [i4 k hk1 hk2, m4 k hk1 hk2]
  obtain ⟨ave1, l1, l2, l3, l4⟩ := loop places (zeroKeys ks ave) e hsame (by rw [zeroKeys_get, if_neg hE, he]) (fun k hk =>
    ⟨0, by rw [zeroKeys_get, if_pos hk]⟩)
  obtain ⟨ave2, d1, d2⟩ := divKeys_ok places.length ks ave1 (hnd first) (fun k hk => by
    rw [l3 k hk, zeroKeys_get, if_pos hk]
    exact ⟨_, rfl⟩)
  refine ⟨ave2, ?_, ?_, fun k hk => ?_, fun k hk1 hk2 => ?_⟩
  · unfold calculate
    dsimp only
    rw [← hks, l1]
    exact d1
  · rw [d2, if_neg hE, l2]
  · rw [d2, if_pos hk, l3 k hk, zeroKeys_get, if_pos hk]
    unfold average
    simp
  · rw [d2, if_neg hk2, l4 k hk1 hk2, zeroKeys_get, if_neg hk2]

variable {O₁ O₂ : Type}

/-- The conditions under which averages are reported as intended: dictionaries have no repeated keys, the observables have
the same names on all sites and the same names on all bonds, no name is used twice, and none is `Energy`. -/
structure Clean (model : MeasModel O₁ O₂) (site_list : List Site) (bond_list : List Bond) : Prop where
  nodup1 : ∀ s, (model.one_site_observables s).keys.Nodup
  nodup2 : ∀ b, (model.two_site_observables b).keys.Nodup
  same1 : SameNames site_list model.one_site_observables (0, 0)
  same2 : ∀ b ∈ bond_list, SameNames bond_list model.two_site_observables b
  energy1 : "Energy" ∉ (model.one_site_observables (0, 0)).keys
  energy2 : ∀ b ∈ bond_list, "Energy" ∉ (model.two_site_observables b).keys
  disjoint : ∀ b ∈ bond_list, ∀ k ∈ (model.one_site_observables (0, 0)).keys, k ∉ (model.two_site_observables b).keys

/-- **C48, partial.**  Under `Clean`, `measure` reports the energy per site, for every one-site observable its average over
all sites, for every two-site observable its average over all bonds, and nothing else.  Missing: dictionaries that are not
`Clean`, for which the statement is false, `C48_violated_*`. -/
theorem C48_partial (model : MeasModel O₁ O₂) (v1 : Site → O₁ → ℝ) (v2 : Bond → O₂ → ℝ) (site_list : List Site)
    (bond_list : List Bond) (hb : bond_list ≠ []) (h : Clean model site_list bond_list) :
    ∃ d, measure model v1 v2 site_list bond_list = .ok d ∧
      d.get? "Energy" = some (energyPerSite model v1 v2 site_list bond_list) ∧
      (∀ name ∈ (model.one_site_observables (0, 0)).keys,
        d.get? name = some (average site_list (contribution model.one_site_observables v1 name))) ∧
      (∀ b ∈ bond_list, ∀ name ∈ (model.two_site_observables b).keys,
        d.get? name = some (average bond_list (contribution model.two_site_observables v2 name))) ∧
      (∀ name, name ≠ "Energy" → name ∉ (model.one_site_observables (0, 0)).keys →
        (∀ b ∈ bond_list, name ∉ (model.two_site_observables b).keys) → d.get? name = none) := by
  obtain ⟨b0, bs, rfl⟩ := List.exists_cons_of_ne_nil hb
  have hb0 : b0 ∈ b0 :: bs := by simp
  obtain ⟨a1, h1, h2, h3, h4⟩ := calculate_ok site_list (0, 0) model.one_site_observables (siteEnergy model v1) v1
    [("Energy", 0)] h.nodup1 h.same1 h.energy1 0 (by simp [get?])
  obtain ⟨a2, g1, g2, g3, g4⟩ := calculate_ok (b0 :: bs) b0 model.two_site_observables
    (fun b => v2 b (model.two_site_hamiltonian b)) v2 a1 h.nodup2 (h.same2 b0 hb0) (h.energy2 b0 hb0) _ h2
  refine ⟨a2.set "Energy" ((0 + (site_list.map (siteEnergy model v1)).sum +
    ((b0 :: bs).map fun b => v2 b (model.two_site_hamiltonian b)).sum) / site_list.length), ?_, ?_, ?_, ?_, ?_⟩
  · unfold measure
    change (calculate site_list (0, 0) model.one_site_observables (siteEnergy model v1) v1 [("Energy", 0)] >>= _) = _
    rw [h1]
    change (calculate (b0 :: bs) b0 model.two_site_observables (fun b => v2 b (model.two_site_hamiltonian b)) v2 a1 >>= _) = _
    rw [g1]
    change (getItem a2 "Energy" >>= _) = _
    unfold getItem
    rw [g2]
    rfl
  · rw [get?_set_self]
    unfold energyPerSite
    rw [zero_add]
  · intro name hname
    rw [get?_set_ne _ _ (fun e => h.energy1 (by rw [e]; exact hname)), g4 name (fun e => h.energy1 (by rw [← e]; exact hname))
      (h.disjoint b0 hb0 name hname)]
    exact h3 name hname
  · intro b hbm name hname
    have hname0 : name ∈ (model.two_site_observables b0).keys := (h.same2 b0 hb0 b hbm name).1 hname
    rw [get?_set_ne _ _ (fun e => h.energy2 b hbm (by rw [e]; exact hname))]
    exact g3 name hname0
  · intro name hE hn1 hn2
    rw [get?_set_ne _ _ (fun e => hE e.symm), g4 name hE (hn2 b0 hb0), h4 name hE hn1]
    have hE' : ¬ "Energy" = name := fun e => hE e.symm
    simp [get?, hE']

theorem average_perm {S : Type} {l l' : List S} (h : l.Perm l') (f : S → ℝ) : average l f = average l' f := by
  unfold average
  rw [(h.map f).sum_eq, h.length_eq]

/-- **C48** (order).  Under the same conditions the reported numbers do not depend on the order of the site and bond
lists. -/
theorem C48_order_partial (model : MeasModel O₁ O₂) (v1 : Site → O₁ → ℝ) (v2 : Bond → O₂ → ℝ) (sites sites' : List Site)
    (bonds bonds' : List Bond) (hs : sites.Perm sites') (hb : bonds.Perm bonds') (hne : bonds ≠ [])
    (h : Clean model sites bonds) :
    ∃ d d', measure model v1 v2 sites bonds = .ok d ∧ measure model v1 v2 sites' bonds' = .ok d' ∧
      ∀ name, d.get? name = d'.get? name := by
  have hne' : bonds' ≠ [] := fun e => hne (by rw [e] at hb; exact hb.eq_nil)
  have h' : Clean model sites' bonds' :=
    ⟨h.nodup1, h.nodup2, fun s hs' => h.same1 s (hs.mem_iff.2 hs'),
      fun b hb' b2 hb2 => h.same2 b (hb.mem_iff.2 hb') b2 (hb.mem_iff.2 hb2), h.energy1,
      fun b hb' => h.energy2 b (hb.mem_iff.2 hb'), fun b hb' => h.disjoint b (hb.mem_iff.2 hb')⟩
  obtain ⟨d, a1, a2, a3, a4, a5⟩ := C48_partial model v1 v2 sites bonds hne h
  obtain ⟨d', b1, b2, b3, b4, b5⟩ := C48_partial model v1 v2 sites' bonds' hne' h'
  refine ⟨d, d', a1, b1, fun name => ?_⟩
  by_cases hE : name = "Energy"
  · subst hE
    rw [a2, b2]
    unfold energyPerSite
    rw [(hs.map _).sum_eq, (hb.map _).sum_eq, hs.length_eq]
  · by_cases h1 : name ∈ (model.one_site_observables (0, 0)).keys
    · rw [a3 name h1, b3 name h1, average_perm hs]
    · by_cases h2 : ∃ b ∈ bonds, name ∈ (model.two_site_observables b).keys
      · obtain ⟨b, hbm, hbn⟩ := h2
        rw [a4 b hbm name hbn, b4 b (hb.mem_iff.1 hbm) name hbn, average_perm hb]
      · push Not at h2
        rw [a5 name hE h1 h2, b5 name hE h1 (fun b hbm => h2 b (hb.mem_iff.2 hbm))]

/-! ### What goes wrong otherwise -/

end Meas

namespace Spec

/-- The intended statement: `measure` succeeds for every model. -/
def MeasureSucceeds : Prop :=
  ∀ (O₁ O₂ : Type) (model : MeasModel O₁ O₂) (v1 : Site → O₁ → ℝ) (v2 : Bond → O₂ → ℝ) (nx ny : ℕ), 0 < nx → 0 < ny →
    ∃ d, Meas.measure model v1 v2 (buildSiteList nx ny) (buildBondList nx ny) = .ok d

/-- The intended statement: the entry `Energy` is the energy per site. -/
def EnergyReported : Prop :=
  ∀ (O₁ O₂ : Type) (model : MeasModel O₁ O₂) (v1 : Site → O₁ → ℝ) (v2 : Bond → O₂ → ℝ) (nx ny : ℕ) (d : PyDict String ℝ),
    0 < nx → 0 < ny → Meas.measure model v1 v2 (buildSiteList nx ny) (buildBondList nx ny) = .ok d →
    d.get? "Energy" = some (energyPerSite model v1 v2 (buildSiteList nx ny) (buildBondList nx ny))

/-- The intended statement: the entry of a one-site observable defined on all sites is its average. -/
def ObservableReported : Prop :=
  ∀ (O₁ O₂ : Type) (model : MeasModel O₁ O₂) (v1 : Site → O₁ → ℝ) (v2 : Bond → O₂ → ℝ) (nx ny : ℕ) (d : PyDict String ℝ)
    (name : String), 0 < nx → 0 < ny → name ≠ "Energy" →
    Meas.measure model v1 v2 (buildSiteList nx ny) (buildBondList nx ny) = .ok d →
    (∀ s, name ∈ (model.one_site_observables s).keys) →
    d.get? name = some (average (buildSiteList nx ny) (contribution model.one_site_observables v1 name))

end Spec

namespace Meas

open Spec PyDict

/-- **C48 is violated**: an observable that is not defined at the origin but on another site is a `KeyError`. -/
theorem C48_violated_site_dependent : ¬ MeasureSucceeds := by
  intro h
  obtain ⟨d, hd⟩ := h Unit Unit
    { one_site_observables := fun s => if s = (0, 0) then [("a", ())] else [("b", ())], two_site_observables := fun _ => []
      one_site_hamiltonian := fun _ => none, two_site_hamiltonian := fun _ => () } (fun _ _ => 0) (fun _ _ => 0) 1 2
    Nat.one_pos Nat.two_pos
  have : buildSiteList 1 2 = [(0, 0), (0, 1)] := rfl
  rw [this] at hd
  simp [measure, calculate, zeroKeys, keys, PyDict.set, addTo, getItem, get?, addAll, bind, Except.bind, pure, Except.pure] at hd

/-- **C48 is violated**: an observable called `Energy` replaces the energy. -/
theorem C48_violated_energy_name : ¬ EnergyReported := by
  intro h
  have := h Unit Unit
    { one_site_observables := fun _ => [("Energy", ())], two_site_observables := fun _ => []
      one_site_hamiltonian := fun _ => none, two_site_hamiltonian := fun _ => () } (fun _ _ => 1) (fun _ _ => 0) 1 1
  have e1 : buildSiteList 1 1 = [(0, 0)] := rfl
  have e2 : buildBondList 1 1 = [⟨(0, 0), (0, 0), 2⟩, ⟨(0, 0), (0, 0), 1⟩] := rfl
  rw [e1, e2] at this
  simp [measure, calculate, zeroKeys, divKeys, keys, PyDict.set, addTo, getItem, get?, addAll, bind, Except.bind, pure, Except.pure,
    energyPerSite, siteEnergy] at this

/-- **C48 is violated**: a two-site observable with the name of a one-site observable replaces it. -/
theorem C48_violated_same_name : ¬ ObservableReported := by
  intro h
  have := h Unit Unit
    { one_site_observables := fun _ => [("a", ())], two_site_observables := fun _ => [("a", ())]
      one_site_hamiltonian := fun _ => none, two_site_hamiltonian := fun _ => () } (fun _ _ => 1) (fun _ _ => 0) 1 1
  have e1 : buildSiteList 1 1 = [(0, 0)] := rfl
  have e2 : buildBondList 1 1 = [⟨(0, 0), (0, 0), 2⟩, ⟨(0, 0), (0, 0), 1⟩] := rfl
  have := fun d => this d "a"
  rw [e1, e2] at this
  simp [measure, calculate, zeroKeys, divKeys, keys, PyDict.set, addTo, getItem, get?, addAll, bind, Except.bind, pure, Except.pure,
    average, contribution] at this

/-- `Clean` is met by models whose observables do not depend on the place, such as the Ising and Heisenberg models. -/
example (sites : List Site) (bonds : List Bond) : Clean
    { one_site_observables := fun _ => [("sx", ()), ("sz", ())], two_site_observables := fun _ => [("zz", ())]
      one_site_hamiltonian := fun _ => some (), two_site_hamiltonian := fun _ => () } sites bonds :=
  ⟨fun _ => by simp [keys], fun _ => by simp [keys], fun _ _ _ => Iff.rfl, fun _ _ _ _ _ => Iff.rfl, by simp [keys],
    fun _ _ => by simp [keys], fun _ _ k hk => by simp [keys] at hk ⊢; rcases hk with rfl | rfl <;> decide⟩

end Meas

end AceTN
