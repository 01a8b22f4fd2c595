import Verif.Props.SimpleUpdate

/-!
Property C42 (a bond update stores both tensors), and the weights of whole simple-update runs (C40).
-/

set_option autoImplicit false

namespace AceTN

open Matrix Spec Simple Full

variable {𝕜 : Type} [RCLike 𝕜] {P : Type}

section store

variable {B X : Type}

omit [RCLike 𝕜] in
/-- **C42 (storing, partial).** If the two sites are different, storing the updated pair puts the first tensor at the first
site and the second at the second one, and changes nothing else: no other site and no boundary tensor.  Missing: bonds
from a site to itself, see `C42_violated`. -/
theorem C42_store_partial (ipeps : NetT B P X 𝕜) (s1 s2 : Site) (hne : s1 ≠ s2) (a1 a2 : ATensor B P 𝕜) :
    (storePair ipeps s1 s2 a1 a2 s1).A = a1 ∧ (storePair ipeps s1 s2 a1 a2 s2).A = a2 ∧
    (∀ s, s ≠ s1 → s ≠ s2 → storePair ipeps s1 s2 a1 a2 s = ipeps s) ∧
    ∀ s, (storePair ipeps s1 s2 a1 a2 s).C = (ipeps s).C ∧ (storePair ipeps s1 s2 a1 a2 s).E = (ipeps s).E := by
  unfold storePair setA
  refine ⟨by simp [hne], by simp, fun s h1 h2 => by simp [h1, h2], fun s => ?_⟩
  constructor <;> (dsimp only; split_ifs <;> rfl)

omit [RCLike 𝕜] in
/-- **C42 (self-bonds).** For a bond from a site to itself only the second tensor is kept: the result does not depend on
the first one. -/
theorem C42_self_bond (ipeps : NetT B P X 𝕜) (s : Site) (a1 a1' a2 : ATensor B P 𝕜) :
    storePair ipeps s s a1 a2 = storePair ipeps s s a1' a2 ∧ (storePair ipeps s s a1 a2 s).A = a2 := by
  unfold storePair setA
  refine ⟨?_, by simp⟩
  funext s'
  by_cases h : s' = s <;> simp [h]

/-- The two ends of a bond are different sites on every lattice with at least two columns and two rows. -/
theorem bond_ends_distinct (nx ny : ℕ) (hx : 2 ≤ nx) (hy : 2 ≤ ny) (b : Bond) (hb : b ∈ buildBondList nx ny) : b.s1 ≠ b.s2 := by
  rw [mem_buildBondList] at hb
  have key : ∀ x n : ℕ, 2 ≤ n → x < n → (x + 1) % n ≠ x := by
    intro x n hn hx h
    by_cases hl : x + 1 < n
    · rw [Nat.mod_eq_of_lt hl] at h; omega
    · have : x + 1 = n := by omega
      rw [this, Nat.mod_self] at h; omega
  obtain ⟨⟨h1, h2⟩, ⟨-, hs⟩ | ⟨-, hs⟩⟩ := hb
  · intro h
    rw [hs] at h
    exact key _ _ hx h1 (congrArg Prod.fst h).symm
  · intro h
    rw [hs] at h
    exact key _ _ hy h2 (congrArg Prod.snd h).symm

/-- **C42 (fast full update).** On a lattice with at least two columns and rows, the network handed to the boundary moves
of a fast full update of a bond holds the first updated tensor at the first site and the second at the second one; if the
update raises, so does the bond update. -/
theorem C42_full_partial {E : Type}
    (tensorUpdate : ATensor B P 𝕜 → ATensor B P 𝕜 → Except E (ATensor B P 𝕜 × ATensor B P 𝕜)) [Fintype P]
    (oneSite : Option ((P → P → 𝕜) × (P → P → 𝕜))) (absorbBond : NetT B P X 𝕜 → Except E (NetT B P X 𝕜))
    (ipeps : NetT B P X 𝕜) (nx ny : ℕ) (hx : 2 ≤ nx) (hy : 2 ≤ ny) (b : Bond) (hb : b ∈ buildBondList nx ny) :
    match tensorUpdaterUpdate tensorUpdate oneSite ipeps b.s1 b.s2 b.k with
    | .error e => fastBondUpdate tensorUpdate oneSite absorbBond ipeps b.s1 b.s2 b.k = .error e
    | .ok (a1, a2) => ∃ ipeps', fastBondUpdate tensorUpdate oneSite absorbBond ipeps b.s1 b.s2 b.k = absorbBond ipeps' ∧
        (ipeps' b.s1).A = a1 ∧ (ipeps' b.s2).A = a2 ∧ (∀ s, s ≠ b.s1 → s ≠ b.s2 → ipeps' s = ipeps s) ∧
        ∀ s, (ipeps' s).C = (ipeps s).C ∧ (ipeps' s).E = (ipeps s).E := by
  unfold fastBondUpdate
  cases h : tensorUpdaterUpdate tensorUpdate oneSite ipeps b.s1 b.s2 b.k with
  | error e => rfl
  | ok r => exact ⟨_, rfl, C42_store_partial ipeps _ _ (bond_ends_distinct nx ny hx hy b hb) _ _⟩

end store

section simple

variable {bD : ℕ} {X : Type} [Fintype P] [DecidableEq P] [NeZero bD] [Nonempty P]

theorem getItem_setItem {W : Type} (lt : LambdaTensors W) (b b' : Bond) (w : W) :
    (lt.setItem b w).getItem b' = if b = b' then .ok w else lt.getItem b' := by
  unfold LambdaTensors.setItem LambdaTensors.getItem PyDict.getItem
  rw [PyDict.get?_set]
  by_cases h : b = b' <;> simp [h]

/-- **C42 (simple update, partial).** On a lattice with at least two columns and rows a simple update of a bond stores
the first updated tensor at the first site, the second at the second one and the new weight at the bond; all other site
tensors, all boundary tensors and all other weights are unchanged. -/
theorem C42_simple_partial (la : Lapack 𝕜) (oneSite : Option ((P → P → 𝕜) × (P → P → 𝕜))) (gate : P → P → P → P → 𝕜)
    (ipeps : NetT (Fin bD) P X 𝕜) (lt : LambdaTensors (Weight bD)) (nx ny : ℕ) (hx : 2 ≤ nx) (hy : 2 ≤ ny) (b : Bond)
    (hb : b ∈ buildBondList nx ny) (b1 b2 : ATensor (Fin bD) P 𝕜) (lambda : Fin bD → ℝ)
    (h : bondTensors la lt oneSite gate b (ipeps b.s1).A (ipeps b.s2).A = .ok (b1, b2, lambda)) :
    ∃ ipeps' lt', bondUpdate la oneSite gate (ipeps, lt) b = .ok (ipeps', lt') ∧
      (ipeps' b.s1).A = b1 ∧ (ipeps' b.s2).A = b2 ∧ (∀ s, s ≠ b.s1 → s ≠ b.s2 → ipeps' s = ipeps s) ∧
      (∀ s, (ipeps' s).C = (ipeps s).C ∧ (ipeps' s).E = (ipeps s).E) ∧
      lt'.getItem b = .ok ⟨false, lambda⟩ ∧ ∀ b', b' ≠ b → lt'.getItem b' = lt.getItem b' := by
  refine ⟨storePair ipeps b.s1 b.s2 b1 b2, lt.setItem b ⟨false, lambda⟩, ?_, ?_⟩
  · unfold bondUpdate
    dsimp only
    rw [h]
    rfl
  · obtain ⟨h1, h2, h3, h4⟩ := C42_store_partial ipeps _ _ (bond_ends_distinct nx ny hx hy b hb) b1 b2
    refine ⟨h1, h2, h3, h4, ?_, fun b' hb' => ?_⟩
    · rw [getItem_setItem, if_pos rfl]
    · rw [getItem_setItem, if_neg (Ne.symm hb')]

/-- The intended statement: on every lattice, a simple update of any of its bonds that computes the tensors `b1`, `b2`
leaves `b1` at the first and `b2` at the second site. -/
def Spec.StoresBoth (𝕜 : Type) [RCLike 𝕜] : Prop :=
  ∀ (nx ny : ℕ) (b : Bond) (_ : b ∈ buildBondList nx ny) (bD p : ℕ) [NeZero bD] [NeZero p] (la : Lapack 𝕜)
    (gate : Fin p → Fin p → Fin p → Fin p → 𝕜) (ipeps ipeps' : NetT (Fin bD) (Fin p) Unit 𝕜)
    (lt lt' : LambdaTensors (Weight bD)) (b1 b2 : ATensor (Fin bD) (Fin p) 𝕜) (lambda : Fin bD → ℝ),
    bondTensors la lt none gate b (ipeps b.s1).A (ipeps b.s2).A = .ok (b1, b2, lambda) →
    bondUpdate la none gate (ipeps, lt) b = .ok (ipeps', lt') → (ipeps' b.s1).A = b1 ∧ (ipeps' b.s2).A = b2

/-- A gate that doubles the amplitude of the first state of the first site: the exponential of a Hermitian diagonal
term. -/
def lopsidedGate : Fin 2 → Fin 2 → Fin 2 → Fin 2 → ℝ :=
  fun p q r s => if p = r ∧ q = s then (if p = 0 then 2 else 1) else 0

/-- **C42 (violated).** On a lattice with a single column the horizontal bonds connect a site with itself, and the tensor
of the first site is lost. -/
theorem C42_violated : ¬ StoresBoth ℝ := by
  intro H
  obtain ⟨la⟩ := nonempty_lapack (𝕜 := ℝ)
  let b : Bond := ⟨(0, 0), (0, 0), 2⟩
  let A : ATensor (Fin 1) (Fin 2) ℝ := fun _ _ _ _ _ => 1
  let ipeps : NetT (Fin 1) (Fin 2) Unit ℝ := fun _ => ⟨A, fun _ _ _ => 0, fun _ _ _ _ _ => 0⟩
  let W : ℕ → Weight 1 := fun _ => ones 1 false
  let lt := LambdaTensors.init (buildBondList 1 1) (ones 1 false)
  have hs : ∀ ex, Strippable W ex := fun ex d _ _ => ⟨rfl, fun _ => by norm_num [W, ones]⟩
  have hval : ∀ p q, gated lopsidedGate (bondState W W b.k A A) 0 0 0 0 0 0 p q = if p = 0 then 2 else 1 := by
    intro p q
    fin_cases p <;> fin_cases q <;>
      simp [gated, bondState, twoSite, weighted, legWeight, bondPermute, lopsidedGate, A, W, ones, b]
  have hne : gated lopsidedGate (bondState W W b.k A A) ≠ 0 := by
    intro h0
    have := hval 0 0
    rw [h0] at this
    norm_num at this
  have hfit : ∃ c1 c2, gated lopsidedGate (bondState W W b.k A A) = twoSite c1 c2 := by
    refine ⟨fun _ _ _ _ p => if p = 0 then 2 else 1, fun _ _ _ _ _ => 1, ?_⟩
    funext u r d l' u' d' p q
    rw [Subsingleton.elim u 0, Subsingleton.elim r 0, Subsingleton.elim d 0, Subsingleton.elim l' 0,
      Subsingleton.elim u' 0, Subsingleton.elim d' 0, hval]
    simp [twoSite]
  obtain ⟨b1, b2, lambda, h1, c, hc, hT⟩ := C40_exact la lt lopsidedGate b A A W W (uniform_weights _) (uniform_weights _)
    (hs _) (hs _) hne hfit
  have h2 : bondUpdate la none lopsidedGate (ipeps, lt) b =
      .ok (storePair ipeps b.s1 b.s2 b1 b2, lt.setItem b ⟨false, lambda⟩) := by
    unfold bondUpdate
    dsimp only
    rw [show bondTensors la lt none lopsidedGate b (ipeps b.s1).A (ipeps b.s2).A = .ok (b1, b2, lambda) from h1]
    rfl
  obtain ⟨h3, -⟩ := H 1 1 b (by decide) 1 2 la lopsidedGate ipeps _ lt _ b1 b2 lambda h1 h2
  have h4 := (C42_self_bond ipeps (0, 0) b1 b1 b2).2
  have hb : b1 = b2 := h3.symm.trans h4
  have hprod : ∀ p q, (if p = 0 then 2 else 1 : ℝ) = c * (b1 0 0 0 0 p * b2 0 0 0 0 q) := by
    intro p q
    rw [← hval p q, hT]
    have hz : ∀ j, (![0, 0, 0, 0] : Fin 4 → Fin 1) j = 0 := fun j => Subsingleton.elim _ _
    simp [bondState, twoSite, weighted, legWeight, bondPermute, W, ones, b, hz]
  have e1 := hprod 0 1
  have e2 := hprod 1 0
  rw [hb] at e1 e2
  rw [mul_comm (b2 0 0 0 0 0), ← e2] at e1
  norm_num at e1

/-- Non-vacuity of `C42_simple_partial` and `C40_partial`: on a 2 × 2 lattice with initial weights the update of the
first horizontal bond returns. -/
example (la : Lapack ℝ) : ∃ b1 b2 lambda,
    bondTensors la (LambdaTensors.init (buildBondList 2 2) (ones 1 false)) none lopsidedGate ⟨(0, 0), (1, 0), 2⟩
      (fun _ _ _ _ _ => 1) (fun _ _ _ _ _ => 1) = .ok (b1, b2, lambda) ∧ Normalised lambda := by
  have hw : ∀ s, InCell 2 2 s → Weights (LambdaTensors.init (buildBondList 2 2) (ones 1 false)) s fun _ => ones 1 false := by
    intro s hs d hd
    obtain ⟨b, ⟨hb, hE⟩, _⟩ := C03_unique_bond_per_side 2 2 s hs d hd
    exact C03_weight_lookup 2 2 _ (List.Perm.refl _) _ [] s hs d hd b hb hE
  have hs : ∀ ex, Strippable (fun _ => ones 1 false) ex := fun ex d _ _ => ⟨rfl, fun _ => by norm_num [ones]⟩
  obtain ⟨b1, b2, lambda, h1, h2, -⟩ := C40_partial la _ lopsidedGate ⟨(0, 0), (1, 0), 2⟩ (fun _ _ _ _ _ => 1)
    (fun _ _ _ _ _ => 1) _ _ (hw (0, 0) ⟨by decide, by decide⟩) (hw (1, 0) ⟨by decide, by decide⟩) (hs _) (hs _) (by
      intro h0
      have := congrFun (congrFun (congrFun (congrFun (congrFun (congrFun (congrFun (congrFun h0 0) 0) 0) 0) 0) 0) 0) 0
      simp [gated, bondState, twoSite, weighted, legWeight, bondPermute, lopsidedGate, ones] at this)
  exact ⟨b1, b2, lambda, h1, h2⟩

/-- A sequence of simple updates of bonds of a lattice, of any length, with any gates, in which no gate-applied pair
vanishes and all weights met are at least `1e-12`. -/
inductive SimpleRun (la : Lapack 𝕜) (nx ny : ℕ) :
    NetT (Fin bD) P X 𝕜 × LambdaTensors (Weight bD) → NetT (Fin bD) P X 𝕜 × LambdaTensors (Weight bD) → Prop
  | refl (st) : SimpleRun la nx ny st st
  | step (st st' st'' b gate oneSite W1 W2) : SimpleRun la nx ny st st' → b ∈ buildBondList nx ny →
      Weights st'.2 b.s1 W1 → Weights st'.2 b.s2 W2 → (∀ d < 4, d ≠ b.k → ∀ i, 1e-12 ≤ (W1 d).v i) →
      (∀ d < 4, d ≠ (b.k + 2) % 4 → ∀ i, 1e-12 ≤ (W2 d).v i) →
      gated gate (bondState W1 W2 b.k (st'.1 b.s1).A (st'.1 b.s2).A) ≠ 0 →
      bondUpdate la oneSite gate st' b = .ok st'' → SimpleRun la nx ny st st''

/-- What is known about the weights at any time: every bond of the lattice has one, of a real dtype, either still the
initial one or normalised. -/
def WeightsOk (nx ny : ℕ) (lt : LambdaTensors (Weight bD)) : Prop :=
  (∃ ws : List (Bond × Weight bD), lt = ws.foldl (fun l p => l.setItem p.1 p.2)
    (LambdaTensors.init (buildBondList nx ny) (ones bD false))) ∧
  ∀ b ∈ buildBondList nx ny, ∃ w, lt.getItem b = .ok w ∧ w.cx = false ∧ (w.v = (fun _ => 1) ∨ Normalised w.v)

theorem bondTensors_some (la : Lapack 𝕜) (lt : LambdaTensors (Weight bD)) (gate : P → P → P → P → 𝕜) (bond : Bond)
    (a1 a2 b1 b2 : ATensor (Fin bD) P 𝕜) (oneSite : Option ((P → P → 𝕜) × (P → P → 𝕜))) (lambda : Fin bD → ℝ)
    (h : bondTensors la lt none gate bond a1 a2 = .ok (b1, b2, lambda)) :
    ∃ c1 c2, bondTensors la lt oneSite gate bond a1 a2 = .ok (c1, c2, lambda) := by
  cases oneSite with
  | none => exact ⟨_, _, h⟩
  | some g => exact ⟨_, _, C40_one_site la lt gate g.1 g.2 bond a1 a2 b1 b2 lambda h⟩

/-- **C40 (runs).** In every sequence of simple updates of a real network, starting from the initial weights, the weight
of every bond is at any time either the initial vector of ones or non-negative, descending, at most one and of unit
fourth-power sum, and both ends of the bond see the same one. -/
theorem C40_run (la : Lapack 𝕜) (nx ny : ℕ) (ipeps : NetT (Fin bD) P X 𝕜)
    (st : NetT (Fin bD) P X 𝕜 × LambdaTensors (Weight bD))
    (h : SimpleRun la nx ny (ipeps, LambdaTensors.init (buildBondList nx ny) (ones bD false)) st) :
    ∀ b ∈ buildBondList nx ny, ∃ w, st.2.get b.s1 b.k = .ok w ∧ st.2.get b.s2 (opposite b.k) = .ok w ∧ w.cx = false ∧
      (w.v = (fun _ => 1) ∨ Normalised w.v) := by
  suffices hinv : WeightsOk nx ny st.2 by
    intro b hb
    obtain ⟨⟨ws, hws⟩, hall⟩ := hinv
    obtain ⟨w, hw, h1, h2⟩ := hall b hb
    obtain ⟨e1, e2, -⟩ := C03_both_ends nx ny _ (List.Perm.refl _) (ones bD false) ws b hb
    rw [← hws] at e1 e2
    exact ⟨w, e1.trans hw, e2.trans hw, h1, h2⟩
  have hinit : WeightsOk nx ny (LambdaTensors.init (buildBondList nx ny) (ones bD false)) := by
    refine ⟨⟨[], rfl⟩, fun b hb => ⟨ones bD false, ?_, rfl, Or.inl rfl⟩⟩
    exact (C03_both_ends nx ny _ (List.Perm.refl _) (ones bD false) [] b hb).2.2
  generalize hst0 : (ipeps, LambdaTensors.init (buildBondList nx ny) (ones bD false)) = st0 at h
  induction h with
  | refl => rw [← hst0]; exact hinit
  | step st' st'' b gate oneSite W1 W2 hrun hb hW1 hW2 hc1 hc2 hne hup ih =>
    obtain ⟨⟨ws, hws⟩, hall⟩ := ih
    have hreal : ∀ s W, InCell nx ny s → Weights st'.2 s W → ∀ d < 4, (W d).cx = false := by
      intro s W hs hW d hd
      obtain ⟨b', ⟨hb', hE⟩, _⟩ := C03_unique_bond_per_side nx ny s hs d hd
      have h1 := C03_weight_lookup nx ny _ (List.Perm.refl _) (ones bD false) ws s hs d hd b' hb' hE
      have h2 := (C03_both_ends nx ny _ (List.Perm.refl _) (ones bD false) ws b' hb').2.2
      rw [← hws] at h1 h2
      obtain ⟨w, hw, hcx, -⟩ := hall b' hb'
      rw [h2] at hw
      rw [hW d hd] at h1
      rw [Except.ok.inj h1, Except.ok.inj hw]
      exact hcx
    obtain ⟨h1, h2⟩ := C02_bond_ends_in_cell nx ny b hb
    rw [mem_buildSiteList] at h1 h2
    obtain ⟨b1, b2, lambda, hok, hn, -⟩ := C40_partial la st'.2 gate b (st'.1 b.s1).A (st'.1 b.s2).A W1 W2 hW1 hW2
      (fun d hd he => ⟨hreal _ _ h1 hW1 d hd, hc1 d hd he⟩) (fun d hd he => ⟨hreal _ _ h2 hW2 d hd, hc2 d hd he⟩) hne
    obtain ⟨c1, c2, hok'⟩ := bondTensors_some la st'.2 gate b _ _ _ _ oneSite lambda hok
    unfold bondUpdate at hup
    dsimp only at hup
    rw [hok'] at hup
    have hup := Except.ok.inj hup
    have hlt : st''.2 = st'.2.setItem b ⟨false, lambda⟩ := (congrArg Prod.snd hup).symm
    refine ⟨⟨ws ++ [(b, ⟨false, lambda⟩)], ?_⟩, fun b' hb' => ?_⟩
    · rw [hlt, hws, List.foldl_append]
      rfl
    · rw [hlt, getItem_setItem]
      by_cases hbb : b = b'
      · rw [if_pos hbb]
        exact ⟨_, rfl, rfl, Or.inr hn⟩
      · rw [if_neg hbb]
        exact hall b' hb'

end simple

end AceTN
