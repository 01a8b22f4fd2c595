import Verif.Lemmas.Tight
import Verif.Props.FullRun
import Verif.Props.EnergyShift
import Verif.Props.Reversal
import Verif.Props.Symmetry
import Mathlib.Analysis.SpecialFunctions.Exponential
import Mathlib.Analysis.Calculus.Deriv.Mul
import Mathlib.Analysis.Calculus.Deriv.Linear
import Mathlib.Analysis.SpecialFunctions.ExpDeriv

/-! C104: states that are eigenstates of every bond Hamiltonian do not move. -/

set_option autoImplicit false

namespace AceTN

open Spec Matrix Full Simple

variable {𝕜 : Type} [RCLike 𝕜] {B P : Type} [Fintype B] [Fintype P] [DecidableEq B] [DecidableEq P] {nx ny N : ℕ}

/-- The two-site tensor of every bond of the cell is an eigenvector of the Hamiltonian of the bond, with eigenvalue `e`, whatever the
outer indices (as in a frustration-free ground state). -/
def Spec.LocalEigen (nx ny : ℕ) (m : ModelTerms P 𝕜) (e : Bond → ℝ) (A : Site → B → B → B → B → P → 𝕜) : Prop :=
  ∀ b ∈ buildBondList nx ny, ∀ w1 w2 p q, ∑ p', ∑ q', bondPair b.k (A b.s1) (A b.s2) w1 w2 p' q' * bondHam m b (p', q') (p, q) =
    (e b : 𝕜) * bondPair b.k (A b.s1) (A b.s2) w1 w2 p q

/-- A tensor with a matrix on the leg `d`. -/
def Spec.LegMul (d : Fin 4) (X : B → B → 𝕜) (A A' : B → B → B → B → P → 𝕜) : Prop :=
  ∀ w p, atLegs A' w p = ∑ x, atLegs A (Function.update w d x) p * X x (w d)

/-- An update of a bond that multiplies the two-site tensor of the bond by a number and changes the two tensors only by matrices on the
leg between them. -/
structure Spec.StillBond (b : Bond) (A A' : Site → B → B → B → B → P → 𝕜) (κ : 𝕜) : Prop where
  other : ∀ s, s ≠ b.s1 → s ≠ b.s2 → A' s = A s
  pair : ∀ w1 w2 p q, bondPair b.k (A' b.s1) (A' b.s2) w1 w2 p q = κ * bondPair b.k (A b.s1) (A b.s2) w1 w2 p q
  first : ∃ X, LegMul (side b.k 0) X (A b.s1) (A' b.s1)
  second : ∃ X, LegMul (side b.k 2) X (A b.s2) (A' b.s2)

omit [Fintype P] [DecidableEq P] in
theorem legMul_id (d : Fin 4) (A : B → B → B → B → P → 𝕜) : LegMul d (fun x y => if x = y then 1 else 0) A A := by
  intro w p
  rw [Finset.sum_eq_single (w d) (fun x _ hx => by simp [hx]) (by simp)]
  simp

omit [Fintype P] [DecidableEq P] in
theorem stillBond_refl (b : Bond) (A : Site → B → B → B → B → P → 𝕜) : StillBond b A A 1 :=
  ⟨fun _ _ _ => rfl, fun _ _ _ _ => (one_mul _).symm, ⟨_, legMul_id _ _⟩, ⟨_, legMul_id _ _⟩⟩

omit [Fintype P] [DecidableEq P] [DecidableEq B] in
theorem bondPair_legMul (k : ℕ) {d1 d2 : Fin 4} (h1 : d1 ≠ side k 0) (h2 : d2 ≠ side k 2) {X Y : B → B → 𝕜} {A1 A1' A2 A2' : B → B → B → B → P → 𝕜}
    (hX : LegMul d1 X A1 A1') (hY : LegMul d2 Y A2 A2') (w1 w2 : Fin 4 → B) (p q : P) :
    bondPair k A1' A2' w1 w2 p q =
      ∑ x, ∑ y, bondPair k A1 A2 (Function.update w1 d1 x) (Function.update w2 d2 y) p q * (X x (w1 d1) * Y y (w2 d2)) := by
  unfold bondPair
  simp only [hX _ _, hY _ _, Function.update_of_ne h1, Function.update_of_ne h2, Function.update_comm h1, Function.update_comm h2,
    Finset.sum_mul, Finset.mul_sum]
  rw [Finset.sum_comm]
  conv_rhs => rw [Finset.sum_comm]
  refine Finset.sum_congr rfl fun x _ => ?_
  rw [Finset.sum_comm]
  refine Finset.sum_congr rfl fun y _ => Finset.sum_congr rfl fun z _ => ?_
  ring

theorem opposite_mod {k : ℕ} (hk : k < 4) : opposite k = (k + 2) % 4 := by
  rcases k with _ | _ | _ | _ | k
  all_goals first | rfl | omega

omit [Fintype P] [DecidableEq P] in
/-- The other legs of the sites of an updated bond belong to other bonds. -/
theorem legMul_at {b b' : Bond} (hb : b ∈ buildBondList nx ny) (hb' : b' ∈ buildBondList nx ny) (hne : b' ≠ b) (s : Site) (d : ℕ) (hd : d < 4)
    (he : HasEnd b' s d) {A A' : Site → B → B → B → B → P → 𝕜} {κ : 𝕜} (h : StillBond b A A' κ) :
    ∃ d1 X, d1 ≠ (⟨d, hd⟩ : Fin 4) ∧ LegMul d1 X (A s) (A' s) := by
  have hk : ∀ c ∈ buildBondList nx ny, c.k < 4 := by
    intro c hc
    rw [mem_buildBondList] at hc
    rcases hc.2 with h | h <;> omega
  have hcell : ∀ c ∈ buildBondList nx ny, InCell nx ny c.s1 ∧ InCell nx ny c.s2 := by
    intro c hc
    obtain ⟨h1, h2⟩ := C02_bond_ends_in_cell nx ny c hc
    rw [mem_buildSiteList] at h1 h2
    exact ⟨h1, h2⟩
  have hs : InCell nx ny s := by
    rcases he with ⟨rfl, -⟩ | ⟨rfl, -⟩
    exacts [(hcell b' hb').1, (hcell b' hb').2]
  have hno : ¬ HasEnd b s d := by
    intro hE
    obtain ⟨c, -, hu⟩ := C03_unique_bond_per_side nx ny s hs d hd
    exact hne ((hu b' ⟨hb', he⟩).trans (hu b ⟨hb, hE⟩).symm)
  by_cases e1 : s = b.s1
  · subst e1
    obtain ⟨X, hX⟩ := h.first
    refine ⟨_, X, fun hh => hno (Or.inl ⟨rfl, ?_⟩), hX⟩
    have := congrArg Fin.val hh
    simp only [side, add_zero] at this
    rwa [Nat.mod_eq_of_lt (hk b hb)] at this
  · by_cases e2 : s = b.s2
    · subst e2
      obtain ⟨X, hX⟩ := h.second
      refine ⟨_, X, fun hh => hno (Or.inr ⟨rfl, ?_⟩), hX⟩
      have := congrArg Fin.val hh
      rw [opposite_mod (hk b hb)]
      simpa [side] using this
    · rw [h.other s e1 e2]
      exact ⟨⟨(d + 1) % 4, Nat.mod_lt _ (by omega)⟩, _, fun hh => by have := congrArg Fin.val hh; simp only at this; omega, legMul_id _ _⟩

/-- Such updates keep the eigenvectors. -/
theorem LocalEigen.still {m : ModelTerms P 𝕜} {e : Bond → ℝ} {A A' : Site → B → B → B → B → P → 𝕜} (hA : LocalEigen nx ny m e A) {b : Bond}
    (hb : b ∈ buildBondList nx ny) {κ : 𝕜} (h : StillBond b A A' κ) : LocalEigen nx ny m e A' := by
  intro b' hb' w1 w2 p q
  by_cases hne : b' = b
  · subst hne
    simp only [h.pair, mul_assoc, ← Finset.mul_sum]
    rw [hA b' hb']
    ring
  · have hk : b'.k < 4 := by
      rw [mem_buildBondList] at hb'
      rcases hb'.2 with h | h <;> omega
    obtain ⟨d1, X, h1, hX⟩ := legMul_at hb hb' hne b'.s1 b'.k hk (Or.inl ⟨rfl, rfl⟩) h
    obtain ⟨d2, Y, h2, hY⟩ := legMul_at hb hb' hne b'.s2 ((b'.k + 2) % 4) (Nat.mod_lt _ (by omega)) (Or.inr ⟨rfl, opposite_mod hk⟩) h
    have h1' : d1 ≠ side b'.k 0 := fun hh => h1 (hh.trans (Fin.ext (by simp [side, Nat.mod_eq_of_lt hk])))
    simp only [bondPair_legMul b'.k h1' h2 hX hY]
    have hw := fun x y => hA b' hb' (Function.update w1 d1 x) (Function.update w2 d2 y) p q
    rw [Finset.mul_sum]
    have e1 : ∀ (F : B → B → P → P → 𝕜) (c : B → B → 𝕜) (H : P → P → 𝕜), ∑ p', ∑ q', (∑ x, ∑ y, F x y p' q' * c x y) * H p' q' =
        ∑ x, ∑ y, (∑ p', ∑ q', F x y p' q' * H p' q') * c x y := by
      intro F c H
      einsum_ring
    rw [e1 (fun x y p' q' => bondPair b'.k (A b'.s1) (A b'.s2) (Function.update w1 d1 x) (Function.update w2 d2 y) p' q')
      (fun x y => X x (w1 d1) * Y y (w2 d2)) (fun p' q' => bondHam m b' (p', q') (p, q))]
    refine Finset.sum_congr rfl fun x _ => ?_
    rw [Finset.mul_sum]
    refine Finset.sum_congr rfl fun y _ => ?_
    simp only [hw x y, mul_assoc]

/-! ### Gates on eigenvectors -/

theorem exp_scalar {n : Type} [Fintype n] [DecidableEq n] (c : ℝ) :
    NormedSpace.exp (((c : ℝ) : 𝕜) • (1 : Matrix n n 𝕜)) = ((Real.exp c : ℝ) : 𝕜) • 1 := by
  rw [Matrix.smul_one_eq_diagonal, Matrix.exp_diagonal, Matrix.smul_one_eq_diagonal]
  congr 1
  funext i
  rw [Pi.coe_exp, Real.exp_eq_exp_ℝ]
  exact (NormedSpace.algebraMap_exp_comm (𝕂 := ℝ) (𝔸 := 𝕜) c).symm

set_option backward.isDefEq.respectTransparency false in
theorem vecMul_calculateGate {n : Type} [Fintype n] [DecidableEq n] (H : Matrix n n 𝕜) (e dtau : ℝ) (v : n → 𝕜)
    (h : ∀ j, ∑ i, v i * H i j = (e : 𝕜) * v j) (j : n) :
    ∑ i, v i * calculateGate H dtau i j = ((Real.exp (-dtau * e) : ℝ) : 𝕜) * v j := by
  set R : Matrix n n 𝕜 := Matrix.of fun _ i => v i with hR
  have hs : SemiconjBy R ((-(dtau : 𝕜)) • H) (((-dtau * e : ℝ) : 𝕜) • 1) := by
    unfold SemiconjBy
    ext a b
    rw [Matrix.mul_smul, Matrix.smul_apply, Matrix.mul_apply, Matrix.smul_mul, Matrix.one_mul, Matrix.smul_apply]
    simp only [hR, Matrix.of_apply, smul_eq_mul]
    rw [h b]
    push_cast
    ring
  have h2 : R * NormedSpace.exp ((-(dtau : 𝕜)) • H) = NormedSpace.exp (((-dtau * e : ℝ) : 𝕜) • (1 : Matrix n n 𝕜)) * R := by
    open scoped Matrix.Norms.Operator in
    let _ : NormedAlgebra ℚ (Matrix n n 𝕜) := NormedAlgebra.restrictScalars ℚ 𝕜 _
    exact hs.exp_right
  rw [exp_scalar] at h2
  have h3 := congrFun (congrFun h2 j) j
  rw [Matrix.mul_apply, Matrix.smul_mul, Matrix.one_mul, Matrix.smul_apply] at h3
  exact h3

omit [DecidableEq B] in
theorem gatedPair_eigen {m : ModelTerms P 𝕜} {e : Bond → ℝ} {A : Site → B → B → B → B → P → 𝕜} (hA : LocalEigen nx ny m e A) {b : Bond}
    (hb : b ∈ buildBondList nx ny) (dtau : ℝ) (w1 w2 : Fin 4 → B) (p q : P) :
    gatedPair (twoSiteGate m dtau b) (bondPair b.k (A b.s1) (A b.s2)) w1 w2 p q =
      ((Real.exp (-dtau * e b) : ℝ) : 𝕜) * bondPair b.k (A b.s1) (A b.s2) w1 w2 p q := by
  have h := vecMul_calculateGate (bondHam m b) (e b) dtau (fun i => bondPair b.k (A b.s1) (A b.s2) w1 w2 i.1 i.2)
    (fun j => by rw [Fintype.sum_prod_type]; exact hA b hb w1 w2 j.1 j.2) (p, q)
  rw [Fintype.sum_prod_type] at h
  exact h

theorem legs_exist {B : Type} (k : ℕ) (x0 x1 x2 x3 : B) :
    ∃ w : Fin 4 → B, w (side k 0) = x0 ∧ w (side k 1) = x1 ∧ w (side k 2) = x2 ∧ w (side k 3) = x3 := by
  have hs : ∀ i j : ℕ, i < 4 → j < 4 → i ≠ j → side k i ≠ side k j := by
    intro i j hi hj hij h
    have := congrArg Fin.val h
    simp only [side] at this
    omega
  refine ⟨fun i => if i = side k 0 then x0 else if i = side k 1 then x1 else if i = side k 2 then x2 else x3, if_pos rfl, ?_, ?_, ?_⟩
  · dsimp only; rw [if_neg (hs 1 0 (by omega) (by omega) (by omega)), if_pos rfl]
  · dsimp only; rw [if_neg (hs 2 0 (by omega) (by omega) (by omega)), if_neg (hs 2 1 (by omega) (by omega) (by omega)), if_pos rfl]
  · dsimp only; rw [if_neg (hs 3 0 (by omega) (by omega) (by omega)), if_neg (hs 3 1 (by omega) (by omega) (by omega)),
      if_neg (hs 3 2 (by omega) (by omega) (by omega))]

omit [DecidableEq B] in
theorem gated_eigen {X : Type} {m : ModelTerms P 𝕜} {e : Bond → ℝ} {net : NetT B P X 𝕜} (hA : LocalEigen nx ny m e (siteTensors net)) {b : Bond}
    (hb : b ∈ buildBondList nx ny) (dtau : ℝ) (u r d l' u' d' : B) (p q : P) :
    gated (twoSiteGate m dtau b) (bondTensor net b) u r d l' u' d' p q =
      ((Real.exp (-dtau * e b) : ℝ) : 𝕜) * bondTensor net b u r d l' u' d' p q := by
  obtain ⟨w1, -, rfl, rfl, rfl⟩ := legs_exist b.k u u r d
  obtain ⟨w2, rfl, rfl, -, rfl⟩ := legs_exist b.k l' u' u' d'
  have h := gatedPair_eigen hA hb dtau w1 w2 p q
  unfold gatedPair at h
  simp only [bondPair_bondTensor] at h
  exact h

/-- Nothing is lost by a truncation. -/
theorem fits_eigen {X : Type} {bD : ℕ} {m : ModelTerms P 𝕜} {e : Bond → ℝ} {net : NetT (Fin bD) P X 𝕜} (hA : LocalEigen nx ny m e (siteTensors net)) {b : Bond}
    (hb : b ∈ buildBondList nx ny) (dtau : ℝ) : Fits (gated (twoSiteGate m dtau b) (bondTensor net b)) := by
  refine ⟨fun l u r d p => ((Real.exp (-dtau * e b) : ℝ) : 𝕜) * bondPermute b.k (net b.s1).A l u r d p, bondPermute b.k (net b.s2).A, ?_⟩
  funext u r d l' u' d' p q
  rw [gated_eigen hA hb]
  unfold bondTensor twoSite
  simp only [Finset.mul_sum, mul_assoc]

/-! ### Updates -/

omit [Fintype P] [DecidableEq P] [DecidableEq B] in
/-- The conclusion in the frame of the bond. -/
theorem stillBond_of [Fintype P] {X : Type} (net net' : NetT B P X 𝕜) (b : Bond) (κ : 𝕜) (h0 : ∀ s, s ≠ b.s1 → s ≠ b.s2 → (net' s).A = (net s).A)
    (hT : ∀ u r d l' u' d' p q, bondTensor net' b u r d l' u' d' p q = κ * bondTensor net b u r d l' u' d' p q)
    (h1 : TightFirst (bondPermute b.k (net' b.s1).A) (bondPermute b.k (net' b.s2).A))
    (h2 : TightSecond (bondPermute b.k (net' b.s1).A) (bondPermute b.k (net' b.s2).A)) :
    StillBond b (siteTensors net) (siteTensors net') κ := by
  have hs : ∀ i j : ℕ, i < 4 → j < 4 → i ≠ j → side b.k i ≠ side b.k j := by
    intro i j hi hj hij h
    have := congrArg Fin.val h
    simp only [side] at this
    omega
  refine ⟨h0, fun w1 w2 p q => ?_, ?_, ?_⟩
  · rw [bondPair_bondTensor, bondPair_bondTensor, hT]
  · obtain ⟨W, hW⟩ := h1
    refine ⟨fun x y => κ * ∑ l', ∑ u', ∑ d', ∑ q, bondPermute b.k (net b.s2).A l' u' x d' q * W l' u' d' q y, fun w p => ?_⟩
    show atLegs (net' b.s1).A w p = ∑ x, atLegs (net b.s1).A _ p * _
    rw [← inFrame_bondPermute b.k (net' b.s1).A w p, hW]
    have hT' : ∀ u r d l' u' d' p q, twoSite (bondPermute b.k (net' b.s1).A) (bondPermute b.k (net' b.s2).A) u r d l' u' d' p q =
      κ * ∑ x, bondPermute b.k (net b.s1).A x u r d p * bondPermute b.k (net b.s2).A l' u' x d' q := hT
    simp only [hT', ← inFrame_bondPermute b.k (net b.s1).A _ _, Function.update_self, Function.update_of_ne (hs 1 0 (by omega) (by omega) (by omega)),
      Function.update_of_ne (hs 2 0 (by omega) (by omega) (by omega)), Function.update_of_ne (hs 3 0 (by omega) (by omega) (by omega))]
    have e : ∀ (a : B → 𝕜) (c : B → B → B → B → P → 𝕜) (W : B → B → B → P → 𝕜),
        ∑ l', ∑ u', ∑ d', ∑ q, (κ * ∑ x, a x * c l' u' x d' q) * W l' u' d' q =
          ∑ x, a x * (κ * ∑ l', ∑ u', ∑ d', ∑ q, c l' u' x d' q * W l' u' d' q) := by
      intro a c W
      einsum_ring
    exact e (fun x => bondPermute b.k (net b.s1).A x (w (side b.k 1)) (w (side b.k 2)) (w (side b.k 3)) p) (bondPermute b.k (net b.s2).A) fun l' u' d' q => W l' u' d' q (w (side b.k 0))
  · obtain ⟨W, hW⟩ := h2
    refine ⟨fun x y => κ * ∑ u, ∑ r, ∑ d, ∑ p, bondPermute b.k (net b.s1).A x u r d p * W u r d p y, fun w p => ?_⟩
    show atLegs (net' b.s2).A w p = ∑ x, atLegs (net b.s2).A _ p * _
    rw [← inFrame_bondPermute b.k (net' b.s2).A w p, hW]
    have hT' : ∀ u r d l' u' d' p q, twoSite (bondPermute b.k (net' b.s1).A) (bondPermute b.k (net' b.s2).A) u r d l' u' d' p q =
      κ * ∑ x, bondPermute b.k (net b.s1).A x u r d p * bondPermute b.k (net b.s2).A l' u' x d' q := hT
    simp only [hT', ← inFrame_bondPermute b.k (net b.s2).A _ _, Function.update_self, Function.update_of_ne (hs 0 2 (by omega) (by omega) (by omega)),
      Function.update_of_ne (hs 1 2 (by omega) (by omega) (by omega)), Function.update_of_ne (hs 3 2 (by omega) (by omega) (by omega))]
    have e : ∀ (a : B → 𝕜) (c : B → B → B → B → P → 𝕜) (W : B → B → B → P → 𝕜),
        ∑ u, ∑ r, ∑ d, ∑ p, (κ * ∑ x, c x u r d p * a x) * W u r d p =
          ∑ x, a x * (κ * ∑ u, ∑ r, ∑ d, ∑ p, c x u r d p * W u r d p) := by
      intro a c W
      einsum_ring
    exact e (fun x => bondPermute b.k (net b.s2).A (w (side b.k 0)) (w (side b.k 1)) x (w (side b.k 3)) p) (bondPermute b.k (net b.s1).A) fun u r d p => W u r d p (w (side b.k 2))

open scoped Matrix.Norms.L2Operator in
omit [DecidableEq B] in
/-- Such updates multiply the state of the lattice with a number. -/
theorem StillBond.state (hx : 2 ≤ nx) (hy : 2 ≤ ny) (σ : Bond → Equiv.Perm (Fin N)) {b : Bond} (hb : b ∈ buildBondList nx ny)
    {A A' : Site → B → B → B → B → P → 𝕜} {κ : 𝕜} (h : StillBond b A A' κ) :
    latticeState (nx := nx) (ny := ny) σ A' = κ ^ N • latticeState σ A := by
  set m : ModelTerms P 𝕜 := ⟨fun _ => 0, fun _ => none⟩
  have h1 := C76_bond hx hy σ b hb (twoSiteGate m 0 b) A A' κ ⟨h.other, fun w1 w2 p q => by
    rw [h.pair]
    congr 1
    unfold gatedPair twoSiteGate calculateGate
    simp [Matrix.one_apply, Prod.ext_iff, ite_and]⟩
  rw [h1, everywhere_gate _ m 0 b hb]
  simp

section energy

open scoped Matrix.Norms.L2Operator

omit [DecidableEq B] in
theorem bond_eigen (hx : 2 ≤ nx) (hy : 2 ≤ ny) (σ : Bond → Equiv.Perm (Fin N)) {m : ModelTerms P 𝕜} {e : Bond → ℝ}
    {A : Site → B → B → B → B → P → 𝕜} (hA : LocalEigen nx ny m e A) {b : Bond} (hb : b ∈ buildBondList nx ny) :
    ((coveringOps (P := P) (𝕜 := 𝕜) hx hy σ).placement.pair b (bondHam m.transposed b)).mulVec (latticeState σ A) =
      ((N * e b : ℝ) : 𝕜) • latticeState σ A := by
  set K := (coveringOps (P := P) (𝕜 := 𝕜) hx hy σ).placement.pair b (bondHam m.transposed b) with hK
  set ψ := latticeState (nx := nx) (ny := ny) σ A with hψ
  have hexp : ∀ t : ℝ, (NormedSpace.exp ((t : 𝕜) • (-K))).mulVec ψ = ((Real.exp (t * (-(N * e b))) : ℝ) : 𝕜) • ψ := by
    intro t
    have h1 := C76_bond hx hy σ b hb (twoSiteGate m t b) A A ((Real.exp (t * e b) : ℝ) : 𝕜) ⟨fun _ _ _ => rfl, fun w1 w2 p q => by
      rw [gatedPair_eigen hA hb, ← mul_assoc, ← RCLike.ofReal_mul, ← Real.exp_add, show t * e b + -t * e b = 0 by ring, Real.exp_zero,
        RCLike.ofReal_one, one_mul]⟩
    rw [everywhere_gate _ m t b hb, ← hK, ← hψ] at h1
    have h2 : (t : 𝕜) • (-K) = (-(t : 𝕜)) • K := by
      rw [smul_neg, neg_smul]
    rw [h2]
    conv_rhs => rw [h1]
    rw [smul_smul, ← RCLike.ofReal_pow, ← RCLike.ofReal_mul, ← Real.exp_nat_mul, ← Real.exp_add,
      show t * (-(N * e b)) + N * (t * e b) = 0 by ring, Real.exp_zero, RCLike.ofReal_one, one_smul]
  have hd : HasDerivAt (fun t : 𝕜 => NormedSpace.exp (t • (-K))) (-K) 0 := by
    have := hasDerivAt_exp_smul_const (𝕂 := 𝕜) (-K) 0
    rwa [zero_smul, NormedSpace.exp_zero, one_mul] at this
  funext i
  let L : Matrix (BigSite nx ny N → P) (BigSite nx ny N → P) 𝕜 →ₗ[𝕜] 𝕜 :=
    { toFun := fun M => M.mulVec ψ i
      map_add' := fun M M' => by rw [Matrix.add_mulVec]; rfl
      map_smul' := fun c M => by rw [Matrix.smul_mulVec]; rfl }
  have h0 : HasDerivAt (fun t : 𝕜 => (NormedSpace.exp (t • (-K))).mulVec ψ i) ((-K).mulVec ψ i) 0 :=
    (LinearMap.toContinuousLinearMap L).hasFDerivAt.comp_hasDerivAt (0 : 𝕜) hd
  have hof : HasDerivAt (fun t : ℝ => (t : 𝕜)) 1 0 := by
    simpa using (RCLike.ofRealCLM (K := 𝕜)).hasDerivAt (x := (0 : ℝ))
  have h1 : HasDerivAt (fun t : ℝ => (NormedSpace.exp ((t : 𝕜) • (-K))).mulVec ψ i) ((-K).mulVec ψ i) 0 := by
    have h0' : HasDerivAt (fun t : 𝕜 => (NormedSpace.exp (t • (-K))).mulVec ψ i) ((-K).mulVec ψ i) ((0 : ℝ) : 𝕜) := by
      rw [RCLike.ofReal_zero]
      exact h0
    have := h0'.comp (0 : ℝ) hof
    rwa [mul_one] at this
  have h2 : HasDerivAt (fun t : ℝ => ((Real.exp (t * (-(N * e b))) : ℝ) : 𝕜) * ψ i) (((-(N * e b) : ℝ) : 𝕜) * ψ i) 0 := by
    have h3 : HasDerivAt (fun t : ℝ => Real.exp (t * (-(N * e b)))) (-(N * e b)) 0 := by
      have := ((hasDerivAt_id (0 : ℝ)).mul_const (-(N * e b))).exp
      simpa using this
    exact ((RCLike.ofRealCLM (K := 𝕜)).hasFDerivAt.comp_hasDerivAt (0 : ℝ) h3).mul_const _
  have h3 : (fun t : ℝ => (NormedSpace.exp ((t : 𝕜) • (-K))).mulVec ψ i) = fun t : ℝ => ((Real.exp (t * (-(N * e b))) : ℝ) : 𝕜) * ψ i := by
    funext t
    rw [hexp t]
    rfl
  rw [h3] at h1
  have h4 := h1.unique h2
  rw [Matrix.neg_mulVec, Pi.neg_apply, RCLike.ofReal_neg, neg_mul, neg_inj] at h4
  exact h4

omit [DecidableEq B] in
/-- **C104 (energy).** Such a state is an eigenstate of the Hamiltonian of every finite lattice covering the cell, with the sum of the
eigenvalues of the bonds, once per copy of the cell, as its energy (models with one-site terms everywhere or nowhere). -/
theorem C104_eigenstate (hx : 2 ≤ nx) (hy : 2 ≤ ny) (σ : Bond → Equiv.Perm (Fin N)) (m : ModelTerms P 𝕜)
    (hm : (∀ s, InCell nx ny s → (m.one s).isSome) ∨ (∀ s, InCell nx ny s → m.one s = none)) (e : Bond → ℝ)
    (A : Site → B → B → B → B → P → 𝕜) (hA : LocalEigen nx ny m e A) :
    (latticeHamiltonian hx hy σ m).mulVec (latticeState σ A) = ((N * ((buildBondList nx ny).map e).sum : ℝ) : 𝕜) • latticeState σ A := by
  unfold latticeHamiltonian
  rw [← C04_evolved_eq_measured_partial]
  · unfold evolvedHamiltonian
    have : ∀ l : List Bond, (∀ b ∈ l, b ∈ buildBondList nx ny) →
        ((l.map fun b => (coveringOps (P := P) (𝕜 := 𝕜) hx hy σ).placement.pair b (bondHam m.transposed b)).sum).mulVec (latticeState σ A) =
          ((N * (l.map e).sum : ℝ) : 𝕜) • latticeState σ A := by
      intro l hl
      induction l with
      | nil => simp
      | cons b l ih =>
        rw [List.map_cons, List.sum_cons, Matrix.add_mulVec, bond_eigen hx hy σ hA (hl b List.mem_cons_self),
          ih fun b' h' => hl b' (List.mem_cons_of_mem _ h'), List.map_cons, List.sum_cons, mul_add, RCLike.ofReal_add, add_smul]
    exact this _ fun _ h => h
  · rcases hm with h | h
    · exact Or.inl fun s hs => by
        unfold ModelTerms.transposed
        rw [Option.isSome_map]
        exact h s hs
    · exact Or.inr fun s hs => by
        unfold ModelTerms.transposed
        dsimp only
        rw [h s hs]
        rfl

end energy

section simple

variable {bD : ℕ} [NeZero bD] [Nonempty P] {X : Type}

/-- The weights around the bond updated next can be divided out (C40, C41). -/
def Spec.WeightsGood (st : NetT (Fin bD) P X 𝕜 × LambdaTensors (Weight bD)) (b : Bond) : Prop :=
  ∃ W1 W2 : ℕ → Weight bD, Weights st.2 b.s1 W1 ∧ Weights st.2 b.s2 W2 ∧ Strippable W1 b.k ∧ Strippable W2 ((b.k + 2) % 4)

theorem tight_bondTensors (la : Lapack 𝕜) (lt : LambdaTensors (Weight bD)) (gate : P → P → P → P → 𝕜) (b : Bond) (hk : b.k < 4)
    (a1 a2 : ATensor (Fin bD) P 𝕜) (W1 W2 : ℕ → Weight bD) (hW1 : Weights lt b.s1 W1)
    (hW2 : Weights lt b.s2 W2) (hs1 : Strippable W1 b.k) (hs2 : Strippable W2 ((b.k + 2) % 4)) :
    ∃ b1 b2 lambda, bondTensors la lt none gate b a1 a2 = .ok (b1, b2, lambda) ∧
      TightFirst (bondPermute b.k b1) (bondPermute b.k b2) ∧ TightSecond (bondPermute b.k b1) (bondPermute b.k b2) := by
  set s := splitBond la gate (bondPermute b.k (weighted (fun d => (W1 d).v) b.k a1))
    (bondPermute b.k (weighted (fun d => (W2 d).v) ((b.k + 2) % 4) a2)) with hs
  obtain ⟨b1, hb1, hw1⟩ := strip_ok lt (bondPermute (4 - b.k) s.1) b.s1 b.k W1 hW1 hs1
  obtain ⟨b2, hb2, hw2⟩ := strip_ok lt (bondPermute (4 - b.k) s.2.1) b.s2 ((b.k + 2) % 4) W2 hW2 hs2
  have ht : TightFirst s.1 s.2.1 ∧ TightSecond s.1 s.2.1 := tight_splitBond la gate _ _
  obtain ⟨ω1, hω1, e1⟩ := weighted_first (𝕜 := 𝕜) (P := P) (fun d => (W1 d).v) b.k hk fun d hd hdk i =>
    (lt_of_lt_of_le (by norm_num) ((hs1 d hd hdk).2 i)).ne'
  obtain ⟨ω2, hω2, e2⟩ := weighted_second (𝕜 := 𝕜) (P := P) (fun d => (W2 d).v) b.k fun d hd hdk i =>
    (lt_of_lt_of_le (by norm_num) ((hs2 d hd hdk).2 i)).ne'
  refine ⟨b1, b2, s.2.2, ?_, ?_⟩
  · unfold bondTensors
    rw [absorb_eq lt a1 b.s1 b.k W1 hW1, absorb_eq lt a2 b.s2 _ W2 hW2]
    show (strip lt (bondPermute (4 - b.k) s.1) b.s1 b.k >>= fun a1 =>
      strip lt (bondPermute (4 - b.k) s.2.1) b.s2 ((b.k + 2) % 4) >>= fun a2 => pure (a1, a2, s.2.2)) = _
    rw [hb1, hb2]
    rfl
  · have hw := tight_weight (fun u r d => (ω1 u r d : 𝕜)) (fun l u d => (ω2 l u d : 𝕜)) (fun u r d => RCLike.ofReal_ne_zero.2 (hω1 u r d))
      (fun l u d => RCLike.ofReal_ne_zero.2 (hω2 l u d)) (bondPermute b.k b1) (bondPermute b.k b2)
    have f1 : (fun x u r d p => (ω1 u r d : 𝕜) * bondPermute b.k b1 x u r d p) = s.1 := by
      rw [← C29_round_trip' b.k s.1, ← hw1]
      funext x u r d p
      exact (e1 b1 x u r d p).symm
    have f2 : (fun l u x d p => (ω2 l u d : 𝕜) * bondPermute b.k b2 l u x d p) = s.2.1 := by
      rw [← C29_round_trip' b.k s.2.1, ← hw2]
      funext l u x d p
      exact (e2 b2 l u x d p).symm
    rw [f1, f2] at hw
    exact ⟨hw.1 ht.1, hw.2 ht.2⟩

/-- A simple update. -/
theorem simple_still (hx : 2 ≤ nx) (hy : 2 ≤ ny) (la : Lapack 𝕜) (m : ModelTerms P 𝕜) (e : Bond → ℝ) (dtau : ℝ)
    (st : NetT (Fin bD) P X 𝕜 × LambdaTensors (Weight bD)) (hA : LocalEigen nx ny m e (siteTensors st.1)) {b : Bond} (hb : b ∈ buildBondList nx ny)
    (hW : WeightsGood st b) (h0 : bondTensor st.1 b ≠ 0) :
    ExactStep (twoSiteGate m dtau) (fun st => siteTensors st.1) (Simple.bondStep la (fun _ => none) (twoSiteGate m dtau)) st b ∧
      ∃ κ : ℝ, 0 < κ ∧ StillBond b (siteTensors st.1)
        (siteTensors (Simple.bondStep la (fun _ => none) (twoSiteGate m dtau) st b).1.1) (κ : 𝕜) := by
  obtain ⟨W1, W2, hW1, hW2, hs1, hs2⟩ := hW
  have hk : b.k < 4 := by
    have hb' := hb
    rw [mem_buildBondList] at hb'
    rcases hb'.2 with h | h <;> omega
  have hne := bond_ends_distinct nx ny hx hy b hb
  have hex := C76_simple_update la m dtau st b hk hne W1 W2 hW1 hW2 hs1 hs2 h0 (fits_eigen hA hb dtau)
  refine ⟨hex, ?_⟩
  obtain ⟨-, κ, hκ, hE⟩ := hex
  refine ⟨κ * Real.exp (-dtau * e b), mul_pos hκ (Real.exp_pos _), ?_⟩
  obtain ⟨b1, b2, lambda, hr, ht1, ht2⟩ := tight_bondTensors la st.2 (twoSiteGate m dtau b) b hk (st.1 b.s1).A (st.1 b.s2).A W1 W2 hW1 hW2 hs1 hs2
  have hstep : (Simple.bondStep la (fun _ => none) (twoSiteGate m dtau) st b).1.1 = storePair st.1 b.s1 b.s2 b1 b2 := by
    unfold Simple.bondStep bondUpdate
    dsimp only
    rw [hr]
    rfl
  obtain ⟨hs1', hs2', hs3, -⟩ := C42_store_partial st.1 b.s1 b.s2 hne b1 b2
  refine stillBond_of _ _ b _ (fun s h1 h2 => hE.1 s h1 h2) (fun u r d l' u' d' p q => ?_) ?_ ?_
  · obtain ⟨w1, -, rfl, rfl, rfl⟩ := legs_exist b.k u u r d
    obtain ⟨w2, rfl, rfl, -, rfl⟩ := legs_exist b.k l' u' u' d'
    have h := hE.2 w1 w2 p q
    rw [gatedPair_eigen hA hb, bondPair_bondTensor, bondPair_bondTensor, ← mul_assoc] at h
    rw [RCLike.ofReal_mul]
    exact h
  · rw [hstep, hs1', hs2']
    exact ht1
  · rw [hstep, hs1', hs2']
    exact ht2

end simple

section run

omit [DecidableEq B] in
theorem sameRay_step (hx : 2 ≤ nx) (hy : 2 ≤ ny) (σ : Bond → Equiv.Perm (Fin N)) {b : Bond} (hb : b ∈ buildBondList nx ny)
    {A A' : Site → B → B → B → B → P → 𝕜} {κ : ℝ} (hκ : 0 < κ) (h : StillBond b A A' (κ : 𝕜)) (ψ : (BigSite nx ny N → P) → 𝕜)
    (hs : Spec.SameRay (latticeState (nx := nx) (ny := ny) σ A) ψ) : Spec.SameRay (latticeState (nx := nx) (ny := ny) σ A') ψ := by
  obtain ⟨c, hc, e⟩ := hs
  refine ⟨κ ^ N * c, mul_pos (pow_pos hκ _) hc, ?_⟩
  rw [StillBond.state hx hy σ hb h, e, smul_smul, RCLike.ofReal_mul, RCLike.ofReal_pow]

theorem sameRay_ne_zero {ι : Type} {φ ψ : ι → 𝕜} (h : Spec.SameRay φ ψ) (hψ : ψ ≠ 0) : φ ≠ 0 := by
  obtain ⟨c, hc, rfl⟩ := h
  exact smul_ne_zero (RCLike.ofReal_ne_zero.2 hc.ne') hψ

theorem sameRay_expectation {ι : Type} [Fintype ι] {φ ψ : ι → 𝕜} (h : Spec.SameRay φ ψ) (O : Matrix ι ι 𝕜) : expectation O φ = expectation O ψ := by
  obtain ⟨c, hc, rfl⟩ := h
  exact expectation_smul hc O ψ

variable {bD : ℕ} [NeZero bD] [Nonempty P] {X : Type}

theorem simple_run [NeZero N] (hx : 2 ≤ nx) (hy : 2 ≤ ny) (σ : Bond → Equiv.Perm (Fin N)) (la : Lapack 𝕜) (m : ModelTerms P 𝕜) (e : Bond → ℝ) (dtau : ℝ)
    (ψ : (BigSite nx ny N → P) → 𝕜) (hψ : ψ ≠ 0) (l : List Bond) (hl : ∀ b ∈ l, b ∈ buildBondList nx ny)
    (st : NetT (Fin bD) P X 𝕜 × LambdaTensors (Weight bD)) (hA : LocalEigen nx ny m e (siteTensors st.1))
    (hs : Spec.SameRay (latticeState (nx := nx) (ny := ny) σ (siteTensors st.1)) ψ)
    (hW : Along WeightsGood (Simple.bondStep la (fun _ => none) (twoSiteGate m dtau)) l st) :
    ExactRun (twoSiteGate m dtau) (fun st => siteTensors st.1) (Simple.bondStep la (fun _ => none) (twoSiteGate m dtau)) l st ∧
      LocalEigen nx ny m e (siteTensors (l.foldl (fun s b => (Simple.bondStep la (fun _ => none) (twoSiteGate m dtau) s b).1) st).1) ∧
      Spec.SameRay (latticeState (nx := nx) (ny := ny) σ
        (siteTensors (l.foldl (fun s b => (Simple.bondStep la (fun _ => none) (twoSiteGate m dtau) s b).1) st).1)) ψ := by
  induction l generalizing st with
  | nil => exact ⟨trivial, hA, hs⟩
  | cons b l ih =>
    have hb := hl b List.mem_cons_self
    obtain ⟨hex, κ, hκ, hst⟩ := simple_still hx hy la m e dtau st hA hb hW.1 (bondTensor_ne_zero hx hy σ _ b hb (sameRay_ne_zero hs hψ))
    obtain ⟨h1, h2⟩ := ih (fun b' h' => hl b' (List.mem_cons_of_mem _ h')) _ (LocalEigen.still hA hb hst)
      (sameRay_step hx hy σ hb hκ hst ψ hs) hW.2
    exact ⟨⟨hex, h1⟩, h2⟩

/-- **C104 (simple update).** Real and complex tensors: if the two-site tensors of the bonds are eigenvectors of the bond Hamiltonians and the
weights can be divided out along the run, `evolve` with the simple update does not raise and leaves a network that describes the same state
of every finite lattice covering the cell, with the same expectation values, for every number of steps and every time step; the two-site
tensors are again eigenvectors. -/
theorem C104_simple [NeZero N] (hx : 2 ≤ nx) (hy : 2 ≤ ny) (σ : Bond → Equiv.Perm (Fin N)) (la : Lapack 𝕜) (cx : Bool) (m : ModelTerms P 𝕜) (e : Bond → ℝ)
    (dtau : ℝ) (bl : List Bond) (hbl : ∀ b ∈ bl, b ∈ buildBondList nx ny) (n : ℕ) (net : NetT (Fin bD) P X 𝕜)
    (h0 : latticeState (nx := nx) (ny := ny) σ (siteTensors net) ≠ 0) (hA : LocalEigen nx ny m e (siteTensors net))
    (hW : Along WeightsGood (Simple.bondStep la (fun _ => none) (twoSiteGate m dtau)) (schedule n bl) (net, LambdaTensors.init bl (ones bD cx))) :
    let r := Simple.evolve la cx (fun _ => none) (twoSiteGate m dtau) n (bl, net)
    r.2.2 = none ∧ LocalEigen nx ny m e (siteTensors r.2.1) ∧
      Spec.SameRay (latticeState (nx := nx) (ny := ny) σ (siteTensors r.2.1)) (latticeState σ (siteTensors net)) ∧
      ∀ O : Matrix (BigSite nx ny N → P) (BigSite nx ny N → P) 𝕜,
        expectation O (latticeState σ (siteTensors r.2.1)) = expectation O (latticeState σ (siteTensors net)) := by
  intro r
  obtain ⟨h1, h2, h3⟩ := simple_run hx hy σ la m e dtau _ h0 (schedule n bl) (fun b hb => hbl b (mem_schedule hb))
    (net, LambdaTensors.init bl (ones bD cx)) hA ⟨1, one_pos, by rw [RCLike.ofReal_one, one_smul]⟩ hW
  have hr := evolveLoop_exact _ _ _ n bl _ h1
  have e1 : r.2.2 = none := congrArg (fun x => x.2.2) hr
  have e2 : r.2.1 = ((schedule n bl).foldl (fun s b => (Simple.bondStep la (fun _ => none) (twoSiteGate m dtau) s b).1)
      (net, LambdaTensors.init bl (ones bD cx))).1 := congrArg (fun x => x.2.1.1) hr
  rw [e2]
  exact ⟨e1, h2, h3, fun O => sameRay_expectation h3 O⟩

end run

section full

variable {F : Type} {bD pD : ℕ} [NeZero bD] [NeZero pD]

/-- A full update with its absorbing moves, whether it raises or not. -/
theorem full_still (hx : 2 ≤ nx) (hy : 2 ≤ ny) (st : ProjSettings ℝ) (pk : ProjKind) (ω : ℕ → Draws (Fin bD) ℝ) (la : Lapack ℝ)
    (fo : Als.FloatOps F) (rep : ℝ → F) (cfg : Settings F) (he : cfg.als_epsilon = 0) (hcut : 0 < cfg.positive_approx_cutoff)
    (hatol : cfg.gauge_fix_atol < Real.sqrt cfg.positive_approx_cutoff) (m : ModelTerms (Fin pD) ℝ) (e : Bond → ℝ) (dtau : ℝ)
    (s : Net (Ten (Fin bD) (Fin pD) ℝ) × ℕ) (h : FitNet nx ny s.1) (hA : LocalEigen nx ny m e (siteTensors (bare s.1))) {b : Bond}
    (hb : b ∈ buildBondList nx ny) (h0 : bondTensor (bare s.1) b ≠ 0) :
    ∃ κ : ℝ, 0 < κ ∧ StillBond b (siteTensors (bare s.1))
      (siteTensors (bare (fullBondStep st pk ω la fo rep cfg none (twoSiteGate m dtau) s b).1.1)) κ := by
  have hne := bond_ends_distinct nx ny hx hy b hb
  have hfit := fits_eigen hA hb dtau
  have hgate := gated_eigen hA hb dtau
  obtain ⟨rfl, rfl, f, hw⟩ := h
  have hx0 : 0 < s.1.nx := by omega
  have hy0 : 0 < s.1.ny := by omega
  obtain ⟨c1, c2⟩ := C02_bond_ends_in_cell _ _ b hb
  rw [mem_buildSiteList] at c1 c2
  obtain ⟨a1, h1⟩ := hw.site _ c1
  obtain ⟨a2, h2⟩ := hw.site _ c2
  have h4 := (fullBondStep_wired st pk ω la fo rep cfg none (twoSiteGate m dtau) s hw hx0 hy0 hb).2.2.2
  obtain ⟨n12, hn⟩ := numTensorUpdate_wired hw hx0 hy0 hb la fo rep cfg (twoSiteGate m dtau b) (bondPermute b.k a1) (bondPermute b.k a2)
  have hu : numUpdate la fo rep cfg none (twoSiteGate m dtau) s.1 b =
      (numTensorUpdate la fo rep cfg s.1 b (twoSiteGate m dtau b) (bondPermute b.k a1) (bondPermute b.k a2)).map fun r => do
        let (a1, a2) ← r
        return (bondPermute (4 - (b.k : ℤ)) a1, bondPermute (4 - (b.k : ℤ)) a2) := by
    unfold numUpdate
    rw [h1, h2]
  have hT : bondTensor (bare s.1) b = twoSite (bondPermute b.k a1) (bondPermute b.k a2) := by
    unfold bondTensor
    rw [bare_A h1, bare_A h2]
  rw [hn] at hu
  cases hr : (updateReduced la fo rep cfg bD_le (decompose la (bondPermute b.k a1) (bondPermute b.k a2)).a1r
      (decompose la (bondPermute b.k a1) (bondPermute b.k a2)).a2r n12 (twoSiteGate m dtau b)) with
  | none =>
    rw [hr] at hu
    rw [show numUpdate la fo rep cfg none (twoSiteGate m dtau) s.1 b = none from hu] at h4
    rw [h4.2]
    exact ⟨1, one_pos, stillBond_refl b _⟩
  | some r =>
  cases r with
  | error e =>
    rw [hr] at hu
    rw [show numUpdate la fo rep cfg none (twoSiteGate m dtau) s.1 b = some (.error e) from hu] at h4
    rw [h4.2]
    exact ⟨1, one_pos, stillBond_refl b _⟩
  | ok p =>
  obtain ⟨x1, x2, hx1, hx2⟩ : ∃ x1 x2, ((some (Except.ok p)).map fun r : Except PyErr _ => do
      let p ← r
      let (a1, a2) := recompose (decompose la (bondPermute b.k a1) (bondPermute b.k a2)).a1q p.1
        (decompose la (bondPermute b.k a1) (bondPermute b.k a2)).a2q p.2
      return (normalise a1, normalise a2)) = some (Except.ok (x1, x2)) ∧
      numUpdate la fo rep cfg none (twoSiteGate m dtau) s.1 b =
        some (.ok (bondPermute (4 - (b.k : ℤ)) x1, bondPermute (4 - (b.k : ℤ)) x2)) := by
    refine ⟨_, _, rfl, ?_⟩
    rw [hu, hr]
    rfl
  have hg0 := gated_ne_zero_of m dtau b _ (hT ▸ h0)
  obtain ⟨κ, hκ, hx⟩ := recomposed_exact la fo rep cfg n12 (twoSiteGate m dtau b) (bondPermute b.k a1) (bondPermute b.k a2) x1 x2 he hcut hatol
    (hT ▸ hfit) hg0 (by rw [hr]; exact hx1)
  have hne0 : twoSite x1 x2 ≠ 0 := by
    intro hz
    apply hg0
    funext u r d l' u' d' p q
    have h5 := hx u r d l' u' d' p q
    rw [hz] at h5
    exact (mul_eq_zero.1 h5.symm).resolve_left hκ.ne'
  obtain ⟨ht1, ht2⟩ := tight_recomposed la fo rep cfg n12 (twoSiteGate m dtau b) (bondPermute b.k a1) (bondPermute b.k a2) x1 x2
    (by rw [hr]; exact hx1) hne0
  rw [hx2] at h4
  have hA := h4.2
  dsimp only at hA
  have hA' : ∀ s' : Site, (fullBondStep st pk ω la fo rep cfg none (twoSiteGate m dtau) s b).1.1.A s' =
      if s' = b.s2 then .site (bondPermute (4 - (b.k : ℤ)) x2) else if s' = b.s1 then .site (bondPermute (4 - (b.k : ℤ)) x1) else s.1.A s' :=
    fun s' => congrFun hA s'
  have hback : ∀ c : ATensor (Fin bD) (Fin pD) ℝ, bondPermute b.k (bondPermute (4 - b.k) c) = c := fun c => by
    rw [bondPermute_add, bondPermute_mod _ 0 (by omega), bondPermute_zero]
  have e1 := bare_A ((hA' b.s1).trans ((if_neg hne).trans (if_pos rfl)))
  have e2 := bare_A ((hA' b.s2).trans (if_pos rfl))
  refine ⟨κ * Real.exp (-dtau * e b), mul_pos hκ (Real.exp_pos _),
    stillBond_of _ _ b _ (fun s' h1 h2 => ?_) (fun u r d l' u' d' p q => ?_) ?_ ?_⟩
  · refine bare_congr ?_
    rw [hA' s', if_neg h2, if_neg h1]
  · have h5 := hx u r d l' u' d' p q
    have h6 := hgate u r d l' u' d' p q
    rw [hT] at h6 ⊢
    rw [h6, ← mul_assoc] at h5
    unfold bondTensor
    rw [e1, e2, hback, hback]
    exact h5
  · rw [e1, e2, hback, hback]
    exact ht1
  · rw [e1, e2, hback, hback]
    exact ht2

/-- **C104 (full update).** Real dtypes, solver without regularisation: the same for whole programs that build an environment, evolve with the full
update and build the environment again, with any projectors, boundary dimensions and random draws, whether the solver raises or not. -/
theorem C104_full [NeZero N] (hx : 2 ≤ nx) (hy : 2 ≤ ny) (σ : Bond → Equiv.Perm (Fin N)) (st : ProjSettings ℝ) (pk : ProjKind)
    (ω : ℕ → Draws (Fin bD) ℝ) (la : Lapack ℝ) (fo : Als.FloatOps F) (rep : ℝ → F) (cfg : Settings F) (he : cfg.als_epsilon = 0)
    (hcut : 0 < cfg.positive_approx_cutoff) (hatol : cfg.gauge_fix_atol < Real.sqrt cfg.positive_approx_cutoff)
    (m : ModelTerms (Fin pD) ℝ) (e : Bond → ℝ) (dtau : ℝ) (bl : List Bond) (hbl : ∀ b ∈ bl, b ∈ buildBondList nx ny) (n chi : ℕ)
    (A : Site → ATensor (Fin bD) (Fin pD) ℝ) (h0 : latticeState (nx := nx) (ny := ny) σ A ≠ 0) (hA : LocalEigen nx ny m e A) (k k' t t' t'' : ℕ) :
    ∃ net, ctmrgDrawn st pk ω t k (freshNet nx ny chi A) = .ok net ∧
      let r := fullEvolve st pk ω la fo rep cfg none (twoSiteGate m dtau) n (bl, net, t')
      ∃ net', ctmrgDrawn st pk ω t'' k' r.2.1.1 = .ok net' ∧ Readable nx ny net' ∧ LocalEigen nx ny m e (siteTensors (bare net')) ∧
        Spec.SameRay (latticeState (nx := nx) (ny := ny) σ (siteTensors (bare net'))) (latticeState σ A) ∧
        ∀ O : Matrix (BigSite nx ny N → Fin pD) (BigSite nx ny N → Fin pD) ℝ,
          expectation O (latticeState σ (siteTensors (bare net'))) = expectation O (latticeState σ A) := by
  have hx0 : 0 < nx := by omega
  have hy0 : 0 < ny := by omega
  obtain ⟨net, e0, h, hnA⟩ := (fitNet_fresh hx0 hy0 chi A).sweeps hx0 hy0 st pk ω t k
  refine ⟨net, e0, ?_⟩
  intro r
  have hbare : siteTensors (bare net) = A := by
    funext s
    exact bare_A ((congrFun hnA s).trans rfl)
  obtain ⟨h1, h2, h3⟩ := evolveLoop_inv (fun s : Net (Ten (Fin bD) (Fin pD) ℝ) × ℕ => FitNet nx ny s.1 ∧ LocalEigen nx ny m e (siteTensors (bare s.1)) ∧
      Spec.SameRay (latticeState (nx := nx) (ny := ny) σ (siteTensors (bare s.1))) (latticeState σ A)) (· ∈ buildBondList nx ny)
    (upd := fullBondStep st pk ω la fo rep cfg none (twoSiteGate m dtau)) (fun s b hb hs => by
      obtain ⟨h1, h2, h3⟩ := hs
      obtain ⟨κ, hκ, hst⟩ := full_still hx hy st pk ω la fo rep cfg he hcut hatol m e dtau s h1 h2 hb
        (bondTensor_ne_zero hx hy σ _ b hb (sameRay_ne_zero h3 h0))
      exact ⟨(h1.step hx0 hy0 st pk ω la fo rep cfg none _ hb).1, LocalEigen.still h2 hb hst, sameRay_step hx hy σ hb hκ hst _ h3⟩)
    n bl hbl (net, t') ⟨h, by rw [hbare]; exact hA, 1, one_pos, by rw [hbare]; simp⟩
  obtain ⟨net', e', h'', hA'⟩ := FitNet.sweeps h1 hx0 hy0 st pk ω t'' k'
  have hb' : siteTensors (bare net') = siteTensors (bare r.2.1.1) := by
    funext s
    exact bare_congr (congrFun hA' s)
  have h3' : Spec.SameRay (latticeState (nx := nx) (ny := ny) σ (siteTensors (bare net'))) (latticeState σ A) := by
    rw [hb']
    exact h3
  exact ⟨net', e', h''.readable hx0 hy0, by rw [hb']; exact h2, h3', fun O => sameRay_expectation h3' O⟩

end full

/-! ### The hypotheses are met -/

section example_

theorem atLegs_ghz (s : Site) (w : Fin 4 → Fin 2) (p : Fin 2) (h : atLegs (siteTensors ghzNet s) w p ≠ 0) (i : Fin 4) : w i = p := by
  have h1 : w 0 = p ∧ w 1 = p ∧ w 2 = p ∧ w 3 = p := by
    by_contra h2
    exact h (if_neg h2)
  fin_cases i
  exacts [h1.1, h1.2.1, h1.2.2.1, h1.2.2.2]

/-- The state `|00…0⟩ + |11…1⟩` of a ferromagnet. -/
theorem ghz_eigen (j : ℝ) : LocalEigen nx ny (zzTerms j) (fun _ => -j) (siteTensors ghzNet) := by
  intro b _ w1 w2 p q
  have h0 : ∀ p q, p ≠ q → bondPair b.k (siteTensors ghzNet b.s1) (siteTensors ghzNet b.s2) w1 w2 p q = 0 := by
    intro p q hpq
    refine Finset.sum_eq_zero fun x _ => ?_
    by_contra h
    obtain ⟨h1, h2⟩ := mul_ne_zero_iff.1 h
    have e1 := atLegs_ghz _ _ _ h1 (side b.k 0)
    have e2 := atLegs_ghz _ _ _ h2 (side b.k 2)
    rw [Function.update_self] at e1 e2
    exact hpq (e1.symm.trans e2)
  have hH : ∀ p' q', bondHam (zzTerms j) b (p', q') (p, q) = if p' = p ∧ q' = q then (if p = q then -j else j) else 0 := by
    intro p' q'
    show Matrix.diagonal _ _ _ = _
    rw [Matrix.diagonal_apply]
    by_cases h : p' = p ∧ q' = q
    · obtain ⟨rfl, rfl⟩ := h
      simp
    · rw [if_neg h, if_neg fun e => h ⟨congrArg Prod.fst e, congrArg Prod.snd e⟩]
  simp only [hH]
  rw [Finset.sum_eq_single p (fun p' _ hp' => Finset.sum_eq_zero fun q' _ => by simp [hp']) (by simp),
    Finset.sum_eq_single q (fun q' _ hq' => by simp [hq']) (by simp)]
  by_cases hpq : p = q
  · simp [hpq, mul_comm]
  · rw [h0 p q hpq]
    simp

/-- Non-vacuity of the full case: the ferromagnet keeps `|00…0⟩ + |11…1⟩`, on any lattice and for any number of steps. -/
example [NeZero N] (hx : 2 ≤ nx) (hy : 2 ≤ ny) (σ : Bond → Equiv.Perm (Fin N)) (st : ProjSettings ℝ) (pk : ProjKind)
    (ω : ℕ → Draws (Fin 2) ℝ) (la : Lapack ℝ) (fo : Als.FloatOps ℝ) (j dtau : ℝ) (n chi k k' t t' t'' : ℕ) :
    ∃ cfg : Settings ℝ, ∃ net, ctmrgDrawn st pk ω t k (freshNet nx ny chi (siteTensors ghzNet)) = .ok net ∧
      ∃ net', ctmrgDrawn st pk ω t'' k' (fullEvolve st pk ω la fo id cfg none (twoSiteGate (zzTerms j) dtau) n (buildBondList nx ny, net, t')).2.1.1 =
        .ok net' ∧ Spec.SameRay (latticeState (nx := nx) (ny := ny) σ (siteTensors (bare net'))) (latticeState σ (siteTensors ghzNet)) := by
  refine ⟨⟨true, 1e-12, 1e-12, 100, 1e-15, .pinv, 0⟩, ?_⟩
  obtain ⟨net, e, net', e', -, -, h, -⟩ := C104_full hx hy σ st pk ω la fo id ⟨true, 1e-12, 1e-12, 100, 1e-15, .pinv, 0⟩ rfl (by norm_num)
    (by rw [Real.lt_sqrt (by norm_num)]; norm_num) (zzTerms j) (fun _ => -j) dtau _ (fun _ h => h) n chi (siteTensors ghzNet) (ghzNet_state σ)
    (ghz_eigen j) k k' t t' t''
  exact ⟨net, e, net', e', h⟩

/-- Weights of bond dimension one stay one. -/
theorem unit_good [NeZero N] (hx : 2 ≤ nx) (hy : 2 ≤ ny) (σ : Bond → Equiv.Perm (Fin N)) (la : Lapack ℝ) (m : ModelTerms (Fin 2) ℝ) (e : Bond → ℝ)
    (dtau : ℝ) (bl : List Bond) (hbl : bl.Perm (buildBondList nx ny)) (l : List Bond) (hl : ∀ b ∈ l, b ∈ buildBondList nx ny)
    (st : NetT (Fin 1) (Fin 2) (Fin 1) ℝ × LambdaTensors (Weight 1)) (ht : UnitTable bl st.2) (hA : LocalEigen nx ny m e (siteTensors st.1))
    (hs : latticeState (nx := nx) (ny := ny) σ (siteTensors st.1) ≠ 0) :
    Along WeightsGood (Simple.bondStep la (fun _ => none) (twoSiteGate m dtau)) l st := by
  induction l generalizing st with
  | nil => trivial
  | cons b l ih =>
    have hb := hl b List.mem_cons_self
    obtain ⟨c1, c2⟩ := C02_bond_ends_in_cell nx ny b hb
    rw [mem_buildSiteList] at c1 c2
    have hW1 := ht.weights hbl b.s1 c1
    have hW2 := ht.weights hbl b.s2 c2
    have hS : ∀ ex, Strippable (fun _ => Simple.ones 1 false) ex := fun ex d _ _ => ⟨rfl, fun _ => by norm_num [Simple.ones]⟩
    have hgood : WeightsGood st b := ⟨_, _, hW1, hW2, hS _, hS _⟩
    have h0 := bondTensor_ne_zero hx hy σ st.1 b hb hs
    obtain ⟨hex, κ, hκ, hst⟩ := simple_still hx hy la m e dtau st hA hb hgood h0
    have hs' := exactStep_ne_zero hx hy σ m dtau (fun st => siteTensors st.1) _ st b hb hex hs
    refine ⟨hgood, ih (fun b' h' => hl b' (List.mem_cons_of_mem _ h')) _ ?_ (LocalEigen.still hA hb hst) hs'⟩
    have hbs : bondState (fun _ => Simple.ones 1 false) (fun _ => Simple.ones 1 false) b.k (st.1 b.s1).A (st.1 b.s2).A =
        bondTensor st.1 b := by
      unfold bondState bondTensor
      have hw : ∀ (ex : ℕ) (a : ATensor (Fin 1) (Fin 2) ℝ),
          weighted (fun _ => (Simple.ones 1 false).v) ex a = a := by
        intro ex a
        funext x u r d p
        simp [weighted, legWeight, Simple.ones]
      rw [hw, hw]
    obtain ⟨b1, b2, lambda, hr, hn, -⟩ := C40_partial la st.2 (twoSiteGate m dtau b) b (st.1 b.s1).A (st.1 b.s2).A _ _
      hW1 hW2 (hS _) (hS _) (by rw [hbs]; exact gated_ne_zero_of m dtau b _ h0)
    have hstep : (Simple.bondStep la (fun _ => none) (twoSiteGate m dtau) st b).1.2 = st.2.setItem b ⟨false, lambda⟩ := by
      unfold Simple.bondStep Simple.bondUpdate
      dsimp only
      rw [hr]
      rfl
    rw [hstep]
    obtain ⟨ws, hws, he⟩ := ht
    refine ⟨ws ++ [(b, ⟨false, lambda⟩)], fun p hp => ?_, ?_⟩
    · rcases List.mem_append.1 hp with h | h
      · exact hws p h
      · rw [List.mem_singleton.1 h, normalised_one lambda hn]
        rfl
    · rw [he, List.foldl_append]
      rfl

/-- Couplings and fields along the first axis. -/
noncomputable def xxTerms : ModelTerms (Fin 2) ℝ :=
  ⟨fun _ => fun x y => if x.1 ≠ y.1 ∧ x.2 ≠ y.2 then 1 else 0, fun _ => some fun x y => if x ≠ y then 1 else 0⟩

theorem plus_eigen : LocalEigen nx ny xxTerms (fun _ => 3 / 2) (siteTensors plusNet) := by
  intro b _ w1 w2 p q
  have h1 : ∀ p q, bondPair b.k (siteTensors plusNet b.s1) (siteTensors plusNet b.s2) w1 w2 p q = 1 := by
    intro p q
    simp [bondPair, siteTensors, plusNet, atLegs]
  have hH : ∀ p' q', bondHam xxTerms b (p', q') (p, q) = (if p' ≠ p ∧ q' ≠ q then 1 else 0) +
      0.25 * ((if p' ≠ p then 1 else 0) * (if q' = q then 1 else 0) + (if p' = p then 1 else 0) * (if q' ≠ q then 1 else 0)) := by
    intro p' q'
    rfl
  simp only [h1, hH]
  fin_cases p <;> fin_cases q <;> norm_num [Fin.sum_univ_two]

/-- Non-vacuity of the simple case: spins along the first axis with couplings and fields along that axis, on any lattice and for any number of
steps. -/
example [NeZero N] (hx : 2 ≤ nx) (hy : 2 ≤ ny) (σ : Bond → Equiv.Perm (Fin N)) (la : Lapack ℝ) (dtau : ℝ) (n : ℕ) :
    let r := Simple.evolve la false (fun _ => none) (twoSiteGate xxTerms dtau) n (buildBondList nx ny, plusNet)
    r.2.2 = none ∧ Spec.SameRay (latticeState (nx := nx) (ny := ny) σ (siteTensors r.2.1)) (latticeState σ (siteTensors plusNet)) := by
  have h0 : latticeState (nx := nx) (ny := ny) σ (siteTensors plusNet) ≠ 0 := fun h => plusNet_ones (nx := nx) (ny := ny) σ (congrFun h _)
  obtain ⟨h1, -, h2, -⟩ := C104_simple hx hy σ la false xxTerms (fun _ => 3 / 2) dtau _ (fun _ h => h) n plusNet h0 plus_eigen
    (unit_good hx hy σ la xxTerms _ dtau _ (List.Perm.refl _) _ (fun _ hb => mem_schedule hb) _ ⟨[], by simp, rfl⟩ plus_eigen h0)
  exact ⟨h1, h2⟩

/-- Its energy is three halves per bond. -/
example (hx : 2 ≤ nx) (hy : 2 ≤ ny) (σ : Bond → Equiv.Perm (Fin N)) :
    (latticeHamiltonian hx hy σ xxTerms).mulVec (latticeState σ (siteTensors plusNet)) =
      (N * ((buildBondList nx ny).map fun _ => (3 / 2 : ℝ)).sum) • latticeState σ (siteTensors plusNet) :=
  C104_eigenstate hx hy σ xxTerms (Or.inl fun _ _ => rfl) _ _ plus_eigen

end example_

end AceTN
