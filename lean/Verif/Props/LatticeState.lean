import Verif.Lemmas.LatticeState
import Verif.Model.FullEvolve
import Verif.Model.SimpleEvolve
import Verif.Props.EnergyDescent
import Verif.Props.BondFrame
import Verif.Spec.GroundState

/-! C76: an evolution without truncation evolves the many-body state of the lattice. -/

set_option autoImplicit false

namespace AceTN
open Spec Trot NormedSpace
open scoped Matrix.Norms.L2Operator

variable {𝕜 : Type} [RCLike 𝕜] {P : Type} [Fintype P] [DecidableEq P] {nx ny N : ℕ}

section bond

variable {B : Type} [Fintype B]

/-- **C76 (one bond).** On every finite lattice that covers the cell: if a bond update keeps the tensors of other sites and
replaces the two-site tensor of the bond by `κ` times the gate applied to it, the state of the lattice is multiplied by
the gate on every copy of the bond and by `κ` for every copy. -/
theorem C76_bond (hx : 2 ≤ nx) (hy : 2 ≤ ny) (σ : Bond → Equiv.Perm (Fin N)) (b : Bond)
    (hb : b ∈ buildBondList nx ny) (gate : P → P → P → P → 𝕜) (A A' : Site → B → B → B → B → P → 𝕜) (κ : 𝕜)
    (h : ExactBond gate b A A' κ) :
    latticeState σ A' =
      κ ^ N • ((coveringOps hx hy σ).everywhere b (gateMatrix gate).transpose).mulVec (latticeState σ A) :=
  latticeState_exactBond hx hy σ b hb gate A A' κ h

end bond

section norm

variable {ι : Type} [Fintype ι] [DecidableEq ι]

theorem stateNorm_mulVec (M : Matrix ι ι 𝕜) (ψ : ι → 𝕜) : stateNorm (M.mulVec ψ) ≤ ‖M‖ * stateNorm ψ := by
  have h := Matrix.l2_opNorm_mulVec M (WithLp.toLp 2 ψ)
  rw [EuclideanSpace.norm_eq, EuclideanSpace.norm_eq] at h
  exact h

end norm

section run

variable {B S : Type} [Fintype B]

/-- A statement about a state and the bond updated next holds all along a sequence of bond updates. -/
def Spec.Along (Q : S → Bond → Prop) (upd : S → Bond → S × Option PyErr) : List Bond → S → Prop
  | [], _ => True
  | b :: l, s => Q s b ∧ Along Q upd l (upd s b).1

/-- A bond update that does not raise and is exact up to a positive factor; `A` are the site tensors of a state of the
program. -/
def Spec.ExactStep (gates : Bond → P → P → P → P → 𝕜) (A : S → Site → B → B → B → B → P → 𝕜)
    (upd : S → Bond → S × Option PyErr) (s : S) (b : Bond) : Prop :=
  (upd s b).2 = none ∧ ∃ κ : ℝ, 0 < κ ∧ ExactBond (gates b) b (A s) (A (upd s b).1) (κ : 𝕜)

/-- A sequence of such bond updates. -/
def Spec.ExactRun (gates : Bond → P → P → P → P → 𝕜) (A : S → Site → B → B → B → B → P → 𝕜)
    (upd : S → Bond → S × Option PyErr) : List Bond → S → Prop :=
  Along (ExactStep gates A upd) upd

omit [Fintype P] [DecidableEq P] in
theorem bondPass_exact [Fintype P] (gates : Bond → P → P → P → P → 𝕜) (A : S → Site → B → B → B → B → P → 𝕜)
    (upd : S → Bond → S × Option PyErr) (l : List Bond) (s : S) (rest : List Bond)
    (h : ExactRun gates A upd (l ++ rest) s) :
    bondPass upd l s = (l.foldl (fun s b => (upd s b).1) s, none) ∧
      ExactRun gates A upd rest (l.foldl (fun s b => (upd s b).1) s) := by
  induction l generalizing s with
  | nil => exact ⟨rfl, h⟩
  | cons b l ih =>
    obtain ⟨⟨h1, -⟩, h3⟩ := h
    obtain ⟨i1, i2⟩ := ih _ h3
    refine ⟨?_, i2⟩
    unfold bondPass
    cases hu : upd s b with
    | mk s' e =>
      rw [hu] at h1 i1
      cases h1
      simp only [List.foldl_cons, hu]
      exact i1

omit [Fintype P] [DecidableEq P] in
/-- An exact run visits the bonds of the schedule (C05) and does not raise. -/
theorem evolveLoop_exact [Fintype P] (gates : Bond → P → P → P → P → 𝕜) (A : S → Site → B → B → B → B → P → 𝕜)
    (upd : S → Bond → S × Option PyErr) (n : ℕ) (bl : List Bond) (s : S)
    (h : ExactRun gates A upd (schedule n bl) s) :
    evolveLoop upd n bl s = (listAfter n bl, (schedule n bl).foldl (fun s b => (upd s b).1) s, none) := by
  induction n generalizing bl s with
  | zero => simp [evolveLoop, listAfter, schedule]
  | succ n ih =>
    rw [schedule_succ] at h
    obtain ⟨h1, h2⟩ := bondPass_exact gates A upd bl s _ h
    unfold evolveLoop
    rw [h1]
    dsimp only
    rw [ih _ _ h2, schedule_succ, List.foldl_append]
    simp [listAfter_succ]

theorem foldl_exact (hx : 2 ≤ nx) (hy : 2 ≤ ny) (σ : Bond → Equiv.Perm (Fin N)) (m : ModelTerms P 𝕜) (dtau : ℝ)
    (A : S → Site → B → B → B → B → P → 𝕜) (upd : S → Bond → S × Option PyErr) (l : List Bond)
    (hl : ∀ b ∈ l, b ∈ buildBondList nx ny) (s : S) (h : ExactRun (twoSiteGate m dtau) A upd l s)
    (U : Matrix (BigSite nx ny N → P) (BigSite nx ny N → P) 𝕜) (κ₀ : ℝ) (hκ₀ : 0 < κ₀)
    (ψ : (BigSite nx ny N → P) → 𝕜) (hs : latticeState σ (A s) = (κ₀ : 𝕜) • U.mulVec ψ) :
    ∃ κ : ℝ, 0 < κ ∧ latticeState σ (A (l.foldl (fun s b => (upd s b).1) s)) =
      (κ : 𝕜) • (l.foldl (fun U b => (exactUpdate (coveringOps hx hy σ) m dtau U b).1) U).mulVec ψ := by
  induction l generalizing s U κ₀ with
  | nil => exact ⟨κ₀, hκ₀, hs⟩
  | cons b l ih =>
    obtain ⟨⟨-, κ, hκ, he⟩, h3⟩ := h
    refine ih (fun b' hb' => hl b' (List.mem_cons_of_mem _ hb')) _ h3 _ (κ ^ N * κ₀) (by positivity) ?_
    rw [C76_bond hx hy σ b (hl b List.mem_cons_self) _ _ _ _ he, hs, Matrix.mulVec_smul, smul_smul, Matrix.mulVec_mulVec]
    push_cast
    rfl

/-- **C76 (run).** On every finite lattice covering the cell: if the bond updates of a run are exact up to positive
factors, the state of the lattice at the end is a positive multiple of the product of the gates of the run (C70) applied
to the state at the start. -/
theorem C76_run (hx : 2 ≤ nx) (hy : 2 ≤ ny) (σ : Bond → Equiv.Perm (Fin N)) (m : ModelTerms P 𝕜) (dtau : ℝ)
    (A : S → Site → B → B → B → B → P → 𝕜) (upd : S → Bond → S × Option PyErr) (n : ℕ) (bl : List Bond)
    (hbl : ∀ b ∈ bl, b ∈ buildBondList nx ny) (s : S) (h : ExactRun (twoSiteGate m dtau) A upd (schedule n bl) s) :
    (evolveLoop upd n bl s).2.2 = none ∧
    ∃ κ : ℝ, 0 < κ ∧ latticeState σ (A (evolveLoop upd n bl s).2.1) =
      (κ : 𝕜) • ((evolveLoop (exactUpdate (coveringOps hx hy σ) m dtau) n bl 1).2.1).mulVec (latticeState σ (A s)) := by
  rw [evolveLoop_exact _ A upd n bl s h, C05_schedule (exactUpdate (coveringOps hx hy σ) m dtau) (fun _ _ => rfl)]
  refine ⟨rfl, ?_⟩
  exact foldl_exact hx hy σ m dtau A upd _ (fun b hb => hbl b (mem_schedule hb)) s h 1 1 one_pos _
    (by rw [Matrix.one_mulVec, RCLike.ofReal_one, one_smul])

/-- **C76 (imaginary time).** For every model with one-site terms everywhere or nowhere, every finite lattice covering the
cell and every total time there is a constant such that, for every number of steps and time step within that time, every
updater and every start for which the bond updates of the run are exact up to positive factors, the state at the end is,
up to a positive factor, `exp(-n dtau H)` applied to the state at the start, with an error of second order in the time
step relative to the state at the start. -/
theorem C76_imaginary_time [Nonempty P] (hx : 2 ≤ nx) (hy : 2 ≤ ny) (σ : Bond → Equiv.Perm (Fin N)) (m : ModelTerms P 𝕜)
    (hm : (∀ s, InCell nx ny s → (m.one s).isSome) ∨ (∀ s, InCell nx ny s → m.one s = none)) (T : ℝ) :
    ∃ K : ℝ, ∀ (S : Type) (A : S → Site → B → B → B → B → P → 𝕜) (upd : S → Bond → S × Option PyErr) (bl : List Bond),
      bl = buildBondList nx ny ∨ bl = (buildBondList nx ny).reverse →
      ∀ (n : ℕ) (dtau : ℝ), 0 ≤ dtau → n * dtau ≤ T → ∀ s : S, ExactRun (twoSiteGate m dtau) A upd (schedule n bl) s →
        (evolveLoop upd n bl s).2.2 = none ∧
        ∃ κ : ℝ, 0 < κ ∧
          stateNorm ((κ : 𝕜) • latticeState σ (A (evolveLoop upd n bl s).2.1) -
            (exp ((-((n * dtau : ℝ) : 𝕜)) • cellHamiltonian nx ny (coveringOps hx hy σ).placement m.transposed)).mulVec
              (latticeState σ (A s))) ≤ K * dtau ^ 2 * stateNorm (latticeState (nx := nx) (ny := ny) σ (A s)) := by
  obtain ⟨K, hK⟩ := C70_second_order (coveringOps (P := P) (𝕜 := 𝕜) hx hy σ) m T
  refine ⟨K, fun S A upd bl hbl n dtau hd hT s h => ?_⟩
  have hmem : ∀ b ∈ bl, b ∈ buildBondList nx ny := by
    rcases hbl with rfl | rfl
    · exact fun _ h => h
    · exact fun _ h => List.mem_reverse.1 h
  obtain ⟨h1, κ, hκ, hs⟩ := C76_run hx hy σ m dtau A upd n bl hmem s h
  refine ⟨h1, κ⁻¹, inv_pos.2 hκ, ?_⟩
  have hk := (hK bl hbl n dtau hd hT 1).1
  rw [mul_one, C70_hamiltonian _ m hm, norm_one, mul_one] at hk
  rw [hs, smul_smul, ← RCLike.ofReal_mul, inv_mul_cancel₀ hκ.ne', RCLike.ofReal_one, one_smul, ← Matrix.sub_mulVec]
  refine (stateNorm_mulVec _ _).trans ?_
  exact mul_le_mul_of_nonneg_right hk (Real.sqrt_nonneg _)

end run

/-! ### The two updates -/

section updates

open Full Simple

variable {X : Type} [Fintype X] {bD : ℕ} [NeZero bD] [Nonempty P]

/-- The site tensors of a network. -/
def Spec.siteTensors {B P X : Type} (net : NetT B P X 𝕜) (s : Site) : B → B → B → B → P → 𝕜 := (net s).A

/-- The two-site tensor of a bond of a network in the lattice and in the frame of the bond. -/
theorem bondPair_bondTensor {B P X : Type} [Fintype B] (net : NetT B P X 𝕜) (b : Bond) (w1 w2 : Fin 4 → B) (p q : P) :
    bondPair b.k (siteTensors net b.s1) (siteTensors net b.s2) w1 w2 p q =
      bondTensor net b (w1 (side b.k 1)) (w1 (side b.k 2)) (w1 (side b.k 3)) (w2 (side b.k 0)) (w2 (side b.k 1))
        (w2 (side b.k 3)) p q :=
  bondPair_frame b.k _ _ _ _ (inFrame_bondPermute _ _) (inFrame_bondPermute _ _) w1 w2 p q

omit [DecidableEq P] [Fintype X] [NeZero bD] [Nonempty P] in
theorem exactBond_of_bondTensor {B X : Type} [Fintype B] (gate : P → P → P → P → 𝕜) (net net' : NetT B P X 𝕜) (b : Bond)
    (κ : 𝕜) (h0 : ∀ s, s ≠ b.s1 → s ≠ b.s2 → (net' s).A = (net s).A)
    (h : ∀ u r d l' u' d' p q, bondTensor net' b u r d l' u' d' p q =
      κ * gated gate (bondTensor net b) u r d l' u' d' p q) :
    ExactBond gate b (siteTensors net) (siteTensors net') κ := by
  refine ⟨h0, fun w1 w2 p q => ?_⟩
  rw [bondPair_bondTensor, h]
  unfold gated gatedPair
  simp only [bondPair_bondTensor]

omit [Nonempty P] in
/-- The gate of a bond can be undone. -/
theorem gated_ne_zero_of {B : Type} (m : ModelTerms P 𝕜) (dtau : ℝ) (b : Bond) (T : B → B → B → B → B → B → P → P → 𝕜)
    (h : T ≠ 0) : gated (twoSiteGate m dtau b) T ≠ 0 := by
  intro h0
  apply h
  funext u r d l' u' d' p q
  have hu : IsUnit (gateMatrix (twoSiteGate m dtau b)) := Matrix.isUnit_exp _
  have hv : Matrix.vecMul (fun x : P × P => T u r d l' u' d' x.1 x.2) (gateMatrix (twoSiteGate m dtau b)) = 0 := by
    funext x
    have := congrFun (congrFun (congrFun (congrFun (congrFun (congrFun (congrFun (congrFun h0 u) r) d) l') u') d') x.1) x.2
    simp only [Matrix.vecMul, dotProduct, Fintype.sum_prod_type, gateMatrix]
    exact this
  have h2 := Matrix.vecMul_injective_of_isUnit hu (hv.trans (Matrix.zero_vecMul _).symm)
  exact congrFun h2 (p, q)

/-- **C76 (full update).** Real dtypes, solver without regularisation: if the gate-applied two-site tensor of a bond with
two different ends fits in the bond dimension and the boundary moves do not touch site tensors, a full update of the bond
that does not raise is exact up to a positive factor. -/
theorem C76_full_update {F : Type} (la : Lapack ℝ) (fo : Als.FloatOps F) (rep : ℝ → F) (cfg : Settings F)
    (he : cfg.als_epsilon = 0) (hcut : 0 < cfg.positive_approx_cutoff)
    (hatol : cfg.gauge_fix_atol < Real.sqrt cfg.positive_approx_cutoff) (m : ModelTerms P ℝ) (dtau : ℝ)
    (absorb : ℕ → Bond → NetT (Fin bD) P X ℝ → NetT (Fin bD) P X ℝ × Option PyErr)
    (habs : ∀ t b net s, ((absorb t b net).1 s).A = (net s).A) (st : NetT (Fin bD) P X ℝ × ℕ) (b : Bond)
    (hne : b.s1 ≠ b.s2) (h0 : bondTensor st.1 b ≠ 0) (hfit : Fits (gated (twoSiteGate m dtau b) (bondTensor st.1 b)))
    (hok : (Full.bondStep la fo rep cfg (fun _ => none) (twoSiteGate m dtau) absorb st b).2 = none) :
    ExactStep (twoSiteGate m dtau) (fun st => siteTensors st.1)
      (Full.bondStep la fo rep cfg (fun _ => none) (twoSiteGate m dtau) absorb) st b := by
  refine ⟨hok, ?_⟩
  unfold Full.bondStep tensorUpdaterUpdate at hok ⊢
  dsimp only at hok ⊢
  cases hr : fullTensorUpdate la fo rep cfg st.1 b.s1 b.s2 b.k (twoSiteGate m dtau b) (bondPermute b.k (st.1 b.s1).A)
      (bondPermute b.k (st.1 b.s2).A) with
  | none => rw [hr] at hok; exact absurd hok (by simp [bind, Except.bind])
  | some r =>
  cases r with
  | error e => rw [hr] at hok; exact absurd hok (by simp [bind, Except.bind])
  | ok c =>
  obtain ⟨c1, c2⟩ := c
  obtain ⟨κ, hκ, hT⟩ := C39_real_partial P X F bD la fo rep cfg st.1 b.s1 b.s2 b.k (twoSiteGate m dtau b) _ _ c1 c2
    he hcut hatol hfit (gated_ne_zero_of m dtau b _ h0) hr
  refine ⟨κ, hκ, ?_⟩
  simp only [bind, Except.bind, pure, Except.pure, Option.getD_some]
  obtain ⟨hs1, hs2, hs3, -⟩ := C42_store_partial st.1 b.s1 b.s2 hne (bondPermute (4 - b.k) c1) (bondPermute (4 - b.k) c2)
  have hback : ∀ c : ATensor (Fin bD) P ℝ, bondPermute b.k (bondPermute (4 - b.k) c) = c := fun c => by
    rw [bondPermute_add, bondPermute_mod _ 0 (by omega), bondPermute_zero]
  refine exactBond_of_bondTensor _ _ _ b _ (fun s h1 h2 => ?_) fun u r d l' u' d' p q => ?_
  · rw [habs, hs3 s h1 h2]
  · have h1 := hT u r d l' u' d' p q
    unfold bondTensor
    rw [habs, habs, hs1, hs2, hback, hback]
    exact h1

omit [Fintype X] in
/-- **C76 (simple update).** Real and complex dtypes: if the weights around a bond with two different ends can be divided out
(C40) and the gate-applied two-site tensor fits in the bond dimension, a simple update of the bond does not raise and is
exact up to a positive factor. -/
theorem C76_simple_update (la : Lapack 𝕜) (m : ModelTerms P 𝕜) (dtau : ℝ)
    (st : NetT (Fin bD) P X 𝕜 × LambdaTensors (Weight bD)) (b : Bond) (hk : b.k < 4) (hne : b.s1 ≠ b.s2)
    (W1 W2 : ℕ → Weight bD) (hW1 : Weights st.2 b.s1 W1) (hW2 : Weights st.2 b.s2 W2) (hs1 : Strippable W1 b.k)
    (hs2 : Strippable W2 ((b.k + 2) % 4)) (h0 : bondTensor st.1 b ≠ 0)
    (hfit : Fits (gated (twoSiteGate m dtau b) (bondTensor st.1 b))) :
    ExactStep (twoSiteGate m dtau) (fun st => siteTensors st.1)
      (Simple.bondStep la (fun _ => none) (twoSiteGate m dtau)) st b := by
  obtain ⟨net, lt⟩ := st
  dsimp only at hW1 hW2 h0 hfit
  obtain ⟨ω1, hω1, e1⟩ := weighted_first (𝕜 := 𝕜) (P := P) (fun d => (W1 d).v) b.k hk fun d hd hdk i =>
    (lt_of_lt_of_le (by norm_num) ((hs1 d hd hdk).2 i)).ne'
  obtain ⟨ω2, hω2, e2⟩ := weighted_second (𝕜 := 𝕜) (P := P) (fun d => (W2 d).v) b.k fun d hd hdk i =>
    (lt_of_lt_of_le (by norm_num) ((hs2 d hd hdk).2 i)).ne'
  have hstate : ∀ (a1 a2 : ATensor (Fin bD) P 𝕜) u r d l' u' d' p q, bondState W1 W2 b.k a1 a2 u r d l' u' d' p q =
      ((ω1 u r d * ω2 l' u' d' : ℝ) : 𝕜) * twoSite (bondPermute b.k a1) (bondPermute b.k a2) u r d l' u' d' p q := by
    intro a1 a2 u r d l' u' d' p q
    unfold bondState twoSite
    rw [Finset.mul_sum]
    refine Finset.sum_congr rfl fun x _ => ?_
    rw [e1, e2, RCLike.ofReal_mul]
    ring
  have hgs : ∀ (a1 a2 : ATensor (Fin bD) P 𝕜) u r d l' u' d' p q,
      gated (twoSiteGate m dtau b) (bondState W1 W2 b.k a1 a2) u r d l' u' d' p q =
      ((ω1 u r d * ω2 l' u' d' : ℝ) : 𝕜) * gated (twoSiteGate m dtau b)
        (twoSite (bondPermute b.k a1) (bondPermute b.k a2)) u r d l' u' d' p q := by
    intro a1 a2 u r d l' u' d' p q
    unfold gated
    simp only [hstate, Finset.mul_sum, mul_assoc]
  have hω : ∀ u r d l' u' d', ((ω1 u r d * ω2 l' u' d' : ℝ) : 𝕜) ≠ 0 := fun u r d l' u' d' =>
    RCLike.ofReal_ne_zero.2 (mul_ne_zero (hω1 _ _ _) (hω2 _ _ _))
  have hne0 : gated (twoSiteGate m dtau b) (bondState W1 W2 b.k (net b.s1).A (net b.s2).A) ≠ 0 := by
    intro h1
    apply gated_ne_zero_of m dtau b _ h0
    funext u r d l' u' d' p q
    have h2 := hgs (net b.s1).A (net b.s2).A u r d l' u' d' p q
    rw [h1] at h2
    exact (mul_eq_zero.1 h2.symm).resolve_left (hω _ _ _ _ _ _)
  have hfit' : ∃ c1 c2, gated (twoSiteGate m dtau b) (bondState W1 W2 b.k (net b.s1).A (net b.s2).A) = twoSite c1 c2 := by
    obtain ⟨c1, c2, hc⟩ := hfit
    refine ⟨fun l u r d p => (ω1 u r d : 𝕜) * c1 l u r d p, fun l u r d p => (ω2 l u d : 𝕜) * c2 l u r d p, ?_⟩
    funext u r d l' u' d' p q
    rw [hgs]
    have h2 := congrFun (congrFun (congrFun (congrFun (congrFun (congrFun (congrFun (congrFun hc u) r) d) l') u') d') p) q
    refine (congrArg _ h2.symm).trans ?_
    unfold twoSite
    rw [Finset.mul_sum]
    refine Finset.sum_congr rfl fun x _ => ?_
    rw [RCLike.ofReal_mul]
    ring
  obtain ⟨b1, b2, lambda, hr, c, hc, hT⟩ := C40_exact la lt (twoSiteGate m dtau b) b _ _ W1 W2 hW1 hW2 hs1 hs2 hne0 hfit'
  have hstep : Simple.bondStep la (fun _ => none) (twoSiteGate m dtau) (net, lt) b =
      ((storePair net b.s1 b.s2 b1 b2, lt.setItem b ⟨false, lambda⟩), none) := by
    unfold Simple.bondStep bondUpdate
    dsimp only
    rw [hr]
    rfl
  obtain ⟨hs1', hs2', hs3, -⟩ := C42_store_partial net b.s1 b.s2 hne b1 b2
  have hcc : (c : 𝕜) ≠ 0 := RCLike.ofReal_ne_zero.2 hc.ne'
  unfold ExactStep
  rw [hstep]
  refine ⟨rfl, c⁻¹, inv_pos.2 hc, ?_⟩
  refine exactBond_of_bondTensor _ _ _ b _ (fun s h1 h2 => ?_) fun u r d l' u' d' p q => ?_
  · dsimp only; rw [hs3 s h1 h2]
  · unfold bondTensor
    dsimp only
    rw [hs1', hs2', RCLike.ofReal_inv]
    have h1 := congrFun (congrFun (congrFun (congrFun (congrFun (congrFun (congrFun (congrFun hT u) r) d) l') u') d') p) q
    rw [hgs, hstate, mul_left_comm] at h1
    have h2 := mul_left_cancel₀ (hω u r d l' u' d') h1
    rw [h2, ← mul_assoc, inv_mul_cancel₀ hcc, one_mul]

omit [Nonempty P] [NeZero bD] in
/-- A network whose state is not zero has no vanishing two-site tensor. -/
theorem bondTensor_ne_zero [NeZero N] {X : Type} (hx : 2 ≤ nx) (hy : 2 ≤ ny) (σ : Bond → Equiv.Perm (Fin N))
    (net : NetT (Fin bD) P X 𝕜) (b : Bond) (hb : b ∈ buildBondList nx ny)
    (h : latticeState (nx := nx) (ny := ny) σ (siteTensors net) ≠ 0) : bondTensor net b ≠ 0 := by
  intro h0
  apply h
  have he : ExactBond (fun _ _ _ _ => 0) b (siteTensors net) (siteTensors net) 0 := by
    refine exactBond_of_bondTensor _ _ _ b _ (fun _ _ _ => rfl) fun u r d l' u' d' p q => ?_
    rw [h0]
    simp
  rw [C76_bond hx hy σ b hb _ _ _ _ he, zero_pow (NeZero.ne N), zero_smul]

omit [Nonempty P] [NeZero bD] in
/-- An exact step keeps the state nonzero. -/
theorem exactStep_ne_zero {S : Type} (hx : 2 ≤ nx) (hy : 2 ≤ ny) (σ : Bond → Equiv.Perm (Fin N)) (m : ModelTerms P 𝕜)
    (dtau : ℝ) (A : S → Site → Fin bD → Fin bD → Fin bD → Fin bD → P → 𝕜) (upd : S → Bond → S × Option PyErr) (s : S)
    (b : Bond) (hb : b ∈ buildBondList nx ny) (h : ExactStep (twoSiteGate m dtau) A upd s b)
    (hs : latticeState (nx := nx) (ny := ny) σ (A s) ≠ 0) :
    latticeState (nx := nx) (ny := ny) σ (A (upd s b).1) ≠ 0 := by
  obtain ⟨-, κ, hκ, he⟩ := h
  rw [C76_bond hx hy σ b hb _ _ _ _ he]
  refine smul_ne_zero (pow_ne_zero _ (RCLike.ofReal_ne_zero.2 hκ.ne')) fun h0 => hs ?_
  rw [everywhere_gate _ m dtau b hb] at h0
  have hu : IsUnit (exp ((-(dtau : 𝕜)) • (coveringOps (P := P) (𝕜 := 𝕜) hx hy σ).placement.pair b (bondHam m.transposed b))) :=
    Matrix.isUnit_exp _
  exact Matrix.mulVec_injective_of_isUnit hu (h0.trans (Matrix.mulVec_zero _).symm)

omit [Nonempty P] [NeZero bD] [Fintype X] in
theorem exactRun_of [NeZero N] {S : Type} (hx : 2 ≤ nx) (hy : 2 ≤ ny) (σ : Bond → Equiv.Perm (Fin N)) (m : ModelTerms P 𝕜)
    (dtau : ℝ) (net : S → NetT (Fin bD) P X 𝕜) (upd : S → Bond → S × Option PyErr) (Q : S → Bond → Prop)
    (hstep : ∀ s b, b ∈ buildBondList nx ny → Q s b → bondTensor (net s) b ≠ 0 →
      ExactStep (twoSiteGate m dtau) (fun s => siteTensors (net s)) upd s b)
    (l : List Bond) (hl : ∀ b ∈ l, b ∈ buildBondList nx ny) (s : S)
    (hs : latticeState (nx := nx) (ny := ny) σ (siteTensors (net s)) ≠ 0) (h : Along Q upd l s) :
    ExactRun (twoSiteGate m dtau) (fun s => siteTensors (net s)) upd l s := by
  induction l generalizing s with
  | nil => trivial
  | cons b l ih =>
    obtain ⟨h1, h2⟩ := h
    have hb := hl b List.mem_cons_self
    have he := hstep s b hb h1 (bondTensor_ne_zero hx hy σ _ b hb hs)
    exact ⟨he, ih (fun b' h' => hl b' (List.mem_cons_of_mem _ h')) _
      (exactStep_ne_zero hx hy σ m dtau (fun s => siteTensors (net s)) upd s b hb he hs) h2⟩

/-- The distance, up to a positive factor, of the state of the network `net'` from the state of `net` evolved for the
imaginary time `t` with the Hamiltonian of the model is at most `ε` times the norm of the state of `net`. -/
def Spec.EvolvedTo {B X : Type} [Fintype B] (hx : 2 ≤ nx) (hy : 2 ≤ ny) (σ : Bond → Equiv.Perm (Fin N))
    (m : ModelTerms P 𝕜) (net net' : NetT B P X 𝕜) (t ε : ℝ) : Prop :=
  ∃ κ : ℝ, 0 < κ ∧
    stateNorm ((κ : 𝕜) • latticeState σ (siteTensors net') -
      (exp ((-(t : 𝕜)) • cellHamiltonian nx ny (coveringOps hx hy σ).placement m.transposed)).mulVec
        (latticeState σ (siteTensors net))) ≤ ε * stateNorm (latticeState (nx := nx) (ny := ny) σ (siteTensors net))

/-- What a full update of a bond needs to be exact: it does not raise and the gate-applied two-site tensor fits in the bond
dimension. -/
def Spec.FullFits {F : Type} (la : Lapack ℝ) (fo : Als.FloatOps F) (rep : ℝ → F) (cfg : Settings F) (m : ModelTerms P ℝ)
    (dtau : ℝ) (absorb : ℕ → Bond → NetT (Fin bD) P X ℝ → NetT (Fin bD) P X ℝ × Option PyErr)
    (st : NetT (Fin bD) P X ℝ × ℕ) (b : Bond) : Prop :=
  (Full.bondStep la fo rep cfg (fun _ => none) (twoSiteGate m dtau) absorb st b).2 = none ∧
    Fits (gated (twoSiteGate m dtau b) (bondTensor st.1 b))

/-- What a simple update of a bond needs to be exact: the weights around the bond can be divided out and the gate-applied
two-site tensor fits in the bond dimension. -/
def Spec.SimpleFits (m : ModelTerms P 𝕜) (dtau : ℝ) (st : NetT (Fin bD) P X 𝕜 × LambdaTensors (Weight bD)) (b : Bond) :
    Prop :=
  (∃ W1 W2, Weights st.2 b.s1 W1 ∧ Weights st.2 b.s2 W2 ∧ Strippable W1 b.k ∧ Strippable W2 ((b.k + 2) % 4)) ∧
    Fits (gated (twoSiteGate m dtau b) (bondTensor st.1 b))

/-- **C76 (full evolution).** `evolve` with the full update, real dtypes, solver without regularisation: on every finite
lattice covering the cell, for every model with one-site terms everywhere or nowhere and every total time there is a
constant such that every run in which the gate-applied two-site tensors fit in the bond dimension and no update raises
evolves the state of the lattice in imaginary time up to a positive factor and an error of second order in the time step.
`absorb` is any treatment of the boundary tensors. -/
theorem C76_full_evolution [NeZero N] (hx : 2 ≤ nx) (hy : 2 ≤ ny) (σ : Bond → Equiv.Perm (Fin N)) (m : ModelTerms P ℝ)
    (hm : (∀ s, InCell nx ny s → (m.one s).isSome) ∨ (∀ s, InCell nx ny s → m.one s = none)) (T : ℝ) :
    ∃ K : ℝ, ∀ (F : Type) (la : Lapack ℝ) (fo : Als.FloatOps F) (rep : ℝ → F) (cfg : Settings F),
      cfg.als_epsilon = 0 → 0 < cfg.positive_approx_cutoff →
      cfg.gauge_fix_atol < Real.sqrt cfg.positive_approx_cutoff →
      ∀ absorb : ℕ → Bond → NetT (Fin bD) P X ℝ → NetT (Fin bD) P X ℝ × Option PyErr,
      (∀ t b net s, ((absorb t b net).1 s).A = (net s).A) →
      ∀ (bl : List Bond), bl = buildBondList nx ny ∨ bl = (buildBondList nx ny).reverse →
      ∀ (n : ℕ) (dtau : ℝ), 0 ≤ dtau → n * dtau ≤ T → ∀ net : NetT (Fin bD) P X ℝ,
      latticeState (nx := nx) (ny := ny) σ (siteTensors net) ≠ 0 →
      Along (FullFits la fo rep cfg m dtau absorb)
        (Full.bondStep la fo rep cfg (fun _ => none) (twoSiteGate m dtau) absorb) (schedule n bl) (net, 0) →
      let r := Full.evolve la fo rep cfg (fun _ => none) (twoSiteGate m dtau) absorb n (bl, net)
      r.2.2 = none ∧ EvolvedTo hx hy σ m net r.2.1 (n * dtau) (K * dtau ^ 2) := by
  obtain ⟨K, hK⟩ := C76_imaginary_time (B := Fin bD) hx hy σ m hm T
  refine ⟨K, fun F la fo rep cfg he hcut hatol absorb habs bl hbl n dtau hd hT net hnet hfit => ?_⟩
  have hmem : ∀ b ∈ bl, b ∈ buildBondList nx ny := by
    rcases hbl with rfl | rfl
    · exact fun _ h => h
    · exact fun _ h => List.mem_reverse.1 h
  have hrun := exactRun_of hx hy σ m dtau (fun st : NetT (Fin bD) P X ℝ × ℕ => st.1) _ _
    (fun st b hb hQ h0 => C76_full_update la fo rep cfg he hcut hatol m dtau absorb habs st b
      (bond_ends_distinct nx ny hx hy b hb) h0 hQ.2 hQ.1) _ (fun b hb => hmem b (mem_schedule hb)) _ hnet hfit
  have hfin := hK _ _ _ bl hbl n dtau hd hT (net, 0) hrun
  obtain ⟨h1, κ, hκ, h2⟩ := hfin
  intro r
  refine ⟨h1, κ, hκ, ?_⟩
  refine le_trans (le_of_eq ?_) h2
  refine congrArg stateNorm ?_
  refine congrArg₂ _ ?_ ?_
  · rfl
  · with_reducible rfl

omit [Fintype X] in
/-- **C76 (simple evolution).** `evolve` with the simple update, real and complex tensors with real weights: on every finite
lattice covering the cell, for every model with one-site terms everywhere or nowhere and every total time there is a
constant such that every run in which the weights can be divided out and the gate-applied two-site tensors fit in the bond
dimension does not raise and evolves the state of the lattice in imaginary time up to a positive factor and an error of
second order in the time step. -/
theorem C76_simple_evolution [NeZero N] (hx : 2 ≤ nx) (hy : 2 ≤ ny) (σ : Bond → Equiv.Perm (Fin N)) (m : ModelTerms P 𝕜)
    (hm : (∀ s, InCell nx ny s → (m.one s).isSome) ∨ (∀ s, InCell nx ny s → m.one s = none)) (T : ℝ) :
    ∃ K : ℝ, ∀ (la : Lapack 𝕜) (cx : Bool) (bl : List Bond),
      bl = buildBondList nx ny ∨ bl = (buildBondList nx ny).reverse →
      ∀ (n : ℕ) (dtau : ℝ), 0 ≤ dtau → n * dtau ≤ T → ∀ net : NetT (Fin bD) P X 𝕜,
      latticeState (nx := nx) (ny := ny) σ (siteTensors net) ≠ 0 →
      Along (SimpleFits m dtau) (Simple.bondStep la (fun _ => none) (twoSiteGate m dtau)) (schedule n bl)
        (net, LambdaTensors.init bl (ones bD cx)) →
      let r := Simple.evolve la cx (fun _ => none) (twoSiteGate m dtau) n (bl, net)
      r.2.2 = none ∧ EvolvedTo hx hy σ m net r.2.1 (n * dtau) (K * dtau ^ 2) := by
  obtain ⟨K, hK⟩ := C76_imaginary_time (B := Fin bD) hx hy σ m hm T
  refine ⟨K, fun la cx bl hbl n dtau hd hT net hnet hfit => ?_⟩
  have hmem : ∀ b ∈ bl, b ∈ buildBondList nx ny := by
    rcases hbl with rfl | rfl
    · exact fun _ h => h
    · exact fun _ h => List.mem_reverse.1 h
  have hk : ∀ b ∈ buildBondList nx ny, b.k < 4 := by
    intro b hb
    rw [mem_buildBondList] at hb
    rcases hb.2 with h | h <;> omega
  have hrun := exactRun_of hx hy σ m dtau (fun st : NetT (Fin bD) P X 𝕜 × LambdaTensors (Weight bD) => st.1) _ _
    (fun st b hb hQ h0 => by
      obtain ⟨⟨W1, W2, hW1, hW2, hs1, hs2⟩, hf⟩ := hQ
      exact C76_simple_update la m dtau st b (hk b hb) (bond_ends_distinct nx ny hx hy b hb) W1 W2 hW1 hW2 hs1 hs2 h0 hf)
    _ (fun b hb => hmem b (mem_schedule hb)) _ hnet hfit
  have hfin := hK _ _ _ bl hbl n dtau hd hT (net, _) hrun
  obtain ⟨h1, κ, hκ, h2⟩ := hfin
  intro r
  refine ⟨h1, κ, hκ, ?_⟩
  refine le_trans (le_of_eq ?_) h2
  refine congrArg stateNorm ?_
  refine congrArg₂ _ ?_ ?_
  · rfl
  · with_reducible rfl

end updates

/-! ### The hypotheses are met -/

section example_

open Full Simple SumTac

omit [DecidableEq P] in
/-- Gates that are products of one-site gates always fit. -/
theorem fits_product {bD : ℕ} (a1 a2 : ATensor (Fin bD) P 𝕜) (g1 g2 : P → P → 𝕜) (gate : P → P → P → P → 𝕜)
    (hg : ∀ p q r s, gate p q r s = g1 p r * g2 q s) : Fits (gated gate (twoSite a1 a2)) := by
  refine ⟨fun l u r d p => ∑ p', a1 l u r d p' * g1 p' p, fun l u r d p => ∑ p', a2 l u r d p' * g2 p' p, ?_⟩
  funext u₀ r₀ d₀ l₀ u₁ d₁ p₀ q₀
  unfold gated twoSite
  simp only [hg]
  einsum_ring

/-- Sites in a field along the axis of quantisation. -/
noncomputable def fieldTerms : ModelTerms (Fin 2) ℝ :=
  ⟨fun _ => 0, fun _ => some (Matrix.diagonal fun p => if p = 0 then 1 else -1)⟩

theorem fieldTerms_gate (dtau : ℝ) (b : Bond) : ∃ g : Fin 2 → Fin 2 → ℝ, ∀ p q r s,
    twoSiteGate fieldTerms dtau b p q r s = g p r * g q s := by
  let z : Fin 2 → ℝ := fun p => -dtau * (1 / 4) * if p = 0 then 1 else -1
  refine ⟨Matrix.diagonal fun p => Real.exp (z p), fun p q r s => ?_⟩
  have hH : (-((dtau : ℝ) : ℝ)) • bondHam fieldTerms b = Matrix.diagonal fun x : Fin 2 × Fin 2 => z x.1 + z x.2 := by
    ext ⟨p, q⟩ ⟨r, s⟩
    simp only [bondHam, fieldTerms, Matrix.smul_apply, Matrix.add_apply, Matrix.zero_apply, Matrix.kroneckerMap_apply,
      Matrix.one_apply, Matrix.diagonal_apply, Prod.mk.injEq, smul_eq_mul, z]
    generalize (if p = 0 then (1 : ℝ) else -1) = x
    generalize (if q = 0 then (1 : ℝ) else -1) = y
    by_cases h1 : p = r <;> by_cases h2 : q = s <;> (simp only [h1, h2]; norm_num <;> ring)
  have hE : calculateGate (bondHam fieldTerms b) dtau = Matrix.diagonal fun x : Fin 2 × Fin 2 => Real.exp (z x.1 + z x.2) := by
    unfold calculateGate
    refine (congrArg exp hH).trans ?_
    rw [Matrix.exp_diagonal]
    congr 1
    funext x
    rw [Real.exp_eq_exp_ℝ]; exact Pi.coe_exp _ _
  show calculateGate (bondHam fieldTerms b) dtau (p, q) (r, s) = _
  rw [hE, Matrix.diagonal_apply, Matrix.diagonal_apply, Matrix.diagonal_apply, Real.exp_add]
  by_cases h1 : p = r <;> by_cases h2 : q = s <;> simp [h1, h2]

/-- The network of the state `|00…0⟩ + |11…1⟩`. -/
def ghzNet : NetT (Fin 2) (Fin 2) (Fin 1) ℝ := fun _ =>
  { A := fun l u r d p => if l = p ∧ u = p ∧ r = p ∧ d = p then 1 else 0
    C := fun _ _ _ => 1
    E := fun _ _ _ _ _ => 1 }

theorem ghzNet_state (σ : Bond → Equiv.Perm (Fin N)) : latticeState (nx := nx) (ny := ny) σ (siteTensors ghzNet) ≠ 0 := by
  intro h
  have h0 := congrFun h fun _ => 0
  unfold latticeState netState at h0
  have h1 := Finset.single_le_sum (s := Finset.univ) (f := fun β : BigEdge nx ny N → Fin 2 =>
    ∏ v : BigSite nx ny N, atLegs (siteTensors ghzNet ((v.2.1 : ℕ), (v.2.2 : ℕ))) (fun k => β (bigLeg σ v k)) 0) (fun β _ => ?_)
    (Finset.mem_univ fun _ => 0)
  · rw [h0] at h1
    simp [atLegs, siteTensors, ghzNet] at h1
    linarith
  · refine Finset.prod_nonneg fun v _ => ?_
    unfold atLegs siteTensors ghzNet
    dsimp only
    split_ifs <;> norm_num

/-- Non-vacuity: an entangled state in a field, on any lattice and for any number of steps. -/
example (la : Lapack ℝ) (fo : Als.FloatOps ℝ) (cfg : Settings ℝ) (hc : cfg.als_method = .pinv) (dtau : ℝ) (n : ℕ) (bl : List Bond)
    (σ : Bond → Equiv.Perm (Fin N)) :
    latticeState (nx := nx) (ny := ny) σ (siteTensors ghzNet) ≠ 0 ∧
    Along (FullFits la fo id cfg fieldTerms dtau fun _ _ net => (net, none))
      (Full.bondStep la fo id cfg (fun _ => none) (twoSiteGate fieldTerms dtau) fun _ _ net => (net, none))
      (schedule n bl) (ghzNet, 0) := by
  refine ⟨ghzNet_state σ, ?_⟩
  have hall : ∀ st b, FullFits (X := Fin 1) (bD := 2) la fo id cfg fieldTerms dtau (fun _ _ net => (net, none)) st b := by
    intro st b
    constructor
    · unfold Full.bondStep tensorUpdaterUpdate
      obtain ⟨r, hr⟩ := C39_returns la fo id cfg hc st.1 b.s1 b.s2 b.k (twoSiteGate fieldTerms dtau b)
        (bondPermute b.k (st.1 b.s1).A) (bondPermute b.k (st.1 b.s2).A)
      dsimp only
      rw [hr]
      rfl
    · obtain ⟨g, hg⟩ := fieldTerms_gate dtau b
      exact fits_product _ _ g g _ hg
  generalize schedule n bl = l
  generalize (ghzNet, 0) = st
  induction l generalizing st with
  | nil => trivial
  | cons b l ih => exact ⟨hall st b, ih _⟩

end example_

end AceTN
