import Verif.Lemmas.GaugeNet
import Verif.Lemmas.GaugeGate
import Verif.Lemmas.GaugeState
import Verif.Props.GroundState

/-! C84: the simple update does not depend on bases. -/

set_option autoImplicit false

namespace AceTN

open Spec Matrix Simple Full

variable {𝕜 : Type} [RCLike 𝕜] {P X : Type} [Fintype P] [DecidableEq P] {bD : ℕ} {nx ny N : ℕ}

/-! ### States of the lattice -/

/-- **C84 (states).** Two networks whose site tensors are the same in other bases, with one matrix at one end of a bond and its
complex conjugate at the other end, have the same state in other bases of the sites, up to a positive factor, on every finite
lattice that covers the cell. -/
theorem C84_state {B : Type} [Fintype B] [DecidableEq B] (ρ : Bond → Equiv.Perm (Fin N)) (σ : ScalarMap 𝕜) (g : Gauge B P 𝕜)
    (hj : g.Joined nx ny) (A A' : Site → ATensor B P 𝕜) (h : g.Equiv σ nx ny A A') :
    ∃ c : ℝ, 0 < c ∧ latticeState (nx := nx) (ny := ny) ρ A' =
      (c : 𝕜) • turnedState σ (fun v : BigSite nx ny N => g.U (v.2.1, v.2.2)) (latticeState ρ A) :=
  ⟨_, Finset.prod_pos fun _ _ => g.pos _, funext fun p => latticeState_turn ρ σ g hj A A' h p⟩

/-- The bases of one network. -/
def Spec.Gauge.id (B P 𝕜 : Type) [RCLike 𝕜] [Fintype B] [Fintype P] [DecidableEq B] [DecidableEq P] : Gauge B P 𝕜 where
  G _ _ := 1
  U _ := 1
  t _ := 1
  unitG _ _ := ⟨by simp, by simp⟩
  unitU _ := ⟨by simp, by simp⟩
  pos _ := one_pos

theorem gauge_id_joined {B : Type} [Fintype B] [DecidableEq B] : (Gauge.id B P 𝕜).Joined nx ny := by
  intro s _ k
  ext x y
  by_cases h : x = y <;> simp [Gauge.id, h]

theorem gauge_id_equiv {B : Type} [Fintype B] [DecidableEq B] (A : Site → ATensor B P 𝕜) :
    (Gauge.id B P 𝕜).Equiv (ScalarMap.id 𝕜) nx ny A A := by
  intro s _ l u r d p
  simp [Gauge.id, Matrix.one_apply, ScalarMap.id]

theorem turnedTerms_id (m : ModelTerms P 𝕜) : TurnedTerms (ScalarMap.id 𝕜) (fun _ => (1 : Matrix P P 𝕜)) nx ny m m := by
  refine ⟨fun b _ k1 k2 b1 b2 => ?_, fun s _ => ?_⟩
  · simp [Matrix.one_apply, ScalarMap.id]
  · cases h : m.one s with
    | none => exact Or.inl ⟨rfl, rfl⟩
    | some x => exact Or.inr ⟨x, x, rfl, rfl, fun k b => by simp [Matrix.one_apply, ScalarMap.id]⟩

theorem turnedState_id {V : Type} [Fintype V] [DecidableEq V] (ψ : (V → P) → 𝕜) :
    turnedState (ScalarMap.id 𝕜) (fun _ => (1 : Matrix P P 𝕜)) ψ = ψ := by
  funext p
  unfold turnedState
  rw [Finset.sum_eq_single p]
  · simp [ScalarMap.id]
  · intro q _ hq
    obtain ⟨v, hv⟩ := Function.ne_iff.1 hq
    rw [Finset.prod_eq_zero (Finset.mem_univ v) (show (1 : Matrix P P 𝕜) (p v) (q v) = 0 from Matrix.one_apply_ne (Ne.symm hv)), zero_mul]
  · intro h
    exact absurd (Finset.mem_univ p) h

/-! ### Runs -/

variable [NeZero bD] [Nonempty P]

/-- **C84 (evolution).** `evolve` with the simple update of two networks that are the same in other bases, with models that are
the same in the bases of the sites (or all complex conjugated), and with different routines for the decompositions: if along
the first run the gates do not annihilate the two-site tensors and cutting off singular values is unambiguous, then both calls
raise the same exception or none, leave the same bond list, and leave networks that are the same in other bases, the bases of the
sites being the ones of the start. -/
theorem C84_evolution (hx : 2 ≤ nx) (hy : 2 ≤ ny) (la la' : Lapack 𝕜) (cx : Bool) (σ : ScalarMap 𝕜) (g : Gauge (Fin bD) P 𝕜)
    (hj : g.Joined nx ny) (m m' : ModelTerms P 𝕜) (hm : TurnedTerms σ g.U nx ny m m') (dtau : ℝ) (n : ℕ) (bl : List Bond)
    (hbl : bl.Perm (buildBondList nx ny)) (net net' : NetT (Fin bD) P X 𝕜)
    (hnet : g.Equiv σ nx ny (siteTensors net) (siteTensors net'))
    (hcut : Along (ClearCut (twoSiteGate m dtau)) (Simple.bondStep la (fun _ => none) (twoSiteGate m dtau)) (schedule n bl)
      (net, LambdaTensors.init bl (ones bD cx))) :
    let r := Simple.evolve la cx (fun _ => none) (twoSiteGate m dtau) n (bl, net)
    let r' := Simple.evolve la' cx (fun _ => none) (twoSiteGate m' dtau) n (bl, net')
    r'.2.2 = r.2.2 ∧ r'.1 = r.1 ∧
      ∃ g' : Gauge (Fin bD) P 𝕜, g'.U = g.U ∧ g'.Joined nx ny ∧ g'.Equiv σ nx ny (siteTensors r.2.1) (siteTensors r'.2.1) := by
  have hcell : ∀ b ∈ buildBondList nx ny, InCell nx ny b.s1 ∧ InCell nx ny b.s2 := by
    intro b hb
    obtain ⟨h1, h2⟩ := C02_bond_ends_in_cell nx ny b hb
    rw [mem_buildSiteList] at h1 h2
    exact ⟨h1, h2⟩
  have h0 : SameState σ g.U nx ny (net, LambdaTensors.init bl (ones bD cx)) (net', LambdaTensors.init bl (ones bD cx)) g := by
    refine ⟨rfl, ⟨bl, _, [], hbl, rfl⟩, rfl, hj, hnet, fun s hs k w hw x y _ => ?_⟩
    obtain ⟨b, ⟨hb, hE⟩, -⟩ := C03_unique_bond_per_side nx ny s hs k.val k.isLt
    have h := C03_weight_lookup nx ny bl hbl (ones bD cx) [] s hs k.val k.isLt b hb hE
    obtain rfl := Except.ok.inj (h.symm.trans hw)
    rfl
  obtain ⟨e1, e2, g', r⟩ := evolveLoop_rel (Simple.bondStep la (fun _ => none) (twoSiteGate m dtau))
    (Simple.bondStep la' (fun _ => none) (twoSiteGate m' dtau)) (fun st st' => ∃ g', SameState σ g.U nx ny st st' g')
    (ClearCut (twoSiteGate m dtau)) (fun b => b ∈ buildBondList nx ny)
    (fun st st' b ⟨g', h⟩ hb hQ => bondStep_turn hx hy la la' h hb
      (twoSiteGate_turn g.unitU hm dtau hb (hcell b hb).1 (hcell b hb).2) hQ) n bl (fun b hb => hbl.subset hb) _ _ ⟨g, h0⟩ hcut
  exact ⟨e2, e1, g', r.unit, r.joined, r.equiv⟩

/-- **C84 (evolved states).** So on every finite lattice that covers the cell the evolved networks have the same state in the
bases of the sites, up to a positive factor. -/
theorem C84_evolved_state (hx : 2 ≤ nx) (hy : 2 ≤ ny) (la la' : Lapack 𝕜) (cx : Bool) (σ : ScalarMap 𝕜) (g : Gauge (Fin bD) P 𝕜)
    (hj : g.Joined nx ny) (m m' : ModelTerms P 𝕜) (hm : TurnedTerms σ g.U nx ny m m') (dtau : ℝ) (n : ℕ) (bl : List Bond)
    (hbl : bl.Perm (buildBondList nx ny)) (net net' : NetT (Fin bD) P X 𝕜)
    (hnet : g.Equiv σ nx ny (siteTensors net) (siteTensors net'))
    (hcut : Along (ClearCut (twoSiteGate m dtau)) (Simple.bondStep la (fun _ => none) (twoSiteGate m dtau)) (schedule n bl)
      (net, LambdaTensors.init bl (ones bD cx))) (ρ : Bond → Equiv.Perm (Fin N)) :
    ∃ c : ℝ, 0 < c ∧
      latticeState (nx := nx) (ny := ny) ρ (siteTensors (Simple.evolve la' cx (fun _ => none) (twoSiteGate m' dtau) n (bl, net')).2.1) =
      (c : 𝕜) • turnedState σ (fun v : BigSite nx ny N => g.U (v.2.1, v.2.2))
        (latticeState ρ (siteTensors (Simple.evolve la cx (fun _ => none) (twoSiteGate m dtau) n (bl, net)).2.1)) := by
  obtain ⟨-, -, g', e, j, h⟩ := C84_evolution hx hy la la' cx σ g hj m m' hm dtau n bl hbl net net' hnet hcut
  rw [← e]
  exact C84_state ρ σ g' j _ _ h

/-- The expectation value of an operator. -/
noncomputable def Spec.expectation {ι : Type} [Fintype ι] (O : Matrix ι ι 𝕜) (ψ : ι → 𝕜) : 𝕜 := overlap ψ (O.mulVec ψ) / overlap ψ ψ

/-- **C84 (decompositions).** Two runs of `evolve` with the simple update from the same network that differ only in the QR
decompositions and SVDs the library returns: if along the first one the gates do not annihilate the two-site tensors and cutting off
singular values is unambiguous, both raise the same exception or none, and on every finite lattice that covers the cell the evolved
states are positive multiples of each other, so all operators have the same expectation values. -/
theorem C84_decompositions (hx : 2 ≤ nx) (hy : 2 ≤ ny) (la la' : Lapack 𝕜) (cx : Bool) (m : ModelTerms P 𝕜) (dtau : ℝ) (n : ℕ)
    (bl : List Bond) (hbl : bl.Perm (buildBondList nx ny)) (net : NetT (Fin bD) P X 𝕜)
    (hcut : Along (ClearCut (twoSiteGate m dtau)) (Simple.bondStep la (fun _ => none) (twoSiteGate m dtau)) (schedule n bl)
      (net, LambdaTensors.init bl (ones bD cx))) :
    let r := Simple.evolve la cx (fun _ => none) (twoSiteGate m dtau) n (bl, net)
    let r' := Simple.evolve la' cx (fun _ => none) (twoSiteGate m dtau) n (bl, net)
    r'.2.2 = r.2.2 ∧ r'.1 = r.1 ∧ ∀ (N : ℕ) (ρ : Bond → Equiv.Perm (Fin N)),
      let ψ := latticeState (nx := nx) (ny := ny) ρ (siteTensors r.2.1)
      let ψ' := latticeState (nx := nx) (ny := ny) ρ (siteTensors r'.2.1)
      (∃ c : ℝ, 0 < c ∧ ψ' = (c : 𝕜) • ψ) ∧ ∀ O, expectation O ψ' = expectation O ψ := by
  intro r r'
  obtain ⟨e1, e2, -⟩ := C84_evolution hx hy la la' cx (ScalarMap.id 𝕜) (Gauge.id (Fin bD) P 𝕜) gauge_id_joined m m (turnedTerms_id m)
    dtau n bl hbl net net (gauge_id_equiv _) hcut
  refine ⟨e1, e2, fun N ρ => ?_⟩
  intro ψ ψ'
  obtain ⟨c, hc, h⟩ := C84_evolved_state hx hy la la' cx (ScalarMap.id 𝕜) (Gauge.id (Fin bD) P 𝕜) gauge_id_joined m m (turnedTerms_id m)
    dtau n bl hbl net net (gauge_id_equiv _) hcut ρ
  have h : ψ' = (c : 𝕜) • ψ := by
    refine h.trans ?_
    congr 1
    exact turnedState_id _
  refine ⟨⟨c, hc, h⟩, fun O => ?_⟩
  unfold expectation
  have hcc : (c : 𝕜) ≠ 0 := RCLike.ofReal_ne_zero.2 hc.ne'
  have ho : ∀ φ : (BigSite nx ny N → P) → 𝕜, overlap ((c : 𝕜) • ψ) ((c : 𝕜) • φ) = (c : 𝕜) ^ 2 * overlap ψ φ := by
    intro φ
    unfold overlap
    rw [Finset.mul_sum]
    refine Finset.sum_congr rfl fun p _ => ?_
    rw [Pi.smul_apply, Pi.smul_apply, smul_eq_mul, smul_eq_mul, star_mul', RCLike.star_def, RCLike.conj_ofReal]
    ring
  rw [h, Matrix.mulVec_smul, ho, ho, mul_div_mul_left _ _ (pow_ne_zero 2 hcc)]

/-! ### The hypotheses are met -/

omit [Fintype P] [DecidableEq P] [Nonempty P] [NeZero bD] in
theorem svd_tail_zero {m n l : Type} [Fintype m] [Fintype n] [Fintype l] [DecidableEq m] [DecidableEq n] (M : Matrix m n 𝕜)
    (Y : Matrix m l 𝕜) (Z : Matrix l n 𝕜) (h : M = Y * Z) {r : ℕ} {U : Matrix m (Fin r) 𝕜} {S : Fin r → ℝ} {Vh : Matrix (Fin r) n 𝕜}
    (hs : IsSVD M U S Vh) (j : Fin r) (hj : Fintype.card l ≤ j.val) : S j = 0 := by
  have e := eckart_young M U S Vh hs Y Z
  rw [frobSq_sub_truncSVD M U S Vh hs, h, sub_self] at e
  have e0 : frobSq (0 : Matrix m n 𝕜) = 0 := by simp [frobSq]
  rw [e0] at e
  have hle : (if j.val < Fintype.card l then 0 else S j ^ 2) ≤ ∑ i, if i.val < Fintype.card l then 0 else S i ^ 2 :=
    Finset.single_le_sum (f := fun i : Fin r => if i.val < Fintype.card l then (0 : ℝ) else S i ^ 2)
      (fun i _ => by split_ifs <;> positivity) (Finset.mem_univ j)
  rw [if_neg (by omega)] at hle
  have := sq_nonneg (S j)
  exact pow_eq_zero_iff (by norm_num) |>.1 (le_antisymm (hle.trans e) this)

omit [Fintype P] [DecidableEq P] [Nonempty P] [NeZero bD] in
theorem noTie_of_factor {m n l : Type} [Fintype m] [Fintype n] [Fintype l] [DecidableEq m] [DecidableEq n] (M : Matrix m n 𝕜)
    (Y : Matrix m l 𝕜) (Z : Matrix l n 𝕜) (h : M = Y * Z) : NoTie (Fintype.card l) M :=
  fun _ _ _ _ hs _ j _ hj => Or.inl (svd_tail_zero M Y Z h hs j hj)

/-- A matrix whose best approximation of rank one is good has a largest singular value. -/
theorem noTie_one {m n : Type} [Fintype m] [Fintype n] [DecidableEq m] [DecidableEq n] (M : Matrix m n 𝕜)
    (Y : Matrix m (Fin 1) 𝕜) (Z : Matrix (Fin 1) n 𝕜) (h : 2 * frobSq (M - Y * Z) < frobSq M) : NoTie 1 M := by
  intro r U S Vh hs i j hi hj
  right
  have e := eckart_young M U S Vh hs Y Z
  rw [frobSq_sub_truncSVD M U S Vh hs, Fintype.card_fin] at e
  have e2 : frobSq M = ∑ i, S i ^ 2 := by
    conv_lhs => rw [hs.mul]
    exact frobSq_usv _ _ _ hs.left hs.right
  have e3 : ∑ i, S i ^ 2 = S i ^ 2 + ∑ i, if i.val < 1 then 0 else S i ^ 2 := by
    have : ∀ x : Fin r, S x ^ 2 = (if x = i then S i ^ 2 else 0) + if x.val < 1 then 0 else S x ^ 2 := by
      intro x
      by_cases hx : x = i
      · rw [hx, if_pos rfl, if_pos hi, add_zero]
      · have : ¬ x.val < 1 := fun h => hx (Fin.ext (by omega))
        rw [if_neg hx, if_neg this, zero_add]
    rw [Finset.sum_congr rfl fun x _ => this x, Finset.sum_add_distrib, Finset.sum_ite_eq' Finset.univ i, if_pos (Finset.mem_univ i)]
  have hle : (if j.val < 1 then 0 else S j ^ 2) ≤ ∑ i, if i.val < 1 then 0 else S i ^ 2 :=
    Finset.single_le_sum (f := fun i : Fin r => if i.val < 1 then (0 : ℝ) else S i ^ 2)
      (fun i _ => by split_ifs <;> positivity) (Finset.mem_univ j)
  rw [if_neg (by omega)] at hle
  have : S j ^ 2 < S i ^ 2 := by linarith
  exact lt_of_pow_lt_pow_left₀ 2 (hs.nonneg i) this

omit [NeZero bD] [Nonempty P] in
/-- A gate-applied two-site tensor that fits in the bond dimension also does with the weights of its surroundings. -/
theorem fits_surroundings (m : ModelTerms P 𝕜) (dtau : ℝ) (net : NetT (Fin bD) P X 𝕜) (b : Bond) (hk : b.k < 4) (W1 W2 : ℕ → Weight bD)
    (hs1 : Strippable W1 b.k) (hs2 : Strippable W2 ((b.k + 2) % 4)) (h0 : bondTensor net b ≠ 0)
    (hfit : Fits (gated (twoSiteGate m dtau b) (bondTensor net b))) :
    gated (twoSiteGate m dtau b) (bondState W1 W2 b.k (net b.s1).A (net b.s2).A) ≠ 0 ∧
    ∃ c1 c2, gated (twoSiteGate m dtau b) (bondState W1 W2 b.k (net b.s1).A (net b.s2).A) = twoSite c1 c2 := by
  obtain ⟨ω1, hω1, e1⟩ := weighted_first (𝕜 := 𝕜) (P := P) (fun d => (W1 d).v) b.k hk fun d hd hdk i =>
    (lt_of_lt_of_le (by norm_num) ((hs1 d hd hdk).2 i)).ne'
  obtain ⟨ω2, hω2, e2⟩ := weighted_second (𝕜 := 𝕜) (P := P) (fun d => (W2 d).v) b.k fun d hd hdk i =>
    (lt_of_lt_of_le (by norm_num) ((hs2 d hd hdk).2 i)).ne'
  have hstate : ∀ (a1 a2 : ATensor (Fin bD) P 𝕜) u r d l' u' d' p q, bondState W1 W2 b.k a1 a2 u r d l' u' d' p q =
      ((ω1 u r d * ω2 l' u' d' : ℝ) : 𝕜) * twoSite (bondPermute b.k a1) (bondPermute b.k a2) u r d l' u' d' p q := by
    intro a1 a2 u r d l' u' d' p q
    unfold bondState twoSite
    rw [Finset.mul_sum]
    refine Finset.sum_congr rfl fun x _ => ?_
    rw [e1, e2, RCLike.ofReal_mul]
    ring
  have hgs : ∀ (a1 a2 : ATensor (Fin bD) P 𝕜) u r d l' u' d' p q,
      gated (twoSiteGate m dtau b) (bondState W1 W2 b.k a1 a2) u r d l' u' d' p q =
      ((ω1 u r d * ω2 l' u' d' : ℝ) : 𝕜) * gated (twoSiteGate m dtau b)
        (twoSite (bondPermute b.k a1) (bondPermute b.k a2)) u r d l' u' d' p q := by
    intro a1 a2 u r d l' u' d' p q
    unfold gated
    simp only [hstate, Finset.mul_sum, mul_assoc]
  have hω : ∀ u r d l' u' d', ((ω1 u r d * ω2 l' u' d' : ℝ) : 𝕜) ≠ 0 := fun u r d l' u' d' =>
    RCLike.ofReal_ne_zero.2 (mul_ne_zero (hω1 _ _ _) (hω2 _ _ _))
  have hne0 : gated (twoSiteGate m dtau b) (bondState W1 W2 b.k (net b.s1).A (net b.s2).A) ≠ 0 := by
    intro h1
    apply gated_ne_zero_of m dtau b _ h0
    funext u r d l' u' d' p q
    have h2 := hgs (net b.s1).A (net b.s2).A u r d l' u' d' p q
    rw [h1] at h2
    exact (mul_eq_zero.1 h2.symm).resolve_left (hω _ _ _ _ _ _)
  have hfit' : ∃ c1 c2, gated (twoSiteGate m dtau b) (bondState W1 W2 b.k (net b.s1).A (net b.s2).A) = twoSite c1 c2 := by
    obtain ⟨c1, c2, hc⟩ := hfit
    refine ⟨fun l u r d p => (ω1 u r d : 𝕜) * c1 l u r d p, fun l u r d p => (ω2 l u d : 𝕜) * c2 l u r d p, ?_⟩
    funext u r d l' u' d' p q
    rw [hgs]
    have h2 := congrFun (congrFun (congrFun (congrFun (congrFun (congrFun (congrFun (congrFun hc u) r) d) l') u') d') p) q
    refine (congrArg _ h2.symm).trans ?_
    unfold twoSite
    rw [Finset.mul_sum]
    refine Finset.sum_congr rfl fun x _ => ?_
    rw [RCLike.ofReal_mul]
    ring
  exact ⟨hne0, hfit'⟩

omit [NeZero bD] [Nonempty P] in
/-- Updates without truncation are unambiguous. -/
theorem clearCut_of_fits (m : ModelTerms P 𝕜) (dtau : ℝ) (st : NetT (Fin bD) P X 𝕜 × LambdaTensors (Weight bD)) (b : Bond) (hk : b.k < 4)
    (h : SimpleFits m dtau st b) (h0 : bondTensor st.1 b ≠ 0) : ClearCut (twoSiteGate m dtau) st b := by
  obtain ⟨⟨V1, V2, hV1, hV2, hs1, hs2⟩, hfit⟩ := h
  intro W1 W2 hW1 hW2
  have hs1 : Strippable W1 b.k := fun d hd hdk => by
    rw [← Except.ok.inj ((hV1 d hd).symm.trans (hW1 d hd))]
    exact hs1 d hd hdk
  have hs2 : Strippable W2 ((b.k + 2) % 4) := fun d hd hdk => by
    rw [← Except.ok.inj ((hV2 d hd).symm.trans (hW2 d hd))]
    exact hs2 d hd hdk
  obtain ⟨hne, c1, c2, hc⟩ := fits_surroundings m dtau st.1 b hk W1 W2 hs1 hs2 h0 hfit
  refine ⟨hne, ?_⟩
  have := noTie_of_factor _ _ _ ((congrArg twoMat hc).trans (twoMat_twoSite c1 c2))
  rwa [Fintype.card_fin] at this

/-- Runs without truncation are unambiguous. -/
theorem along_clear [NeZero N] (hx : 2 ≤ nx) (hy : 2 ≤ ny) (ρ : Bond → Equiv.Perm (Fin N)) (la : Lapack 𝕜) (m : ModelTerms P 𝕜)
    (dtau : ℝ) (l : List Bond) (hl : ∀ b ∈ l, b ∈ buildBondList nx ny) (st : NetT (Fin bD) P X 𝕜 × LambdaTensors (Weight bD))
    (hs : latticeState (nx := nx) (ny := ny) ρ (siteTensors st.1) ≠ 0)
    (h : Along (SimpleFits m dtau) (Simple.bondStep la (fun _ => none) (twoSiteGate m dtau)) l st) :
    Along (ClearCut (twoSiteGate m dtau)) (Simple.bondStep la (fun _ => none) (twoSiteGate m dtau)) l st := by
  induction l generalizing st with
  | nil => trivial
  | cons b l ih =>
    obtain ⟨h1, h2⟩ := h
    have hb := hl b List.mem_cons_self
    have hk : b.k < 4 := by
      have := (mem_buildBondList.1 hb).2
      omega
    have h0 := bondTensor_ne_zero hx hy ρ _ b hb hs
    obtain ⟨⟨W1, W2, hW1, hW2, hs1, hs2⟩, hf⟩ := id h1
    have he := C76_simple_update la m dtau st b hk (bond_ends_distinct nx ny hx hy b hb) W1 W2 hW1 hW2 hs1 hs2 h0 hf
    have hs' := exactStep_ne_zero hx hy ρ m dtau (fun st => siteTensors st.1) _ st b hb he hs
    exact ⟨clearCut_of_fits m dtau st b hk h1 h0, ih (fun b' h' => hl b' (List.mem_cons_of_mem _ h')) _ hs' h2⟩

/-- Non-vacuity: spins along the first axis in a field, on any lattice, for any number of steps and any decompositions. -/
example [NeZero N] (hx : 2 ≤ nx) (hy : 2 ≤ ny) (ρ : Bond → Equiv.Perm (Fin N)) (la : Lapack ℝ) (dtau : ℝ) (n : ℕ) :
    Along (ClearCut (twoSiteGate fieldTerms dtau)) (Simple.bondStep la (fun _ => none) (twoSiteGate fieldTerms dtau))
      (schedule n (buildBondList nx ny)) (plusNet, LambdaTensors.init (buildBondList nx ny) (ones 1 false)) := by
  have hs : latticeState (nx := nx) (ny := ny) ρ (siteTensors plusNet) ≠ 0 := fun h => plusNet_ones (nx := nx) (ny := ny) ρ (congrFun h _)
  exact along_clear hx hy ρ la fieldTerms dtau _ (fun _ hb => mem_schedule hb) _ hs
    (plus_fits hx hy ρ la dtau _ (List.Perm.refl _) _ (fun _ hb => mem_schedule hb) _ ⟨[], by simp, rfl⟩ hs)

/-- A gate that entangles two spins. -/
def entangler (_ : Bond) (p q r s : Fin 2) : ℝ := if p = r ∧ q = s then (if p = q then 1 else 2) else 0

/-- Non-vacuity with truncation: an entangling gate on a bond of the network of spins along the first axis with bond dimension one.
The two singular values are 3 and 1. -/
theorem entangler_clear (b : Bond) (hb : b ∈ buildBondList nx ny) :
    ClearCut entangler (plusNet, LambdaTensors.init (buildBondList nx ny) (ones 1 false)) b := by
  obtain ⟨c1, c2⟩ := C02_bond_ends_in_cell nx ny b hb
  rw [mem_buildSiteList] at c1 c2
  intro W1 W2 hW1 hW2
  have hu : ∀ s, InCell nx ny s → ∀ W, Weights (LambdaTensors.init (buildBondList nx ny) (ones 1 false)) s W → ∀ d < 4, (W d).v = fun _ => 1 := by
    intro s hs W hW d hd
    obtain ⟨b', ⟨hb', hE⟩, _⟩ := C03_unique_bond_per_side nx ny s hs d hd
    have h := C03_weight_lookup nx ny _ (List.Perm.refl _) (ones 1 false) [] s hs d hd b' hb' hE
    rw [← Except.ok.inj (h.symm.trans (hW d hd))]
    rfl
  have hw : ∀ s, InCell nx ny s → ∀ W, Weights (LambdaTensors.init (buildBondList nx ny) (ones 1 false)) s W → ∀ ex,
      weighted (fun d => (W d).v) ex (plusNet s).A = (plusNet s).A := by
    intro s hs W hW ex
    funext l u r d p
    have h := hu s hs W hW
    simp [weighted, legWeight, h 0 (by omega), h 1 (by omega), h 2 (by omega), h 3 (by omega)]
  have hg : ∀ u r d l' u' d' p q, gated (entangler b) (bondState W1 W2 b.k (plusNet b.s1).A (plusNet b.s2).A) u r d l' u' d' p q =
      if p = q then 1 else 2 := by
    intro u r d l' u' d' p q
    unfold bondState
    rw [hw _ c1 W1 hW1, hw _ c2 W2 hW2]
    have hp : ∀ s, bondPermute b.k (plusNet s).A = fun _ _ _ _ _ => 1 := by
      intro s
      have hk : (b.k : ℤ) = 2 ∨ (b.k : ℤ) = 1 := by
        have := ((C02_bond_list nx ny).2.2 b).1 hb
        omega
      rcases hk with hk | hk <;> rw [hk] <;> rfl
    rw [hp, hp]
    fin_cases p <;> fin_cases q <;> simp [gated, twoSite, entangler]
  dsimp only
  constructor
  · intro h
    have := hg 0 0 0 0 0 0 0 0
    rw [h] at this
    simp at this
  · refine noTie_one _ (Matrix.of fun _ _ => 1) (Matrix.of fun _ _ => 3 / 2) ?_
    have e : twoMat (gated (entangler b) (bondState W1 W2 b.k (plusNet b.s1).A (plusNet b.s2).A)) =
        Matrix.of fun i j => if i.2 = j.2 then 1 else 2 := by
      ext i j
      exact hg _ _ _ _ _ _ _ _
    rw [e]
    unfold frobSq
    simp only [Fintype.sum_prod_type, Fin.sum_univ_two, Fin.sum_univ_one, Matrix.sub_apply, Matrix.mul_apply, Matrix.of_apply]
    norm_num

end AceTN
