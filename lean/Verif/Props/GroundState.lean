import Verif.Props.LatticeState
import Verif.Lemmas.GroundState

/-! C83: a long evolution without truncation reaches the ground state of the lattice. -/

set_option autoImplicit false

namespace AceTN
open Spec Trot NormedSpace Matrix
open scoped Matrix.Norms.L2Operator

variable {𝕜 : Type} [RCLike 𝕜] {P : Type} [Fintype P] [DecidableEq P] {nx ny N : ℕ}

section hermitian

variable {ι : Type} [Fintype ι] [DecidableEq ι]

omit [Fintype P] in
theorem pairMat_isHermitian (i j : ι) (A : Matrix (P × P) (P × P) 𝕜) (hA : A.IsHermitian) : (pairMat i j A).IsHermitian := by
  ext s t
  rw [conjTranspose_apply]
  unfold pairMat
  simp only [eq_comm (a := t _)]
  split_ifs
  · rw [← conjTranspose_apply, hA.eq]
  · exact star_zero _

omit [Fintype P] in
theorem siteMatAt_isHermitian (i : ι) (h : Matrix P P 𝕜) (hh : h.IsHermitian) : (siteMatAt i h).IsHermitian := by
  ext s t
  rw [conjTranspose_apply]
  unfold siteMatAt
  simp only [eq_comm (a := t _)]
  split_ifs
  · rw [← conjTranspose_apply, hh.eq]
  · exact star_zero _

omit [Fintype ι] [DecidableEq ι] in
theorem isHermitian_listSum (l : List (Matrix ι ι 𝕜)) (h : ∀ A ∈ l, A.IsHermitian) : l.sum.IsHermitian := by
  induction l with
  | nil => exact isHermitian_zero
  | cons A l ih =>
    rw [List.sum_cons]
    exact (h A List.mem_cons_self).add (ih fun B hB => h B (List.mem_cons_of_mem _ hB))

end hermitian

omit [Fintype P] [DecidableEq P] in
theorem transposed_hermitian (m : ModelTerms P 𝕜) (hm : m.Hermitian) : m.transposed.Hermitian := by
  refine ⟨fun b => (hm.1 b).transpose, fun s h hs => ?_⟩
  unfold ModelTerms.transposed at hs
  dsimp only at hs
  cases e : m.one s with
  | none => rw [e] at hs; cases hs
  | some h' =>
    rw [e] at hs
    cases hs
    exact (hm.2 s h' e).transpose

/-- The Hamiltonian of the lattice `coveringOps`, with the matrices as the updates apply them (C70). -/
noncomputable def Spec.latticeHamiltonian (hx : 2 ≤ nx) (hy : 2 ≤ ny) (σ : Bond → Equiv.Perm (Fin N)) (m : ModelTerms P 𝕜) :
    Matrix (BigSite nx ny N → P) (BigSite nx ny N → P) 𝕜 :=
  cellHamiltonian nx ny (coveringOps hx hy σ).placement m.transposed

theorem sum_isHermitian {ι κ : Type} [Fintype κ] (f : κ → Matrix ι ι 𝕜) (h : ∀ c, (f c).IsHermitian) :
    (∑ c, f c).IsHermitian := by
  unfold Matrix.IsHermitian
  rw [conjTranspose_sum]
  exact Finset.sum_congr rfl fun c _ => (h c).eq

theorem latticeHamiltonian_isHermitian (hx : 2 ≤ nx) (hy : 2 ≤ ny) (σ : Bond → Equiv.Perm (Fin N)) (m : ModelTerms P 𝕜)
    (hm : m.Hermitian) : (latticeHamiltonian hx hy σ m).IsHermitian := by
  have ht := transposed_hermitian m hm
  unfold latticeHamiltonian cellHamiltonian
  refine IsHermitian.add (isHermitian_listSum _ fun A hA => ?_) (isHermitian_listSum _ fun A hA => ?_)
  · obtain ⟨b, hb, rfl⟩ := List.mem_map.1 hA
    show ((∑ c, ((coveringOps hx hy σ).on c b).toLinearMap) (m.transposed.two b)).IsHermitian
    rw [LinearMap.sum_apply]
    refine sum_isHermitian _ fun c => ?_
    show ((coveringOps hx hy σ).on c b (m.transposed.two b)).IsHermitian
    rw [coveringOps_on hx hy σ b hb]
    exact pairMat_isHermitian _ _ _ (ht.1 b)
  · obtain ⟨s, hs, rfl⟩ := List.mem_map.1 hA
    cases e : m.transposed.one s with
    | none => exact isHermitian_zero
    | some h =>
      show ((∑ c, placeOne (c, place hx hy s)) h : Matrix (BigSite nx ny N → P) (BigSite nx ny N → P) 𝕜).IsHermitian
      rw [LinearMap.sum_apply]
      exact sum_isHermitian _ fun c => siteMatAt_isHermitian _ _ (ht.2 s h e)

/-- The state of the network is not zero; normalised, it is within `η` of `g`; its energy is at least `E` and at most
`E + η`. -/
def Spec.NearGround {B X : Type} [Fintype B] (hx : 2 ≤ nx) (hy : 2 ≤ ny) (σ : Bond → Equiv.Perm (Fin N)) (m : ModelTerms P 𝕜)
    (g : (BigSite nx ny N → P) → 𝕜) (E η : ℝ) (net : NetT B P X 𝕜) : Prop :=
  let φ := latticeState (nx := nx) (ny := ny) σ (siteTensors net)
  φ ≠ 0 ∧ stateNorm ((((stateNorm φ)⁻¹ : ℝ) : 𝕜) • φ - g) ≤ η ∧ E ≤ energyOf (latticeHamiltonian hx hy σ m) φ ∧
    energyOf (latticeHamiltonian hx hy σ m) φ ≤ E + η

/-- The start of an evolution that can reach the ground state: `E` is the lowest energy of the lattice and the state of the
network is not orthogonal to the states of that energy. -/
def Spec.OverlapsGround {B X : Type} [Fintype B] (hx : 2 ≤ nx) (hy : 2 ≤ ny) (σ : Bond → Equiv.Perm (Fin N))
    (m : ModelTerms P 𝕜) (E : ℝ) (net : NetT B P X 𝕜) : Prop :=
  IsGroundEnergy (latticeHamiltonian hx hy σ m) E ∧
    ∃ v, (latticeHamiltonian hx hy σ m).mulVec v = (E : 𝕜) • v ∧ overlap v (latticeState σ (siteTensors net)) ≠ 0

/-- `g` is a normalised state of energy `E`. -/
def Spec.GroundState (hx : 2 ≤ nx) (hy : 2 ≤ ny) (σ : Bond → Equiv.Perm (Fin N)) (m : ModelTerms P 𝕜) (E : ℝ)
    (g : (BigSite nx ny N → P) → 𝕜) : Prop :=
  (latticeHamiltonian hx hy σ m).mulVec g = (E : 𝕜) • g ∧ stateNorm g = 1

/-- A run that evolves the state up to an error of second order comes close to a ground state. -/
theorem nearGround_of {B X : Type} [Fintype B] (hx : 2 ≤ nx) (hy : 2 ≤ ny) (σ : Bond → Equiv.Perm (Fin N))
    (m : ModelTerms P 𝕜) (hh : m.Hermitian) (E : ℝ) (net : NetT B P X 𝕜) (ho : OverlapsGround hx hy σ m E net) (K : ℝ → ℝ) :
    ∃ g, GroundState hx hy σ m E g ∧ ∀ η : ℝ, 0 < η → ∃ T₀ : ℝ, ∀ T, T₀ ≤ T → ∃ δ : ℝ, 0 < δ ∧
      ∀ (n : ℕ) (dtau : ℝ), 0 ≤ dtau → dtau ≤ δ → n * dtau = T → ∀ net' : NetT B P X 𝕜,
        EvolvedTo hx hy σ m net net' (n * dtau) (K T * dtau ^ 2) → NearGround hx hy σ m g E η net' := by
  obtain ⟨hE, v, hv, hov⟩ := ho
  obtain ⟨g, g1, g2, hg⟩ := ground_reached _ (latticeHamiltonian_isHermitian hx hy σ m hh) E hE _ v hv hov
  refine ⟨g, ⟨g1, g2⟩, fun η hη => ?_⟩
  obtain ⟨T₀, hT₀⟩ := hg η hη
  refine ⟨T₀, fun T hT => ?_⟩
  obtain ⟨ε, hε, hφ⟩ := hT₀ T hT
  refine ⟨min 1 (ε / (|K T| + 1)), lt_min one_pos (by positivity), fun n dtau h0 hd hn net' hev => ?_⟩
  obtain ⟨κ, hκ, hev⟩ := hev
  have hk : K T * dtau ^ 2 ≤ ε := by
    have h1 : dtau ≤ 1 := hd.trans (min_le_left _ _)
    have h2 : dtau * (|K T| + 1) ≤ ε := (le_div_iff₀ (by positivity)).1 (hd.trans (min_le_right _ _))
    have h3 : dtau ^ 2 ≤ dtau := by nlinarith
    calc K T * dtau ^ 2 ≤ |K T| * dtau ^ 2 := by gcongr; exact le_abs_self _
      _ ≤ |K T| * dtau := by gcongr
      _ ≤ ε := by nlinarith
  have hev' : stateNorm ((κ : 𝕜) • latticeState σ (siteTensors net') -
      (calculateGate (latticeHamiltonian hx hy σ m) T).mulVec (latticeState σ (siteTensors net))) ≤
      ε * stateNorm (latticeState (nx := nx) (ny := ny) σ (siteTensors net)) := by
    rw [hn] at hev
    exact hev.trans (mul_le_mul_of_nonneg_right hk (stateNorm_nonneg _))
  obtain ⟨r1, r2, r3⟩ := hφ _ κ hκ hev'
  exact ⟨r1, r2, hE _ r1, r3⟩

section updates

open Full Simple

variable {X : Type} [Fintype X] {bD : ℕ} [NeZero bD] [Nonempty P]

omit [Fintype X] [Nonempty P] in
theorem state_ne_zero_of_overlap {B : Type} [Fintype B] (hx : 2 ≤ nx) (hy : 2 ≤ ny) (σ : Bond → Equiv.Perm (Fin N))
    (m : ModelTerms P 𝕜) (E : ℝ) (net : NetT B P X 𝕜) (ho : OverlapsGround hx hy σ m E net) :
    latticeState (nx := nx) (ny := ny) σ (siteTensors net) ≠ 0 := by
  obtain ⟨-, v, -, h⟩ := ho
  intro h0
  rw [h0] at h
  simp [overlap] at h

/-- **C83 (full update).** Hermitian model with one-site terms everywhere or nowhere, real dtypes, solver without
regularisation, any finite lattice covering the cell, any start whose state is not orthogonal to the ground states: there is
a ground state `g` such that for every accuracy there is a time after which, for every total time and every time step small
enough for that time, every run of `evolve` in which no update raises and the gate-applied two-site tensors fit in the bond
dimension ends without error in a state that, normalised, is within the accuracy of `g` and has its energy within the
accuracy above the lowest. -/
theorem C83_full [NeZero N] (hx : 2 ≤ nx) (hy : 2 ≤ ny) (σ : Bond → Equiv.Perm (Fin N)) (m : ModelTerms P ℝ)
    (hh : m.Hermitian) (hm : (∀ s, InCell nx ny s → (m.one s).isSome) ∨ (∀ s, InCell nx ny s → m.one s = none)) (E : ℝ)
    (net : NetT (Fin bD) P X ℝ) (ho : OverlapsGround hx hy σ m E net) :
    ∃ g, GroundState hx hy σ m E g ∧ ∀ η : ℝ, 0 < η → ∃ T₀ : ℝ, ∀ T, T₀ ≤ T → ∃ δ : ℝ, 0 < δ ∧
      ∀ (n : ℕ) (dtau : ℝ), 0 ≤ dtau → dtau ≤ δ → n * dtau = T →
      ∀ (F : Type) (la : Lapack ℝ) (fo : Als.FloatOps F) (rep : ℝ → F) (cfg : Settings F),
      cfg.als_epsilon = 0 → 0 < cfg.positive_approx_cutoff →
      cfg.gauge_fix_atol < Real.sqrt cfg.positive_approx_cutoff →
      ∀ absorb : ℕ → Bond → NetT (Fin bD) P X ℝ → NetT (Fin bD) P X ℝ × Option PyErr,
      (∀ t b net s, ((absorb t b net).1 s).A = (net s).A) →
      ∀ (bl : List Bond), bl = buildBondList nx ny ∨ bl = (buildBondList nx ny).reverse →
      Along (FullFits la fo rep cfg m dtau absorb)
        (Full.bondStep la fo rep cfg (fun _ => none) (twoSiteGate m dtau) absorb) (schedule n bl) (net, 0) →
      let r := Full.evolve la fo rep cfg (fun _ => none) (twoSiteGate m dtau) absorb n (bl, net)
      r.2.2 = none ∧ NearGround hx hy σ m g E η r.2.1 := by
  choose K hK using C76_full_evolution (X := X) (bD := bD) hx hy σ m hm
  obtain ⟨g, hg, hrun⟩ := nearGround_of hx hy σ m hh E net ho K
  refine ⟨g, hg, fun η hη => ?_⟩
  obtain ⟨T₀, hT₀⟩ := hrun η hη
  refine ⟨T₀, fun T hT => ?_⟩
  obtain ⟨δ, hδ, hd⟩ := hT₀ T hT
  refine ⟨δ, hδ, fun n dtau h0 h1 hn F la fo rep cfg he hcut hatol absorb habs bl hbl hfit => ?_⟩
  obtain ⟨e1, e2⟩ := hK T F la fo rep cfg he hcut hatol absorb habs bl hbl n dtau h0 hn.le net
    (state_ne_zero_of_overlap hx hy σ m E net ho) hfit
  exact ⟨e1, hd n dtau h0 h1 hn _ e2⟩

omit [Fintype X] in
/-- **C83 (simple update).** The same for `evolve` with the simple update, real and complex dtypes, for runs in which the
weights can be divided out and the gate-applied two-site tensors fit in the bond dimension. -/
theorem C83_simple [NeZero N] (hx : 2 ≤ nx) (hy : 2 ≤ ny) (σ : Bond → Equiv.Perm (Fin N)) (m : ModelTerms P 𝕜)
    (hh : m.Hermitian) (hm : (∀ s, InCell nx ny s → (m.one s).isSome) ∨ (∀ s, InCell nx ny s → m.one s = none)) (E : ℝ)
    (net : NetT (Fin bD) P X 𝕜) (ho : OverlapsGround hx hy σ m E net) :
    ∃ g, GroundState hx hy σ m E g ∧ ∀ η : ℝ, 0 < η → ∃ T₀ : ℝ, ∀ T, T₀ ≤ T → ∃ δ : ℝ, 0 < δ ∧
      ∀ (n : ℕ) (dtau : ℝ), 0 ≤ dtau → dtau ≤ δ → n * dtau = T →
      ∀ (la : Lapack 𝕜) (cx : Bool) (bl : List Bond), bl = buildBondList nx ny ∨ bl = (buildBondList nx ny).reverse →
      Along (SimpleFits m dtau) (Simple.bondStep la (fun _ => none) (twoSiteGate m dtau)) (schedule n bl)
        (net, LambdaTensors.init bl (ones bD cx)) →
      let r := Simple.evolve la cx (fun _ => none) (twoSiteGate m dtau) n (bl, net)
      r.2.2 = none ∧ NearGround hx hy σ m g E η r.2.1 := by
  choose K hK using C76_simple_evolution (X := X) (bD := bD) hx hy σ m hm
  obtain ⟨g, hg, hrun⟩ := nearGround_of hx hy σ m hh E net ho K
  refine ⟨g, hg, fun η hη => ?_⟩
  obtain ⟨T₀, hT₀⟩ := hrun η hη
  refine ⟨T₀, fun T hT => ?_⟩
  obtain ⟨δ, hδ, hd⟩ := hT₀ T hT
  refine ⟨δ, hδ, fun n dtau h0 h1 hn la cx bl hbl hfit => ?_⟩
  obtain ⟨e1, e2⟩ := hK T la cx bl hbl n dtau h0 hn.le net (state_ne_zero_of_overlap hx hy σ m E net ho) hfit
  exact ⟨e1, hd n dtau h0 h1 hn _ e2⟩

end updates

/-! ### The hypotheses are met -/

section example_

open Full Simple

theorem fieldTerms_hermitian : fieldTerms.Hermitian := by
  refine ⟨fun b => isHermitian_zero, fun s h hs => ?_⟩
  cases hs
  unfold Matrix.IsHermitian
  rw [diagonal_conjTranspose]
  rfl

/-- The energy of a spin in the field. -/
noncomputable def fieldZ (p : Fin 2) : ℝ := if p = 0 then 1 else -1

theorem fieldHamiltonian (hx : 2 ≤ nx) (hy : 2 ≤ ny) (σ : Bond → Equiv.Perm (Fin N)) :
    latticeHamiltonian hx hy σ fieldTerms = diagonal fun p : BigSite nx ny N → Fin 2 =>
      ((buildSiteList nx ny).map fun s => ∑ c, fieldZ (p (c, place hx hy s))).sum := by
  unfold latticeHamiltonian cellHamiltonian
  have h1 : ((buildBondList nx ny).map fun b =>
      (coveringOps (P := Fin 2) (𝕜 := ℝ) hx hy σ).placement.pair b (fieldTerms.transposed.two b)).sum = 0 := by
    refine List.sum_eq_zero fun A hA => ?_
    obtain ⟨b, -, rfl⟩ := List.mem_map.1 hA
    have : fieldTerms.transposed.two b = 0 := transpose_zero
    rw [this, map_zero]
  rw [h1, zero_add]
  have h2 : ∀ s, ((fieldTerms.transposed.one s).map ((coveringOps (P := Fin 2) (𝕜 := ℝ) hx hy σ).placement.site s)).getD 0 =
      diagonal fun p : BigSite nx ny N → Fin 2 => ∑ c, fieldZ (p (c, place hx hy s)) := by
    intro s
    show (∑ c, placeOne (c, place hx hy s)) (diagonal fun p => if p = 0 then (1 : ℝ) else -1)ᵀ = _
    rw [diagonal_transpose, LinearMap.sum_apply]
    ext p q
    rw [Matrix.sum_apply]
    by_cases hpq : p = q
    · subst hpq
      rw [diagonal_apply_eq]
      refine Finset.sum_congr rfl fun c _ => ?_
      show siteMatAt _ _ p p = _
      simp [siteMatAt, fieldZ]
    · rw [diagonal_apply_ne _ hpq]
      refine Finset.sum_eq_zero fun c _ => ?_
      show siteMatAt _ _ p q = _
      unfold siteMatAt
      split_ifs with h
      · refine diagonal_apply_ne _ fun e => hpq (funext fun l => ?_)
        by_cases hl : l = (c, place hx hy s)
        · rw [hl]; exact e
        · exact h l hl
      · rfl
  simp only [h2]
  induction buildSiteList nx ny with
  | nil => simp
  | cons s l ih =>
    simp only [List.map_cons, List.sum_cons]
    rw [ih, diagonal_add]

/-- The lowest energy in the field: all spins down. -/
noncomputable def fieldGround (nx ny N : ℕ) : ℝ := ((buildSiteList nx ny).map fun _ => ∑ _c : Fin N, (-1 : ℝ)).sum

theorem field_overlaps {B X : Type} [Fintype B] (hx : 2 ≤ nx) (hy : 2 ≤ ny) (σ : Bond → Equiv.Perm (Fin N))
    (net : NetT B (Fin 2) X ℝ) (hnet : latticeState (nx := nx) (ny := ny) σ (siteTensors net) (fun _ => 1) ≠ 0) :
    OverlapsGround hx hy σ fieldTerms (fieldGround nx ny N) net := by
  have hz : ∀ p, -1 ≤ fieldZ p := fun p => by unfold fieldZ; split_ifs <;> norm_num
  have hlow : ∀ p : BigSite nx ny N → Fin 2, fieldGround nx ny N ≤
      ((buildSiteList nx ny).map fun s => ∑ c, fieldZ (p (c, place hx hy s))).sum := fun p =>
    List.sum_le_sum fun s _ => Finset.sum_le_sum fun c _ => hz _
  constructor
  · intro ψ hψ
    rw [fieldHamiltonian]
    unfold energyOf
    rw [le_div_iff₀ (pow_pos (stateNorm_pos hψ) 2)]
    unfold stateNorm overlap
    rw [Real.sq_sqrt (Finset.sum_nonneg fun _ _ => by positivity), Finset.mul_sum]
    show _ ≤ ∑ p, _
    refine Finset.sum_le_sum fun p _ => ?_
    rw [mulVec_diagonal, Real.norm_eq_abs, sq_abs]
    show _ ≤ ψ p * _
    nlinarith [hlow p, mul_self_nonneg (ψ p)]
  · refine ⟨Pi.single (fun _ => 1) 1, ?_, ?_⟩
    · rw [fieldHamiltonian]
      ext p
      rw [mulVec_diagonal]
      by_cases hp : p = fun _ => 1
      · subst hp
        simp [fieldZ, fieldGround]
      · simp [hp]
    · have h1 : overlap (Pi.single (fun _ => 1) 1) (latticeState (nx := nx) (ny := ny) σ (siteTensors net)) =
          latticeState (nx := nx) (ny := ny) σ (siteTensors net) fun _ => 1 := by
        unfold overlap
        rw [Finset.sum_eq_single (fun _ => 1)]
        · simp
        · intro p _ hp
          simp [hp]
        · simp
      rw [h1]
      exact hnet

theorem ghzNet_ones (σ : Bond → Equiv.Perm (Fin N)) :
    latticeState (nx := nx) (ny := ny) σ (siteTensors ghzNet) (fun _ => 1) ≠ 0 := by
  refine ne_of_gt ?_
  unfold latticeState netState
  refine lt_of_lt_of_le one_pos (le_trans ?_ (Finset.single_le_sum (s := Finset.univ)
    (f := fun β : BigEdge nx ny N → Fin 2 => ∏ v : BigSite nx ny N,
      atLegs (siteTensors ghzNet ((v.2.1 : ℕ), (v.2.2 : ℕ))) (fun k => β (bigLeg σ v k)) 1) (fun β _ => ?_)
    (Finset.mem_univ fun _ => 1)))
  · simp [atLegs, siteTensors, ghzNet]
  · refine Finset.prod_nonneg fun v _ => ?_
    unfold atLegs siteTensors ghzNet
    dsimp only
    split_ifs <;> norm_num

/-- Non-vacuity: the state `|00…0⟩ + |11…1⟩` in a field meets the hypotheses on any lattice (that its runs fit in the bond
dimension for any number of steps is shown at C76). -/
example (hx : 2 ≤ nx) (hy : 2 ≤ ny) (σ : Bond → Equiv.Perm (Fin N)) :
    fieldTerms.Hermitian ∧ (∀ s, InCell nx ny s → (fieldTerms.one s).isSome) ∧
      OverlapsGround hx hy σ fieldTerms (fieldGround nx ny N) ghzNet :=
  ⟨fieldTerms_hermitian, fun _ _ => rfl, field_overlaps hx hy σ _ (ghzNet_ones σ)⟩

/-- The product state with spins along the first axis, bond dimension one. -/
def plusNet : NetT (Fin 1) (Fin 2) (Fin 1) ℝ := fun _ =>
  { A := fun _ _ _ _ _ => 1
    C := fun _ _ _ => 1
    E := fun _ _ _ _ _ => 1 }

theorem plusNet_ones (σ : Bond → Equiv.Perm (Fin N)) :
    latticeState (nx := nx) (ny := ny) σ (siteTensors plusNet) (fun _ => 1) ≠ 0 := by
  unfold latticeState netState
  simp [atLegs, siteTensors, plusNet]

/-- With bond dimension one the weights stay one. -/
theorem normalised_one (w : Fin 1 → ℝ) (h : Normalised w) : w = fun _ => 1 := by
  obtain ⟨h1, -, h3, h4⟩ := h
  rw [Fin.sum_univ_one] at h4
  funext i
  rw [Subsingleton.elim i 0]
  exact (pow_eq_one_iff_of_nonneg (h1 0) (by norm_num)).1 h4

/-- Tables of unit weights. -/
def UnitTable (bl : List Bond) (lt : LambdaTensors (Weight 1)) : Prop :=
  ∃ ws : List (Bond × Weight 1), (∀ p ∈ ws, p.2 = Simple.ones 1 false) ∧
    lt = ws.foldl (fun l p => l.setItem p.1 p.2) (LambdaTensors.init bl (Simple.ones 1 false))

theorem UnitTable.weights {bl : List Bond} (hbl : bl.Perm (buildBondList nx ny)) {lt : LambdaTensors (Weight 1)}
    (h : UnitTable bl lt) (s : Site) (hs : InCell nx ny s) : Weights lt s fun _ => Simple.ones 1 false := by
  intro d hd
  obtain ⟨ws, hws, rfl⟩ := h
  obtain ⟨b, ⟨hb, hE⟩, _⟩ := C03_unique_bond_per_side nx ny s hs d hd
  rw [C03_weight_lookup nx ny bl hbl _ ws s hs d hd b hb hE]
  congr 1
  clear hE
  unfold LambdaTensors.lastAssigned
  induction ws using List.reverseRecOn with
  | nil => rfl
  | append_singleton ws p ih =>
    rw [List.foldl_append, List.foldl_cons, List.foldl_nil]
    split_ifs
    · exact hws p (by simp)
    · exact ih fun q hq => hws q (by simp [hq])

/-- Runs of the simple update with bond dimension one in a field fit, for any number of steps. -/
theorem plus_fits [NeZero N] (hx : 2 ≤ nx) (hy : 2 ≤ ny) (σ : Bond → Equiv.Perm (Fin N)) (la : Lapack ℝ) (dtau : ℝ)
    (bl : List Bond) (hbl : bl.Perm (buildBondList nx ny)) (l : List Bond) (hl : ∀ b ∈ l, b ∈ buildBondList nx ny)
    (st : NetT (Fin 1) (Fin 2) (Fin 1) ℝ × LambdaTensors (Weight 1)) (ht : UnitTable bl st.2)
    (hs : latticeState (nx := nx) (ny := ny) σ (siteTensors st.1) ≠ 0) :
    Along (SimpleFits fieldTerms dtau) (Simple.bondStep la (fun _ => none) (twoSiteGate fieldTerms dtau)) l st := by
  induction l generalizing st with
  | nil => trivial
  | cons b l ih =>
    have hb := hl b List.mem_cons_self
    obtain ⟨c1, c2⟩ := C02_bond_ends_in_cell nx ny b hb
    rw [mem_buildSiteList] at c1 c2
    have hk : b.k < 4 := by
      have := (mem_buildBondList.1 hb).2
      omega
    have hW1 := ht.weights hbl b.s1 c1
    have hW2 := ht.weights hbl b.s2 c2
    have hS : ∀ ex, Strippable (fun _ => Simple.ones 1 false) ex := fun ex d _ _ => ⟨rfl, fun _ => by norm_num [Simple.ones]⟩
    have hfit : Fits (gated (twoSiteGate fieldTerms dtau b) (bondTensor st.1 b)) := by
      obtain ⟨g, hg⟩ := fieldTerms_gate dtau b
      exact fits_product _ _ g g _ hg
    have h0 := bondTensor_ne_zero hx hy σ st.1 b hb hs
    have hex := C76_simple_update la fieldTerms dtau st b hk (bond_ends_distinct nx ny hx hy b hb) _ _ hW1 hW2 (hS _) (hS _) h0
      hfit
    have hs' := exactStep_ne_zero hx hy σ fieldTerms dtau (fun st => siteTensors st.1) _ st b hb hex hs
    refine ⟨⟨⟨_, _, hW1, hW2, hS _, hS _⟩, hfit⟩, ih (fun b' h' => hl b' (List.mem_cons_of_mem _ h')) _ ?_ hs'⟩
    have hbs : bondState (fun _ => Simple.ones 1 false) (fun _ => Simple.ones 1 false) b.k (st.1 b.s1).A (st.1 b.s2).A =
        bondTensor st.1 b := by
      unfold bondState bondTensor
      have hw : ∀ (ex : ℕ) (a : ATensor (Fin 1) (Fin 2) ℝ),
          weighted (fun _ => (Simple.ones 1 false).v) ex a = a := by
        intro ex a
        funext x u r d p
        simp [weighted, legWeight, Simple.ones]
      rw [hw, hw]
    obtain ⟨b1, b2, lambda, hr, hn, -⟩ := C40_partial la st.2 (twoSiteGate fieldTerms dtau b) b (st.1 b.s1).A (st.1 b.s2).A _ _
      hW1 hW2 (hS _) (hS _) (by rw [hbs]; exact gated_ne_zero_of fieldTerms dtau b _ h0)
    have hstep : (Simple.bondStep la (fun _ => none) (twoSiteGate fieldTerms dtau) st b).1.2 = st.2.setItem b ⟨false, lambda⟩ := by
      unfold Simple.bondStep Simple.bondUpdate
      dsimp only
      rw [hr]
      rfl
    rw [hstep]
    obtain ⟨ws, hws, he⟩ := ht
    refine ⟨ws ++ [(b, ⟨false, lambda⟩)], fun p hp => ?_, ?_⟩
    · rcases List.mem_append.1 hp with h | h
      · exact hws p h
      · rw [List.mem_singleton.1 h, normalised_one lambda hn]
        rfl
    · rw [he, List.foldl_append]
      rfl

/-- Non-vacuity of the simple case (here and at C76): spins along the first axis in a field, on any lattice and for any
number of steps. -/
example [NeZero N] (hx : 2 ≤ nx) (hy : 2 ≤ ny) (σ : Bond → Equiv.Perm (Fin N)) (la : Lapack ℝ) (dtau : ℝ) (n : ℕ) :
    OverlapsGround hx hy σ fieldTerms (fieldGround nx ny N) plusNet ∧
    Along (SimpleFits fieldTerms dtau) (Simple.bondStep la (fun _ => none) (twoSiteGate fieldTerms dtau))
      (schedule n (buildBondList nx ny)) (plusNet, LambdaTensors.init (buildBondList nx ny) (Simple.ones 1 false)) :=
  ⟨field_overlaps hx hy σ _ (plusNet_ones σ),
    plus_fits hx hy σ la dtau _ (List.Perm.refl _) _ (fun _ hb => mem_schedule hb) _ ⟨[], by simp, rfl⟩
      fun h => plusNet_ones (nx := nx) (ny := ny) σ (congrFun h _)⟩

end example_

end AceTN
