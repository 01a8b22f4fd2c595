import Verif.Lemmas.Scale
import Verif.Props.SimpleGauge
import Verif.Props.Measure
import Verif.Props.MeasureAverages

/-! C103: constants added to the Hamiltonian. -/

set_option autoImplicit false

namespace AceTN

open Spec Matrix

variable {𝕜 F : Type} [RCLike 𝕜] {P X : Type} [Fintype P] [DecidableEq P] {bD : ℕ} {nx ny : ℕ}

/-- The second model has the terms of the first, plus the constants `e` on the bonds and `f` on the sites that have a term. -/
structure Spec.ShiftedTerms (m m' : ModelTerms P 𝕜) (e : Bond → ℝ) (f : Site → ℝ) : Prop where
  two : ∀ b, m'.two b = m.two b + (e b : 𝕜) • 1
  one : ∀ s, m'.one s = (m.one s).map fun h => h + (f s : 𝕜) • 1

/-! ### The gates -/

omit [Fintype P] in
theorem bondHam_shift {m m' : ModelTerms P 𝕜} {e : Bond → ℝ} {f : Site → ℝ} (h : ShiftedTerms m m' e f) (b : Bond) :
    ∃ t : ℝ, bondHam m' b = bondHam m b + (t : 𝕜) • 1 := by
  unfold bondHam
  rw [h.one, h.one, h.two]
  cases m.one b.s1 with
  | none => exact ⟨e b, rfl⟩
  | some x =>
    cases m.one b.s2 with
    | none => exact ⟨e b, rfl⟩
    | some y =>
      refine ⟨e b + 0.25 * (f b.s1 + f b.s2), ?_⟩
      dsimp only [Option.map_some]
      ext i j
      obtain ⟨p, q⟩ := i
      obtain ⟨r, s⟩ := j
      have hk : (0.25 : 𝕜) = ((0.25 : ℝ) : 𝕜) := by
        rw [show (0.25 : ℝ) = 1 / 4 by norm_num]
        push_cast
        norm_num
      simp only [Matrix.add_apply, Matrix.smul_apply, smul_eq_mul, kroneckerMap_apply, Matrix.one_apply, Prod.mk.injEq, hk]
      by_cases h1 : p = r <;> by_cases h2 : q = s <;> (simp [h1, h2]; try ring)

theorem calculateGate_shift {n : Type} [Fintype n] [DecidableEq n] (H : Matrix n n 𝕜) (t dtau : ℝ) :
    calculateGate (H + (t : 𝕜) • 1) dtau = ((Real.exp (-dtau * t) : ℝ) : 𝕜) • calculateGate H dtau := by
  unfold calculateGate
  have e : (-(dtau : 𝕜)) • (H + (t : 𝕜) • (1 : Matrix n n 𝕜)) = (diagonal fun _ => ((-dtau * t : ℝ) : 𝕜)) + (-(dtau : 𝕜)) • H := by
    rw [smul_add, add_comm, smul_smul, Matrix.smul_one_eq_diagonal]
    congr 2
    funext i
    push_cast
    rfl
  have hcomm : Commute (diagonal fun _ : n => ((-dtau * t : ℝ) : 𝕜)) ((-(dtau : 𝕜)) • H) := by
    rw [← Matrix.smul_one_eq_diagonal]
    exact ((Commute.one_left H).smul_left _).smul_right _
  have hexp : NormedSpace.exp (diagonal fun _ : n => ((-dtau * t : ℝ) : 𝕜)) = ((Real.exp (-dtau * t) : ℝ) : 𝕜) • 1 := by
    rw [Matrix.exp_diagonal, Matrix.smul_one_eq_diagonal]
    congr 1
    funext i
    rw [Pi.coe_exp, Real.exp_eq_exp_ℝ]
    exact (NormedSpace.algebraMap_exp_comm (𝕂 := ℝ) (𝔸 := 𝕜) (-dtau * t)).symm
  rw [e, Matrix.exp_add_of_commute _ _ hcomm, hexp, Matrix.smul_mul, Matrix.one_mul]

/-- **C103 (gates).** Constants added to the terms of a Hamiltonian multiply the gates with positive numbers. -/
theorem C103_gates {m m' : ModelTerms P 𝕜} {e : Bond → ℝ} {f : Site → ℝ} (h : ShiftedTerms m m' e f) (dtau : ℝ) :
    ∃ c : Bond → ℝ, (∀ b, 0 < c b) ∧ ∀ b, twoSiteGate m' dtau b = (c b : 𝕜) • twoSiteGate m dtau b := by
  choose t ht using bondHam_shift h
  refine ⟨fun b => Real.exp (-dtau * t b), fun b => Real.exp_pos _, fun b => ?_⟩
  unfold twoSiteGate
  rw [ht b, calculateGate_shift]
  rfl

/-! ### Evolution -/

omit [Fintype P] [DecidableEq P] in
theorem expectation_smul {ι : Type} [Fintype ι] {t : ℝ} (ht : 0 < t) (O : Matrix ι ι 𝕜) (ψ : ι → 𝕜) :
    expectation O ((t : 𝕜) • ψ) = expectation O ψ := by
  unfold expectation
  have htt : (t : 𝕜) ≠ 0 := RCLike.ofReal_ne_zero.2 ht.ne'
  have ho : ∀ φ : ι → 𝕜, overlap ((t : 𝕜) • ψ) ((t : 𝕜) • φ) = (t : 𝕜) ^ 2 * overlap ψ φ := by
    intro φ
    unfold overlap
    rw [Finset.mul_sum]
    refine Finset.sum_congr rfl fun p _ => ?_
    rw [Pi.smul_apply, Pi.smul_apply, smul_eq_mul, smul_eq_mul, star_mul', RCLike.star_def, RCLike.conj_ofReal]
    ring
  rw [Matrix.mulVec_smul, ho, ho, mul_div_mul_left _ _ (pow_ne_zero 2 htt)]

variable [NeZero bD] [Nonempty P]

theorem simpleStep_smul (la : Lapack 𝕜) (oneSite : Bond → Option ((P → P → 𝕜) × (P → P → 𝕜))) {gates gates' : Bond → P → P → P → P → 𝕜}
    {b : Bond} {c : ℝ} (hc : 0 < c) (hg : gates' b = (c : 𝕜) • gates b)
    (st : NetT (Fin bD) P X 𝕜 × LambdaTensors (Simple.Weight bD)) :
    Simple.bondStep la oneSite gates' st b = Simple.bondStep (la.scaled c hc) oneSite gates st b := by
  unfold Simple.bondStep Simple.bondUpdate Simple.bondTensors
  simp only [hg, splitBond_smul la _ _ _ hc]

theorem simpleStep_homogeneous {la : Lapack 𝕜} (hla : Homogeneous la) (oneSite : Bond → Option ((P → P → 𝕜) × (P → P → 𝕜)))
    {gates : Bond → P → P → P → P → 𝕜} {b : Bond} {c : ℝ} (hc : 0 < c) (st : NetT (Fin bD) P X 𝕜 × LambdaTensors (Simple.Weight bD)) :
    Simple.bondStep (la.scaled c hc) oneSite gates st b = Simple.bondStep la oneSite gates st b := by
  unfold Simple.bondStep Simple.bondUpdate Simple.bondTensors
  simp only [Homogeneous.splitBond hla _ _ _ hc]

/-- **C103 (simple update, any decompositions).** Two calls of `evolve` with the simple update from one network, with Hamiltonians that
differ by constants and with different routines for the decompositions: if along the first one the gates do not annihilate the two-site
tensors and cutting off singular values is unambiguous, both raise the same exception or none, leave the same bond list, and on every
finite lattice that covers the cell the evolved states are positive multiples of each other, so all operators have the same expectation
values. -/
theorem C103_simple (hx : 2 ≤ nx) (hy : 2 ≤ ny) (la la' : Lapack 𝕜) (cx : Bool) {m m' : ModelTerms P 𝕜} {e : Bond → ℝ} {f : Site → ℝ}
    (hm : ShiftedTerms m m' e f) (dtau : ℝ) (n : ℕ) (bl : List Bond) (hbl : bl.Perm (buildBondList nx ny)) (net : NetT (Fin bD) P X 𝕜)
    (hcut : Along (ClearCut (twoSiteGate m dtau)) (Simple.bondStep la (fun _ => none) (twoSiteGate m dtau)) (schedule n bl)
      (net, LambdaTensors.init bl (Simple.ones bD cx))) :
    let r := Simple.evolve la cx (fun _ => none) (twoSiteGate m dtau) n (bl, net)
    let r' := Simple.evolve la' cx (fun _ => none) (twoSiteGate m' dtau) n (bl, net)
    r'.2.2 = r.2.2 ∧ r'.1 = r.1 ∧ ∀ (N : ℕ) (ρ : Bond → Equiv.Perm (Fin N)),
      let ψ := latticeState (nx := nx) (ny := ny) ρ (siteTensors r.2.1)
      let ψ' := latticeState (nx := nx) (ny := ny) ρ (siteTensors r'.2.1)
      (∃ c : ℝ, 0 < c ∧ ψ' = (c : 𝕜) • ψ) ∧ ∀ O, expectation O ψ' = expectation O ψ := by
  intro r r'
  obtain ⟨c, hc, hg⟩ := C103_gates hm dtau
  obtain ⟨e2, e1, g', hU, hJ, hE⟩ : r'.2.2 = r.2.2 ∧ r'.1 = r.1 ∧ ∃ g' : Gauge (Fin bD) P 𝕜, g'.U = (Gauge.id (Fin bD) P 𝕜).U ∧
      g'.Joined nx ny ∧ g'.Equiv (ScalarMap.id 𝕜) nx ny (siteTensors r.2.1) (siteTensors r'.2.1) := by
    have hcell : ∀ b ∈ buildBondList nx ny, InCell nx ny b.s1 ∧ InCell nx ny b.s2 := by
      intro b hb
      obtain ⟨h1, h2⟩ := C02_bond_ends_in_cell nx ny b hb
      rw [mem_buildSiteList] at h1 h2
      exact ⟨h1, h2⟩
    have h0 : SameState (ScalarMap.id 𝕜) (Gauge.id (Fin bD) P 𝕜).U nx ny (net, LambdaTensors.init bl (Simple.ones bD cx))
        (net, LambdaTensors.init bl (Simple.ones bD cx)) (Gauge.id (Fin bD) P 𝕜) := by
      refine ⟨rfl, ⟨bl, _, [], hbl, rfl⟩, rfl, gauge_id_joined, gauge_id_equiv _, fun s hs k w hw x y _ => ?_⟩
      obtain ⟨b, ⟨hb, hE⟩, -⟩ := C03_unique_bond_per_side nx ny s hs k.val k.isLt
      have h := C03_weight_lookup nx ny bl hbl (Simple.ones bD cx) [] s hs k.val k.isLt b hb hE
      obtain rfl := Except.ok.inj (h.symm.trans hw)
      rfl
    obtain ⟨e1, e2, g', q⟩ := evolveLoop_rel (Simple.bondStep la (fun _ => none) (twoSiteGate m dtau))
      (Simple.bondStep la' (fun _ => none) (twoSiteGate m' dtau))
      (fun st st' => ∃ g', SameState (ScalarMap.id 𝕜) (Gauge.id (Fin bD) P 𝕜).U nx ny st st' g')
      (ClearCut (twoSiteGate m dtau)) (fun b => b ∈ buildBondList nx ny)
      (fun st st' b ⟨g', h⟩ hb hQ => by
        rw [simpleStep_smul la' _ (hc b) (hg b)]
        exact bondStep_turn hx hy la (la'.scaled (c b) (hc b)) h hb
          (twoSiteGate_turn (Gauge.id (Fin bD) P 𝕜).unitU (turnedTerms_id m) dtau hb (hcell b hb).1 (hcell b hb).2) hQ)
      n bl (fun b hb => hbl.subset hb) _ _ ⟨_, h0⟩ hcut
    exact ⟨e2, e1, g', q.unit, q.joined, q.equiv⟩
  refine ⟨e2, e1, fun N ρ => ?_⟩
  intro ψ ψ'
  obtain ⟨t, ht, h⟩ := C84_state ρ (ScalarMap.id 𝕜) g' hJ _ _ hE
  rw [hU] at h
  have h : ψ' = (t : 𝕜) • ψ := by
    refine h.trans ?_
    congr 1
    exact turnedState_id _
  exact ⟨⟨t, ht, h⟩, fun O => by rw [h, expectation_smul ht]⟩

/-- **C103 (simple update).** If the decompositions of a multiple of a matrix are the multiples of those of the matrix, both calls return
the same network. -/
theorem C103_simple_same {la : Lapack 𝕜} (hla : Homogeneous la) (cx : Bool) {m m' : ModelTerms P 𝕜} {e : Bond → ℝ} {f : Site → ℝ}
    (hm : ShiftedTerms m m' e f) (dtau : ℝ) (n : ℕ) (st : List Bond × NetT (Fin bD) P X 𝕜) :
    Simple.evolve la cx (fun _ => none) (twoSiteGate m' dtau) n st = Simple.evolve la cx (fun _ => none) (twoSiteGate m dtau) n st := by
  obtain ⟨c, hc, hg⟩ := C103_gates hm dtau
  have h : Simple.bondStep (X := X) (bD := bD) la (fun _ => none) (twoSiteGate m' dtau) = Simple.bondStep la (fun _ => none) (twoSiteGate m dtau) := by
    funext s b
    rw [simpleStep_smul la _ (hc b) (hg b), simpleStep_homogeneous hla _ (hc b)]
  unfold Simple.evolve
  rw [h]

/-- **C103 (full update).** For the full update with such decompositions and a stopping rule that depends on the ratio of costs only,
whatever the moves of the boundary: both calls return the same network and raise the same exception or none. -/
theorem C103_full [Fintype X] {la : Lapack 𝕜} (hla : Homogeneous la) (fo : Als.FloatOps F) (rep : ℝ → F) (cfg : Full.Settings F)
    (hr : RatioTest fo rep cfg.als_tol) {m m' : ModelTerms P 𝕜} {e : Bond → ℝ} {f : Site → ℝ} (hm : ShiftedTerms m m' e f) (dtau : ℝ)
    (absorb : ℕ → Bond → NetT (Fin bD) P X 𝕜 → NetT (Fin bD) P X 𝕜 × Option PyErr) (n : ℕ) (st : List Bond × NetT (Fin bD) P X 𝕜) :
    Full.evolve la fo rep cfg (fun _ => none) (twoSiteGate m' dtau) absorb n st =
      Full.evolve la fo rep cfg (fun _ => none) (twoSiteGate m dtau) absorb n st := by
  obtain ⟨c, hc, hg⟩ := C103_gates hm dtau
  have h : Full.bondStep la fo rep cfg (fun _ => none) (twoSiteGate m' dtau) absorb =
      Full.bondStep la fo rep cfg (fun _ => none) (twoSiteGate m dtau) absorb := by
    funext s b
    have hu : ∀ a1 a2 : ATensor (Fin bD) P 𝕜, Full.fullTensorUpdate la fo rep cfg s.1 b.s1 b.s2 b.k (twoSiteGate m' dtau b) a1 a2 =
        Full.fullTensorUpdate la fo rep cfg s.1 b.s1 b.s2 b.k (twoSiteGate m dtau b) a1 a2 := by
      intro a1 a2
      unfold Full.fullTensorUpdate
      dsimp only
      rw [hg b, updateReduced_smul hla fo rep cfg hr _ _ _ _ _ (hc b)]
    unfold Full.bondStep
    simp only [hu]
  unfold Full.evolve
  rw [h]

/-! ### The energy -/

namespace Meas

/-- **C103 (energy).** `measure` of one network for two Hamiltonians that differ by constants (and the same observables): the energy per
site differs by the sum of the constants per site, everything else is the same. -/
theorem C103_measure {B Y : Type} [Fintype B] [Fintype Y] {pD : ℕ} (init : Fin pD → Fin pD → Fin pD → Fin pD → 𝕜) (net : NetT B (Fin pD) Y 𝕜)
    (model model' : MeasModel (Fin pD → Fin pD → 𝕜) (Fin pD → Fin pD → Fin pD → Fin pD → 𝕜)) (e : Bond → ℝ) (f : Site → ℝ)
    (ho1 : model'.one_site_observables = model.one_site_observables) (ho2 : model'.two_site_observables = model.two_site_observables)
    (h1 : ∀ s, model'.one_site_hamiltonian s = (model.one_site_hamiltonian s).map fun (h : Fin pD → Fin pD → 𝕜) p q => h p q + ((f s : ℝ) : 𝕜) * idOp p q)
    (hf : ∀ s, model.one_site_hamiltonian s = none → f s = 0)
    (h2 : ∀ b, model'.two_site_hamiltonian b = fun p q p' q' => model.two_site_hamiltonian b p q p' q' + e b * idOp2 p q p' q')
    (sites : List Site) (bonds : List Bond) (hb : bonds ≠ []) (hcl : Clean model sites bonds)
    (hn1 : ∀ s ∈ sites, siteNorm (buildSiteRdm net s) ≠ 0)
    (hn2 : ∀ b ∈ bonds, bondNorm (buildBondRdm init net b.s1 b.s2 b.k) ≠ 0) :
    ∃ d d', measure model (siteValue net) (bondValue init net) sites bonds = .ok d ∧
      measure model' (siteValue net) (bondValue init net) sites bonds = .ok d' ∧
      (∀ name, name ≠ "Energy" → d'.get? name = d.get? name) ∧
      ∃ E, d.get? "Energy" = some E ∧ d'.get? "Energy" = some (E + ((sites.map f).sum + (bonds.map e).sum) / sites.length) := by
  have hcl' : Clean model' sites bonds := by
    constructor <;> (first | rw [ho1] | skip) <;> (first | rw [ho2] | skip)
    exacts [hcl.nodup1, hcl.nodup2, hcl.same1, hcl.same2, hcl.energy1, hcl.energy2, hcl.disjoint]
  obtain ⟨d, k1, k2, k3, k4, k5⟩ := C48_partial model (siteValue net) (bondValue init net) sites bonds hb hcl
  obtain ⟨d', k1', k2', k3', k4', k5'⟩ := C48_partial model' (siteValue net) (bondValue init net) sites bonds hb hcl'
  rw [ho1] at k3' k5'
  rw [ho2] at k4' k5'
  refine ⟨d, d', k1, k1', fun name hne => ?_, _, k2, ?_⟩
  · by_cases m1 : name ∈ (model.one_site_observables (0, 0)).keys
    · rw [k3 name m1, k3' name m1]
    · by_cases m2 : ∃ b ∈ bonds, name ∈ (model.two_site_observables b).keys
      · obtain ⟨b, hbm, hbn⟩ := m2
        rw [k4 b hbm name hbn, k4' b hbm name hbn]
      · push Not at m2
        rw [k5 name hne m1 m2, k5' name hne m1 m2]
  · rw [k2']
    congr 1
    unfold energyPerSite
    have es : ∀ s ∈ sites, siteEnergy model' (siteValue net) s = siteEnergy model (siteValue net) s + f s := by
      intro s hsm
      unfold siteEnergy
      rw [h1 s]
      cases hh : model.one_site_hamiltonian s with
      | none => exact (by rw [hf s hh, add_zero] : (0 : ℝ) = 0 + f s)
      | some h => exact C47_site_shift net s (hn1 s hsm) (f s) h
    have eb : ∀ b ∈ bonds, bondValue init net b (model'.two_site_hamiltonian b) = bondValue init net b (model.two_site_hamiltonian b) + e b := by
      intro b hbm
      rw [h2 b]
      exact C47_bond_shift init net b (hn2 b hbm) (e b) _
    rw [List.map_congr_left es, List.map_congr_left eb, List.sum_map_add, List.sum_map_add]
    ring

end Meas

/-! ### The hypotheses are met -/

/-- The size used to bring a matrix to a standard form. -/
noncomputable def size {m n : Type} [Fintype m] [Fintype n] (A : Matrix m n 𝕜) : ℝ := Real.sqrt (∑ i, ∑ j, ‖A i j‖ ^ 2)

omit [Fintype P] [DecidableEq P] [NeZero bD] [Nonempty P] in
theorem size_smul {m n : Type} [Fintype m] [Fintype n] {c : ℝ} (hc : 0 < c) (A : Matrix m n 𝕜) : size ((c : 𝕜) • A) = c * size A := by
  unfold size
  have e : ∀ i j, ‖((c : 𝕜) • A) i j‖ ^ 2 = c ^ 2 * ‖A i j‖ ^ 2 := by
    intro i j
    rw [Matrix.smul_apply, smul_eq_mul, norm_mul, RCLike.norm_ofReal, abs_of_pos hc, mul_pow]
  simp only [e, ← Finset.mul_sum]
  rw [Real.sqrt_mul (by positivity), Real.sqrt_sq hc.le]

theorem size_eq_zero {m n : Type} [Fintype m] [Fintype n] {A : Matrix m n 𝕜} (h : size A = 0) : A = 0 := by
  unfold size at h
  rw [Real.sqrt_eq_zero (Finset.sum_nonneg fun _ _ => Finset.sum_nonneg fun _ _ => sq_nonneg _)] at h
  ext i j
  have h1 := (Finset.sum_eq_zero_iff_of_nonneg fun _ _ => Finset.sum_nonneg fun _ _ => sq_nonneg _).1 h i (Finset.mem_univ _)
  have h2 := (Finset.sum_eq_zero_iff_of_nonneg fun _ _ => sq_nonneg _).1 h1 j (Finset.mem_univ _)
  exact norm_eq_zero.1 (pow_eq_zero_iff two_ne_zero |>.1 h2)

theorem size_back {m n : Type} [Fintype m] [Fintype n] (A : Matrix m n 𝕜) : ((size A : ℝ) : 𝕜) • ((size A)⁻¹ : 𝕜) • A = A := by
  by_cases h : size A = 0
  · rw [size_eq_zero h, smul_zero, smul_zero]
  · rw [smul_smul, mul_inv_cancel₀ (RCLike.ofReal_ne_zero.2 h), one_smul]

/-- There are routines that treat multiples alike: they decompose the matrix divided by its size. -/
theorem exists_homogeneous : ∃ la : Lapack 𝕜, Homogeneous la := by
  obtain ⟨la⟩ := nonempty_lapack (𝕜 := 𝕜)
  refine ⟨{ la with
    qr := fun A => ((la.qr (((size A : ℝ) : 𝕜)⁻¹ • A)).1, ((size A : ℝ) : 𝕜) • (la.qr (((size A : ℝ) : 𝕜)⁻¹ • A)).2)
    qr_ok := fun A => by
      have h := isQR_smul (la.qr_ok (((size A : ℝ) : 𝕜)⁻¹ • A)) ((size A : ℝ) : 𝕜)
      rwa [size_back] at h
    svd := fun A => ((la.svd (((size A : ℝ) : 𝕜)⁻¹ • A)).1, fun i => size A * (la.svd (((size A : ℝ) : 𝕜)⁻¹ • A)).2.1 i,
      (la.svd (((size A : ℝ) : 𝕜)⁻¹ • A)).2.2)
    svd_ok := fun A => by
      have h := isSVD_smul (la.svd_ok (((size A : ℝ) : 𝕜)⁻¹ • A)) (Real.sqrt_nonneg _ : 0 ≤ size A)
      change IsSVD (((size A : ℝ) : 𝕜) • (((size A : ℝ) : 𝕜)⁻¹ • A)) _ _ _ at h
      rwa [size_back] at h }, ?_, ?_⟩
  · intro m n _ _ _ _ c A hc
    dsimp only
    have hc' : (c : 𝕜) ≠ 0 := RCLike.ofReal_ne_zero.2 hc.ne'
    rw [size_smul hc, smul_smul, RCLike.ofReal_mul, mul_inv, mul_assoc, mul_comm _ (c : 𝕜), ← mul_assoc, inv_mul_cancel₀ hc', one_mul,
      smul_smul]
  · intro m n _ _ _ _ c A hc
    dsimp only
    have hc' : (c : 𝕜) ≠ 0 := RCLike.ofReal_ne_zero.2 hc.ne'
    rw [size_smul hc, smul_smul, RCLike.ofReal_mul, mul_inv, mul_assoc, mul_comm _ (c : 𝕜), ← mul_assoc, inv_mul_cancel₀ hc', one_mul]
    simp only [mul_assoc]

/-- Exact arithmetic meets the condition on the stopping rule. -/
example (tol : ℝ) : RatioTest (F := ℝ) ⟨fun x y => x - y, fun x => |x|, fun x y => x / y, fun x y => decide (x < y)⟩ id tol := by
  intro t x y ht
  unfold Als.relErr
  dsimp only [id]
  rw [← mul_sub, abs_mul, abs_mul, abs_of_pos ht, mul_div_mul_left _ _ ht.ne']

/-- Spins in a field with a constant on every bond and site. -/
noncomputable def shiftedField (e f : ℝ) : ModelTerms (Fin 2) ℝ where
  two b := fieldTerms.two b + e • 1
  one s := (fieldTerms.one s).map fun h => h + f • 1

example (e f : ℝ) : ShiftedTerms fieldTerms (shiftedField e f) (fun _ => e) (fun _ => f) := ⟨fun _ => rfl, fun _ => rfl⟩

/-- The hypotheses of C103 (simple update, any decompositions). -/
example {N : ℕ} [NeZero N] (hx : 2 ≤ nx) (hy : 2 ≤ ny) (ρ : Bond → Equiv.Perm (Fin N)) (la la' : Lapack ℝ) (dtau e f : ℝ) (n : ℕ) :
    ∃ c : ℝ, 0 < c ∧
      latticeState (nx := nx) (ny := ny) ρ (siteTensors (Simple.evolve la' false (fun _ => none) (twoSiteGate (shiftedField e f) dtau) n
        (buildBondList nx ny, plusNet)).2.1) =
      c • latticeState ρ (siteTensors (Simple.evolve la false (fun _ => none) (twoSiteGate fieldTerms dtau) n
        (buildBondList nx ny, plusNet)).2.1) := by
  have hs : latticeState (nx := nx) (ny := ny) ρ (siteTensors plusNet) ≠ 0 := fun h => plusNet_ones (nx := nx) (ny := ny) ρ (congrFun h _)
  exact ((C103_simple hx hy la la' false (e := fun _ => e) (f := fun _ => f) ⟨fun _ => rfl, fun _ => rfl⟩ dtau n _ (List.Perm.refl _)
    plusNet (along_clear hx hy ρ la fieldTerms dtau _ (fun _ hb => mem_schedule hb) _ hs
      (plus_fits hx hy ρ la dtau _ (List.Perm.refl _) _ (fun _ hb => mem_schedule hb) _ ⟨[], by simp, rfl⟩ hs))).2.2 N ρ).1

theorem productBond_norm {pD : ℕ} (init : Fin pD → Fin pD → Fin pD → Fin pD → 𝕜) (st : Fin pD → 𝕜) (b : Bond) :
    bondNorm (buildBondRdm init (fun _ => productSite st) b.s1 b.s2 b.k) = normSq st * normSq st := by
  unfold bondNorm
  rw [C46_bond]
  have hp : ∀ k : ℤ, bondPermute k (productSite st).A = (productSite st).A := fun k => rfl
  have : (∑ p, ∑ q, Spec.bondRdm (𝕜 := 𝕜) (fun _ _ : Unit => 1) (fun _ _ _ _ : Unit => 1) (fun _ _ _ _ : Unit => 1) (fun _ _ : Unit => 1)
      (fun _ _ _ _ : Unit => 1) (productSite st).A (fun _ _ : Unit => 1) (fun _ _ _ _ : Unit => 1) (fun _ _ _ _ : Unit => 1)
      (fun _ _ : Unit => 1) (fun _ _ _ _ : Unit => 1) (productSite st).A p q p q) = ((normSq st * normSq st : ℝ) : 𝕜) := by
    unfold Spec.bondRdm productSite normSq
    push_cast
    rw [Finset.sum_mul_sum]
    refine Finset.sum_congr rfl fun p _ => Finset.sum_congr rfl fun q _ => ?_
    rw [← RCLike.mul_conj, ← RCLike.mul_conj]
    simp
    ring
  refine (congrArg RCLike.re this).trans ?_
  rw [RCLike.ofReal_re]

/-- Ising spins in a field, with their observables and constants added to the terms. -/
noncomputable def isingMeas (e : Bond → ℝ) (f : Site → ℝ) : MeasModel (Fin 2 → Fin 2 → ℝ) (Fin 2 → Fin 2 → Fin 2 → Fin 2 → ℝ) where
  one_site_observables _ := [("sx", !![0, 1; 1, 0])]
  two_site_observables _ := [("zz", fun p q p' q' => if p = p' ∧ q = q' then (if p = q then 1 else -1) else 0)]
  one_site_hamiltonian s := some fun p q => (!![0, 1; 1, 0] : Matrix (Fin 2) (Fin 2) ℝ) p q + ((f s : ℝ) : ℝ) * idOp p q
  two_site_hamiltonian b := fun p q p' q' => (if p = p' ∧ q = q' then (if p = q then -1 else 1) else 0) + e b * idOp2 p q p' q'

/-- The hypotheses of C103 (energy): a product state, an Ising coupling in a field, two observables. -/
example (f : Site → ℝ) (e : Bond → ℝ) (init : Fin 2 → Fin 2 → Fin 2 → Fin 2 → ℝ) (sites : List Site) (bonds : List Bond) (hb : bonds ≠ []) :
    ∃ d d', Meas.measure (isingMeas 0 0) (siteValue fun _ => productSite (![1, 2] : Fin 2 → ℝ))
        (bondValue init fun _ => productSite (![1, 2] : Fin 2 → ℝ)) sites bonds = .ok d ∧
      Meas.measure (isingMeas e f) (siteValue fun _ => productSite (![1, 2] : Fin 2 → ℝ))
        (bondValue init fun _ => productSite (![1, 2] : Fin 2 → ℝ)) sites bonds = .ok d' ∧
      ∃ E, d.get? "Energy" = some E ∧ d'.get? "Energy" = some (E + ((sites.map f).sum + (bonds.map e).sum) / sites.length) := by
  have hns : normSq (![1, 2] : Fin 2 → ℝ) ≠ 0 := by
    simp [normSq, Fin.sum_univ_two]
    norm_num
  have h := Meas.C103_measure init (fun _ => productSite (![1, 2] : Fin 2 → ℝ)) (isingMeas 0 0) (isingMeas e f) e f rfl rfl
    (fun s => by simp [isingMeas]) (fun _ h => absurd h (by simp [isingMeas])) (fun b => by simp [isingMeas]) sites bonds hb
    ⟨fun _ => by simp [isingMeas, PyDict.keys], fun _ => by simp [isingMeas, PyDict.keys], fun _ _ _ => Iff.rfl, fun _ _ _ _ _ => Iff.rfl,
      by simp [isingMeas, PyDict.keys], fun _ _ => by simp [isingMeas, PyDict.keys],
      fun _ _ k hk => by simp [isingMeas, PyDict.keys] at hk ⊢; subst hk; decide⟩
    (fun s _ => by rw [productSite_norm _ _ _ rfl]; exact hns) (fun b _ => by rw [productBond_norm]; exact mul_ne_zero hns hns)
  obtain ⟨d, d', a, b, -, c⟩ := h
  exact ⟨d, d', a, b, c⟩

end AceTN
