import Verif.Lemmas.BondLipschitz
import Verif.Lemmas.SmallGate
import Verif.Props.QuasiOptimal
import Verif.Props.Truncation

/-!
# C97: errors of bonds and errors of the lattice

The error of an update on the whole lattice is bounded by a multiple of the local error of the bond, which is a multiple of the best one.
-/

set_option autoImplicit false

namespace AceTN
open Spec Trot Full
open scoped Matrix.Norms.L2Operator

variable {𝕜 : Type} [RCLike 𝕜] {P : Type} [Fintype P] [DecidableEq P] {nx ny N : ℕ}

section localError

variable {B X : Type} [Fintype B]

omit [DecidableEq P] in
theorem normSq8_congr_norm {S T : B → B → B → B → B → B → P → P → 𝕜} (h : ∀ u r d l' u' d' p q, ‖S u r d l' u' d' p q‖ = ‖T u r d l' u' d' p q‖) :
    normSq8 S = normSq8 T := by
  unfold normSq8
  simp only [h]

theorem entry_le_normSq8 (T : B → B → B → B → B → B → P → P → 𝕜) (u r d l' u' d' : B) (p q : P) :
    ‖T u r d l' u' d' p q‖ ≤ Real.sqrt (normSq8 T) := by
  refine Real.le_sqrt_of_sq_le ?_
  rw [normSq8_inner]
  have key : ∀ (ι : Type) [Fintype ι] (f : ι → ℝ), (∀ i, 0 ≤ f i) → ∀ i, f i ≤ ∑ i, f i := fun ι _ f hf i =>
    Finset.single_le_sum (fun i _ => hf i) (Finset.mem_univ i)
  refine le_trans ?_ (key _ _ (fun _ => by positivity) r)
  refine le_trans ?_ (key _ _ (fun _ => by positivity) d)
  refine le_trans ?_ (key _ _ (fun _ => by positivity) u)
  refine le_trans ?_ (key _ _ (fun _ => by positivity) d')
  refine le_trans ?_ (key _ _ (fun _ => by positivity) l')
  refine le_trans ?_ (key _ _ (fun _ => by positivity) u')
  refine le_trans ?_ (key _ _ (fun _ => by positivity) p)
  exact key _ (fun q => ‖T u r d l' u' d' p q‖ ^ 2) (fun _ => by positivity) q

/-- **C97 (local errors).** Real and complex tensors, every lattice covering the cell: for every bond there is a factor such that for all
gates of bounded size and all updates of the two site tensors of the bond with a bounded local error, the distance of the state of the lattice from
the gate applied to the state before is at most the factor times the local error. -/
theorem C97_local [Nonempty B] (hx : 2 ≤ nx) (hy : 2 ≤ ny) (σ : Bond → Equiv.Perm (Fin N)) (net : NetT B P X 𝕜) (b : Bond)
    (hb : b ∈ buildBondList nx ny) (Γ H : ℝ) : ∃ D : ℝ, 0 ≤ D ∧ ∀ (gate : P → P → P → P → 𝕜) (net' : NetT B P X 𝕜) (κ : ℝ), 0 < κ →
      (∑ p, ∑ q, ∑ r, ∑ s, ‖gate p q r s‖ ^ 2) ≤ Γ → (∀ s, s ≠ b.s1 → s ≠ b.s2 → (net' s).A = (net s).A) →
      normSq8 (fun u r d l' u' d' p q => (κ : 𝕜) * bondTensor net' b u r d l' u' d' p q -
        gated gate (bondTensor net b) u r d l' u' d' p q) ≤ H →
      rayDist (latticeState (nx := nx) (ny := ny) σ (siteTensors net'))
        (((coveringOps hx hy σ).everywhere b (gateMatrix gate).transpose).mulVec (latticeState σ (siteTensors net))) ≤
        D * Real.sqrt (normSq8 fun u r d l' u' d' p q => (κ : 𝕜) * bondTensor net' b u r d l' u' d' p q -
          gated gate (bondTensor net b) u r d l' u' d' p q) := by
  obtain ⟨D, hD, h⟩ := latticeState_close hx hy σ b hb (siteTensors net)
    (R := Real.sqrt (Γ * normSq8 (bondTensor net b))) (H := Real.sqrt H) (Real.sqrt_nonneg _) (Real.sqrt_nonneg _)
  refine ⟨D, hD, fun gate net' κ hκ hΓ hoff hH => ?_⟩
  have hg : ∀ w1 w2 p q, gatedPair gate (bondPair b.k (siteTensors net b.s1) (siteTensors net b.s2)) w1 w2 p q =
      gated gate (bondTensor net b) (w1 (side b.k 1)) (w1 (side b.k 2)) (w1 (side b.k 3)) (w2 (side b.k 0)) (w2 (side b.k 1))
        (w2 (side b.k 3)) p q := by
    intro w1 w2 p q
    unfold gated gatedPair
    simp only [bondPair_bondTensor]
  refine h gate (siteTensors net') κ _ hκ (Real.sqrt_nonneg _) (Real.sqrt_le_sqrt hH) hoff (fun w1 w2 p q => ?_) fun w1 w2 p q => ?_
  · rw [hg]
    refine (entry_le_normSq8 (gated gate (bondTensor net b)) _ _ _ _ _ _ p q).trans (Real.sqrt_le_sqrt ?_)
    refine (gated_le gate _).trans (mul_le_mul_of_nonneg_right ?_ (normSq8_nonneg _))
    simp only [Fintype.sum_prod_type]
    exact hΓ
  · rw [hg, bondPair_bondTensor]
    exact entry_le_normSq8 (fun u r d l' u' d' p q => (κ : 𝕜) * bondTensor net' b u r d l' u' d' p q -
          gated gate (bondTensor net b) u r d l' u' d' p q) _ _ _ _ _ _ p q

end localError

section full

variable {F : Type} {bD pD : ℕ} [NeZero bD] [NeZero pD]

/-- What a full update of a bond in a run does to the site tensors, in terms of the update of reduced tensors. -/
theorem fullBondStep_recomposed (hx : 2 ≤ nx) (hy : 2 ≤ ny) (la : Lapack 𝕜) (s : Net (Ten (Fin bD) (Fin pD) 𝕜) × ℕ) (h : FitNet nx ny s.1)
    {b : Bond} (hb : b ∈ buildBondList nx ny) : ∃ (a1 a2 : ATensor (Fin bD) (Fin pD) 𝕜) (n12 : Fin (nD (Fin bD) (Fin pD)) →
      Fin (nD (Fin bD) (Fin pD)) → Fin (nD (Fin bD) (Fin pD)) → Fin (nD (Fin bD) (Fin pD)) → 𝕜), bondTensor (bare s.1) b = twoSite a1 a2 ∧
      ∀ (F : Type) (st : ProjSettings 𝕜) (pk : ProjKind) (ω : ℕ → Draws (Fin bD) 𝕜) (fo : Als.FloatOps F) (rep : ℝ → F) (cfg : Settings F)
        (gates : Bond → Fin pD → Fin pD → Fin pD → Fin pD → 𝕜),
        ((fullBondStep st pk ω la fo rep cfg none gates s b).2 = none → ∃ x1 x2, recomposed la a1 a2 (updateReduced la fo rep cfg bD_le
          (decompose la a1 a2).a1r (decompose la a1 a2).a2r n12 (gates b)) = some (.ok (x1, x2))) ∧
        ∀ x1 x2, recomposed la a1 a2 (updateReduced la fo rep cfg bD_le
          (decompose la a1 a2).a1r (decompose la a1 a2).a2r n12 (gates b)) = some (.ok (x1, x2)) →
          (fullBondStep st pk ω la fo rep cfg none gates s b).2 = none ∧
          (∀ s', s' ≠ b.s1 → s' ≠ b.s2 → (bare (fullBondStep st pk ω la fo rep cfg none gates s b).1.1 s').A = (bare s.1 s').A) ∧
          bondTensor (bare (fullBondStep st pk ω la fo rep cfg none gates s b).1.1) b = twoSite x1 x2 := by
  have hne := bond_ends_distinct nx ny hx hy b hb
  obtain ⟨rfl, rfl, f, hw⟩ := h
  have hx0 : 0 < s.1.nx := by omega
  have hy0 : 0 < s.1.ny := by omega
  obtain ⟨c1, c2⟩ := C02_bond_ends_in_cell _ _ b hb
  rw [mem_buildSiteList] at c1 c2
  obtain ⟨a1, h1⟩ := hw.site _ c1
  obtain ⟨a2, h2⟩ := hw.site _ c2
  obtain ⟨n12, hn⟩ : ∃ n, numNorm s.1 b (decompose la (bondPermute b.k a1) (bondPermute b.k a2)).a1q
      (decompose la (bondPermute b.k a1) (bondPermute b.k a2)).a2q = .ok n := by
    obtain ⟨p, K, hK⟩ := bond_cellSite hx0 hy0 hb
    rw [hK]
    exact numNorm_wired hw hx0 hy0 p K _ _
  refine ⟨bondPermute b.k a1, bondPermute b.k a2, n12, ?_, fun F st pk ω fo rep cfg gates => ?_⟩
  · unfold bondTensor
    rw [bare_A h1, bare_A h2]
  have h4 := (fullBondStep_wired st pk ω la fo rep cfg none gates s hw hx0 hy0 hb).2.2.2
  have hu : numUpdate la fo rep cfg none gates s.1 b = (recomposed la (bondPermute b.k a1) (bondPermute b.k a2)
      (updateReduced la fo rep cfg bD_le (decompose la (bondPermute b.k a1) (bondPermute b.k a2)).a1r
      (decompose la (bondPermute b.k a1) (bondPermute b.k a2)).a2r n12 (gates b))).map fun r => do
        let (a1, a2) ← r
        return (bondPermute (4 - (b.k : ℤ)) a1, bondPermute (4 - (b.k : ℤ)) a2) := by
    unfold numUpdate numTensorUpdate
    rw [h1, h2]
    dsimp only
    rw [hn]
    rfl
  have hback : ∀ c : ATensor (Fin bD) (Fin pD) 𝕜, bondPermute b.k (bondPermute (4 - b.k) c) = c := fun c => by
    rw [bondPermute_add, bondPermute_mod _ 0 (by omega), bondPermute_zero]
  constructor
  · intro hok
    generalize hr : recomposed la (bondPermute b.k a1) (bondPermute b.k a2) (updateReduced la fo rep cfg bD_le
      (decompose la (bondPermute b.k a1) (bondPermute b.k a2)).a1r (decompose la (bondPermute b.k a1) (bondPermute b.k a2)).a2r n12 (gates b)) = o
    rw [hr] at hu
    cases o with
    | none =>
      rw [show numUpdate la fo rep cfg none gates s.1 b = none from hu] at h4
      exact absurd hok h4.1
    | some r =>
      cases r with
      | error e =>
        rw [show numUpdate la fo rep cfg none gates s.1 b = some (.error e) from hu] at h4
        exact absurd hok h4.1
      | ok x => exact ⟨x.1, x.2, rfl⟩
  · intro x1 x2 hr
    rw [hr] at hu
    rw [show numUpdate la fo rep cfg none gates s.1 b =
      some (.ok (bondPermute (4 - (b.k : ℤ)) x1, bondPermute (4 - (b.k : ℤ)) x2)) from hu] at h4
    have hA := h4.2
    dsimp only at hA
    have hA' : ∀ s' : Site, (fullBondStep st pk ω la fo rep cfg none gates s b).1.1.A s' =
        if s' = b.s2 then .site (bondPermute (4 - (b.k : ℤ)) x2) else if s' = b.s1 then .site (bondPermute (4 - (b.k : ℤ)) x1) else s.1.A s' :=
      fun s' => congrFun hA s'
    refine ⟨h4.1, fun s' h1 h2 => ?_, ?_⟩
    · refine bare_congr ?_
      rw [hA' s', if_neg h2, if_neg h1]
    · have e1 := bare_A ((hA' b.s1).trans ((if_neg hne).trans (if_pos rfl)))
      have e2 := bare_A ((hA' b.s2).trans (if_pos rfl))
      unfold bondTensor
      rw [e1, e2, hback, hback]

/-- **C97 (full update).** Real dtypes, either solver: for every network whose tensors fit, every bond of the cell and
every bound on the gate there is a factor such that every full update of the bond that does not raise, with every gate within the bound, every
tolerance and every regularisation up to one, leaves a state of the lattice whose error is at most the factor times the square root of the least
squared local error that two site tensors of the same dimensions can have, plus the regularisation. -/
theorem C97_full_partial (hx : 2 ≤ nx) (hy : 2 ≤ ny) (σ : Bond → Equiv.Perm (Fin N)) (la : Lapack ℝ) (cfg : Settings F)
    (hni : 0 < cfg.als_niter) (hcut : 0 < cfg.positive_approx_cutoff)
    (hatol : cfg.use_gauge_fix = true → cfg.gauge_fix_atol < Real.sqrt (cfg.positive_approx_cutoff * nD (Fin bD) (Fin pD)))
    (s : Net (Ten (Fin bD) (Fin pD) ℝ) × ℕ) (h : FitNet nx ny s.1) (b : Bond) (hb : b ∈ buildBondList nx ny) (Γ : ℝ) :
    ∃ D : ℝ, 0 ≤ D ∧ ∀ (st : ProjSettings ℝ) (pk : ProjKind) (ω : ℕ → Draws (Fin bD) ℝ) (fo : Als.FloatOps F) (rep : ℝ → F) (tol : F) (ε : ℝ)
      (gates : Bond → Fin pD → Fin pD → Fin pD → Fin pD → ℝ), 0 ≤ ε → ε ≤ 1 →
      (∑ p, ∑ q, ∑ r, ∑ t, ‖gates b p q r t‖ ^ 2) ≤ Γ → gated (gates b) (bondTensor (bare s.1) b) ≠ 0 →
      (fullBondStep st pk ω la fo rep { cfg with als_tol := tol, als_epsilon := ε } none gates s b).2 = none →
      ∀ c1 c2 : ATensor (Fin bD) (Fin pD) ℝ,
        bondError hx hy σ gates (fun s => siteTensors (bare s.1))
          (fullBondStep st pk ω la fo rep { cfg with als_tol := tol, als_epsilon := ε } none gates) s b ≤
        D * Real.sqrt (normSq8 (fun u r d l' u' d' p q => twoSite c1 c2 u r d l' u' d' p q -
          gated (gates b) (bondTensor (bare s.1) b) u r d l' u' d' p q) + ε) := by
  obtain ⟨a1, a2, n12, hT, hstep⟩ := fullBondStep_recomposed hx hy la s h hb
  obtain ⟨K, hK0, hK⟩ := recomposed_quasi la cfg hni hcut hatol n12 a1 a2
  set M := Γ * normSq8 (bondTensor (bare s.1) b) with hM
  obtain ⟨D, hD0, hD⟩ := C97_local hx hy σ (bare s.1) b hb Γ (K * (M + M))
  refine ⟨D * Real.sqrt (K * max 1 M) / stateNorm (latticeState (nx := nx) (ny := ny) σ (siteTensors (bare s.1))),
    div_nonneg (by positivity) (stateNorm_nonneg _), fun st pk ω fo rep tol ε gates he he1 hΓ hne hok c1 c2 => ?_⟩
  obtain ⟨hx12, hback⟩ := hstep F st pk ω fo rep { cfg with als_tol := tol, als_epsilon := ε } gates
  obtain ⟨x1, x2, hx12⟩ := hx12 hok
  obtain ⟨-, hoff, hnew⟩ := hback x1 x2 hx12
  have hgM : normSq8 (gated (gates b) (bondTensor (bare s.1) b)) ≤ M := by
    refine (gated_le _ _).trans (mul_le_mul_of_nonneg_right ?_ (normSq8_nonneg _))
    simp only [Fintype.sum_prod_type]
    exact hΓ
  have hM0 : 0 ≤ M := (normSq8_nonneg _).trans hgM
  rw [hT] at hne
  obtain ⟨κ, hκ, hall⟩ := hK fo rep tol ε (gates b) he hne x1 x2 hx12
  rw [← hT, ← hnew] at hall
  have hbound : normSq8 (fun u r d l' u' d' p q => ((κ : ℝ) : ℝ) * bondTensor (bare (fullBondStep st pk ω la fo rep
      { cfg with als_tol := tol, als_epsilon := ε } none gates s b).1.1) b u r d l' u' d' p q -
      gated (gates b) (bondTensor (bare s.1) b) u r d l' u' d' p q) ≤ K * (M + M) := by
    refine (hall 0 0).trans (mul_le_mul_of_nonneg_left (add_le_add ?_ ?_) hK0)
    · refine le_trans (le_of_eq ?_) hgM
      simp [normSq8, twoSite]
    · exact (mul_le_mul he1 hgM (normSq8_nonneg _) zero_le_one).trans (le_of_eq (one_mul _))
  have hmain := hD (gates b) (bare (fullBondStep st pk ω la fo rep { cfg with als_tol := tol, als_epsilon := ε } none gates s b).1.1) κ hκ hΓ
    hoff hbound
  unfold bondError
  rw [div_mul_eq_mul_div]
  refine div_le_div_of_nonneg_right (hmain.trans ?_) (stateNorm_nonneg _)
  rw [mul_assoc, ← Real.sqrt_mul (by positivity)]
  refine mul_le_mul_of_nonneg_left (Real.sqrt_le_sqrt ((hall c1 c2).trans ?_)) hD0
  rw [mul_assoc]
  refine mul_le_mul_of_nonneg_left ?_ hK0
  rw [mul_add]
  refine add_le_add (le_mul_of_one_le_left (normSq8_nonneg _) (le_max_left _ _)) ?_
  rw [mul_comm]
  exact mul_le_mul_of_nonneg_right (hgM.trans (le_max_right _ _)) he

end full

section simple

open Simple

variable {X : Type} {bD : ℕ} [NeZero bD] [Nonempty P]

/-- A simple update in terms of the two-site tensor of the bond without weights. -/
theorem simple_quasi (la : Lapack 𝕜) (st : NetT (Fin bD) P X 𝕜 × LambdaTensors (Weight bD)) (b : Bond) (hk : b.k < 4) (hne : b.s1 ≠ b.s2)
    (W1 W2 : ℕ → Weight bD) (hW1 : Weights st.2 b.s1 W1) (hW2 : Weights st.2 b.s2 W2) (hs1 : Strippable W1 b.k)
    (hs2 : Strippable W2 ((b.k + 2) % 4)) : ∃ K : ℝ, 0 ≤ K ∧ ∀ (gates : Bond → P → P → P → P → 𝕜), gated (gates b) (bondTensor st.1 b) ≠ 0 →
      (Simple.bondStep la (fun _ => none) gates st b).2 = none ∧
      (∀ s, s ≠ b.s1 → s ≠ b.s2 → ((Simple.bondStep la (fun _ => none) gates st b).1.1 s).A = (st.1 s).A) ∧
      ∃ κ : ℝ, 0 < κ ∧ ∀ c1 c2 : ATensor (Fin bD) P 𝕜,
        normSq8 (fun u r d l' u' d' p q => (κ : 𝕜) * bondTensor (Simple.bondStep la (fun _ => none) gates st b).1.1 b u r d l' u' d' p q -
          gated (gates b) (bondTensor st.1 b) u r d l' u' d' p q) ≤
        K * normSq8 (fun u r d l' u' d' p q => twoSite c1 c2 u r d l' u' d' p q -
          gated (gates b) (bondTensor st.1 b) u r d l' u' d' p q) := by
  obtain ⟨net, lt⟩ := st
  dsimp only at hW1 hW2
  obtain ⟨ω1, hω1, e1⟩ := weighted_first (𝕜 := 𝕜) (P := P) (fun d => (W1 d).v) b.k hk fun d hd hdk i =>
    (lt_of_lt_of_le (by norm_num) ((hs1 d hd hdk).2 i)).ne'
  obtain ⟨ω2, hω2, e2⟩ := weighted_second (𝕜 := 𝕜) (P := P) (fun d => (W2 d).v) b.k fun d hd hdk i =>
    (lt_of_lt_of_le (by norm_num) ((hs2 d hd hdk).2 i)).ne'
  have hstate : ∀ (a1 a2 : ATensor (Fin bD) P 𝕜) u r d l' u' d' p q, bondState W1 W2 b.k a1 a2 u r d l' u' d' p q =
      ((ω1 u r d * ω2 l' u' d' : ℝ) : 𝕜) * twoSite (bondPermute b.k a1) (bondPermute b.k a2) u r d l' u' d' p q := by
    intro a1 a2 u r d l' u' d' p q
    unfold bondState twoSite
    rw [Finset.mul_sum]
    refine Finset.sum_congr rfl fun x _ => ?_
    rw [e1, e2, RCLike.ofReal_mul]
    ring
  have hgs : ∀ (g : P → P → P → P → 𝕜) (a1 a2 : ATensor (Fin bD) P 𝕜) u r d l' u' d' p q,
      gated g (bondState W1 W2 b.k a1 a2) u r d l' u' d' p q =
      ((ω1 u r d * ω2 l' u' d' : ℝ) : 𝕜) * gated g
        (twoSite (bondPermute b.k a1) (bondPermute b.k a2)) u r d l' u' d' p q := by
    intro g a1 a2 u r d l' u' d' p q
    unfold gated
    simp only [hstate, Finset.mul_sum, mul_assoc]
  have hω : ∀ u r d l' u' d', ((ω1 u r d * ω2 l' u' d' : ℝ) : 𝕜) ≠ 0 := fun u r d l' u' d' =>
    RCLike.ofReal_ne_zero.2 (mul_ne_zero (hω1 _ _ _) (hω2 _ _ _))
  let Ω : Fin bD × Fin bD × Fin bD × Fin bD × Fin bD × Fin bD → ℝ := fun x => (ω1 x.1 x.2.1 x.2.2.1 * ω2 x.2.2.2.1 x.2.2.2.2.1 x.2.2.2.2.2) ^ 2
  have hΩ : ∀ x, 0 < Ω x := fun x => sq_pos_of_ne_zero (mul_ne_zero (hω1 _ _ _) (hω2 _ _ _))
  obtain ⟨x0, hx0⟩ := Finite.exists_min Ω
  obtain ⟨x1, hx1⟩ := Finite.exists_max Ω
  have lower : ∀ T : Fin bD → Fin bD → Fin bD → Fin bD → Fin bD → Fin bD → P → P → 𝕜, Ω x0 * normSq8 T ≤
      normSq8 fun u r d l' u' d' p q => ((ω1 u r d * ω2 l' u' d' : ℝ) : 𝕜) * T u r d l' u' d' p q := by
    intro T
    unfold normSq8
    simp only [Finset.mul_sum]
    gcongr with r _ d _ u _ p _ d' _ l' _ u' _ q _
    rw [norm_mul, RCLike.norm_ofReal, mul_pow, sq_abs]
    exact mul_le_mul_of_nonneg_right (hx0 (u, r, d, l', u', d')) (by positivity)
  have upper : ∀ T : Fin bD → Fin bD → Fin bD → Fin bD → Fin bD → Fin bD → P → P → 𝕜,
      normSq8 (fun u r d l' u' d' p q => ((ω1 u r d * ω2 l' u' d' : ℝ) : 𝕜) * T u r d l' u' d' p q) ≤ Ω x1 * normSq8 T := by
    intro T
    unfold normSq8
    simp only [Finset.mul_sum]
    gcongr with r _ d _ u _ p _ d' _ l' _ u' _ q _
    rw [norm_mul, RCLike.norm_ofReal, mul_pow, sq_abs]
    exact mul_le_mul_of_nonneg_right (hx1 (u, r, d, l', u', d')) (by positivity)
  refine ⟨Ω x1 / Ω x0, (div_pos (hΩ _) (hΩ _)).le, fun gates h0 => ?_⟩
  have hne0 : gated (gates b) (bondState W1 W2 b.k (net b.s1).A (net b.s2).A) ≠ 0 := by
    intro h1
    apply h0
    funext u r d l' u' d' p q
    have h2 := hgs (gates b) (net b.s1).A (net b.s2).A u r d l' u' d' p q
    rw [h1] at h2
    exact (mul_eq_zero.1 h2.symm).resolve_left (hω _ _ _ _ _ _)
  obtain ⟨b1, b2, lambda, hr, -, c, hc, hbest⟩ := C40_partial la lt (gates b) b _ _ W1 W2 hW1 hW2 hs1 hs2 hne0
  have hstep : Simple.bondStep la (fun _ => none) gates (net, lt) b =
      ((storePair net b.s1 b.s2 b1 b2, lt.setItem b ⟨false, lambda⟩), none) := by
    unfold Simple.bondStep bondUpdate
    dsimp only
    rw [hr]
    rfl
  obtain ⟨hs1', hs2', hs3, -⟩ := C42_store_partial net b.s1 b.s2 hne b1 b2
  rw [hstep]
  refine ⟨rfl, fun s h1 h2 => by dsimp only; rw [hs3 s h1 h2], c, hc, fun c1 c2 => ?_⟩
  have hb := hbest (fun l u r d p => (ω1 u r d : 𝕜) * c1 l u r d p) (fun l u r d p => (ω2 l u d : 𝕜) * c2 l u r d p)
  have e3 : ∀ u r d l' u' d' p q, twoSite (fun l u r d p => (ω1 u r d : 𝕜) * c1 l u r d p) (fun l u r d p => (ω2 l u d : 𝕜) * c2 l u r d p)
      u r d l' u' d' p q = ((ω1 u r d * ω2 l' u' d' : ℝ) : 𝕜) * twoSite c1 c2 u r d l' u' d' p q := by
    intro u r d l' u' d' p q
    unfold twoSite
    rw [Finset.mul_sum]
    refine Finset.sum_congr rfl fun x _ => ?_
    rw [RCLike.ofReal_mul]
    ring
  simp only [hgs, hstate, e3] at hb
  have l1 := lower fun u r d l' u' d' p q => (c : 𝕜) * twoSite (bondPermute b.k b1) (bondPermute b.k b2) u r d l' u' d' p q -
    gated (gates b) (bondTensor net b) u r d l' u' d' p q
  have u1 := upper fun u r d l' u' d' p q => twoSite c1 c2 u r d l' u' d' p q - gated (gates b) (bondTensor net b) u r d l' u' d' p q
  have eq1 : normSq8 (fun u r d l' u' d' p q => ((ω1 u r d * ω2 l' u' d' : ℝ) : 𝕜) *
      ((c : 𝕜) * twoSite (bondPermute b.k b1) (bondPermute b.k b2) u r d l' u' d' p q - gated (gates b) (bondTensor net b) u r d l' u' d' p q)) =
      normSq8 (fun u r d l' u' d' p q => ((ω1 u r d * ω2 l' u' d' : ℝ) : 𝕜) * gated (gates b) (twoSite (bondPermute b.k (net b.s1).A)
        (bondPermute b.k (net b.s2).A)) u r d l' u' d' p q - (c : 𝕜) * (((ω1 u r d * ω2 l' u' d' : ℝ) : 𝕜) *
        twoSite (bondPermute b.k b1) (bondPermute b.k b2) u r d l' u' d' p q)) := by
    refine normSq8_congr_norm fun u r d l' u' d' p q => ?_
    rw [← norm_neg]
    congr 1
    unfold bondTensor
    ring
  have eq2 : normSq8 (fun u r d l' u' d' p q => ((ω1 u r d * ω2 l' u' d' : ℝ) : 𝕜) *
      (twoSite c1 c2 u r d l' u' d' p q - gated (gates b) (bondTensor net b) u r d l' u' d' p q)) =
      normSq8 (fun u r d l' u' d' p q => ((ω1 u r d * ω2 l' u' d' : ℝ) : 𝕜) * gated (gates b) (twoSite (bondPermute b.k (net b.s1).A)
        (bondPermute b.k (net b.s2).A)) u r d l' u' d' p q - ((ω1 u r d * ω2 l' u' d' : ℝ) : 𝕜) * twoSite c1 c2 u r d l' u' d' p q) := by
    refine normSq8_congr_norm fun u r d l' u' d' p q => ?_
    rw [← norm_neg]
    congr 1
    unfold bondTensor
    ring
  rw [eq1] at l1
  rw [eq2] at u1
  have hfin := (l1.trans hb).trans u1
  have hgoal : bondTensor (storePair net b.s1 b.s2 b1 b2) b = twoSite (bondPermute b.k b1) (bondPermute b.k b2) := by
    unfold bondTensor
    rw [hs1', hs2']
  dsimp only
  rw [hgoal, div_mul_eq_mul_div, le_div_iff₀ (hΩ x0), mul_comm]
  exact hfin

/-- **C97 (simple update).** Real and complex dtypes: if the weights around a bond can be divided out (C40), for every bound on the gate there is a
factor such that every simple update of the bond with a gate within the bound returns and leaves a state of the lattice whose error is at most the
factor times the least local error that two site tensors of the same dimensions can have. -/
theorem C97_simple_partial (hx : 2 ≤ nx) (hy : 2 ≤ ny) (σ : Bond → Equiv.Perm (Fin N)) (la : Lapack 𝕜)
    (st : NetT (Fin bD) P X 𝕜 × LambdaTensors (Weight bD)) (b : Bond) (hb : b ∈ buildBondList nx ny)
    (W1 W2 : ℕ → Weight bD) (hW1 : Weights st.2 b.s1 W1) (hW2 : Weights st.2 b.s2 W2) (hs1 : Strippable W1 b.k)
    (hs2 : Strippable W2 ((b.k + 2) % 4)) (Γ : ℝ) : ∃ D : ℝ, 0 ≤ D ∧ ∀ (gates : Bond → P → P → P → P → 𝕜),
      (∑ p, ∑ q, ∑ r, ∑ t, ‖gates b p q r t‖ ^ 2) ≤ Γ → gated (gates b) (bondTensor st.1 b) ≠ 0 →
      (Simple.bondStep la (fun _ => none) gates st b).2 = none ∧ ∀ c1 c2 : ATensor (Fin bD) P 𝕜,
        bondError hx hy σ gates (fun st => siteTensors st.1) (Simple.bondStep la (fun _ => none) gates) st b ≤
        D * Real.sqrt (normSq8 (fun u r d l' u' d' p q => twoSite c1 c2 u r d l' u' d' p q -
          gated (gates b) (bondTensor st.1 b) u r d l' u' d' p q)) := by
  obtain ⟨K, hK0, hK⟩ := simple_quasi la st b (by have := ((C02_bond_list nx ny).2.2 b).1 hb; omega) (bond_ends_distinct nx ny hx hy b hb) W1 W2 hW1 hW2 hs1 hs2
  set M := Γ * normSq8 (bondTensor st.1 b) with hM
  obtain ⟨D, hD0, hD⟩ := C97_local hx hy σ st.1 b hb Γ (K * M)
  refine ⟨D * Real.sqrt K / stateNorm (latticeState (nx := nx) (ny := ny) σ (siteTensors st.1)),
    div_nonneg (by positivity) (stateNorm_nonneg _), fun gates hΓ hne => ?_⟩
  obtain ⟨hok, hoff, κ, hκ, hall⟩ := hK gates hne
  refine ⟨hok, fun c1 c2 => ?_⟩
  have hgM : normSq8 (gated (gates b) (bondTensor st.1 b)) ≤ M := by
    refine (gated_le _ _).trans (mul_le_mul_of_nonneg_right ?_ (normSq8_nonneg _))
    simp only [Fintype.sum_prod_type]
    exact hΓ
  have hmain := hD (gates b) _ κ hκ hΓ hoff ((hall 0 0).trans (mul_le_mul_of_nonneg_left (le_trans (le_of_eq (by simp [normSq8, twoSite])) hgM) hK0))
  unfold bondError
  rw [div_mul_eq_mul_div]
  refine div_le_div_of_nonneg_right (hmain.trans ?_) (stateNorm_nonneg _)
  rw [mul_assoc, ← Real.sqrt_mul hK0]
  exact mul_le_mul_of_nonneg_left (Real.sqrt_le_sqrt (hall c1 c2)) hD0

end simple

/-! ### The hypotheses are met -/

section example_

open Simple

/-- The two-site tensors of the state `|00…0⟩ + |11…1⟩` are not zero. -/
theorem ghz_bond (hx : 2 ≤ nx) (hy : 2 ≤ ny) (b : Bond) (hb : b ∈ buildBondList nx ny) : bondTensor ghzNet b ≠ 0 :=
  bondTensor_ne_zero (N := 1) hx hy (fun _ => 1) ghzNet b hb (ghzNet_state _)

/-- The weights at the start. -/
theorem ones_weights {bD : ℕ} (s : Site) (hs : InCell nx ny s) :
    Weights (LambdaTensors.init (buildBondList nx ny) (ones bD false)) s fun _ => ones bD false := by
  intro d hd
  obtain ⟨b, ⟨hb, hE⟩, _⟩ := C03_unique_bond_per_side nx ny s hs d hd
  exact C03_weight_lookup nx ny _ (List.Perm.refl _) _ [] s hs d hd b hb hE

theorem ones_strippable {bD : ℕ} (ex : ℕ) : Strippable (fun _ => ones bD false) ex := fun _ _ _ => ⟨rfl, fun _ => by norm_num [ones]⟩

/-- Full updates of the state `|00…0⟩ + |11…1⟩` with the gate of any model and the pseudo-inverse meet the hypotheses of `C97_full_partial`. -/
example (hx : 2 ≤ nx) (hy : 2 ≤ ny) (σ : Bond → Equiv.Perm (Fin N)) (la : Lapack ℝ) (m : ModelTerms (Fin 2) ℝ) (dtau : ℝ) (b : Bond)
    (hb : b ∈ buildBondList nx ny) (chi : ℕ) : ∃ D : ℝ, ∀ (st : ProjSettings ℝ) (pk : ProjKind) (ω : ℕ → Draws (Fin 2) ℝ)
      (fo : Als.FloatOps ℝ) (c1 c2 : ATensor (Fin 2) (Fin 2) ℝ),
      bondError hx hy σ (twoSiteGate m dtau) (fun s => siteTensors (bare s.1))
        (fullBondStep st pk ω la fo id ⟨true, 1e-12, 1e-12, 100, 1e-15, .pinv, 1e-12⟩ none (twoSiteGate m dtau))
        (freshNet nx ny chi fun s => (ghzNet s).A, 0) b ≤
      D * Real.sqrt (normSq8 (fun u r d l' u' d' p q => twoSite c1 c2 u r d l' u' d' p q -
        gated (twoSiteGate m dtau b) (bondTensor ghzNet b) u r d l' u' d' p q) + 1e-12) := by
  have hfit := fitNet_fresh (nx := nx) (ny := ny) (by omega) (by omega) chi fun s => (ghzNet s).A
  obtain ⟨D, -, h⟩ := C97_full_partial hx hy σ la ⟨true, 1e-12, 1e-12, 100, (1e-15 : ℝ), .pinv, 1e-12⟩ (by norm_num) (by norm_num)
    (fun _ => by rw [Real.lt_sqrt (by norm_num)]; norm_num [nD]) (freshNet nx ny chi fun s => (ghzNet s).A, 0) hfit b hb
    (∑ p, ∑ q, ∑ r, ∑ t, ‖twoSiteGate m dtau b p q r t‖ ^ 2)
  exact ⟨D, fun st pk ω fo c1 c2 => h st pk ω fo id _ 1e-12 (twoSiteGate m dtau) (by norm_num) (by norm_num) le_rfl
    (gated_ne_zero_of m dtau b _ (ghz_bond hx hy b hb))
    ((hfit.step (by omega) (by omega) st pk ω la fo id _ none (twoSiteGate m dtau) hb).2 rfl) c1 c2⟩

/-- Simple updates of it with the initial weights meet the hypotheses of `C97_simple_partial`. -/
example (hx : 2 ≤ nx) (hy : 2 ≤ ny) (σ : Bond → Equiv.Perm (Fin N)) (la : Lapack ℝ) (m : ModelTerms (Fin 2) ℝ) (dtau : ℝ) (b : Bond)
    (hb : b ∈ buildBondList nx ny) : ∃ D : ℝ, ∀ c1 c2 : ATensor (Fin 2) (Fin 2) ℝ,
      bondError hx hy σ (twoSiteGate m dtau) (fun st => siteTensors st.1) (Simple.bondStep la (fun _ => none) (twoSiteGate m dtau))
        (ghzNet, LambdaTensors.init (buildBondList nx ny) (ones 2 false)) b ≤
      D * Real.sqrt (normSq8 (fun u r d l' u' d' p q => twoSite c1 c2 u r d l' u' d' p q -
        gated (twoSiteGate m dtau b) (bondTensor ghzNet b) u r d l' u' d' p q)) := by
  obtain ⟨c1, c2⟩ := C02_bond_ends_in_cell _ _ b hb
  rw [mem_buildSiteList] at c1 c2
  obtain ⟨D, -, h⟩ := C97_simple_partial hx hy σ la (ghzNet, LambdaTensors.init (buildBondList nx ny) (ones 2 false)) b hb _ _
    (ones_weights _ c1) (ones_weights _ c2) (ones_strippable _) (ones_strippable _) (∑ p, ∑ q, ∑ r, ∑ t, ‖twoSiteGate m dtau b p q r t‖ ^ 2)
  exact ⟨D, (h (twoSiteGate m dtau) le_rfl (gated_ne_zero_of m dtau b _ (ghz_bond hx hy b hb))).2⟩

end example_

end AceTN
