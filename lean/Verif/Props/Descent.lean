import Verif.Lemmas.FirstOrder
import Verif.Props.RanksExact

/-!
C119: at bond dimension one, small time steps lower the energy that is measured, unless it is stationary.
-/

set_option autoImplicit false
set_option linter.unusedSectionVars false

namespace AceTN

open Matrix Kronecker Spec Full Session Filter Topology

variable {F F' : Type} {P : Type} [Fintype P] [DecidableEq P] {nx ny : ℕ}

/-- The energy of a unit cell in a product of vectors. -/
noncomputable def Spec.meanEnergy (nx ny : ℕ) (m : ModelTerms P ℝ) (v : Site → P → ℝ) : ℝ :=
  ((buildBondList nx ny).map fun b => qform (m.two b) (fun p => v b.s1 p.1 * v b.s2 p.2) / normSq fun p : P × P => v b.s1 p.1 * v b.s2 p.2).sum +
    ((buildSiteList nx ny).map fun s => ((m.one s).map fun h => qform h (v s) / normSq (v s)).getD 0).sum

/-- The energy is stationary: changes of one of the vectors do not change it to first order. -/
def Spec.StationaryEnergy (nx ny : ℕ) (m : ModelTerms P ℝ) (v : Site → P → ℝ) : Prop :=
  ∀ s, InCell nx ny s → ∀ r : P → ℝ, HasDerivAt (fun t : ℝ => meanEnergy nx ny m (Function.update v s (v s + t • r))) 0 0

/-! ### The run -/

theorem NearTo.congr {l : Filter ℝ} {u d : P → ℝ} {x x' : ℝ → P → ℝ} (h : NearTo l u d x) (e : ∀ᶠ τ in l, x' τ = x τ) : NearTo l u d x' := by
  obtain ⟨k, hk, h⟩ := h
  refine ⟨k, hk, ?_⟩
  filter_upwards [h, e] with τ ⟨c, hc, h⟩ e
  exact ⟨c, hc, fun p => by rw [e, h]⟩

theorem NearTo.congr_dir {l : Filter ℝ} {u d d' : P → ℝ} {x : ℝ → P → ℝ} (h : NearTo l u d x) (e : ∀ p, d p = d' p) : NearTo l u d' x := by
  rwa [show d' = d from funext fun p => (e p).symm]

/-- What the Hamiltonian of a bond does to the pair of vectors. -/
noncomputable def bondImage (m : ModelTerms P ℝ) (u : Site → P → ℝ) (b : Bond) (p q : P) : ℝ :=
  ∑ p', ∑ q', u b.s1 p' * u b.s2 q' * bondHam m b (p', q') (p, q)

/-- The part of it at one site. -/
noncomputable def bondForce (m : ModelTerms P ℝ) (u : Site → P → ℝ) (b : Bond) (s : Site) (p : P) : ℝ :=
  if s = b.s1 then ∑ q, bondImage m u b p q * u b.s2 q else if s = b.s2 then ∑ q, bondImage m u b q p * u b.s1 q else 0

theorem gate_first_order (m : ModelTerms P ℝ) (b : Bond) {l : Filter ℝ} (hl : Tendsto (fun τ : ℝ => τ) l (𝓝 0)) (hl0 : ∀ᶠ τ in l, τ ≠ 0) :
    ∃ K : ℝ → P → P → P → P → ℝ, (∀ p' q' p q, Tendsto (fun τ => K τ p' q' p q) l (𝓝 (bondHam m b (p', q') (p, q)))) ∧
      ∀ τ p' q' p q, twoSiteGate m τ b p' q' p q = (if p' = p then 1 else 0) * (if q' = q then 1 else 0) - τ * K τ p' q' p q := by
  have hone : ∀ p' q' p q : P, (1 : Matrix (P × P) (P × P) ℝ) (p', q') (p, q) = (if p' = p then 1 else 0) * (if q' = q then 1 else 0) := by
    intro p' q' p q
    rw [Matrix.one_apply]
    by_cases h1 : p' = p <;> by_cases h2 : q' = q <;> simp [h1, h2]
  have h0 : ∀ p' q' p q : P, twoSiteGate m 0 b p' q' p q = (if p' = p then 1 else 0) * (if q' = q then 1 else 0) := fun p' q' p q => by
    unfold twoSiteGate
    rw [calculateGate_zero, hone]
  refine ⟨fun τ p' q' p q => ((if p' = p then 1 else 0) * (if q' = q then 1 else 0) - twoSiteGate m τ b p' q' p q) / τ, fun p' q' p q => ?_, fun τ p' q' p q => ?_⟩
  · let _ : NormedRing (Matrix (P × P) (P × P) ℝ) := Matrix.linftyOpNormedRing
    let _ : NormedAlgebra ℝ (Matrix (P × P) (P × P) ℝ) := Matrix.linftyOpNormedAlgebra
    have hd : HasDerivAt (fun t : ℝ => NormedSpace.exp (t • (-bondHam m b))) (-bondHam m b) 0 := by
      have := hasDerivAt_exp_smul_const (𝕂 := ℝ) (-bondHam m b) 0
      rwa [zero_smul, NormedSpace.exp_zero, one_mul] at this
    let L : Matrix (P × P) (P × P) ℝ →ₗ[ℝ] ℝ :=
      { toFun := fun M => M (p', q') (p, q)
        map_add' := fun _ _ => rfl
        map_smul' := fun _ _ => rfl }
    have h1 : HasDerivAt (fun t : ℝ => NormedSpace.exp (t • (-bondHam m b)) (p', q') (p, q)) (-bondHam m b (p', q') (p, q)) 0 :=
      (LinearMap.toContinuousLinearMap L).hasFDerivAt.comp_hasDerivAt (0 : ℝ) hd
    have h2 := (hasDerivAt_iff_tendsto_slope.1 h1).neg.mono_left (tendsto_nhdsWithin_iff.2 ⟨hl, hl0⟩ : l ≤ 𝓝[≠] 0)
    rw [neg_neg] at h2
    refine h2.congr fun τ => ?_
    have e1 : NormedSpace.exp (τ • (-bondHam m b)) (p', q') (p, q) = twoSiteGate m τ b p' q' p q := by
      unfold twoSiteGate calculateGate
      rw [smul_neg, neg_smul]
      rfl
    have e2 : NormedSpace.exp ((0 : ℝ) • (-bondHam m b)) (p', q') (p, q) = (if p' = p then 1 else 0) * (if q' = q then 1 else 0) := by
      rw [zero_smul, NormedSpace.exp_zero, hone]
    rw [slope_def_field, e1, e2, sub_zero, ← neg_div, neg_sub]
  · by_cases h : τ = 0
    · rw [h, zero_mul, sub_zero, h0]
    · rw [mul_div_cancel₀ _ h]
      ring

/-- The gates for a multiple of the time step. -/
theorem gate_scaled (m : ModelTerms P ℝ) (b : Bond) {l : Filter ℝ} (hl : Tendsto (fun τ : ℝ => τ) l (𝓝 0)) (hl0 : ∀ᶠ τ in l, τ ≠ 0) {a : ℝ} (ha : a ≠ 0) :
    ∃ K : ℝ → P → P → P → P → ℝ, (∀ p' q' p q, Tendsto (fun τ => K τ p' q' p q) l (𝓝 (a * bondHam m b (p', q') (p, q)))) ∧
      ∀ τ p' q' p q, twoSiteGate m (τ * a) b p' q' p q = (if p' = p then 1 else 0) * (if q' = q then 1 else 0) - τ * K τ p' q' p q := by
  obtain ⟨K, h1, h2⟩ := gate_first_order m b (l := l.map fun τ => τ * a) (tendsto_map'_iff.2 (by simpa [Function.comp_def] using hl.mul_const a))
    (eventually_map.2 (hl0.mono fun τ h => mul_ne_zero h ha))
  refine ⟨fun τ p' q' p q => a * K (τ * a) p' q' p q, fun p' q' p q => (tendsto_map'_iff.1 (h1 p' q' p q)).const_mul a, fun τ p' q' p q => ?_⟩
  rw [h2, mul_assoc]

theorem near_run (hx : 2 ≤ nx) (hy : 2 ≤ ny) (m : ModelTerms P ℝ) {l : Filter ℝ} (hl : Tendsto (fun τ : ℝ => τ) l (𝓝 0)) (hl0 : ∀ᶠ τ in l, τ ≠ 0)
    {a : ℝ} (ha : a ≠ 0) (u : Site → P → ℝ) (hu : ∀ s, InCell nx ny s → ∑ p, u s p ^ 2 = 1) (bs : List Bond) (hbs : ∀ b ∈ bs, b ∈ buildBondList nx ny)
    (d : Site → P → ℝ) (v w : ℝ → Site → P → ℝ) (hv : ∀ s, InCell nx ny s → NearTo l (u s) (d s) fun τ => v τ s)
    (hr : ∀ᶠ τ in l, MeanRun nx ny (twoSiteGate m (τ * a)) bs (v τ) (w τ)) :
    ∀ s, InCell nx ny s → NearTo l (u s) (fun p => d s p - a * (bs.map fun b => bondForce m u b s p).sum) fun τ => w τ s := by
  induction bs generalizing d v with
  | nil =>
    intro s hs
    exact ((hv s hs).congr (hr.mono fun τ h => h s hs)).congr_dir fun p => by simp
  | cons b bs ih =>
    obtain ⟨x, hx'⟩ := Filter.skolem.1 hr
    have hb := hbs b (by simp)
    obtain ⟨c1, c2⟩ := bond_cell hb
    have hne := bond_ends_distinct nx ny hx hy b hb
    obtain ⟨n1, n2⟩ := near_step (h := fun p' q' p q => a * bondHam m b (p', q') (p, q)) hl (hu _ c1) (hu _ c2) (hv _ c1) (hv _ c2) (gate_scaled m b hl hl0 ha)
      (hx'.mono fun τ h => h.1.1)
    have hi : ∀ p q, ∑ p', ∑ q', u b.s1 p' * u b.s2 q' * (a * bondHam m b (p', q') (p, q)) = a * bondImage m u b p q := fun p q => by
      unfold bondImage
      rw [Finset.mul_sum]
      refine Finset.sum_congr rfl fun p' _ => ?_
      rw [Finset.mul_sum]
      exact Finset.sum_congr rfl fun q' _ => by ring
    have hxs : ∀ s, InCell nx ny s → NearTo l (u s) (fun p => d s p - a * bondForce m u b s p) fun τ => x τ s := by
      intro s hs
      by_cases e1 : s = b.s1
      · subst e1
        exact n1.congr_dir fun p => by
          simp only [bondForce, if_true, hi]
          simp only [mul_assoc, Finset.mul_sum]
      by_cases e2 : s = b.s2
      · subst e2
        exact n2.congr_dir fun p => by
          simp only [bondForce, if_neg e1, if_true, hi]
          simp only [mul_assoc, Finset.mul_sum]
      refine ((hv s hs).congr (hx'.mono fun τ h => h.1.2 s hs e1 e2)).congr_dir fun p => ?_
      simp only [bondForce, if_neg e1, if_neg e2, mul_zero, sub_zero]
    intro s hs
    refine (ih (fun b hb => hbs b (by simp [hb])) _ x hxs (hx'.mono fun τ h => h.2) s hs).congr_dir fun p => ?_
    rw [List.map_cons, List.sum_cons]
    ring

/-! ### The energy -/

/-- The part of a vector that is orthogonal to a unit vector. -/
noncomputable def across (u f : P → ℝ) (p : P) : ℝ := f p - (∑ r, u r * f r) * u p

theorem pair_slope {l : Filter ℝ} (hl : Tendsto (fun τ : ℝ => τ) l (𝓝 0)) (hl0 : ∀ᶠ τ in l, τ ≠ 0) (M : Matrix (P × P) (P × P) ℝ)
    (hM : M.IsHermitian) {u v d f : P → ℝ} (hu : ∑ p, u p ^ 2 = 1) (hv : ∑ p, v p ^ 2 = 1) {x y : ℝ → P → ℝ} (hx : NearTo l u d x) (hy : NearTo l v f y) :
    Tendsto (fun τ => (qform M (fun p => x τ p.1 * y τ p.2) / normSq (fun p : P × P => x τ p.1 * y τ p.2) -
        qform M (fun p => u p.1 * v p.2) / normSq (fun p : P × P => u p.1 * v p.2)) / τ) l
      (𝓝 (2 * (∑ p, d p * across u (fun p => ∑ q, (∑ p', ∑ q', u p' * v q' * M (p', q') (p, q)) * v q) p +
        ∑ q, f q * across v (fun q => ∑ p, (∑ p', ∑ q', u p' * v q' * M (p', q') (p, q)) * u p) q))) := by
  obtain ⟨e, he, hx⟩ := hx
  obtain ⟨g, hg, hy⟩ := hy
  have hsym : ∀ i j, M i j = M j i := fun i j => by
    have := congrFun (congrFun hM j) i
    simpa [Matrix.conjTranspose_apply] using this
  have h1 := ratio_slope hl hl0 M hsym (X := fun p : P × P => u p.1 * v p.2) (Y0 := fun p => d p.1 * v p.2 + u p.1 * f p.2)
    (Y := fun τ p => e τ p.1 * v p.2 + u p.1 * g τ p.2 + τ * (e τ p.1 * g τ p.2)) (by
      rw [Fintype.sum_prod_type]
      simp only [mul_pow, ← Finset.mul_sum, hv, mul_one, hu]) (fun p => by
      have := (((he p.1).mul_const (v p.2)).add ((hg p.2).const_mul (u p.1))).add (hl.mul ((he p.1).mul (hg p.2)))
      simpa using this)
  set H : P → P → ℝ := fun p q => ∑ p', ∑ q', u p' * v q' * M (p', q') (p, q) with hH
  have eH : ∀ p q, ∑ j : P × P, M (p, q) j * (u j.1 * v j.2) = H p q := fun p q => by
    rw [Fintype.sum_prod_type]
    exact Finset.sum_congr rfl fun p' _ => Finset.sum_congr rfl fun q' _ => by rw [hsym]; ring
  have eE : qform M (fun p : P × P => u p.1 * v p.2) = ∑ p, ∑ q, u p * v q * H p q := by
    unfold qform
    rw [Fintype.sum_prod_type]
    refine Finset.sum_congr rfl fun p _ => Finset.sum_congr rfl fun q _ => ?_
    rw [← eH, Finset.mul_sum]
    exact Finset.sum_congr rfl fun j _ => by rw [star_trivial]; ring
  set E := ∑ p, ∑ q, u p * v q * H p q with hE
  have eE1 : ∑ r, u r * ∑ q, H r q * v q = E := by
    rw [hE]
    refine Finset.sum_congr rfl fun p _ => ?_
    rw [Finset.mul_sum]
    exact Finset.sum_congr rfl fun q _ => by ring
  have eE2 : ∑ r, v r * ∑ p, H p r * u p = E := by
    rw [hE, Finset.sum_comm]
    refine Finset.sum_congr rfl fun p _ => ?_
    rw [Finset.mul_sum]
    exact Finset.sum_congr rfl fun q _ => by ring
  refine Tendsto.congr' ?_ (h1.mono_right (le_of_eq (congrArg 𝓝 ?_)))
  rotate_left
  · rw [eE]
    refine congrArg (2 * ·) ?_
    unfold across
    rw [Fintype.sum_prod_type]
    simp only [eH]
    rw [eE1, eE2]
    have a1 : ∑ p, ∑ q, (d p * v q + u p * f q) * (H p q - E * (u p * v q)) =
        ∑ p, d p * ((∑ q, H p q * v q) - E * u p * ∑ q, v q ^ 2) + ∑ q, f q * ((∑ p, H p q * u p) - E * v q * ∑ p, u p ^ 2) := by
      have b1 : ∑ p, ∑ q, (d p * v q + u p * f q) * (H p q - E * (u p * v q)) =
          ∑ p, ∑ q, d p * (H p q * v q - E * u p * v q ^ 2) + ∑ p, ∑ q, f q * (H p q * u p - E * v q * u p ^ 2) := by
        simp only [← Finset.sum_add_distrib]
        exact Finset.sum_congr rfl fun p _ => Finset.sum_congr rfl fun q _ => by ring
      rw [b1, Finset.sum_comm (f := fun p q => f q * (H p q * u p - E * v q * u p ^ 2))]
      refine congrArg₂ (· + ·) (Finset.sum_congr rfl fun p _ => ?_) (Finset.sum_congr rfl fun q _ => ?_)
      · rw [← Finset.mul_sum, Finset.sum_sub_distrib, ← Finset.mul_sum]
      · rw [← Finset.mul_sum, Finset.sum_sub_distrib, ← Finset.mul_sum]
    rw [hu, hv] at a1
    simp only [mul_one] at a1
    exact a1
  · filter_upwards [hx, hy] with τ ⟨c1, hc1, k1⟩ ⟨c2, hc2, k2⟩
    have e1 : (fun p : P × P => x τ p.1 * y τ p.2) = (c1 * c2) • fun p : P × P => u p.1 * v p.2 + τ * (e τ p.1 * v p.2 + u p.1 * g τ p.2 + τ * (e τ p.1 * g τ p.2)) := by
      funext p
      rw [k1, k2, Pi.smul_apply, smul_eq_mul]
      ring
    rw [e1, ratio_smul _ _ (mul_ne_zero hc1 hc2)]

variable {pD N : ℕ} [NeZero pD]

/-- The pull of all bonds on a site. -/
noncomputable def siteForce (nx ny : ℕ) (m : ModelTerms P ℝ) (u : Site → P → ℝ) (s : Site) (p : P) : ℝ := ((buildBondList nx ny).map fun b => bondForce m u b s p).sum

theorem qform_first (h : Matrix P P ℝ) (v w : P → ℝ) : qform (h ⊗ₖ (1 : Matrix P P ℝ)) (fun p => v p.1 * w p.2) = qform h v * normSq w := by
  have hn : normSq w = ∑ q, w q ^ 2 := Finset.sum_congr rfl fun i _ => by rw [Real.norm_eq_abs, sq_abs]
  rw [hn]
  unfold qform
  simp only [Fintype.sum_prod_type, kroneckerMap_apply, one_apply, mul_ite, mul_one, mul_zero, ite_mul, zero_mul, Finset.sum_ite_eq, Finset.mem_univ, if_true,
    Finset.sum_mul, star_trivial]
  refine Finset.sum_congr rfl fun x _ => ?_
  rw [Finset.sum_comm]
  refine Finset.sum_congr rfl fun y _ => ?_
  rw [Finset.mul_sum]
  exact Finset.sum_congr rfl fun z _ => by ring

theorem qform_second (h : Matrix P P ℝ) (v w : P → ℝ) : qform ((1 : Matrix P P ℝ) ⊗ₖ h) (fun p => v p.1 * w p.2) = normSq v * qform h w := by
  have hn : normSq v = ∑ q, v q ^ 2 := Finset.sum_congr rfl fun i _ => by rw [Real.norm_eq_abs, sq_abs]
  rw [hn]
  unfold qform
  simp only [Fintype.sum_prod_type, kroneckerMap_apply, one_apply, mul_ite, ite_mul, one_mul, zero_mul, mul_zero, Finset.sum_mul, star_trivial]
  refine Finset.sum_congr rfl fun x _ => ?_
  rw [Finset.mul_sum]
  refine Finset.sum_congr rfl fun y _ => ?_
  rw [Finset.sum_eq_single x (fun z _ hz => by simp [Ne.symm hz]) (by simp), Finset.mul_sum]
  exact Finset.sum_congr rfl fun z _ => by simp only [if_true]; ring

/-- The energy is that of the Hamiltonians of the gates. -/
theorem meanEnergy_bonds (m : ModelTerms (Fin pD) ℝ) (hm : Uniform nx ny m) (v : Site → Fin pD → ℝ) (hv : ∀ s, InCell nx ny s → v s ≠ 0) :
    meanEnergy nx ny m v = ((buildBondList nx ny).map fun b =>
      qform (bondHam m b) (fun p => v b.s1 p.1 * v b.s2 p.2) / normSq fun p : Fin pD × Fin pD => v b.s1 p.1 * v b.s2 p.2).sum := by
  set g : Site → ℝ := fun s => ((m.one s).map fun h => qform h (v s) / normSq (v s)).getD 0 with hg
  have hb : ∀ b ∈ buildBondList nx ny, qform (bondHam m b) (fun p => v b.s1 p.1 * v b.s2 p.2) / (normSq fun p : Fin pD × Fin pD => v b.s1 p.1 * v b.s2 p.2) =
      qform (m.two b) (fun p => v b.s1 p.1 * v b.s2 p.2) / (normSq fun p : Fin pD × Fin pD => v b.s1 p.1 * v b.s2 p.2) + (1 / 4) * (g b.s1 + g b.s2) := by
    intro b hb
    obtain ⟨c1, c2⟩ := bond_cell hb
    rcases hm with hm | hm
    · obtain ⟨h1, e1⟩ := Option.isSome_iff_exists.1 (hm _ c1)
      obtain ⟨h2, e2⟩ := Option.isSome_iff_exists.1 (hm _ c2)
      have eb : bondHam m b = m.two b + (0.25 : ℝ) • (h1 ⊗ₖ (1 : Matrix (Fin pD) (Fin pD) ℝ) + (1 : Matrix (Fin pD) (Fin pD) ℝ) ⊗ₖ h2) := by
        unfold bondHam
        rw [e1, e2]
      have eq : ∀ (A B C : Matrix (Fin pD × Fin pD) (Fin pD × Fin pD) ℝ) (x : Fin pD × Fin pD → ℝ),
          qform (A + (0.25 : ℝ) • (B + C)) x = qform A x + 1 / 4 * (qform B x + qform C x) := by
        intro A B C x
        unfold qform
        rw [← Finset.sum_add_distrib, Finset.mul_sum, ← Finset.sum_add_distrib]
        refine Finset.sum_congr rfl fun i _ => ?_
        rw [← Finset.sum_add_distrib, Finset.mul_sum, ← Finset.sum_add_distrib]
        refine Finset.sum_congr rfl fun j _ => ?_
        simp only [Matrix.add_apply, Matrix.smul_apply, smul_eq_mul]
        ring
      have n1 := (normSq_pos (hv _ c1)).ne'
      have n2 := (normSq_pos (hv _ c2)).ne'
      rw [eb, eq, qform_first, qform_second, normSq_pair]
      simp only [hg, e1, e2, Option.map_some, Option.getD_some]
      generalize qform (m.two b) _ = a
      field_simp
    · have eb : bondHam m b = m.two b := by
        unfold bondHam
        rw [hm _ c1]
      simp only [eb, hg, hm _ c1, hm _ c2, Option.map_none, Option.getD_none, add_zero, mul_zero]
  rw [List.map_congr_left hb, List.sum_map_add, List.sum_map_mul_left, sum_ends]
  unfold meanEnergy
  ring

theorem meanEnergy_scale (m : ModelTerms P ℝ) {u v : Site → P → ℝ} (h : UpToFactors nx ny u v) : meanEnergy nx ny m v = meanEnergy nx ny m u := by
  unfold meanEnergy
  refine congrArg₂ (· + ·) (congrArg List.sum (List.map_congr_left fun b hb => ?_)) (congrArg List.sum (List.map_congr_left fun s hs => ?_))
  · obtain ⟨c1, c2⟩ := bond_cell hb
    obtain ⟨a, ha, e1⟩ := h _ c1
    obtain ⟨a', ha', e2⟩ := h _ c2
    have e : (fun p : P × P => v b.s1 p.1 * v b.s2 p.2) = (a * a') • fun p : P × P => u b.s1 p.1 * u b.s2 p.2 := by
      funext p
      rw [e1, e2]
      simp only [Pi.smul_apply, smul_eq_mul]
      ring
    rw [e, ratio_smul _ _ (mul_ne_zero ha ha')]
  · obtain ⟨a, ha, e⟩ := h s (mem_buildSiteList.1 hs)
    rw [e]
    cases m.one s with
    | none => rfl
    | some k => exact ratio_smul k _ ha

theorem across_add (u f g : P → ℝ) (p : P) : across u (fun p => f p + g p) p = across u f p + across u g p := by
  unfold across
  simp only [mul_add, Finset.sum_add_distrib]
  ring

theorem across_zero (u : P → ℝ) (p : P) : across u (fun _ => 0) p = 0 := by
  unfold across
  simp

theorem list_forces (S : Finset Site) (d u : Site → P → ℝ) (f : Bond → Site → P → ℝ) (L : List Bond) :
    (L.map fun b => ∑ s ∈ S, ∑ p, d s p * across (u s) (f b s) p).sum = ∑ s ∈ S, ∑ p, d s p * across (u s) (fun p => (L.map fun b => f b s p).sum) p := by
  induction L with
  | nil => simp [across_zero]
  | cons b L ih =>
    simp only [List.map_cons, List.sum_cons, across_add, mul_add, Finset.sum_add_distrib]
    rw [ih]

theorem list_slope {ι : Type} (L : List ι) (f g : ι → ℝ) (τ : ℝ) : ((L.map f).sum - (L.map g).sum) / τ = (L.map fun i => (f i - g i) / τ).sum := by
  induction L with
  | nil => simp
  | cons i L ih =>
    simp only [List.map_cons, List.sum_cons]
    rw [← ih]
    ring

theorem NearTo.ne {l : Filter ℝ} (hl : Tendsto (fun τ : ℝ => τ) l (𝓝 0)) {u d : P → ℝ} (hu : ∑ p, u p ^ 2 = 1) {x : ℝ → P → ℝ} (h : NearTo l u d x) :
    ∀ᶠ τ in l, x τ ≠ 0 := by
  obtain ⟨e, he, h⟩ := h
  obtain ⟨p, hp⟩ : ∃ p, u p ≠ 0 := by
    by_contra hc
    push Not at hc
    simp [hc] at hu
  have ht : Tendsto (fun τ => u p + τ * e τ p) l (𝓝 (u p)) := by
    simpa using (hl.mul (he p)).const_add (u p)
  filter_upwards [h, ht.eventually_ne hp] with τ ⟨c, hc, h⟩ h0 hx
  exact mul_ne_zero hc h0 ((h p).symm.trans (congrFun hx p))

/-- The first-order change of the energy. -/
theorem energy_slope (hx : 2 ≤ nx) (hy : 2 ≤ ny) (m : ModelTerms (Fin pD) ℝ) (hm : m.Hermitian) (hU : Uniform nx ny m) {l : Filter ℝ}
    (hl : Tendsto (fun τ : ℝ => τ) l (𝓝 0)) (hl0 : ∀ᶠ τ in l, τ ≠ 0) (u d : Site → Fin pD → ℝ) (hu : ∀ s, InCell nx ny s → ∑ p, u s p ^ 2 = 1)
    (w : ℝ → Site → Fin pD → ℝ) (hw : ∀ s, InCell nx ny s → NearTo l (u s) (d s) fun τ => w τ s) :
    Tendsto (fun τ => (meanEnergy nx ny m (w τ) - meanEnergy nx ny m u) / τ) l
      (𝓝 (2 * ∑ s ∈ Finset.range nx ×ˢ Finset.range ny, ∑ p, d s p * across (u s) (siteForce nx ny m u s) p)) := by
  have hS : ∀ s, s ∈ Finset.range nx ×ˢ Finset.range ny ↔ InCell nx ny s := fun s => by
    rw [Finset.mem_product, Finset.mem_range, Finset.mem_range]
    rfl
  have hune : ∀ s, InCell nx ny s → u s ≠ 0 := fun s hs h0 => by
    have := hu s hs
    simp [h0] at this
  have hne : ∀ᶠ τ in l, ∀ s ∈ Finset.range nx ×ˢ Finset.range ny, w τ s ≠ 0 :=
    (Finset.eventually_all _).2 fun s hs => (hw s ((hS s).1 hs)).ne hl (hu s ((hS s).1 hs))
  have ht := tendsto_list_sum (x := l) (buildBondList nx ny) (f := fun b τ => (qform (bondHam m b) (fun p => w τ b.s1 p.1 * w τ b.s2 p.2) /
      normSq (fun p : Fin pD × Fin pD => w τ b.s1 p.1 * w τ b.s2 p.2) -
        qform (bondHam m b) (fun p => u b.s1 p.1 * u b.s2 p.2) / normSq (fun p : Fin pD × Fin pD => u b.s1 p.1 * u b.s2 p.2)) / τ)
    (a := fun b => 2 * ∑ s ∈ Finset.range nx ×ˢ Finset.range ny, ∑ p, d s p * across (u s) (bondForce m u b s) p) (fun b hb => by
      obtain ⟨c1, c2⟩ := bond_cell hb
      have hd := bond_ends_distinct nx ny hx hy b hb
      have h := pair_slope hl hl0 (bondHam m b) (bondHam_isHermitian m hm b) (hu _ c1) (hu _ c2) (hw _ c1) (hw _ c2)
      refine h.mono_right (le_of_eq (congrArg 𝓝 (congrArg (2 * ·) ?_)))
      rw [Finset.sum_eq_add_of_mem b.s1 b.s2 ((hS _).2 c1) ((hS _).2 c2) hd fun s _ hs => by
        have : bondForce m u b s = fun _ => 0 := funext fun p => by rw [bondForce, if_neg hs.1, if_neg hs.2]
        simp [this, across_zero]]
      have f1 : bondForce m u b b.s1 = fun p => ∑ q, bondImage m u b p q * u b.s2 q := funext fun p => by rw [bondForce, if_pos rfl]
      have f2 : bondForce m u b b.s2 = fun p => ∑ q, bondImage m u b q p * u b.s1 q := funext fun p => by rw [bondForce, if_neg hd.symm, if_pos rfl]
      rw [f1, f2]
      rfl)
  rw [List.sum_map_mul_left, list_forces] at ht
  refine ht.congr' ?_
  filter_upwards [hne] with τ hτ
  rw [meanEnergy_bonds m hU _ fun s hs => hτ s ((hS s).2 hs), meanEnergy_bonds m hU _ hune, list_slope]

/-! ### Descent -/

theorem across_self {u f : P → ℝ} (hu : ∑ p, u p ^ 2 = 1) : ∑ p, f p * across u f p = ∑ p, across u f p ^ 2 := by
  have h : ∑ p, u p * across u f p = 0 := by
    unfold across
    simp only [mul_sub, Finset.sum_sub_distrib]
    rw [sub_eq_zero]
    have : ∀ p, u p * ((∑ r, u r * f r) * u p) = (∑ r, u r * f r) * u p ^ 2 := fun p => by ring
    simp only [this, ← Finset.mul_sum, hu, mul_one]
  have e : ∀ p, f p * across u f p = across u f p ^ 2 + (∑ r, u r * f r) * (u p * across u f p) := fun p => by
    have : across u f p = f p - (∑ r, u r * f r) * u p := rfl
    rw [show f p = across u f p + (∑ r, u r * f r) * u p by rw [this]; ring]
    have h2 : across u (fun p => f p) p = across u f p := rfl
    generalize (∑ r, u r * f r) = c
    ring
  rw [Finset.sum_congr rfl fun p _ => e p, Finset.sum_add_distrib, ← Finset.mul_sum, h, mul_zero, add_zero]

theorem exists_unit (v : Site → P → ℝ) (hv : ∀ s, InCell nx ny s → v s ≠ 0) :
    ∃ (c : Site → ℝ) (u : Site → P → ℝ), ∀ s, InCell nx ny s → c s ≠ 0 ∧ ∑ p, u s p ^ 2 = 1 ∧ v s = c s • u s := by
  refine ⟨fun s => √(normSq (v s)), fun s p => (√(normSq (v s)))⁻¹ * v s p, fun s hs => ?_⟩
  have hp := normSq_pos (hv s hs)
  have hn : normSq (v s) = ∑ q, v s q ^ 2 := Finset.sum_congr rfl fun i _ => by rw [Real.norm_eq_abs, sq_abs]
  have h0 : √(normSq (v s)) ≠ 0 := (Real.sqrt_pos.2 hp).ne'
  refine ⟨h0, ?_, ?_⟩
  · simp only [mul_pow, ← Finset.mul_sum]
    rw [← hn, inv_pow, Real.sq_sqrt hp.le, inv_mul_cancel₀ hp.ne']
  · funext p
    rw [Pi.smul_apply, smul_eq_mul, mul_inv_cancel_left₀ h0]

/-- The change of the energy when one vector changes. -/
theorem single_slope (hx : 2 ≤ nx) (hy : 2 ≤ ny) (m : ModelTerms (Fin pD) ℝ) (hm : m.Hermitian) (hU : Uniform nx ny m) (v u : Site → Fin pD → ℝ)
    (c : Site → ℝ) (hc : ∀ s, InCell nx ny s → c s ≠ 0 ∧ ∑ p, u s p ^ 2 = 1 ∧ v s = c s • u s) (s : Site) (r : Fin pD → ℝ) :
    Tendsto (slope (fun t : ℝ => meanEnergy nx ny m (Function.update v s (v s + t • r))) 0) (𝓝[≠] 0)
      (𝓝 (2 * ∑ x ∈ Finset.range nx ×ˢ Finset.range ny, ∑ p, (if x = s then (c s)⁻¹ * r p else 0) * across (u x) (siteForce nx ny m u x) p)) := by
  have hl : Tendsto (fun τ : ℝ => τ) (𝓝[≠] 0) (𝓝 0) := tendsto_id.mono_left nhdsWithin_le_nhds
  have h := energy_slope hx hy m hm hU hl self_mem_nhdsWithin u (fun x p => if x = s then (c s)⁻¹ * r p else 0) (fun s hs => (hc s hs).2.1)
    (fun t => Function.update v s (v s + t • r)) (fun x hx' => by
      obtain ⟨c0, -, e⟩ := hc x hx'
      refine ⟨fun _ p => if x = s then (c s)⁻¹ * r p else 0, fun p => tendsto_const_nhds, .of_forall fun τ => ⟨c x, c0, fun p => ?_⟩⟩
      by_cases hxs : x = s
      · subst hxs
        simp only [Function.update_self, Pi.add_apply, Pi.smul_apply, smul_eq_mul, if_true]
        rw [congrFun e p, Pi.smul_apply, smul_eq_mul]
        field_simp
      · simp only [Function.update_of_ne hxs, if_neg hxs, mul_zero, add_zero]
        rw [congrFun e p, Pi.smul_apply, smul_eq_mul])
  refine h.congr fun t => ?_
  rw [slope_def_field, sub_zero, zero_smul, add_zero, Function.update_eq_self]
  rw [meanEnergy_scale m (u := u) (v := v) fun s hs => ⟨c s, (hc s hs).1, (hc s hs).2.2⟩]

/-- Where no force remains, the energy is stationary. -/
theorem stationary_of_forces (hx : 2 ≤ nx) (hy : 2 ≤ ny) (m : ModelTerms (Fin pD) ℝ) (hm : m.Hermitian) (hU : Uniform nx ny m) (v u : Site → Fin pD → ℝ)
    (c : Site → ℝ) (hc : ∀ s, InCell nx ny s → c s ≠ 0 ∧ ∑ p, u s p ^ 2 = 1 ∧ v s = c s • u s)
    (h0 : ∀ s, InCell nx ny s → ∀ p, across (u s) (siteForce nx ny m u s) p = 0) : StationaryEnergy nx ny m v := by
  intro s hs r
  rw [hasDerivAt_iff_tendsto_slope]
  have h := single_slope hx hy m hm hU v u c hc s r
  have hz : 2 * ∑ x ∈ Finset.range nx ×ˢ Finset.range ny, ∑ p, (if x = s then (c s)⁻¹ * r p else 0) * across (u x) (siteForce nx ny m u x) p = 0 := by
    rw [Finset.sum_eq_zero, mul_zero]
    intro x hx'
    rw [Finset.mem_product, Finset.mem_range, Finset.mem_range] at hx'
    exact Finset.sum_eq_zero fun p _ => by rw [h0 x hx', mul_zero]
  rwa [hz] at h

/-- Where the energy is stationary, no force remains. -/
theorem forces_of_stationary (hx : 2 ≤ nx) (hy : 2 ≤ ny) (m : ModelTerms (Fin pD) ℝ) (hm : m.Hermitian) (hU : Uniform nx ny m) (v u : Site → Fin pD → ℝ)
    (c : Site → ℝ) (hc : ∀ s, InCell nx ny s → c s ≠ 0 ∧ ∑ p, u s p ^ 2 = 1 ∧ v s = c s • u s) (h0 : StationaryEnergy nx ny m v) (s : Site)
    (hs : InCell nx ny s) : ∑ p, across (u s) (siteForce nx ny m u s) p ^ 2 = 0 := by
  have h1 := tendsto_nhds_unique (hasDerivAt_iff_tendsto_slope.1 (h0 s hs (c s • across (u s) (siteForce nx ny m u s))))
    (single_slope hx hy m hm hU v u c hc s (c s • across (u s) (siteForce nx ny m u s)))
  rw [Finset.sum_eq_single_of_mem s (by rw [Finset.mem_product, Finset.mem_range, Finset.mem_range]; exact hs) fun x _ hxs => by simp [hxs]] at h1
  have h2 : ∀ p, (if s = s then (c s)⁻¹ * (c s • across (u s) (siteForce nx ny m u s)) p else 0) * across (u s) (siteForce nx ny m u s) p =
      across (u s) (siteForce nx ny m u s) p ^ 2 := fun p => by
    rw [if_pos rfl, Pi.smul_apply, smul_eq_mul, inv_mul_cancel_left₀ (hc s hs).1, sq]
  rw [Finset.sum_congr rfl fun p _ => h2 p] at h1
  linarith

theorem listAfter_cases (n : ℕ) {bl L : List Bond} (h : bl = L ∨ bl = L.reverse) : listAfter n bl = L ∨ listAfter n bl = L.reverse := by
  unfold listAfter
  rcases h with rfl | rfl <;> split <;> simp

/-- Calls of `evolve` with a model, given the numbers of steps and the time steps in units of `τ`. -/
def Spec.Scaled (m : ModelTerms (Fin pD) ℝ) (τ : ℝ) (xs : List (ℕ × ℝ)) (es : List (Evolution 1 pD ℝ)) : Prop :=
  List.Forall₂ (fun x e => e.steps = x.1 ∧ e.dtau = τ * x.2 ∧ e.model = m) xs es

/-- The total time in units of `τ`. -/
def Spec.scaledTime (xs : List (ℕ × ℝ)) : ℝ := (xs.map fun x => (x.1 : ℝ) * x.2).sum

theorem near_field (hx : 2 ≤ nx) (hy : 2 ≤ ny) (m : ModelTerms (Fin pD) ℝ) {l : Filter ℝ} (hl : Tendsto (fun τ : ℝ => τ) l (𝓝 0)) (hl0 : ∀ᶠ τ in l, τ ≠ 0)
    (u : Site → Fin pD → ℝ) (hu : ∀ s, InCell nx ny s → ∑ p, u s p ^ 2 = 1) (xs : List (ℕ × ℝ)) (hxs : ∀ x ∈ xs, x.2 ≠ 0) (bl : List Bond)
    (hbl : bl = buildBondList nx ny ∨ bl = (buildBondList nx ny).reverse) (d : Site → Fin pD → ℝ) (es : ℝ → List (Evolution 1 pD ℝ))
    (v w : ℝ → Site → Fin pD → ℝ) (hv : ∀ s, InCell nx ny s → NearTo l (u s) (d s) fun τ => v τ s) (hes : ∀ᶠ τ in l, Scaled m τ xs (es τ))
    (hr : ∀ᶠ τ in l, MeanField nx ny (es τ) bl (v τ) (w τ)) :
    ∀ s, InCell nx ny s → NearTo l (u s) (fun p => d s p - scaledTime xs * siteForce nx ny m u s p) fun τ => w τ s := by
  induction xs generalizing bl d es v with
  | nil =>
    intro s hs
    refine ((hv s hs).congr ?_).congr_dir fun p => by simp [scaledTime]
    filter_upwards [hes, hr] with τ h1 h2
    rw [List.forall₂_nil_left_iff.1 h1] at h2
    exact h2 s hs
  | cons x xs ih =>
    have h : ∀ᶠ τ in l, ∃ (es' : List (Evolution 1 pD ℝ)) (v' : Site → Fin pD → ℝ), Scaled m τ xs es' ∧
        MeanRun nx ny (twoSiteGate m (τ * x.2)) (schedule x.1 bl) (v τ) v' ∧ MeanField nx ny es' (listAfter x.1 bl) v' (w τ) := by
      filter_upwards [hes, hr] with τ h1 h2
      obtain ⟨e, es', ⟨k1, k2, k3⟩, h3, h4⟩ := List.forall₂_cons_left_iff.1 h1
      rw [h4] at h2
      obtain ⟨v', h5, h6⟩ := h2
      rw [k1, k2, k3] at h5
      rw [k1] at h6
      exact ⟨es', v', h3, h5, h6⟩
    obtain ⟨es', h⟩ := Filter.skolem.1 h
    obtain ⟨v', h⟩ := Filter.skolem.1 h
    have hb : ∀ b ∈ bl, b ∈ buildBondList nx ny := by
      rcases hbl with rfl | rfl
      · exact fun b h => h
      · exact fun b h => List.mem_reverse.1 h
    have hf : ∀ s p, (bl.map fun b => bondForce m u b s p).sum = siteForce nx ny m u s p := by
      rcases hbl with rfl | rfl
      · exact fun s p => rfl
      · exact fun s p => by rw [List.map_reverse, List.sum_reverse]; rfl
    have hn := near_run hx hy m hl hl0 (hxs x (by simp)) u hu (schedule x.1 bl) (fun b h => hb b (mem_schedule h)) d v v' hv (h.mono fun τ h => h.2.1)
    intro s hs
    refine (ih (fun y hy => hxs y (by simp [hy])) (listAfter x.1 bl) (listAfter_cases x.1 hbl) _ es' v' hn (h.mono fun τ h => h.1) (h.mono fun τ h => h.2.2) s hs).congr_dir
      fun p => ?_
    rw [schedule_list_sum, hf, nsmul_eq_mul]
    simp only [scaledTime, List.map_cons, List.sum_cons]
    ring

/-- The first-order change of the energy in runs. -/
theorem run_slope (hx : 2 ≤ nx) (hy : 2 ≤ ny) (m : ModelTerms (Fin pD) ℝ) (hm : m.Hermitian) (hU : Uniform nx ny m) {l : Filter ℝ}
    (hl : Tendsto (fun τ : ℝ => τ) l (𝓝 0)) (hl0 : ∀ᶠ τ in l, τ ≠ 0) (v₀ u : Site → Fin pD → ℝ) (c : Site → ℝ)
    (hc : ∀ s, InCell nx ny s → c s ≠ 0 ∧ ∑ p, u s p ^ 2 = 1 ∧ v₀ s = c s • u s) (xs : List (ℕ × ℝ)) (hxs : ∀ x ∈ xs, x.2 ≠ 0)
    (es : ℝ → List (Evolution 1 pD ℝ)) (v w : ℝ → Site → Fin pD → ℝ)
    (hv : ∀ᶠ τ in l, ∀ s, InCell nx ny s → v τ s = v₀ s) (hes : ∀ᶠ τ in l, Scaled m τ xs (es τ))
    (hw : ∀ᶠ τ in l, MeanField nx ny (es τ) (buildBondList nx ny) (v τ) (w τ)) :
    Tendsto (fun τ => (meanEnergy nx ny m (w τ) - meanEnergy nx ny m v₀) / τ) l
      (𝓝 (-(scaledTime xs * (2 * ∑ s ∈ Finset.range nx ×ˢ Finset.range ny, ∑ p, across (u s) (siteForce nx ny m u s) p ^ 2)))) := by
  have hnear := near_field hx hy m hl hl0 u (fun s hs => (hc s hs).2.1) xs hxs _ (.inl rfl) (fun _ _ => 0) es v w
    (fun s hs => ⟨fun _ _ => 0, fun _ => tendsto_const_nhds, hv.mono fun τ h => ⟨c s, (hc s hs).1, fun p => by
      show v τ s p = c s * (u s p + τ * 0)
      rw [h s hs, (hc s hs).2.2, mul_zero, add_zero]
      rfl⟩⟩) hes hw
  have hslope := energy_slope hx hy m hm hU hl hl0 u (fun s p => -(scaledTime xs * siteForce nx ny m u s p)) (fun s hs => (hc s hs).2.1) w
    fun s hs => (hnear s hs).congr_dir fun p => zero_sub _
  have hsum : ∑ s ∈ Finset.range nx ×ˢ Finset.range ny, ∑ p, -(scaledTime xs * siteForce nx ny m u s p) * across (u s) (siteForce nx ny m u s) p =
      -(scaledTime xs * ∑ s ∈ Finset.range nx ×ˢ Finset.range ny, ∑ p, across (u s) (siteForce nx ny m u s) p ^ 2) := by
    rw [Finset.mul_sum, ← Finset.sum_neg_distrib]
    refine Finset.sum_congr rfl fun s hs => ?_
    rw [Finset.mem_product, Finset.mem_range, Finset.mem_range] at hs
    rw [← across_self (hc s hs).2.1, Finset.mul_sum, ← Finset.sum_neg_distrib]
    exact Finset.sum_congr rfl fun p _ => by ring
  rw [hsum, ← meanEnergy_scale m (u := u) (v := v₀) fun s hs => ⟨c s, (hc s hs).1, (hc s hs).2.2⟩] at hslope
  exact hslope.mono_right (le_of_eq (congrArg 𝓝 (by ring)))

/-- The rate, by the pulls on unit vectors. -/
noncomputable def Spec.pullRate (nx ny : ℕ) (m : ModelTerms (Fin pD) ℝ) (u : Site → Fin pD → ℝ) : ℝ :=
  2 * ∑ s ∈ Finset.range nx ×ˢ Finset.range ny, ∑ p, across (u s) (siteForce nx ny m u s) p ^ 2

theorem rate_bound (hx : 2 ≤ nx) (hy : 2 ≤ ny) (m : ModelTerms (Fin pD) ℝ) (hm : m.Hermitian) (hU : Uniform nx ny m) (v₀ u : Site → Fin pD → ℝ)
    (c : Site → ℝ) (hc : ∀ s, InCell nx ny s → c s ≠ 0 ∧ ∑ p, u s p ^ 2 = 1 ∧ v₀ s = c s • u s) (xs : List (ℕ × ℝ)) (ε : ℝ) (hxs : ∀ x ∈ xs, x.2 ≠ 0)
    (hε : 0 < ε) :
    ∃ τ₀ : ℝ, 0 < τ₀ ∧ ∀ τ, 0 < τ → τ < τ₀ → ∀ (es : List (Evolution 1 pD ℝ)) (v w : Site → Fin pD → ℝ), Scaled m τ xs es →
      (∀ s, InCell nx ny s → v s = v₀ s) → MeanField nx ny es (buildBondList nx ny) v w →
      |meanEnergy nx ny m w - (meanEnergy nx ny m v₀ - scaledTime xs * τ * pullRate nx ny m u)| ≤ ε * τ := by
  unfold pullRate
  set R := 2 * ∑ s ∈ Finset.range nx ×ˢ Finset.range ny, ∑ p, across (u s) (siteForce nx ny m u s) p ^ 2 with hR
  by_contra hcon
  push Not at hcon
  let bad : Set ℝ := {τ | 0 < τ ∧ ∃ (es : List (Evolution 1 pD ℝ)) (v w : Site → Fin pD → ℝ), Scaled m τ xs es ∧ (∀ s, InCell nx ny s → v s = v₀ s) ∧
    MeanField nx ny es (buildBondList nx ny) v w ∧ ε * τ < |meanEnergy nx ny m w - (meanEnergy nx ny m v₀ - scaledTime xs * τ * R)|}
  have hbot : (𝓝[bad] (0 : ℝ)).NeBot := by
    rw [← mem_closure_iff_nhdsWithin_neBot, Metric.mem_closure_iff]
    intro δ hδ
    obtain ⟨τ, h1, h2, es, v, w, h6, h3, h4, h5⟩ := hcon δ hδ
    exact ⟨τ, ⟨h1, es, v, w, h6, h3, h4, h5⟩, by rw [Real.dist_eq, zero_sub, abs_neg, abs_of_pos h1]; exact h2⟩
  have hl : Tendsto (fun τ : ℝ => τ) (𝓝[bad] 0) (𝓝 0) := tendsto_id.mono_left nhdsWithin_le_nhds
  have hmem : ∀ᶠ τ in 𝓝[bad] (0 : ℝ), τ ∈ bad := self_mem_nhdsWithin
  obtain ⟨es, he'⟩ := Filter.skolem.1 (hmem.mono fun τ h => h.2)
  obtain ⟨v, hv'⟩ := Filter.skolem.1 he'
  obtain ⟨w, hw⟩ := Filter.skolem.1 hv'
  have hslope := run_slope hx hy m hm hU hl (hmem.mono fun τ h => h.1.ne') v₀ u c hc xs hxs es v w (hw.mono fun τ h => h.2.1) (hw.mono fun τ h => h.1)
    (hw.mono fun τ h => h.2.2.1)
  have hlim := (hslope.add_const (scaledTime xs * R)).abs
  rw [← hR, neg_add_cancel, abs_zero] at hlim
  have hge := ge_of_tendsto hlim (b := ε) (by
    filter_upwards [hmem, hw] with τ h1 h2
    have e : (meanEnergy nx ny m (w τ) - meanEnergy nx ny m v₀) / τ + scaledTime xs * R = (meanEnergy nx ny m (w τ) - (meanEnergy nx ny m v₀ - scaledTime xs * τ * R)) / τ := by
      have := h1.1.ne'
      field_simp
      ring
    rw [e, abs_div, abs_of_pos h1.1, le_div_iff₀ h1.1]
    exact h2.2.2.2.le)
  linarith

/-- **C119 (rate).** To first order in the time step the energy falls at a rate that only depends on the model and the initial vectors, in proportion to
the total time of all calls; the rate is zero exactly where the energy is stationary. -/
theorem C119_rate (hx : 2 ≤ nx) (hy : 2 ≤ ny) (m : ModelTerms (Fin pD) ℝ) (hm : m.Hermitian) (hU : Uniform nx ny m) (v₀ : Site → Fin pD → ℝ)
    (hv : ∀ s, InCell nx ny s → v₀ s ≠ 0) :
    ∃ R : ℝ, 0 ≤ R ∧ (R = 0 ↔ StationaryEnergy nx ny m v₀) ∧ ∀ (xs : List (ℕ × ℝ)) (ε : ℝ), (∀ x ∈ xs, x.2 ≠ 0) → 0 < ε →
      ∃ τ₀ : ℝ, 0 < τ₀ ∧ ∀ τ, 0 < τ → τ < τ₀ → ∀ (es : List (Evolution 1 pD ℝ)) (v w : Site → Fin pD → ℝ), Scaled m τ xs es →
        (∀ s, InCell nx ny s → v s = v₀ s) →
        MeanField nx ny es (buildBondList nx ny) v w →
        |meanEnergy nx ny m w - (meanEnergy nx ny m v₀ - scaledTime xs * τ * R)| ≤ ε * τ := by
  obtain ⟨c, u, hc⟩ := exists_unit v₀ hv
  have hnn : 0 ≤ ∑ s ∈ Finset.range nx ×ˢ Finset.range ny, ∑ p, across (u s) (siteForce nx ny m u s) p ^ 2 :=
    Finset.sum_nonneg fun _ _ => Finset.sum_nonneg fun _ _ => sq_nonneg _
  refine ⟨2 * ∑ s ∈ Finset.range nx ×ˢ Finset.range ny, ∑ p, across (u s) (siteForce nx ny m u s) p ^ 2, by linarith, ⟨fun hz => ?_, fun hst => ?_⟩, ?_⟩
  · have hz' : ∑ s ∈ Finset.range nx ×ˢ Finset.range ny, ∑ p, across (u s) (siteForce nx ny m u s) p ^ 2 = 0 := by linarith
    refine stationary_of_forces hx hy m hm hU v₀ u c hc fun s hs p => ?_
    have h1 := (Finset.sum_eq_zero_iff_of_nonneg fun s _ => Finset.sum_nonneg fun _ _ => sq_nonneg _).1 hz' s (by
      rw [Finset.mem_product, Finset.mem_range, Finset.mem_range]
      exact hs)
    have h2 := (Finset.sum_eq_zero_iff_of_nonneg fun _ _ => sq_nonneg _).1 h1 p (Finset.mem_univ _)
    exact pow_eq_zero_iff two_ne_zero |>.1 h2
  · rw [Finset.sum_eq_zero, mul_zero]
    intro s hs
    rw [Finset.mem_product, Finset.mem_range, Finset.mem_range] at hs
    exact forces_of_stationary hx hy m hm hU v₀ u c hc hst s hs
  · exact rate_bound hx hy m hm hU v₀ u c hc

/-- **C119 (mean-field theory).** Runs with short time steps lower the energy, unless it is stationary. -/
theorem C119_run (hx : 2 ≤ nx) (hy : 2 ≤ ny) (m : ModelTerms (Fin pD) ℝ) (hm : m.Hermitian) (hU : Uniform nx ny m) (v₀ : Site → Fin pD → ℝ)
    (hv : ∀ s, InCell nx ny s → v₀ s ≠ 0) (hs : ¬ StationaryEnergy nx ny m v₀) (xs : List (ℕ × ℝ)) (hxs : ∀ x ∈ xs, x.2 ≠ 0) (hn : 0 < scaledTime xs) :
    ∃ τ₀ : ℝ, 0 < τ₀ ∧ ∀ τ, 0 < τ → τ < τ₀ → ∀ (es : List (Evolution 1 pD ℝ)) (v w : Site → Fin pD → ℝ), Scaled m τ xs es →
      (∀ s, InCell nx ny s → v s = v₀ s) → MeanField nx ny es (buildBondList nx ny) v w → meanEnergy nx ny m w < meanEnergy nx ny m v₀ := by
  obtain ⟨R, h1, h2, h3⟩ := C119_rate hx hy m hm hU v₀ hv
  have hR : 0 < R := lt_of_le_of_ne h1 fun h => hs (h2.1 h.symm)
  obtain ⟨τ₀, h0, h⟩ := h3 xs (scaledTime xs * R / 2) hxs (by positivity)
  refine ⟨τ₀, h0, fun τ ht htτ es v w hes hvw hrun => ?_⟩
  have := (abs_le.1 (h τ ht htτ es v w hes hvw hrun)).2
  have hp : 0 < scaledTime xs * τ * R := by positivity
  nlinarith

/-! ### Programs -/

/-- What is measured on an object that holds a product state. -/
theorem measured_meanEnergy (hx : 2 ≤ nx) (hy : 2 ≤ ny) {s : State 1 pD ℝ} (hs : MeanState nx ny s) (m : ModelTerms (Fin pD) ℝ) (hm : m.Hermitian)
    (model : MeasModel (Fin pD → Fin pD → ℝ) (Fin pD → Fin pD → Fin pD → Fin pD → ℝ)) (hmm : Measures m model)
    (hcl : Meas.Clean model (buildSiteList nx ny) (buildBondList nx ny)) (init : Fin pD → Fin pD → Fin pD → Fin pD → ℝ) :
    ∃ d, Session.measure init model s = .ok d ∧ d.get? "Energy" = some (meanEnergy nx ny m (siteVec (siteTensors (bare s.net))) / (nx * ny : ℕ)) := by
  have hval := hs.values (by omega) (by omega)
  obtain ⟨-, d, e1, e2⟩ := energy_of_values (N := 1) hx hy (fun _ => 1) s hs hval m model hmm hcl init
  refine ⟨d, e1, e2.trans ?_⟩
  have hT : ∀ {n : Type} (A : Matrix n n ℝ), A.IsHermitian → Aᵀ = A := fun A hA => by
    have := hA.eq
    rwa [Matrix.conjTranspose_eq_transpose_of_trivial] at this
  rw [latticeState_one, energy_product hx hy _ m _ fun x hx' => (hval x hx').1, Nat.cast_one, one_mul, one_mul]
  refine congrArg some (congrArg (· / _) ?_)
  unfold meanEnergy
  refine congrArg₂ (· + ·) (congrArg List.sum (List.map_congr_left fun b _ => by rw [hT _ (hm.1 b)])) (congrArg List.sum (List.map_congr_left fun x _ => ?_))
  cases e : m.one x with
  | none => rfl
  | some h => rw [Option.map_some, Option.map_some, hT _ (hm.2 x h e)]

/-- **C119 (before).** Before the evolution the energy per site of the product of the initial site tensors is measured. -/
theorem C119_before (hx : 2 ≤ nx) (hy : 2 ≤ ny) {chi : ℕ} (hchi : 0 < chi) (A : Site → ATensor (Fin 1) (Fin pD) ℝ) (hA : ∀ s, InCell nx ny s → A s ≠ 0)
    (m : ModelTerms (Fin pD) ℝ) (hm : m.Hermitian) (model : MeasModel (Fin pD → Fin pD → ℝ) (Fin pD → Fin pD → Fin pD → Fin pD → ℝ))
    (hmm : Measures m model) (hcl : Meas.Clean model (buildSiteList nx ny) (buildBondList nx ny)) (init : Fin pD → Fin pD → Fin pD → Fin pD → ℝ) :
    ∃ d, Session.measure init model (new nx ny chi A) = .ok d ∧ d.get? "Energy" = some (meanEnergy nx ny m (siteVec A) / (nx * ny : ℕ)) :=
  measured_meanEnergy hx hy (mean_new (by omega) (by omega) hchi A hA) m hm model hmm hcl init

/-- What is measured after a script that evolves with one model. -/
theorem measured_after (hx : 2 ≤ nx) (hy : 2 ≤ ny) (m : ModelTerms (Fin pD) ℝ) (hm : m.Hermitian) (v₀ : Site → Fin pD → ℝ)
    (model : MeasModel (Fin pD → Fin pD → ℝ) (Fin pD → Fin pD → Fin pD → Fin pD → ℝ)) (hmm : Measures m model)
    (hcl : Meas.Clean model (buildSiteList nx ny) (buildBondList nx ny)) {chi : ℕ} (A : Site → ATensor (Fin 1) (Fin pD) ℝ) (cs : List (Call F 1 pD ℝ))
    (τ : ℝ) (xs : List (ℕ × ℝ)) (init : Fin pD → Fin pD → Fin pD → Fin pD → ℝ) (hchi : 0 < chi) (hA : ∀ s, InCell nx ny s → A s ≠ 0)
    (hcs : ∀ c ∈ cs, Sensible nx ny c ∧ KnownNames c) (he : Scaled m τ xs (evolutions cs))
    (hst : ∀ s, InCell nx ny s → startVec A (evolutions cs) s = v₀ s) (Q : ℝ → Prop)
    (hQ : ∀ (es : List (Evolution 1 pD ℝ)) (v w : Site → Fin pD → ℝ), Scaled m τ xs es → (∀ s, InCell nx ny s → v s = v₀ s) →
      MeanField nx ny es (buildBondList nx ny) v w → Q (meanEnergy nx ny m w)) :
    (∀ M : Machine F 1 ℝ, M.cx = false → DrawsNonzero M.ω →
      ∃ d, ∃ E : ℝ, Session.measure init model (runCatching M cs (new nx ny chi A)) = .ok d ∧ d.get? "Energy" = some (E / (nx * ny : ℕ)) ∧ Q E) ∧
      ∀ D : Team F 1 pD ℝ, D.Works nx ny → D.cx = false → (∀ r < D.ws, DrawsNonzero (D.ω r)) →
        ∃ d, ∃ E : ℝ, (∀ k < D.ws, Session.measure init model ((distRun D cs (distNew D nx ny chi A)).1.view k) = .ok d) ∧
          d.get? "Energy" = some (E / (nx * ny : ℕ)) ∧ Q E := by
  have key : ∀ v, MeanField nx ny (evolutions cs) (buildBondList nx ny) (startVec A (evolutions cs)) v → Q (meanEnergy nx ny m v) :=
    fun v hv' => hQ _ _ v he hst hv'
  constructor
  · intro M hM hω
    obtain ⟨d, e1, e2⟩ := measured_meanEnergy hx hy (mean_run hx hy M hM hω cs (fun c hc => (hcs c hc).1) _ (mean_new (by omega) (by omega) hchi A hA)) m hm model hmm hcl init
    exact ⟨d, _, e1, e2, key _ (C111_refines hx hy M hM hω hchi A hA cs hcs)⟩
  · intro D hD hcx hω
    obtain ⟨h1, -, h3, -⟩ := team_run hx hy D hD hcx hω hchi A hA cs hcs
    obtain ⟨d, e1, e2⟩ := measured_meanEnergy hx hy h1.2 m hm model hmm hcl init
    refine ⟨d, _, fun k hk => ?_, e2, key _ h3⟩
    rw [← e1]
    unfold Ranks.view
    rw [show (distRun D cs (distNew D nx ny chi A)).1.nets k = (distRun D cs (distNew D nx ny chi A)).1.nets 0 from h1.1 k hk]

theorem measured_rate (hx : 2 ≤ nx) (hy : 2 ≤ ny) (m : ModelTerms (Fin pD) ℝ) (hm : m.Hermitian) (v₀ : Site → Fin pD → ℝ)
    (model : MeasModel (Fin pD → Fin pD → ℝ) (Fin pD → Fin pD → Fin pD → Fin pD → ℝ)) (hmm : Measures m model)
    (hcl : Meas.Clean model (buildSiteList nx ny) (buildBondList nx ny)) (R : ℝ)
    (h : ∀ (xs : List (ℕ × ℝ)) (ε : ℝ), (∀ x ∈ xs, x.2 ≠ 0) → 0 < ε →
      ∃ τ₀ : ℝ, 0 < τ₀ ∧ ∀ τ, 0 < τ → τ < τ₀ → ∀ (es : List (Evolution 1 pD ℝ)) (v w : Site → Fin pD → ℝ), Scaled m τ xs es →
        (∀ s, InCell nx ny s → v s = v₀ s) → MeanField nx ny es (buildBondList nx ny) v w →
        |meanEnergy nx ny m w - (meanEnergy nx ny m v₀ - scaledTime xs * τ * R)| ≤ ε * τ) :
    ∀ (xs : List (ℕ × ℝ)) (ε : ℝ), (∀ x ∈ xs, x.2 ≠ 0) → 0 < ε →
      ∃ τ₀ : ℝ, 0 < τ₀ ∧ ∀ (F : Type) (chi : ℕ) (A : Site → ATensor (Fin 1) (Fin pD) ℝ) (cs : List (Call F 1 pD ℝ)) (τ : ℝ)
        (init : Fin pD → Fin pD → Fin pD → Fin pD → ℝ), 0 < chi → (∀ s, InCell nx ny s → A s ≠ 0) → (∀ c ∈ cs, Sensible nx ny c ∧ KnownNames c) →
        Scaled m τ xs (evolutions cs) → (∀ s, InCell nx ny s → startVec A (evolutions cs) s = v₀ s) → 0 < τ → τ < τ₀ →
        (∀ M : Machine F 1 ℝ, M.cx = false → DrawsNonzero M.ω →
          ∃ d E, Session.measure init model (runCatching M cs (new nx ny chi A)) = .ok d ∧ d.get? "Energy" = some E ∧
            |E - (meanEnergy nx ny m v₀ / (nx * ny : ℕ) - scaledTime xs * τ * (R / (nx * ny : ℕ)))| ≤ ε * τ) ∧
          ∀ D : Team F 1 pD ℝ, D.Works nx ny → D.cx = false → (∀ r < D.ws, DrawsNonzero (D.ω r)) →
            ∃ d E, (∀ k < D.ws, Session.measure init model ((distRun D cs (distNew D nx ny chi A)).1.view k) = .ok d) ∧ d.get? "Energy" = some E ∧
              |E - (meanEnergy nx ny m v₀ / (nx * ny : ℕ) - scaledTime xs * τ * (R / (nx * ny : ℕ)))| ≤ ε * τ := by
  have hpos : (0 : ℝ) < (nx * ny : ℕ) := Nat.cast_pos.2 (Nat.mul_pos (by omega) (by omega))
  intro xs ε hxs hε
  obtain ⟨τ₀, h0, h⟩ := h xs (ε * (nx * ny : ℕ)) hxs (mul_pos hε hpos)
  refine ⟨τ₀, h0, fun F chi A cs τ init hchi hA hcs he hst hd hdτ => ?_⟩
  have h1 := measured_after hx hy m hm v₀ model hmm hcl A cs τ xs init hchi hA hcs he hst (fun x => |x - (meanEnergy nx ny m v₀ - scaledTime xs * τ * R)| ≤ ε * (nx * ny : ℕ) * τ)
    fun es v w hes hvw hr => h τ hd hdτ es v w hes hvw hr
  have h2 : ∀ E : ℝ, |E - (meanEnergy nx ny m v₀ - scaledTime xs * τ * R)| ≤ ε * (nx * ny : ℕ) * τ →
      |E / (nx * ny : ℕ) - (meanEnergy nx ny m v₀ / (nx * ny : ℕ) - scaledTime xs * τ * (R / (nx * ny : ℕ)))| ≤ ε * τ := by
    intro E hE
    rw [show E / (nx * ny : ℕ) - (meanEnergy nx ny m v₀ / (nx * ny : ℕ) - scaledTime xs * τ * (R / (nx * ny : ℕ))) =
      (E - (meanEnergy nx ny m v₀ - scaledTime xs * τ * R)) / (nx * ny : ℕ) by ring, abs_div, abs_of_pos hpos, div_le_iff₀ hpos]
    linarith
  refine ⟨fun M hM hω => ?_, fun D hD hcx hω => ?_⟩
  · obtain ⟨d, E, k1, k2, k3⟩ := h1.1 M hM hω
    exact ⟨d, _, k1, k2, h2 E k3⟩
  · obtain ⟨d, E, k1, k2, k3⟩ := h1.2 D hD hcx hω
    exact ⟨d, _, k1, k2, h2 E k3⟩

/-- **C119 (measured rate).** Real dtype, bond dimension one, cells from 2 × 2, Hermitian models with one-site terms everywhere or nowhere: to first order
in the time step the measured energy per site falls by the total time of all calls of `evolve` times a rate that only depends on the model and the
initial vectors and is zero exactly where the energy is stationary, with every library, settings and boundary dimension, in one process and on every rank. -/
theorem C119_measured (hx : 2 ≤ nx) (hy : 2 ≤ ny) (m : ModelTerms (Fin pD) ℝ) (hm : m.Hermitian) (hU : Uniform nx ny m) (v₀ : Site → Fin pD → ℝ)
    (hv : ∀ s, InCell nx ny s → v₀ s ≠ 0)
    (model : MeasModel (Fin pD → Fin pD → ℝ) (Fin pD → Fin pD → Fin pD → Fin pD → ℝ)) (hmm : Measures m model)
    (hcl : Meas.Clean model (buildSiteList nx ny) (buildBondList nx ny)) :
    ∃ R : ℝ, 0 ≤ R ∧ (R = 0 ↔ StationaryEnergy nx ny m v₀) ∧ ∀ (xs : List (ℕ × ℝ)) (ε : ℝ), (∀ x ∈ xs, x.2 ≠ 0) → 0 < ε →
      ∃ τ₀ : ℝ, 0 < τ₀ ∧ ∀ (F : Type) (chi : ℕ) (A : Site → ATensor (Fin 1) (Fin pD) ℝ) (cs : List (Call F 1 pD ℝ)) (τ : ℝ)
        (init : Fin pD → Fin pD → Fin pD → Fin pD → ℝ), 0 < chi → (∀ s, InCell nx ny s → A s ≠ 0) → (∀ c ∈ cs, Sensible nx ny c ∧ KnownNames c) →
        Scaled m τ xs (evolutions cs) → (∀ s, InCell nx ny s → startVec A (evolutions cs) s = v₀ s) → 0 < τ → τ < τ₀ →
        (∀ M : Machine F 1 ℝ, M.cx = false → DrawsNonzero M.ω →
          ∃ d E, Session.measure init model (runCatching M cs (new nx ny chi A)) = .ok d ∧ d.get? "Energy" = some E ∧
            |E - (meanEnergy nx ny m v₀ / (nx * ny : ℕ) - scaledTime xs * τ * R)| ≤ ε * τ) ∧
          ∀ D : Team F 1 pD ℝ, D.Works nx ny → D.cx = false → (∀ r < D.ws, DrawsNonzero (D.ω r)) →
            ∃ d E, (∀ k < D.ws, Session.measure init model ((distRun D cs (distNew D nx ny chi A)).1.view k) = .ok d) ∧ d.get? "Energy" = some E ∧
              |E - (meanEnergy nx ny m v₀ / (nx * ny : ℕ) - scaledTime xs * τ * R)| ≤ ε * τ := by
  obtain ⟨R, hR, hR0, h⟩ := C119_rate hx hy m hm hU v₀ hv
  have hpos : (0 : ℝ) < (nx * ny : ℕ) := Nat.cast_pos.2 (Nat.mul_pos (by omega) (by omega))
  refine ⟨R / (nx * ny : ℕ), div_nonneg hR hpos.le, by rw [← hR0, div_eq_zero_iff, or_iff_left hpos.ne'],
    measured_rate hx hy m hm v₀ model hmm hcl R h⟩

/-- **C119.** Real dtype, bond dimension one, cells from 2 × 2, Hermitian models with one-site terms everywhere or nowhere: for initial vectors at which
the energy is not stationary and all numbers of steps and ratios of time steps of any number of calls of `evolve` there is a time step below
which the calls, with every library, settings and boundary dimension, lower the energy that is measured, in one process and on every rank of a team. -/
theorem C119_descent (hx : 2 ≤ nx) (hy : 2 ≤ ny) (m : ModelTerms (Fin pD) ℝ) (hm : m.Hermitian) (hU : Uniform nx ny m) (v₀ : Site → Fin pD → ℝ)
    (hv : ∀ s, InCell nx ny s → v₀ s ≠ 0) (hs : ¬ StationaryEnergy nx ny m v₀) (xs : List (ℕ × ℝ)) (hxs : ∀ x ∈ xs, x.2 ≠ 0) (hn : 0 < scaledTime xs)
    (model : MeasModel (Fin pD → Fin pD → ℝ) (Fin pD → Fin pD → Fin pD → Fin pD → ℝ)) (hmm : Measures m model)
    (hcl : Meas.Clean model (buildSiteList nx ny) (buildBondList nx ny)) :
    ∃ τ₀ : ℝ, 0 < τ₀ ∧ ∀ (F : Type) (chi : ℕ) (A : Site → ATensor (Fin 1) (Fin pD) ℝ) (cs : List (Call F 1 pD ℝ)) (τ : ℝ)
      (init : Fin pD → Fin pD → Fin pD → Fin pD → ℝ), 0 < chi → (∀ s, InCell nx ny s → A s ≠ 0) → (∀ c ∈ cs, Sensible nx ny c ∧ KnownNames c) →
      Scaled m τ xs (evolutions cs) → (∀ s, InCell nx ny s → startVec A (evolutions cs) s = v₀ s) → 0 < τ → τ < τ₀ →
      (∀ M : Machine F 1 ℝ, M.cx = false → DrawsNonzero M.ω →
        ∃ d E, Session.measure init model (runCatching M cs (new nx ny chi A)) = .ok d ∧ d.get? "Energy" = some E ∧
          E < meanEnergy nx ny m v₀ / (nx * ny : ℕ)) ∧
        ∀ D : Team F 1 pD ℝ, D.Works nx ny → D.cx = false → (∀ r < D.ws, DrawsNonzero (D.ω r)) →
          ∃ d E, (∀ k < D.ws, Session.measure init model ((distRun D cs (distNew D nx ny chi A)).1.view k) = .ok d) ∧ d.get? "Energy" = some E ∧
            E < meanEnergy nx ny m v₀ / (nx * ny : ℕ) := by
  obtain ⟨τ₀, h0, h⟩ := C119_run hx hy m hm hU v₀ hv hs xs hxs hn
  refine ⟨τ₀, h0, fun F chi A cs τ init hchi hA hcs he hst hd hdτ => ?_⟩
  have hpos : (0 : ℝ) < (nx * ny : ℕ) := Nat.cast_pos.2 (Nat.mul_pos (by omega) (by omega))
  have h1 := measured_after hx hy m hm v₀ model hmm hcl A cs τ xs init hchi hA hcs he hst (fun x => x < meanEnergy nx ny m v₀)
    fun es v w hes hvw hr => h τ hd hdτ es v w hes hvw hr
  refine ⟨fun M hM hω => ?_, fun D hD hcx hω => ?_⟩
  · obtain ⟨d, E, k1, k2, k3⟩ := h1.1 M hM hω
    exact ⟨d, _, k1, k2, div_lt_div_of_pos_right k3 hpos⟩
  · obtain ⟨d, E, k1, k2, k3⟩ := h1.2 D hD hcx hω
    exact ⟨d, _, k1, k2, div_lt_div_of_pos_right k3 hpos⟩

/-! ### The hypotheses are met -/

theorem qform_both (A B : Matrix P P ℝ) (v w : P → ℝ) : qform (A ⊗ₖ B) (fun p => v p.1 * w p.2) = qform A v * qform B w := by
  unfold qform
  simp only [Fintype.sum_prod_type, kroneckerMap_apply, star_trivial]
  rw [Finset.sum_mul_sum]
  refine Finset.sum_congr rfl fun i _ => Finset.sum_congr rfl fun j _ => ?_
  rw [Finset.sum_mul_sum]
  exact Finset.sum_congr rfl fun k _ => Finset.sum_congr rfl fun l _ => by ring

/-- Ising interactions and a field along them. -/
def tiltedIsing : ModelTerms (Fin 2) ℝ := ⟨fun _ => !![1, 0; 0, -1] ⊗ₖ !![1, 0; 0, -1], fun _ => some !![1, 0; 0, -1]⟩

theorem tiltedIsing_hermitian : tiltedIsing.Hermitian := by
  have h : (!![1, 0; 0, -1] : Matrix (Fin 2) (Fin 2) ℝ).IsHermitian := by
    ext i j
    fin_cases i <;> fin_cases j <;> simp
  refine ⟨fun b => ?_, fun s k hk => ?_⟩
  · show (_ ⊗ₖ _)ᴴ = _
    rw [Matrix.conjTranspose_kronecker, h.eq]
    rfl
  · cases hk
    exact h

theorem tiltedIsing_plus (hx : 2 ≤ nx) (hy : 2 ≤ ny) (s : Site) (x : Fin 2 → ℝ) :
    meanEnergy nx ny tiltedIsing (Function.update (fun _ _ => 1) s x) =
      (buildSiteList nx ny).count s * (qform !![1, 0; 0, -1] x / normSq x) := by
  have hz : qform !![1, 0; 0, -1] (fun _ : Fin 2 => (1 : ℝ)) = 0 := by simp [qform, Fin.sum_univ_two]
  have hb : ∀ b ∈ buildBondList nx ny, qform (tiltedIsing.two b) (fun p => Function.update (fun _ _ => (1 : ℝ)) s x b.s1 p.1 * Function.update (fun _ _ => 1) s x b.s2 p.2) /
      (normSq fun p : Fin 2 × Fin 2 => Function.update (fun _ _ => (1 : ℝ)) s x b.s1 p.1 * Function.update (fun _ _ => 1) s x b.s2 p.2) = 0 := by
    intro b hb
    have hd := bond_ends_distinct nx ny hx hy b hb
    have e : qform (tiltedIsing.two b) (fun p => Function.update (fun _ _ => (1 : ℝ)) s x b.s1 p.1 * Function.update (fun _ _ => 1) s x b.s2 p.2) = 0 := by
      refine (qform_both _ _ _ _).trans ?_
      by_cases h1 : b.s1 = s
      · rw [Function.update_of_ne (fun h2 => hd (h1.trans h2.symm)), hz, mul_zero]
      · rw [Function.update_of_ne h1, hz, zero_mul]
    rw [e, zero_div]
  unfold meanEnergy
  rw [List.map_congr_left hb, List.sum_map_eq_nsmul_single s]
  · simp only [tiltedIsing, Function.update_self, List.map_const', List.sum_replicate, smul_zero, zero_add, nsmul_eq_mul, Option.map_some, Option.getD_some]
    congr!
  · intro a ha _
    simp [tiltedIsing, Function.update_of_ne ha, hz]

theorem tiltedIsing_moves (hx : 2 ≤ nx) (hy : 2 ≤ ny) : ¬ StationaryEnergy nx ny tiltedIsing fun _ _ => 1 := by
  intro h
  have hc : InCell nx ny (0, 0) := ⟨by show 0 < nx; omega, by show 0 < ny; omega⟩
  have h1 := h (0, 0) hc ![1, 0]
  simp only [tiltedIsing_plus hx hy] at h1
  have hq : ∀ t : ℝ, qform !![1, 0; 0, -1] ((fun _ : Fin 2 => (1 : ℝ)) + t • ![1, 0]) / normSq ((fun _ : Fin 2 => (1 : ℝ)) + t • ![1, 0]) =
      ((1 + t) ^ 2 - 1) / ((1 + t) ^ 2 + 1) := fun t => by
    simp [qform, normSq, Fin.sum_univ_two]
    ring
  simp only [hq] at h1
  have h2 : HasDerivAt (fun t : ℝ => (1 + t) ^ 2) 2 0 := by
    have := ((hasDerivAt_id' (0 : ℝ)).const_add 1).fun_pow 2
    norm_num at this
    exact this
  have h3 := ((h2.sub_const 1).div (h2.add_const 1) (by norm_num)).const_mul ((buildSiteList nx ny).count (0, 0) : ℝ)
  have h4 := h1.unique h3
  have h5 : 0 < (buildSiteList nx ny).count (0, 0) := List.count_pos_iff.2 (mem_buildSiteList.2 hc)
  have h6 : (0 : ℝ) < (buildSiteList nx ny).count (0, 0) := Nat.cast_pos.2 h5
  norm_num at h4
  exact h6.ne h4

/-- Non-vacuity: from spins in the plane, every short evolution in the Ising model with a field along the interactions lowers the energy below zero, in one
process and on two ranks. -/
example (hx : 2 ≤ nx) (hy : 2 ≤ ny) (la : Lapack ℝ) (fo : Als.FloatOps ℝ) (svd : String) (method : Als.Solver) (n : ℕ)
    (init : Fin 2 → Fin 2 → Fin 2 → Fin 2 → ℝ) :
    let model : MeasModel (Fin 2 → Fin 2 → ℝ) (Fin 2 → Fin 2 → Fin 2 → Fin 2 → ℝ) :=
      { one_site_observables := fun _ => [], two_site_observables := fun _ => []
        one_site_hamiltonian := fun s => (tiltedIsing.one s).map fun h i j => h i j
        two_site_hamiltonian := fun b k1 k2 b1 b2 => tiltedIsing.two b (k1, k2) (b1, b2) }
    let M : Machine ℝ 1 ℝ := ⟨la, fo, id, fun _ _ _ _ _ _ _ => 1, false⟩
    let D : Team ℝ 1 2 ℝ := ⟨2, la, fo, id, fun _ _ _ _ _ _ _ _ => 1, false, fun _ A => A⟩
    ∃ τ₀ : ℝ, 0 < τ₀ ∧ ∀ dtau, 0 < dtau → dtau < τ₀ →
      let cs : List (Call ℝ 1 2 ℝ) := [.evolve (exampleConfig svd "full" method) ⟨dtau, n + 1, tiltedIsing, fun s => (plusNet s).A⟩,
        .setChi 5, .evolve (exampleConfig svd "simple" method) ⟨dtau * (1 / 10), 2, tiltedIsing, fun s => (plusNet s).A⟩]
      (∃ d E, Session.measure init model (runCatching M cs (new nx ny 3 fun s => (plusNet s).A)) = .ok d ∧ d.get? "Energy" = some E ∧ E < 0) ∧
        ∃ d E, (∀ k < 2, Session.measure init model ((distRun D cs (distNew D nx ny 3 fun s => (plusNet s).A)).1.view k) = .ok d) ∧
          d.get? "Energy" = some E ∧ E < 0 := by
  intro model M D
  have hE : meanEnergy nx ny tiltedIsing (fun _ _ => 1) / ((nx * ny : ℕ) : ℝ) = 0 := by
    have := tiltedIsing_plus hx hy (0, 0) fun _ => 1
    rw [Function.update_eq_self_iff.2 rfl] at this
    rw [this]
    simp [qform, Fin.sum_univ_two]
  obtain ⟨τ₀, h0, h⟩ := C119_descent hx hy tiltedIsing tiltedIsing_hermitian (.inl fun _ _ => rfl) (fun _ _ => 1)
    (fun s _ h => one_ne_zero (congrFun h 0)) (tiltedIsing_moves hx hy) [(n + 1, 1), (2, 1 / 10)] (by simp) (by simp [scaledTime]; positivity) model ⟨fun _ => rfl, fun _ => rfl⟩
    ⟨fun _ => by simp [PyDict.keys, model], fun _ => by simp [PyDict.keys, model], fun _ _ _ => Iff.rfl, fun _ _ _ _ _ => Iff.rfl,
      by simp [PyDict.keys, model], fun _ _ => by simp [PyDict.keys, model], fun _ _ k hk => by simp [PyDict.keys, model] at hk⟩
  refine ⟨τ₀, h0, fun dtau h1 h2 => ?_⟩
  intro cs
  have h3 := h ℝ 3 (fun s => (plusNet s).A) cs dtau init (Nat.succ_pos 2) (fun s _ => plusNet_ne s)
    (fun c hc => by
      simp only [cs, List.mem_cons, List.not_mem_nil, or_false] at hc
      rcases hc with rfl | rfl | rfl
      · exact ⟨⟨(exampleConfig_ok _ _ _).1, fun _ => (exampleConfig_ok _ _ _).2, fun s _ => plusNet_ne s⟩, .inl rfl, rfl⟩
      · exact ⟨Nat.succ_pos 4, trivial⟩
      · exact ⟨⟨(exampleConfig_ok _ _ _).1, fun _ => (exampleConfig_ok _ _ _).2, fun s _ => plusNet_ne s⟩, .inl rfl, rfl⟩)
    (.cons ⟨rfl, (mul_one _).symm, rfl⟩ (.cons ⟨rfl, rfl, rfl⟩ .nil)) (fun _ _ => rfl) h1 h2
  rw [hE] at h3
  exact ⟨h3.1 M rfl ones_drawn, h3.2 D ⟨le_rfl, Or.inl rfl, Or.inl rfl, fun _ _ _ => rfl⟩ rfl fun _ _ => ones_drawn⟩

end AceTN
