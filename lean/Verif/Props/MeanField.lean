import Verif.Lemmas.MeanField
import Verif.Lemmas.Regular
import Verif.Props.LatticeError
import Verif.Props.SimpleGauge

/-!
C109: with bond dimension one the full update and the simple update give the same states.
-/

set_option autoImplicit false
set_option linter.unusedSectionVars false

namespace AceTN

open Matrix Spec Full

variable {F X : Type} {pD nx ny : ℕ} [NeZero pD]

/-- Every site tensor of the second network is that of the first one up to a factor that is not zero. -/
def Spec.SameUpToFactors (nx ny : ℕ) (net : NetT (Fin 1) (Fin pD) X ℝ) (net' : Net (Ten (Fin 1) (Fin pD) ℝ)) : Prop :=
  ∀ s, InCell nx ny s → ∃ c : ℝ, c ≠ 0 ∧ net'.A s = .site (c • (net s).A)

/-- The states of two runs, with the simple and with the full update. -/
structure MeanRel (nx ny : ℕ) (st : NetT (Fin 1) (Fin pD) X ℝ × LambdaTensors (Simple.Weight 1)) (s : Net (Ten (Fin 1) (Fin pD) ℝ) × ℕ) : Prop where
  fit : FitNet nx ny s.1
  stored : Stored nx ny st.2
  one : ∀ s, InCell nx ny s → ∀ d < 4, ∀ w, st.2.get s d = .ok w → w = ⟨false, fun _ => 1⟩
  same : SameUpToFactors nx ny st.1 s.1

theorem weighted_one (w : ℕ → Fin 1 → ℝ) (h : ∀ d < 4, w d = fun _ => 1) (ex : ℕ) (a : ATensor (Fin 1) (Fin pD) ℝ) : weighted w ex a = a := by
  funext l u r d p
  simp [weighted, legWeight, h 0 (by omega), h 1 (by omega), h 2 (by omega), h 3 (by omega)]

theorem twoSite_factor (c : ℝ) (z1 z2 : ATensor (Fin 1) (Fin pD) ℝ) (u r d l' u' d' : Fin 1) (p q : Fin pD) :
    twoSite (c • z1) z2 u r d l' u' d' p q = c * twoSite z1 z2 u r d l' u' d' p q := by
  unfold twoSite
  rw [Fintype.sum_subsingleton _ 0, Fintype.sum_subsingleton _ 0]
  simp only [Pi.smul_apply, smul_eq_mul, mul_assoc]

/-- One bond. -/
theorem mean_step (hx : 2 ≤ nx) (hy : 2 ≤ ny) (la la' : Lapack ℝ) (ps : ProjSettings ℝ) (pk : ProjKind) (ω : ℕ → Draws (Fin 1) ℝ)
    (fo : Als.FloatOps F) (rep : ℝ → F) (cfg : Settings F) (hm : SolvesOne cfg.als_method cfg.als_epsilon)
    (hcut : 0 < cfg.positive_approx_cutoff)
    (hatol : cfg.use_gauge_fix = true → cfg.gauge_fix_atol < Real.sqrt cfg.positive_approx_cutoff)
    (gates : Bond → Fin pD → Fin pD → Fin pD → Fin pD → ℝ) (st : NetT (Fin 1) (Fin pD) X ℝ × LambdaTensors (Simple.Weight 1))
    (s : Net (Ten (Fin 1) (Fin pD) ℝ) × ℕ) (b : Bond) (h : MeanRel nx ny st s) (hb : b ∈ buildBondList nx ny) (hc : ClearCut gates st b) :
    (Simple.bondStep la (fun _ => none) gates st b).2 = none ∧ (fullBondStep ps pk ω la' fo rep cfg none gates s b).2 = none ∧
      MeanRel nx ny (Simple.bondStep la (fun _ => none) gates st b).1 (fullBondStep ps pk ω la' fo rep cfg none gates s b).1 := by
  obtain ⟨hfit, hst, hone, hsame⟩ := h
  have hne := bond_ends_distinct nx ny hx hy b hb
  obtain ⟨c1, c2⟩ := C02_bond_ends_in_cell nx ny b hb
  rw [mem_buildSiteList] at c1 c2
  have : Nonempty (Simple.Weight 1) := ⟨Simple.ones 1 false⟩
  choose! W1 hW1 using fun (d : ℕ) (hd : d < 4) => hst.total c1 hd
  choose! W2 hW2 using fun (d : ℕ) (hd : d < 4) => hst.total c2 hd
  have o1 : ∀ d < 4, W1 d = ⟨false, fun _ => 1⟩ := fun d hd => hone _ c1 d hd _ (hW1 d hd)
  have o2 : ∀ d < 4, W2 d = ⟨false, fun _ => 1⟩ := fun d hd => hone _ c2 d hd _ (hW2 d hd)
  have hbs : ∀ a1 a2 : ATensor (Fin 1) (Fin pD) ℝ, bondState W1 W2 b.k a1 a2 = twoSite a1 a2 := by
    intro a1 a2
    unfold bondState
    rw [weighted_one _ (fun d hd => by rw [o1 d hd]), weighted_one _ (fun d hd => by rw [o2 d hd]), bondPermute_unique, bondPermute_unique]
  obtain ⟨hne', htie⟩ := hc W1 W2 hW1 hW2
  rw [hbs] at hne' htie
  obtain ⟨b1, b2, lam, hbt, hnorm, cb, hbest⟩ := C40_partial la st.2 (gates b) b (st.1 b.s1).A (st.1 b.s2).A W1 W2 hW1 hW2
    (fun d hd _ => by rw [o1 d hd]; exact ⟨rfl, fun _ => by norm_num⟩) (fun d hd _ => by rw [o2 d hd]; exact ⟨rfl, fun _ => by norm_num⟩)
    (by rw [hbs]; exact hne')
  rw [hbs, hbs] at hbest
  have u1 : Simple.bondStep la (fun _ => none) gates st b = ((storePair st.1 b.s1 b.s2 b1 b2, st.2.setItem b ⟨false, lam⟩), none) := by
    unfold Simple.bondStep Simple.bondUpdate
    dsimp only
    rw [hbt]
    rfl
  have hlam : lam = fun _ => 1 := by
    obtain ⟨h0, -, -, h4⟩ := hnorm
    funext i
    obtain rfl : i = 0 := Subsingleton.elim _ _
    rw [Fintype.sum_subsingleton _ 0] at h4
    exact (pow_eq_one_iff_of_nonneg (h0 0) (by norm_num)).1 h4
  subst hlam
  obtain ⟨a1, a2, n12, hbond, hstep⟩ := fullBondStep_recomposed hx hy la' s hfit hb
  obtain ⟨d1, hd1, e1⟩ := hsame _ c1
  obtain ⟨d2, hd2, e2⟩ := hsame _ c2
  have hT : ∀ u r d l' u' d' p q, gated (gates b) (twoSite a1 a2) u r d l' u' d' p q =
      d1 * d2 * gated (gates b) (twoSite (st.1 b.s1).A (st.1 b.s2).A) u r d l' u' d' p q := by
    intro u r d l' u' d' p q
    rw [← hbond]
    unfold gated bondTensor
    rw [bondPermute_unique, bondPermute_unique, bare_A e1, bare_A e2, Finset.mul_sum]
    refine Finset.sum_congr rfl fun p' _ => ?_
    rw [Finset.mul_sum]
    refine Finset.sum_congr rfl fun q' _ => ?_
    unfold twoSite
    rw [Fintype.sum_subsingleton _ 0, Fintype.sum_subsingleton _ 0]
    simp only [Pi.smul_apply, smul_eq_mul]
    ring
  have hD : d1 * d2 ≠ 0 := mul_ne_zero hd1 hd2
  have hgne : gated (gates b) (twoSite a1 a2) ≠ 0 := by
    intro h0
    apply hne'
    funext u r d l' u' d' p q
    have := hT u r d l' u' d' p q
    rw [h0] at this
    exact (mul_eq_zero.1 this.symm).resolve_left hD
  obtain ⟨x1, x2, hrec, κ, hκ, hbest'⟩ := recomposed_one la' fo rep cfg hm hcut hatol n12 a1 a2 (gates b) hgne
  have hbest'' : BestBond (gated (gates b) (twoSite (st.1 b.s1).A (st.1 b.s2).A)) (twoSite ((d1 * d2)⁻¹ • x1) x2) κ := by
    refine ⟨hκ, fun f1 f2 => ?_⟩
    have h1 := mul_le_mul_of_nonneg_left (hbest' ((d1 * d2) • f1) f2) (sq_nonneg (d1 * d2)⁻¹)
    unfold normSq8 at h1 ⊢
    simp only [Finset.mul_sum] at h1
    refine le_trans (le_of_eq ?_) (h1.trans (le_of_eq ?_))
    all_goals
      refine Finset.sum_congr rfl fun r _ => Finset.sum_congr rfl fun d _ => Finset.sum_congr rfl fun u _ => Finset.sum_congr rfl fun p _ =>
        Finset.sum_congr rfl fun d' _ => Finset.sum_congr rfl fun l' _ => Finset.sum_congr rfl fun u' _ => Finset.sum_congr rfl fun q _ => ?_
      beta_reduce
      rw [hT, twoSite_factor]
      simp only [RCLike.ofReal_real_eq_id, id_eq, Real.norm_eq_abs, sq_abs]
      field_simp
  obtain ⟨hprop, hx0⟩ := best_one _ hne' htie _ _ _ _ κ cb hbest'' hbest
  have hcb := hbest.1
  obtain ⟨hok, hoff, hnew⟩ := (hstep F ps pk ω fo rep cfg gates).2 x1 x2 hrec
  have hfit' := (hfit.step (by omega) (by omega) ps pk ω la' fo rep cfg none gates hb).1
  rw [u1]
  refine ⟨rfl, hok, hfit', hst.set _ _, ?_, ?_⟩
  · intro s' hs' d hd w hw
    rcases hst.get_set hs' hd hb _ w hw with ⟨-, rfl⟩ | ⟨-, h1⟩
    · rfl
    · exact hone s' hs' d hd w h1
  · obtain ⟨hnx, hny, f, hw⟩ := hfit'
    have hsite : ∀ s', InCell nx ny s' → (fullBondStep ps pk ω la' fo rep cfg none gates s b).1.1.A s' =
        .site (bare (fullBondStep ps pk ω la' fo rep cfg none gates s b).1.1 s').A := by
      intro s' hs'
      obtain ⟨a, ha⟩ := hw.site s' (by rw [hnx, hny]; exact hs')
      rw [bare_A ha, ha]
    have hb0 : twoSite b1 b2 ≠ 0 := by
      intro h0
      apply hx0
      funext u r d l' u' d' p q
      have := hprop u r d l' u' d' p q
      rw [h0] at this
      exact (mul_eq_zero.1 (this.trans (mul_zero cb))).resolve_left hκ.ne'
    unfold bondTensor at hnew
    rw [bondPermute_unique, bondPermute_unique] at hnew
    obtain ⟨⟨y1, hy1, f1⟩, y2, hy2, f2⟩ := factors_one _ _ b1 b2 (d1 * d2 * cb / κ) (by positivity) hb0 (by
      intro u r d l' u' d' p q
      have := hprop u r d l' u' d' p q
      rw [hnew]
      rw [twoSite_factor] at this
      field_simp at this ⊢
      linear_combination this)
    obtain ⟨p1, p2, p3, -⟩ := C42_store_partial st.1 _ _ hne b1 b2
    intro s' hs'
    rw [hsite s' hs']
    dsimp only
    by_cases hs1 : s' = b.s1
    · subst hs1
      rw [p1]
      exact ⟨y1, hy1, by rw [f1]⟩
    by_cases hs2 : s' = b.s2
    · subst hs2
      rw [p2]
      exact ⟨y2, hy2, by rw [f2]⟩
    · obtain ⟨c, hc0, e⟩ := hsame s' hs'
      rw [p3 s' hs1 hs2, hoff s' hs1 hs2, bare_A e]
      exact ⟨c, hc0, rfl⟩

/-- The runs up to an exception are the same. -/
theorem evolveLoop_clean {S S' : Type} (upd : S → Bond → S × Option PyErr) (upd' : S' → Bond → S' × Option PyErr) (R : S → S' → Prop)
    (Q : S → Bond → Prop) (M : Bond → Prop)
    (step : ∀ s s' b, R s s' → M b → Q s b → (upd s b).2 = none ∧ (upd' s' b).2 = none ∧ R (upd s b).1 (upd' s' b).1) (n : ℕ) (bl : List Bond)
    (hl : ∀ b ∈ bl, M b) (s : S) (s' : S') (h : R s s') (hQ : Along Q upd (schedule n bl) s) :
    (evolveLoop upd n bl s).2.2 = none ∧ (evolveLoop upd' n bl s').2.2 = none ∧ (evolveLoop upd' n bl s').1 = (evolveLoop upd n bl s).1 ∧
      R (evolveLoop upd n bl s).2.1 (evolveLoop upd' n bl s').2.1 := by
  obtain ⟨e1, e2, r⟩ := evolveLoop_rel upd upd' R Q M
    (fun s s' b h hb hq => ⟨(step s s' b h hb hq).2.1.trans (step s s' b h hb hq).1.symm, (step s s' b h hb hq).2.2⟩) n bl hl s s' h hQ
  obtain ⟨-, e3, -⟩ := evolveLoop_rel upd (fun s b => ((upd' s b).1, none)) R Q M
    (fun s s' b h hb hq => ⟨(step s s' b h hb hq).1.symm, (step s s' b h hb hq).2.2⟩) n bl hl s s' h hQ
  have e4 := evolveLoop_noraise (upd := fun s b => ((upd' s b).1, none)) (fun _ => True) (fun _ => True) (fun _ _ _ _ => ⟨trivial, rfl⟩) n bl
    (fun _ _ => trivial) s' trivial
  have e5 := e3.symm.trans e4
  exact ⟨e5, e2.trans e5, e1, r⟩

/-- **C109 (partial).** With bond dimension one, `evolve` with the simple update and `evolve` with the full update, started from networks
whose site tensors agree up to factors that are not zero, both return normally, leave the bond list in the same order and end in networks
whose site tensors again agree up to such factors.  The two runs may use different decompositions; the boundary tensors of the full update
may be anything of the right shapes (of any boundary dimension), its projectors of either kind and with any random draws, its settings any
with a cutoff that is positive, a gauge-fixing threshold below the root of the cutoff and a regularisation that is not negative for the
Cholesky solver and below one for the pseudoinverse; the number of passes and the stopping rule of the least-squares iteration do not matter.
Assumed is that along the run of the simple update the gates do not annihilate the two-site tensors and that their largest singular value is
not degenerate (otherwise the best product is not unique).
Missing are complex dtypes, for which the simple update raises (`C109_violated_complex`). -/
theorem C109_evolution_partial (hx : 2 ≤ nx) (hy : 2 ≤ ny) (la la' : Lapack ℝ) (ps : ProjSettings ℝ) (pk : ProjKind)
    (ω : ℕ → Draws (Fin 1) ℝ) (fo : Als.FloatOps F) (rep : ℝ → F) (cfg : Settings F) (hm : SolvesOne cfg.als_method cfg.als_epsilon)
    (hcut : 0 < cfg.positive_approx_cutoff)
    (hatol : cfg.use_gauge_fix = true → cfg.gauge_fix_atol < Real.sqrt cfg.positive_approx_cutoff)
    (gates : Bond → Fin pD → Fin pD → Fin pD → Fin pD → ℝ) (n : ℕ) (bl : List Bond) (hbl : bl.Perm (buildBondList nx ny))
    (net : NetT (Fin 1) (Fin pD) X ℝ) (net' : Net (Ten (Fin 1) (Fin pD) ℝ)) (t : ℕ) (hfit : FitNet nx ny net')
    (hsame : SameUpToFactors nx ny net net')
    (hclear : Along (ClearCut gates) (Simple.bondStep la (fun _ => none) gates) (schedule n bl)
      (net, LambdaTensors.init bl (Simple.ones 1 false))) :
    let r := Simple.evolve la false (fun _ => none) gates n (bl, net)
    let r' := fullEvolve ps pk ω la' fo rep cfg none gates n (bl, net', t)
    r.2.2 = none ∧ r'.2.2 = none ∧ r'.1 = r.1 ∧ SameUpToFactors nx ny r.2.1 r'.2.1.1 := by
  have h0 : MeanRel nx ny (net, LambdaTensors.init bl (Simple.ones 1 false)) (net', t) := by
    refine ⟨hfit, ⟨bl, _, [], hbl, rfl⟩, fun s hs d hd w hw => ?_, hsame⟩
    obtain ⟨b, ⟨hb, hE⟩, -⟩ := C03_unique_bond_per_side nx ny s hs d hd
    have h := C03_weight_lookup nx ny bl hbl (Simple.ones 1 false) [] s hs d hd b hb hE
    exact (Except.ok.inj (h.symm.trans hw)).symm
  obtain ⟨e1, e2, e3, r⟩ := evolveLoop_clean (Simple.bondStep la (fun _ => none) gates) (fullBondStep ps pk ω la' fo rep cfg none gates)
    (MeanRel nx ny) (ClearCut gates) (fun b => b ∈ buildBondList nx ny)
    (fun st s b h hb hc => mean_step hx hy la la' ps pk ω fo rep cfg hm hcut hatol gates st s b h hb hc) n bl (fun b hb => hbl.subset hb)
    _ _ h0 hclear
  exact ⟨e1, e2, e3, r.same⟩

/-- Networks whose site tensors agree up to factors have the same states up to a factor. -/
theorem sameUpToFactors_state {N : ℕ} {net : NetT (Fin 1) (Fin pD) X ℝ} {net' : Net (Ten (Fin 1) (Fin pD) ℝ)}
    (h : SameUpToFactors nx ny net net') (ρ : Bond → Equiv.Perm (Fin N)) :
    ∃ c : ℝ, c ≠ 0 ∧ latticeState (nx := nx) (ny := ny) ρ (siteTensors (bare net')) = c • latticeState ρ (siteTensors net) := by
  have hc : ∀ v : BigSite nx ny N, InCell nx ny ((v.2.1 : ℕ), (v.2.2 : ℕ)) := by
    intro v
    constructor <;> simp
  choose c hc0 hc using fun v : BigSite nx ny N => h _ (hc v)
  refine ⟨∏ v, c v, Finset.prod_ne_zero_iff.2 fun v _ => hc0 v, ?_⟩
  funext p
  unfold latticeState netState
  rw [Pi.smul_apply, smul_eq_mul, Finset.mul_sum]
  refine Finset.sum_congr rfl fun β _ => ?_
  rw [← Finset.prod_mul_distrib]
  refine Finset.prod_congr rfl fun v _ => ?_
  unfold siteTensors
  beta_reduce
  rw [bare_A (hc v)]
  rfl

/-- **C109 (states, partial).** So on every finite lattice that covers the cell the two evolved states are multiples of each other by a
factor that is not zero, and all operators have the same expectation values. -/
theorem C109_states_partial (hx : 2 ≤ nx) (hy : 2 ≤ ny) (la la' : Lapack ℝ) (ps : ProjSettings ℝ) (pk : ProjKind)
    (ω : ℕ → Draws (Fin 1) ℝ) (fo : Als.FloatOps F) (rep : ℝ → F) (cfg : Settings F) (hm : SolvesOne cfg.als_method cfg.als_epsilon)
    (hcut : 0 < cfg.positive_approx_cutoff)
    (hatol : cfg.use_gauge_fix = true → cfg.gauge_fix_atol < Real.sqrt cfg.positive_approx_cutoff)
    (gates : Bond → Fin pD → Fin pD → Fin pD → Fin pD → ℝ) (n : ℕ) (bl : List Bond) (hbl : bl.Perm (buildBondList nx ny))
    (net : NetT (Fin 1) (Fin pD) X ℝ) (net' : Net (Ten (Fin 1) (Fin pD) ℝ)) (t : ℕ) (hfit : FitNet nx ny net')
    (hsame : SameUpToFactors nx ny net net')
    (hclear : Along (ClearCut gates) (Simple.bondStep la (fun _ => none) gates) (schedule n bl)
      (net, LambdaTensors.init bl (Simple.ones 1 false))) (N : ℕ) (ρ : Bond → Equiv.Perm (Fin N)) :
    let ψ := latticeState (nx := nx) (ny := ny) ρ (siteTensors (Simple.evolve la false (fun _ => none) gates n (bl, net)).2.1)
    let ψ' := latticeState (nx := nx) (ny := ny) ρ
      (siteTensors (bare (fullEvolve ps pk ω la' fo rep cfg none gates n (bl, net', t)).2.1.1))
    (∃ c : ℝ, c ≠ 0 ∧ ψ' = c • ψ) ∧ ∀ O, expectation O ψ' = expectation O ψ := by
  intro ψ ψ'
  obtain ⟨c, hc, e⟩ := sameUpToFactors_state (C109_evolution_partial hx hy la la' ps pk ω fo rep cfg hm hcut hatol gates n bl hbl net net' t
    hfit hsame hclear).2.2.2 ρ
  have e : ψ' = c • ψ := e
  refine ⟨⟨c, hc, e⟩, fun O => ?_⟩
  unfold expectation
  have ho : ∀ φ : (BigSite nx ny N → Fin pD) → ℝ, overlap (c • ψ) (c • φ) = c ^ 2 * overlap ψ φ := by
    intro φ
    unfold overlap
    rw [Finset.mul_sum]
    refine Finset.sum_congr rfl fun p _ => ?_
    simp only [Pi.smul_apply, smul_eq_mul, star_trivial]
    ring
  rw [e, Matrix.mulVec_smul, ho, ho, mul_div_mul_left _ _ (pow_ne_zero 2 hc)]

/-- **C109 (violated for complex dtypes).** With a complex dtype the simple update raises on its first bond, whatever the data, while the
full update with the pseudoinverse returns normally, at bond dimension one as at any other. -/
theorem C109_violated_complex (hx : 0 < nx) (hy : 0 < ny) {bD : ℕ} [NeZero bD] (la la' : Lapack ℂ) (ps : ProjSettings ℂ) (pk : ProjKind)
    (ω : ℕ → Draws (Fin bD) ℂ) (fo : Als.FloatOps F) (rep : ℝ → F) (cfg : Settings F) (hm : cfg.als_method = .pinv)
    (gates : Bond → Fin pD → Fin pD → Fin pD → Fin pD → ℂ) (n : ℕ) (net : NetT (Fin bD) (Fin pD) X ℂ)
    (net' : Net (Ten (Fin bD) (Fin pD) ℂ)) (t : ℕ) (hfit : FitNet nx ny net') :
    (Simple.evolve la true (fun _ => none) gates (n + 1) (buildBondList nx ny, net)).2.2 = some .runtimeError ∧
      (fullEvolve ps pk ω la' fo rep cfg none gates (n + 1) (buildBondList nx ny, net', t)).2.2 = none := by
  constructor
  · cases hb : buildBondList nx ny with
    | nil =>
      have hl := length_buildBondList nx ny
      rw [hb] at hl
      exact absurd hl.symm (Nat.mul_pos (Nat.mul_pos two_pos hx) hy).ne'
    | cons b bl =>
      have hm : b ∈ buildBondList nx ny := by
        rw [hb]
        exact List.mem_cons_self
      unfold Simple.evolve evolveCall evolveLoop bondPass Simple.bondStep Simple.bondUpdate
      dsimp only
      rw [← hb, C40_violated_complex la none _ nx ny b hm]
      rfl
  · exact evolveLoop_noraise (fun s : Net (Ten (Fin bD) (Fin pD) ℂ) × ℕ => FitNet nx ny s.1) (· ∈ buildBondList nx ny)
      (fun s b hb hs => ⟨(hs.step hx hy ps pk ω la' fo rep cfg none gates hb).1, (hs.step hx hy ps pk ω la' fo rep cfg none gates hb).2 hm⟩)
      (n + 1) _ (fun _ hb => hb) (net', t) hfit

/-! ### The hypotheses are met -/

/-- A fresh network with the site tensors of another one. -/
theorem same_fresh (nx ny chi : ℕ) (net : NetT (Fin 1) (Fin pD) X ℝ) : SameUpToFactors nx ny net (freshNet nx ny chi fun s => (net s).A) :=
  fun s _ => ⟨1, one_ne_zero, by rw [one_smul]; rfl⟩

/-- Spins along the first axis in a field, on any cell, for any number of steps, with either solver. -/
example (hx : 2 ≤ nx) (hy : 2 ≤ ny) (la la' : Lapack ℝ) (ps : ProjSettings ℝ) (pk : ProjKind) (ω : ℕ → Draws (Fin 1) ℝ)
    (fo : Als.FloatOps ℝ) (method : Als.Solver) (niter chi t n : ℕ) (dtau : ℝ) :
    let cfg : Settings ℝ := ⟨true, 1e-12, 1e-12, niter, 1e-15, method, 1e-12⟩
    let r := Simple.evolve la false (fun _ => none) (twoSiteGate fieldTerms dtau) n (buildBondList nx ny, plusNet)
    let r' := fullEvolve ps pk ω la' fo id cfg none (twoSiteGate fieldTerms dtau) n
      (buildBondList nx ny, freshNet nx ny chi fun s => (plusNet s).A, t)
    r.2.2 = none ∧ r'.2.2 = none ∧ r'.1 = r.1 ∧ SameUpToFactors nx ny r.2.1 r'.2.1.1 := by
  let ρ : Bond → Equiv.Perm (Fin 1) := fun _ => Equiv.refl _
  have hs : latticeState (nx := nx) (ny := ny) ρ (siteTensors plusNet) ≠ 0 := fun h => plusNet_ones (nx := nx) (ny := ny) ρ (congrFun h _)
  refine C109_evolution_partial hx hy la la' ps pk ω fo id _ ?_ (by norm_num) (fun _ => ?_) _ n _ (List.Perm.refl _) plusNet _ t
    (fitNet_fresh (by omega) (by omega) chi _) (same_fresh nx ny chi plusNet)
    (along_clear hx hy ρ la fieldTerms dtau _ (fun _ hb => mem_schedule hb) _ hs
      (plus_fits hx hy ρ la dtau _ (List.Perm.refl _) _ (fun _ hb => mem_schedule hb) _ ⟨[], by simp, rfl⟩ hs))
  · cases method
    · exact .inl ⟨rfl, by norm_num⟩
    · exact .inr ⟨rfl, by norm_num⟩
  · exact Real.lt_sqrt_of_sq_lt (by norm_num)

/-- One step with a gate that entangles the spins, so that the bond is really truncated. -/
example (hx : 2 ≤ nx) (hy : 2 ≤ ny) (la la' : Lapack ℝ) (ps : ProjSettings ℝ) (pk : ProjKind) (ω : ℕ → Draws (Fin 1) ℝ)
    (fo : Als.FloatOps ℝ) (niter chi t : ℕ) (b : Bond) (hb : b ∈ buildBondList nx ny) :
    let cfg : Settings ℝ := ⟨true, 1e-12, 1e-12, niter, 1e-15, .cholesky, 1e-12⟩
    SameUpToFactors nx ny (Simple.bondStep la (fun _ => none) entangler (plusNet, LambdaTensors.init (buildBondList nx ny) (Simple.ones 1 false)) b).1.1
      (fullBondStep ps pk ω la' fo id cfg none entangler (freshNet nx ny chi fun s => (plusNet s).A, t) b).1.1 := by
  refine (mean_step hx hy la la' ps pk ω fo id _ (.inl ⟨rfl, by norm_num⟩) (by norm_num)
    (fun _ => Real.lt_sqrt_of_sq_lt (by norm_num)) _ _ _ b ⟨fitNet_fresh (by omega) (by omega) chi _, ⟨_, _, [], List.Perm.refl _, rfl⟩, ?_,
      same_fresh nx ny chi plusNet⟩ hb (entangler_clear b hb)).2.2.same
  intro s hs d hd w hw
  obtain ⟨b, ⟨hb, hE⟩, -⟩ := C03_unique_bond_per_side nx ny s hs d hd
  have h := C03_weight_lookup nx ny _ (List.Perm.refl _) (Simple.ones 1 false) [] s hs d hd b hb hE
  exact (Except.ok.inj (h.symm.trans hw)).symm

end AceTN
