import Verif.Props.FullUpdateComplex
import Verif.Props.LatticeError

/-!
# C97: complex dtypes

The bound of `C97_full_partial` for any scalars, and a complex network for which no factor does.
-/

set_option autoImplicit false

namespace AceTN
open Spec Trot Full
open scoped Matrix.Norms.L2Operator

/-- Full updates of a bond leave states of the lattice whose errors are at most a factor times the square root of the least squared local error,
plus the regularisation; the factor depends on the network, the bond and the bound on the gate. -/
def Spec.LatticeErrorBounded (𝕜 : Type) [RCLike 𝕜] : Prop :=
  ∀ (F : Type) (bD pD nx ny N : ℕ) (_ : NeZero bD) (_ : NeZero pD) (hx : 2 ≤ nx) (hy : 2 ≤ ny) (σ : Bond → Equiv.Perm (Fin N)) (la : Lapack 𝕜)
    (cfg : Settings F) (_ : 0 < cfg.als_niter) (_ : 0 < cfg.positive_approx_cutoff)
    (_ : cfg.use_gauge_fix = true → cfg.gauge_fix_atol < Real.sqrt (cfg.positive_approx_cutoff * nD (Fin bD) (Fin pD)))
    (s : Net (Ten (Fin bD) (Fin pD) 𝕜) × ℕ) (_ : FitNet nx ny s.1) (b : Bond) (_ : b ∈ buildBondList nx ny) (Γ : ℝ),
    ∃ D : ℝ, 0 ≤ D ∧ ∀ (st : ProjSettings 𝕜) (pk : ProjKind) (ω : ℕ → Draws (Fin bD) 𝕜) (fo : Als.FloatOps F) (rep : ℝ → F) (tol : F) (ε : ℝ)
      (gates : Bond → Fin pD → Fin pD → Fin pD → Fin pD → 𝕜), 0 ≤ ε → ε ≤ 1 →
      (∑ p, ∑ q, ∑ r, ∑ t, ‖gates b p q r t‖ ^ 2) ≤ Γ → gated (gates b) (bondTensor (bare s.1) b) ≠ 0 →
      (fullBondStep st pk ω la fo rep { cfg with als_tol := tol, als_epsilon := ε } none gates s b).2 = none →
      ∀ c1 c2 : ATensor (Fin bD) (Fin pD) 𝕜,
        bondError hx hy σ gates (fun s => siteTensors (bare s.1))
          (fullBondStep st pk ω la fo rep { cfg with als_tol := tol, als_epsilon := ε } none gates) s b ≤
        D * Real.sqrt (normSq8 (fun u r d l' u' d' p q => twoSite c1 c2 u r d l' u' d' p q -
          gated (gates b) (bondTensor (bare s.1) b) u r d l' u' d' p q) + ε)

/-- **C97 (full update, partial).** Real dtypes. Missing: complex ones (`C97_violated`). -/
theorem C97_real_partial : Spec.LatticeErrorBounded ℝ := by
  intro F bD pD nx ny N _ _ hx hy σ la cfg hni hcut hatol s h b hb Γ
  exact C97_full_partial hx hy σ la cfg hni hcut hatol s h b hb Γ

/-- The reduced tensors of two site tensors with the contraction of `C39_violated_complex`, updated with the identity: zero. -/
theorem updateReduced_spoilt {F : Type} (la : Lapack ℂ) (fo : Als.FloatOps F) (rep : ℝ → F) (cfg : Settings F) (hn : 0 < cfg.als_niter)
    (a1 a2 : ATensor (Fin 1) (Fin 2) ℂ) (h12 : twoSite a1 a2 = twoSite upSite ySite)
    (n12 : Fin (nD (Fin 1) (Fin 2)) → Fin (nD (Fin 1) (Fin 2)) → Fin (nD (Fin 1) (Fin 2)) → Fin (nD (Fin 1) (Fin 2)) → ℂ) :
    ∀ f, updateReduced la fo rep cfg bD_le (decompose la a1 a2).a1r (decompose la a1 a2).a2r n12 idGate = some (.ok f) → f = (0, 0) := by
  have hg := C30_gate la a1 a2 idGate
  rw [(C39_identity_gate a1 a2 idGate fun _ _ _ _ => rfl).1, h12] at hg
  have hiso := C30_isometric la a1 a2
  revert hg hiso
  generalize decompose la a1 a2 = d
  intro hg hiso
  have hN : Fintype.card (Fin (nD (Fin 1) (Fin 2))) = 1 := by simp [nD]
  obtain ⟨y0, hy0⟩ := Fintype.card_eq_one_iff.1 hN
  have hq1 : d.a1q 0 0 0 y0 ≠ 0 := by
    intro h0
    have := (hiso y0 y0).1
    simp [h0] at this
  have hq2 : d.a2q 0 0 0 y0 ≠ 0 := by
    intro h0
    have := (hiso y0 y0).2
    simp [h0] at this
  have hgr : gateReduced d.a1r d.a2r idGate = fun _ _ p q =>
      ((d.a1q 0 0 0 y0 * d.a2q 0 0 0 y0)⁻¹ * (if p = 0 then 1 else 0)) * (if q = 0 then 1 else Complex.I) := by
    funext y x p q
    rw [hy0 y, hy0 x]
    have := congrFun (congrFun (congrFun (congrFun (congrFun (congrFun (congrFun (congrFun hg 0) 0) 0) 0) 0) 0) p) q
    unfold assembled twoSite upSite ySite at this
    rw [Finset.sum_eq_single y0 (fun a _ ha => absurd (hy0 a) ha) (by simp),
      Finset.sum_eq_single y0 (fun a _ ha => absurd (hy0 a) ha) (by simp)] at this
    simp only [Finset.univ_unique, Finset.sum_singleton] at this
    rw [mul_assoc, ← this, inv_mul_cancel_left₀ (mul_ne_zero hq1 hq2)]
  exact (updateReduced_collapse hN la fo rep cfg hn bD_le d.a1r d.a2r n12 idGate
    (fun p => (d.a1q 0 0 0 y0 * d.a2q 0 0 0 y0)⁻¹ * (if p = 0 then 1 else 0))
    (fun q => if q = 0 then 1 else Complex.I) (by simp [Fin.sum_univ_two]) hgr).1

/-- The spins of the witness: along `y` at one site, up elsewhere. -/
def spoiltSites : Site → ATensor (Fin 1) (Fin 2) ℂ := fun s => if s = (1, 0) then ySite else upSite

theorem spoiltSites_state : latticeState (nx := 2) (ny := 2) (N := 1) (fun _ => 1) spoiltSites ≠ 0 := by
  intro h0
  have h := congrFun h0 fun _ => 0
  have h1 : ∀ (s : Site) (β : Fin 4 → Fin 1), atLegs (spoiltSites s) β 0 = 1 := by
    intro s β
    unfold spoiltSites atLegs
    split_ifs <;> simp [ySite, upSite]
  simp [latticeState, netState, h1] at h

/-- **C97** is violated for complex dtypes: the update of a bond of a product state of bond dimension one with no time step at all returns zero
tensors (`C39_violated_complex`), so that nothing is left of the state although it could have been kept.  (The code divides the zero tensors by
their norms, which gives `nan`.) -/
theorem C97_violated : ¬ Spec.LatticeErrorBounded ℂ := by
  intro h
  obtain ⟨la⟩ := nonempty_lapack (𝕜 := ℂ)
  let fo : Als.FloatOps Unit := ⟨fun _ _ => (), fun _ => (), fun _ _ => (), fun _ _ => false⟩
  let cfg : Settings Unit := ⟨true, 1e-12, 1e-12, 1, (), .pinv, 0⟩
  let b : Bond := ⟨(0, 0), (1, 0), 2⟩
  have hb : b ∈ buildBondList 2 2 := by decide
  let s : Net (Ten (Fin 1) (Fin 2) ℂ) × ℕ := (freshNet 2 2 1 spoiltSites, 0)
  have hfit : FitNet 2 2 s.1 := fitNet_fresh (by decide) (by decide) 1 spoiltSites
  obtain ⟨D, -, h⟩ := h Unit 1 2 2 2 1 inferInstance inferInstance le_rfl le_rfl (fun _ => 1) la cfg (by decide) (by norm_num [cfg]) (fun _ => by
    rw [Real.lt_sqrt (by norm_num [cfg])]
    norm_num [cfg, nD]) s hfit b hb (∑ p, ∑ q, ∑ r, ∑ t, ‖idGate p q r t‖ ^ 2)
  have hT0 : bondTensor (bare s.1) b = twoSite upSite ySite := by
    have e1 : (bare s.1 b.s1).A = upSite := bare_A rfl
    have e2 : (bare s.1 b.s2).A = ySite := bare_A rfl
    unfold bondTensor
    rw [e1, e2]
    rfl
  obtain ⟨a1, a2, n12, hT, hstep⟩ := fullBondStep_recomposed (nx := 2) (ny := 2) le_rfl le_rfl la s hfit hb
  have h12 : twoSite a1 a2 = twoSite upSite ySite := hT.symm.trans hT0
  let st : ProjSettings ℂ := ⟨la, true, 1e-12, 2, 2⟩
  let ω : ℕ → Draws (Fin 1) ℂ := fun _ _ => default
  let gates : Bond → Fin 2 → Fin 2 → Fin 2 → Fin 2 → ℂ := fun _ => idGate
  obtain ⟨f, hf⟩ := updateReduced_total la fo (fun _ => ()) cfg bD_le rfl (decompose la a1 a2).a1r (decompose la a1 a2).a2r n12 idGate
  have hf0 := updateReduced_spoilt la fo (fun _ => ()) cfg (by decide) a1 a2 h12 n12 f hf
  have hre : recomposed la a1 a2 (updateReduced la fo (fun _ => ()) cfg bD_le (decompose la a1 a2).a1r (decompose la a1 a2).a2r n12 idGate) =
      some (.ok (0, 0)) := by
    rw [hf, hf0]
    show some (Except.ok _) = some (Except.ok _)
    congr 2
    refine Prod.ext ?_ ?_ <;> · funext l u r dd p; simp [normalise]
  obtain ⟨hok, -, hnew⟩ := (hstep Unit st .full ω fo (fun _ => ()) cfg gates).2 0 0 hre
  have hgid : gated (gates b) (bondTensor (bare s.1) b) = twoSite upSite ySite := by
    rw [hT0]
    exact (C39_identity_gate upSite ySite idGate fun _ _ _ _ => rfl).1
  have hne : twoSite upSite ySite ≠ 0 := by
    intro h0
    have := congrFun (congrFun (congrFun (congrFun (congrFun (congrFun (congrFun (congrFun h0 0) 0) 0) 0) 0) 0) 0) 0
    simp [twoSite, upSite, ySite] at this
  have hbound := h st .full ω fo (fun _ => ()) () 0 gates le_rfl zero_le_one le_rfl (hgid ▸ hne) hok upSite ySite
  rw [hgid] at hbound
  simp only [sub_self, add_zero] at hbound
  rw [show normSq8 (fun _ _ _ _ _ _ _ _ => (0 : ℂ) : Fin 1 → Fin 1 → Fin 1 → Fin 1 → Fin 1 → Fin 1 → Fin 2 → Fin 2 → ℂ) = 0 by simp [normSq8],
    Real.sqrt_zero, mul_zero] at hbound
  have hgoneK : latticeState (nx := 2) (ny := 2) (N := 1) (fun _ => 1)
      (siteTensors (bare (fullBondStep st .full ω la fo (fun _ => ()) { cfg with als_tol := (), als_epsilon := 0 } none gates s b).1.1)) = 0 := by
    by_contra hc
    refine bondTensor_ne_zero le_rfl le_rfl (fun _ => 1) _ b hb hc ?_
    refine hnew.trans ?_
    funext u r d l' u' d' p q
    simp [twoSite]
  have hbefore : siteTensors (bare s.1) = spoiltSites := by
    funext x
    exact bare_A rfl
  let m : ModelTerms (Fin 2) ℂ := ⟨fun _ => 0, fun _ => none⟩
  have hg : gates b = twoSiteGate m 0 b := by
    funext p q r s
    show idGate p q r s = _
    unfold twoSiteGate
    rw [calculateGate_zero]
    simp [idGate, Matrix.one_apply, Prod.ext_iff]
  unfold bondError at hbound
  beta_reduce at hbound
  rw [hgoneK, hbefore, hg, everywhere_gate _ m 0 b hb, RCLike.ofReal_zero, neg_zero, zero_smul, NormedSpace.exp_zero, Matrix.one_mulVec] at hbound
  have hpos : 0 < stateNorm (latticeState (nx := 2) (ny := 2) (N := 1) (fun _ => 1) spoiltSites) := stateNorm_pos spoiltSites_state
  rw [div_le_iff₀ hpos, zero_mul] at hbound
  refine absurd (le_trans (le_rayDist _ _ fun κ _ => ?_) hbound) (not_le.2 hpos)
  rw [smul_zero, stateNorm_sub_comm, sub_zero]

end AceTN
