import Verif.Lemmas.EnergyDescent
import Verif.Props.FullUpdateExact
import Verif.Props.Rdm
import Verif.Props.BondStore
import Verif.Model.Measure

/-! C72: an exact bond update lowers the measured energy of the bond. -/

set_option autoImplicit false

namespace AceTN

open Full Simple Matrix SumTac
open scoped ComplexOrder

variable {𝕜 : Type} [RCLike 𝕜]

section env

variable {B P : Type} [Fintype B] [Fintype P] {x : Type} [Fintype x]

/-- The environment of a bond: the ten boundary tensors contracted, as a function of the ket and bra outer legs. -/
def ringEnv (c12 : x → x → 𝕜) (e12 e11 : x → x → B → B → 𝕜) (c13 : x → x → 𝕜) (e13 : x → x → B → B → 𝕜)
    (c21 : x → x → 𝕜) (e21 e24 : x → x → B → B → 𝕜) (c24 : x → x → 𝕜) (e23 : x → x → B → B → 𝕜)
    (u r d l' u' d' U R D L' U' D' : B) : 𝕜 :=
  ∑ i0, ∑ i1, ∑ i2, ∑ i3, ∑ i4, ∑ i5, ∑ i6, ∑ i7, ∑ i8, ∑ i9,
    c21 i9 i0 * e21 i0 i1 u' U' * e11 i1 i2 u U * c12 i2 i3 * e12 i3 i4 r R * c13 i4 i5 *
    e13 i5 i6 d D * e23 i6 i7 d' D' * c24 i7 i8 * e24 i8 i9 l' L'

omit [Fintype P] in
theorem bondRdmCore_ring (c12 : x → x → 𝕜) (e12 e11 : x → x → B → B → 𝕜) (c13 : x → x → 𝕜) (e13 : x → x → B → B → 𝕜)
    (c21 : x → x → 𝕜) (e21 e24 : x → x → B → B → 𝕜) (c24 : x → x → 𝕜) (e23 : x → x → B → B → 𝕜)
    (a1 a2 : B → B → B → B → P → 𝕜) (bra1 bra2 ket1 ket2 : P) :
    bondRdmCore c12 e12 e11 c13 e13 a1 c21 e21 e24 c24 e23 a2 bra1 bra2 ket1 ket2 =
      ∑ u, ∑ r, ∑ d, ∑ l', ∑ u', ∑ d', ∑ U, ∑ R, ∑ D, ∑ L', ∑ U', ∑ D',
        ringEnv c12 e12 e11 c13 e13 c21 e21 e24 c24 e23 u r d l' u' d' U R D L' U' D' *
          Spec.twoSite a1 a2 u r d l' u' d' ket1 ket2 * star (Spec.twoSite a1 a2 U R D L' U' D' bra1 bra2) := by
  unfold bondRdmCore ringEnv Spec.twoSite
  einsum_ring

/-- The density matrix made from a two-site tensor and an environment. -/
def rdmOf (env : B → B → B → B → B → B → B → B → B → B → B → B → 𝕜) (T : B → B → B → B → B → B → P → P → 𝕜)
    (bra1 bra2 ket1 ket2 : P) : 𝕜 :=
  ∑ u, ∑ r, ∑ d, ∑ l', ∑ u', ∑ d', ∑ U, ∑ R, ∑ D, ∑ L', ∑ U', ∑ D', env u r d l' u' d' U R D L' U' D' *
    T u r d l' u' d' ket1 ket2 * star (T U R D L' U' D' bra1 bra2)

omit [Fintype B] in
theorem sum4_swap (f : P → P → P → P → 𝕜) :
    ∑ a, ∑ b, ∑ c, ∑ d, f a b c d = ∑ c, ∑ d, ∑ a, ∑ b, f a b c d := by
  einsum_ring

theorem rdmOf_gated (env : B → B → B → B → B → B → B → B → B → B → B → B → 𝕜)
    (T : B → B → B → B → B → B → P → P → 𝕜) (gate : P → P → P → P → 𝕜) (bra1 bra2 ket1 ket2 : P) :
    rdmOf env (Spec.gated gate T) bra1 bra2 ket1 ket2 =
      ∑ P', ∑ Q', ∑ p', ∑ q', star (gate P' Q' bra1 bra2) * rdmOf env T P' Q' p' q' * gate p' q' ket1 ket2 := by
  unfold rdmOf Spec.gated
  einsum_ring

omit [Fintype P] in
theorem rdmOf_smul (env : B → B → B → B → B → B → B → B → B → B → B → B → 𝕜)
    (T : B → B → B → B → B → B → P → P → 𝕜) (c : 𝕜) (bra1 bra2 ket1 ket2 : P) :
    rdmOf env (fun u r d l' u' d' p q => c * T u r d l' u' d' p q) bra1 bra2 ket1 ket2 =
      c * star c * rdmOf env T bra1 bra2 ket1 ket2 := by
  unfold rdmOf
  einsum_ring

end env

section network

variable {B X : Type} [Fintype B] [Fintype X] {pD : ℕ}

/-- The sites of a bond have the same boundary tensors. -/
def Spec.SameBoundary {P : Type} (net net' : NetT B P X 𝕜) (b : Bond) : Prop :=
  ((net' b.s1).C = (net b.s1).C ∧ (net' b.s1).E = (net b.s1).E) ∧
    (net' b.s2).C = (net b.s2).C ∧ (net' b.s2).E = (net b.s2).E

/-- The two-site tensor of a bond of a network, in the frame of the bond. -/
def Spec.bondTensor {P : Type} (net : NetT B P X 𝕜) (b : Bond) : B → B → B → B → B → B → P → P → 𝕜 :=
  Spec.twoSite (bondPermute b.k (net b.s1).A) (bondPermute b.k (net b.s2).A)

/-- A two-site operator of a model as the four-index array that is measured or applied: row index first. -/
def Spec.fourIndex {P : Type} (O : Matrix (P × P) (P × P) 𝕜) : P → P → P → P → 𝕜 := fun p q r s => O (p, q) (r, s)

/-- The measured density matrix of a bond as a matrix, bra indices first. -/
def Spec.rdmMatrix (init : Fin pD → Fin pD → Fin pD → Fin pD → 𝕜) (net : NetT B (Fin pD) X 𝕜) (b : Bond) :
    Matrix (Fin pD × Fin pD) (Fin pD × Fin pD) 𝕜 :=
  of fun x y => buildBondRdm init net b.s1 b.s2 b.k x.1 x.2 y.1 y.2

/-- The environment of a bond of a network. -/
def bondEnv {P : Type} (net : NetT B P X 𝕜) (b : Bond) : B → B → B → B → B → B → B → B → B → B → B → B → 𝕜 :=
  ringEnv ((net b.s1).C (rotIdx b.k 1)) ((net b.s1).E (rotIdx b.k 1)) ((net b.s1).E (rotIdx b.k 0))
    ((net b.s1).C (rotIdx b.k 2)) ((net b.s1).E (rotIdx b.k 2)) ((net b.s2).C (rotIdx b.k 0))
    ((net b.s2).E (rotIdx b.k 0)) ((net b.s2).E (rotIdx b.k 3)) ((net b.s2).C (rotIdx b.k 3))
    ((net b.s2).E (rotIdx b.k 2))

theorem buildBondRdm_env (init : Fin pD → Fin pD → Fin pD → Fin pD → 𝕜) (net : NetT B (Fin pD) X 𝕜) (b : Bond)
    (bra1 bra2 ket1 ket2 : Fin pD) :
    buildBondRdm init net b.s1 b.s2 b.k bra1 bra2 ket1 ket2 =
      rdmOf (bondEnv net b) (Spec.bondTensor net b) bra1 bra2 ket1 ket2 := by
  unfold buildBondRdm
  rw [C32_bond_rdm, bondRdmCore_ring]
  rfl

/-- Measuring is taking the trace with the operator. -/
theorem measureTwoSite_trace (init : Fin pD → Fin pD → Fin pD → Fin pD → 𝕜) (net : NetT B (Fin pD) X 𝕜) (b : Bond)
    (H : Matrix (Fin pD × Fin pD) (Fin pD × Fin pD) 𝕜) :
    measureTwoSite (buildBondRdm init net b.s1 b.s2 b.k) (Spec.fourIndex H) =
      RCLike.re (trace (Spec.rdmMatrix init net b * H)) := by
  unfold measureTwoSite Spec.fourIndex Spec.rdmMatrix
  congr 1
  simp only [trace, diag_apply, Matrix.mul_apply, of_apply, Fintype.sum_prod_type]

theorem bondNorm_trace (init : Fin pD → Fin pD → Fin pD → Fin pD → 𝕜) (net : NetT B (Fin pD) X 𝕜) (b : Bond) :
    bondNorm (buildBondRdm init net b.s1 b.s2 b.k) = RCLike.re (trace (Spec.rdmMatrix init net b)) := by
  unfold bondNorm Spec.rdmMatrix
  congr 1
  simp only [trace, diag_apply, of_apply, Fintype.sum_prod_type]

/-- **C72 (convention).** Applying an operator to the two-site tensor of a bond the way the updates apply gates changes
the measured density matrix to `Oᴴ ρ O`, so that measuring `H` afterwards is measuring `O H Oᴴ` before: gates and
measured operators are contracted with the same index of the operator.  For every network, bond, operator and factor,
and whatever the uninitialised memory. -/
theorem C72_convention (init init' : Fin pD → Fin pD → Fin pD → Fin pD → 𝕜) (net net' : NetT B (Fin pD) X 𝕜) (b : Bond)
    (hs : Spec.SameBoundary net net' b) (O : Matrix (Fin pD × Fin pD) (Fin pD × Fin pD) 𝕜) (c : 𝕜)
    (h : Spec.bondTensor net' b = fun u r d l' u' d' p q =>
      c * Spec.gated (Spec.fourIndex O) (Spec.bondTensor net b) u r d l' u' d' p q) :
    Spec.rdmMatrix init' net' b = (c * star c) • (Oᴴ * Spec.rdmMatrix init net b * O) ∧
    ∀ H : Matrix (Fin pD × Fin pD) (Fin pD × Fin pD) 𝕜,
      measureTwoSite (buildBondRdm init' net' b.s1 b.s2 b.k) (Spec.fourIndex H) =
        RCLike.normSq c * measureTwoSite (buildBondRdm init net b.s1 b.s2 b.k) (Spec.fourIndex (O * H * Oᴴ)) := by
  have key : Spec.rdmMatrix init' net' b = (c * star c) • (Oᴴ * Spec.rdmMatrix init net b * O) := by
    have he : bondEnv net' b = bondEnv net b := by
      obtain ⟨⟨hC1, hE1⟩, hC2, hE2⟩ := hs
      unfold bondEnv
      rw [hC1, hE1, hC2, hE2]
    have hr : ∀ x y, Spec.rdmMatrix init net b x y = rdmOf (bondEnv net b) (Spec.bondTensor net b) x.1 x.2 y.1 y.2 :=
      fun x y => buildBondRdm_env init net b _ _ _ _
    ext ⟨x1, x2⟩ ⟨y1, y2⟩
    refine (buildBondRdm_env init' net' b _ _ _ _).trans ?_
    rw [he, h, rdmOf_smul, rdmOf_gated, Matrix.smul_apply, smul_eq_mul]
    congr 1
    simp only [Matrix.mul_apply, conjTranspose_apply, hr, Fintype.sum_prod_type, Finset.sum_mul]
    generalize rdmOf (bondEnv net b) (Spec.bondTensor net b) = ρ
    unfold Spec.fourIndex
    rw [sum4_swap]
  refine ⟨key, fun H => ?_⟩
  rw [measureTwoSite_trace, measureTwoSite_trace, key, Matrix.smul_mul, trace_smul, smul_eq_mul,
    show star c = (starRingEnd 𝕜) c from rfl, RCLike.mul_conj, ← RCLike.ofReal_pow, RCLike.re_ofReal_mul,
    RCLike.normSq_eq_def']
  congr 2
  rw [Matrix.mul_assoc, Matrix.mul_assoc, Matrix.trace_mul_comm]
  simp only [Matrix.mul_assoc]

/-- **C72 (descent).** For every network, bond, dtype, model with Hermitian terms and `dtau ≥ 0`: if the measured density
matrix of the bond is positive with a positive norm, and the two-site tensor is replaced by a nonzero multiple of the
gate applied to it while the boundary tensors of the two sites stay, then the norm measured afterwards is positive and
the bond energy measured afterwards (the generator of the gate) is at most the one measured before.  It is smaller if
`dtau > 0` and the energy has a variance. -/
theorem C72_descent (init init' : Fin pD → Fin pD → Fin pD → Fin pD → 𝕜) (net net' : NetT B (Fin pD) X 𝕜) (b : Bond)
    (hs : Spec.SameBoundary net net' b) (m : ModelTerms (Fin pD) 𝕜) (hm : m.Hermitian) (dtau : ℝ) (ht : 0 ≤ dtau)
    (hρ : (Spec.rdmMatrix init net b).PosSemidef) (hn : 0 < bondNorm (buildBondRdm init net b.s1 b.s2 b.k))
    (c : 𝕜) (hc : c ≠ 0)
    (h : Spec.bondTensor net' b = fun u r d l' u' d' p q =>
      c * Spec.gated (twoSiteGate m dtau b) (Spec.bondTensor net b) u r d l' u' d' p q) :
    0 < bondNorm (buildBondRdm init' net' b.s1 b.s2 b.k) ∧
    bondValue init' net' b (Spec.fourIndex (bondHam m b)) ≤ bondValue init net b (Spec.fourIndex (bondHam m b)) ∧
    (0 < dtau →
      measureTwoSite (buildBondRdm init net b.s1 b.s2 b.k) (Spec.fourIndex (bondHam m b)) ^ 2 ≠
        measureTwoSite (buildBondRdm init net b.s1 b.s2 b.k) (Spec.fourIndex (bondHam m b * bondHam m b)) *
          bondNorm (buildBondRdm init net b.s1 b.s2 b.k) →
      bondValue init' net' b (Spec.fourIndex (bondHam m b)) < bondValue init net b (Spec.fourIndex (bondHam m b))) := by
  have hH := bondHam_isHermitian m hm b
  obtain ⟨hk, hE⟩ := C72_convention init init' net net' b hs (calculateGate (bondHam m b) dtau) c h
  have hcc : 0 < RCLike.normSq c := (RCLike.normSq_pos).2 hc
  have hG := (calculateGate_isHermitian hH dtau).eq
  have hE' := hE (bondHam m b)
  have hN : bondNorm (buildBondRdm init' net' b.s1 b.s2 b.k) = RCLike.normSq c *
      RCLike.re (trace (Spec.rdmMatrix init net b * (calculateGate (bondHam m b) dtau * calculateGate (bondHam m b) dtau))) := by
    have h1 := hE 1
    rw [measureTwoSite_trace, Matrix.mul_one, ← bondNorm_trace, measureTwoSite_trace, Matrix.mul_one, hG] at h1
    exact h1
  rw [measureTwoSite_trace init net, hG] at hE'
  rw [bondNorm_trace] at hn
  obtain ⟨h1, h2, h3⟩ := energy_descent _ _ hρ hH dtau ht hn
  unfold bondValue
  rw [hE', hN, measureTwoSite_trace, measureTwoSite_trace, bondNorm_trace, mul_div_mul_left _ _ hcc.ne']
  exact ⟨mul_pos hcc h1, h2, h3⟩

/-- A gate does not annihilate a bond whose density matrix has a norm. -/
theorem gated_ne_zero (init : Fin pD → Fin pD → Fin pD → Fin pD → 𝕜) (net : NetT B (Fin pD) X 𝕜) (b : Bond)
    (m : ModelTerms (Fin pD) 𝕜) (hm : m.Hermitian) (dtau : ℝ) (ht : 0 ≤ dtau)
    (hρ : (Spec.rdmMatrix init net b).PosSemidef) (hn : 0 < bondNorm (buildBondRdm init net b.s1 b.s2 b.k)) :
    Spec.gated (twoSiteGate m dtau b) (Spec.bondTensor net b) ≠ 0 := by
  intro h0
  have hH := bondHam_isHermitian m hm b
  rw [bondNorm_trace] at hn
  have h1 := (energy_descent _ _ hρ hH dtau ht hn).1
  have h2 : (calculateGate (bondHam m b) dtau)ᴴ * Spec.rdmMatrix init net b * calculateGate (bondHam m b) dtau = 0 := by
    have hr : ∀ x y, Spec.rdmMatrix init net b x y = rdmOf (bondEnv net b) (Spec.bondTensor net b) x.1 x.2 y.1 y.2 :=
      fun x y => buildBondRdm_env init net b _ _ _ _
    ext ⟨x1, x2⟩ ⟨y1, y2⟩
    have h3 := rdmOf_gated (bondEnv net b) (Spec.bondTensor net b) (twoSiteGate m dtau b) x1 x2 y1 y2
    rw [h0] at h3
    have h4 : rdmOf (bondEnv net b) (0 : B → B → B → B → B → B → Fin pD → Fin pD → 𝕜) x1 x2 y1 y2 = 0 := by
      simp [rdmOf]
    rw [h4] at h3
    rw [Matrix.zero_apply, h3]
    simp only [Matrix.mul_apply, conjTranspose_apply, hr, Fintype.sum_prod_type, Finset.sum_mul]
    generalize rdmOf (bondEnv net b) (Spec.bondTensor net b) = ρ
    unfold twoSiteGate
    rw [sum4_swap]
  rw [(calculateGate_isHermitian hH dtau).eq] at h2
  rw [← Matrix.mul_assoc, Matrix.trace_mul_comm, ← Matrix.mul_assoc, h2] at h1
  simp at h1

end network

/-! ### The two updates -/

section updates

variable {X : Type} [Fintype X] {pD bD : ℕ} [NeZero bD] [NeZero pD]

/-- The measured bond energy went down: the norm afterwards is positive, the energy is not larger, and it is smaller if
`dtau > 0` and it had a variance. -/
def Spec.EnergyDown {B : Type} [Fintype B] (init init' : Fin pD → Fin pD → Fin pD → Fin pD → 𝕜)
    (net net' : NetT B (Fin pD) X 𝕜) (b : Bond) (m : ModelTerms (Fin pD) 𝕜) (dtau : ℝ) : Prop :=
  0 < bondNorm (buildBondRdm init' net' b.s1 b.s2 b.k) ∧
  bondValue init' net' b (Spec.fourIndex (bondHam m b)) ≤ bondValue init net b (Spec.fourIndex (bondHam m b)) ∧
  (0 < dtau →
    measureTwoSite (buildBondRdm init net b.s1 b.s2 b.k) (Spec.fourIndex (bondHam m b)) ^ 2 ≠
      measureTwoSite (buildBondRdm init net b.s1 b.s2 b.k) (Spec.fourIndex (bondHam m b * bondHam m b)) *
        bondNorm (buildBondRdm init net b.s1 b.s2 b.k) →
    bondValue init' net' b (Spec.fourIndex (bondHam m b)) < bondValue init net b (Spec.fourIndex (bondHam m b)))

/-- **C72 (full update).** Real dtypes, solver without regularisation: if the measured density matrix of a bond with two
different ends is positive with a positive norm and the gate-applied two-site tensor fits in the bond dimension, then the
energy of the bond measured with the stored tensors is lower after the full update of the bond. -/
theorem C72_full_update {F : Type} (init init' : Fin pD → Fin pD → Fin pD → Fin pD → ℝ) (la : Lapack ℝ) (fo : Als.FloatOps F)
    (rep : ℝ → F) (cfg : Settings F) (he : cfg.als_epsilon = 0) (hcut : 0 < cfg.positive_approx_cutoff)
    (hatol : cfg.gauge_fix_atol < Real.sqrt cfg.positive_approx_cutoff)
    (net : NetT (Fin bD) (Fin pD) X ℝ) (b : Bond) (hne : b.s1 ≠ b.s2) (m : ModelTerms (Fin pD) ℝ) (hm : m.Hermitian) (dtau : ℝ)
    (ht : 0 ≤ dtau) (hρ : (Spec.rdmMatrix init net b).PosSemidef)
    (hn : 0 < bondNorm (buildBondRdm init net b.s1 b.s2 b.k))
    (hfit : Spec.Fits (Spec.gated (twoSiteGate m dtau b) (Spec.bondTensor net b)))
    (tu : ATensor (Fin bD) (Fin pD) ℝ → ATensor (Fin bD) (Fin pD) ℝ →
      Except PyErr (ATensor (Fin bD) (Fin pD) ℝ × ATensor (Fin bD) (Fin pD) ℝ))
    (htu : ∀ a1 a2, fullTensorUpdate la fo rep cfg net b.s1 b.s2 b.k (twoSiteGate m dtau b) a1 a2 = some (tu a1 a2))
    (b1 b2 : ATensor (Fin bD) (Fin pD) ℝ) (h : tensorUpdaterUpdate tu none net b.s1 b.s2 b.k = .ok (b1, b2)) :
    Spec.EnergyDown init init' net (storePair net b.s1 b.s2 b1 b2) b m dtau := by
  unfold tensorUpdaterUpdate at h
  dsimp only at h
  cases hr : tu (bondPermute b.k (net b.s1).A) (bondPermute b.k (net b.s2).A) with
  | error e => rw [hr] at h; exact absurd h (by simp [bind, Except.bind])
  | ok r =>
  obtain ⟨c1, c2⟩ := r
  rw [hr] at h
  have h : (Except.ok (bondPermute (4 - b.k) c1, bondPermute (4 - b.k) c2) : Except PyErr _) = .ok (b1, b2) := h
  have h := Except.ok.inj h
  have hb1 : b1 = bondPermute (4 - b.k) c1 := (congrArg Prod.fst h).symm
  have hb2 : b2 = bondPermute (4 - b.k) c2 := (congrArg Prod.snd h).symm
  have hu := htu (bondPermute b.k (net b.s1).A) (bondPermute b.k (net b.s2).A)
  rw [hr] at hu
  obtain ⟨κ, hκ, hT⟩ := C39_real_partial (Fin pD) X F bD la fo rep cfg net b.s1 b.s2 b.k (twoSiteGate m dtau b) _ _ c1 c2
    he hcut hatol hfit (gated_ne_zero init net b m hm dtau ht hρ hn) hu
  obtain ⟨hs1, hs2, -, hsB⟩ := C42_store_partial net b.s1 b.s2 hne b1 b2
  have hback : ∀ c : ATensor (Fin bD) (Fin pD) ℝ, bondPermute b.k (bondPermute (4 - b.k) c) = c := fun c => by
    rw [bondPermute_add, bondPermute_mod _ 0 (by omega), bondPermute_zero]
  refine C72_descent init init' net _ b ⟨hsB _, hsB _⟩ m hm dtau ht hρ hn κ hκ.ne' ?_
  funext u r d l' u' d' p q
  have h1 := hT u r d l' u' d' p q
  unfold Spec.bondTensor
  rw [hs1, hs2, hb1, hb2, hback, hback]
  exact h1

omit [NeZero bD] in
/-- The product of the weights on three outer legs. -/
theorem weighted_first {P : Type} (W : ℕ → Fin bD → ℝ) (k : ℕ) (hk : k < 4) (hW : ∀ d < 4, d ≠ k → ∀ i, W d i ≠ 0) :
    ∃ ω : Fin bD → Fin bD → Fin bD → ℝ, (∀ u r d, ω u r d ≠ 0) ∧
      ∀ (a : ATensor (Fin bD) P 𝕜) b u r d p,
        bondPermute k (Spec.weighted W k a) b u r d p = (ω u r d : 𝕜) * bondPermute k a b u r d p := by
  have hk' : k = 0 ∨ k = 1 ∨ k = 2 ∨ k = 3 := by omega
  rcases hk' with rfl | rfl | rfl | rfl
  · refine ⟨fun u r d => W 1 u * W 2 r * W 3 d, fun u r d => ?_, fun a b u r d p => ?_⟩
    · exact mul_ne_zero (mul_ne_zero (hW 1 (by omega) (by omega) _) (hW 2 (by omega) (by omega) _)) (hW 3 (by omega) (by omega) _)
    · show Spec.weighted W 0 a b u r d p = _ * a b u r d p
      simp [Spec.weighted, Spec.legWeight]
  · refine ⟨fun u r d => W 2 u * W 3 r * W 0 d, fun u r d => ?_, fun a b u r d p => ?_⟩
    · exact mul_ne_zero (mul_ne_zero (hW 2 (by omega) (by omega) _) (hW 3 (by omega) (by omega) _)) (hW 0 (by omega) (by omega) _)
    · show Spec.weighted W 1 a d b u r p = _ * a d b u r p
      simp only [Spec.weighted, Spec.legWeight]; norm_num; left; ring
  · refine ⟨fun u r d => W 3 u * W 0 r * W 1 d, fun u r d => ?_, fun a b u r d p => ?_⟩
    · exact mul_ne_zero (mul_ne_zero (hW 3 (by omega) (by omega) _) (hW 0 (by omega) (by omega) _)) (hW 1 (by omega) (by omega) _)
    · show Spec.weighted W 2 a r d b u p = _ * a r d b u p
      simp only [Spec.weighted, Spec.legWeight]; norm_num; left; ring
  · refine ⟨fun u r d => W 0 u * W 1 r * W 2 d, fun u r d => ?_, fun a b u r d p => ?_⟩
    · exact mul_ne_zero (mul_ne_zero (hW 0 (by omega) (by omega) _) (hW 1 (by omega) (by omega) _)) (hW 2 (by omega) (by omega) _)
    · show Spec.weighted W 3 a u r d b p = _ * a u r d b p
      simp [Spec.weighted, Spec.legWeight]

omit [NeZero bD] in
theorem weighted_second {P : Type} (W : ℕ → Fin bD → ℝ) (k : ℕ) (hW : ∀ d < 4, d ≠ (k + 2) % 4 → ∀ i, W d i ≠ 0) :
    ∃ ω : Fin bD → Fin bD → Fin bD → ℝ, (∀ l u d, ω l u d ≠ 0) ∧
      ∀ (a : ATensor (Fin bD) P 𝕜) l u b d p,
        bondPermute k (Spec.weighted W ((k + 2) % 4) a) l u b d p = (ω l u d : 𝕜) * bondPermute k a l u b d p := by
  obtain ⟨ω, h1, h2⟩ := weighted_first (𝕜 := 𝕜) (P := P) W ((k + 2) % 4) (by omega) hW
  refine ⟨fun l u d => ω d l u, fun l u d => h1 _ _ _, fun a l u b d p => ?_⟩
  have h3 := h2 a b d l u p
  have e : ∀ x : ATensor (Fin bD) P 𝕜, bondPermute (((k + 2) % 4 : ℕ) : ℤ) x b d l u p = bondPermute k x l u b d p := by
    intro x
    rw [bondPermute_mod (((k + 2) % 4 : ℕ) : ℤ) (k + 2) (by omega), ← bondPermute_add, bondPermute_two]
  rw [e, e] at h3
  exact h3

/-- **C72 (simple update).** Real and complex dtypes: if the weights around the bond can be divided out (C40), the measured
density matrix of a bond with two different ends is positive with a positive norm, and the gate-applied two-site tensor in
its weights fits in the bond dimension, then the update returns and the energy of the bond measured with the stored
tensors is lower. -/
theorem C72_simple_update (init init' : Fin pD → Fin pD → Fin pD → Fin pD → 𝕜) (la : Lapack 𝕜) (lt : LambdaTensors (Weight bD))
    (net : NetT (Fin bD) (Fin pD) X 𝕜) (b : Bond) (hk : b.k < 4) (hne : b.s1 ≠ b.s2) (m : ModelTerms (Fin pD) 𝕜)
    (hm : m.Hermitian) (dtau : ℝ) (ht : 0 ≤ dtau) (hρ : (Spec.rdmMatrix init net b).PosSemidef)
    (hn : 0 < bondNorm (buildBondRdm init net b.s1 b.s2 b.k)) (W1 W2 : ℕ → Weight bD) (hW1 : Weights lt b.s1 W1)
    (hW2 : Weights lt b.s2 W2) (hs1 : Strippable W1 b.k) (hs2 : Strippable W2 ((b.k + 2) % 4))
    (hfit : ∃ c1 c2, Spec.gated (twoSiteGate m dtau b) (bondState W1 W2 b.k (net b.s1).A (net b.s2).A) = Spec.twoSite c1 c2) :
    ∃ b1 b2 lambda, bondTensors la lt none (twoSiteGate m dtau b) b (net b.s1).A (net b.s2).A = .ok (b1, b2, lambda) ∧
      Spec.EnergyDown init init' net (storePair net b.s1 b.s2 b1 b2) b m dtau := by
  obtain ⟨ω1, hω1, e1⟩ := weighted_first (𝕜 := 𝕜) (P := Fin pD) (fun d => (W1 d).v) b.k hk fun d hd hdk i =>
    (lt_of_lt_of_le (by norm_num) ((hs1 d hd hdk).2 i)).ne'
  obtain ⟨ω2, hω2, e2⟩ := weighted_second (𝕜 := 𝕜) (P := Fin pD) (fun d => (W2 d).v) b.k fun d hd hdk i =>
    (lt_of_lt_of_le (by norm_num) ((hs2 d hd hdk).2 i)).ne'
  have hstate : ∀ (a1 a2 : ATensor (Fin bD) (Fin pD) 𝕜) u r d l' u' d' p q, bondState W1 W2 b.k a1 a2 u r d l' u' d' p q =
      ((ω1 u r d * ω2 l' u' d' : ℝ) : 𝕜) * Spec.twoSite (bondPermute b.k a1) (bondPermute b.k a2) u r d l' u' d' p q := by
    intro a1 a2 u r d l' u' d' p q
    unfold bondState Spec.twoSite
    rw [Finset.mul_sum]
    refine Finset.sum_congr rfl fun x _ => ?_
    rw [e1, e2, RCLike.ofReal_mul]
    ring
  have hgs : ∀ (a1 a2 : ATensor (Fin bD) (Fin pD) 𝕜) u r d l' u' d' p q,
      Spec.gated (twoSiteGate m dtau b) (bondState W1 W2 b.k a1 a2) u r d l' u' d' p q =
      ((ω1 u r d * ω2 l' u' d' : ℝ) : 𝕜) * Spec.gated (twoSiteGate m dtau b)
        (Spec.twoSite (bondPermute b.k a1) (bondPermute b.k a2)) u r d l' u' d' p q := by
    intro a1 a2 u r d l' u' d' p q
    unfold Spec.gated
    simp only [hstate, Finset.mul_sum, mul_assoc]
  have hω : ∀ u r d l' u' d', ((ω1 u r d * ω2 l' u' d' : ℝ) : 𝕜) ≠ 0 := fun u r d l' u' d' =>
    RCLike.ofReal_ne_zero.2 (mul_ne_zero (hω1 _ _ _) (hω2 _ _ _))
  have hne0 : Spec.gated (twoSiteGate m dtau b) (bondState W1 W2 b.k (net b.s1).A (net b.s2).A) ≠ 0 := by
    intro h0
    apply gated_ne_zero init net b m hm dtau ht hρ hn
    funext u r d l' u' d' p q
    have h1 := hgs (net b.s1).A (net b.s2).A u r d l' u' d' p q
    rw [h0] at h1
    exact (mul_eq_zero.1 h1.symm).resolve_left (hω _ _ _ _ _ _)
  obtain ⟨b1, b2, lambda, hr, c, hc, hT⟩ := C40_exact la lt (twoSiteGate m dtau b) b _ _ W1 W2 hW1 hW2 hs1 hs2 hne0 hfit
  refine ⟨b1, b2, lambda, hr, ?_⟩
  obtain ⟨hs1', hs2', -, hsB⟩ := C42_store_partial net b.s1 b.s2 hne b1 b2
  have hcc : (c : 𝕜) ≠ 0 := RCLike.ofReal_ne_zero.2 hc.ne'
  refine C72_descent init init' net _ b ⟨hsB _, hsB _⟩ m hm dtau ht hρ hn (c : 𝕜)⁻¹ (inv_ne_zero hcc) ?_
  funext u r d l' u' d' p q
  unfold Spec.bondTensor
  rw [hs1', hs2']
  have h1 := congrFun (congrFun (congrFun (congrFun (congrFun (congrFun (congrFun (congrFun hT u) r) d) l') u') d') p) q
  rw [hgs, hstate, mul_left_comm] at h1
  have h2 := mul_left_cancel₀ (hω u r d l' u' d') h1
  rw [h2, ← mul_assoc, inv_mul_cancel₀ hcc, one_mul]

end updates

/-! ### The hypotheses are met -/

section example_

/-- A frame tensor with trivial outer legs, the bond index being the physical one. -/
def legTensor (f : Fin 2 → Fin 2 → ℂ) (x y z b p : Fin 2) : ℂ :=
  if x = 0 then if y = 0 then if z = 0 then f b p else 0 else 0 else 0

/-- Two sites joined by a horizontal bond with the two-site matrix `M`, in a trivial environment. -/
def pairNet (M : Fin 2 → Fin 2 → ℂ) : NetT (Fin 2) (Fin 2) (Fin 1) ℂ := fun s =>
  { A := bondPermute 2 (if s = (0, 0) then fun l u r d p => legTensor (fun b p => if b = p then 1 else 0) u r d l p
      else fun l u r d p => legTensor M l u d r p)
    C := fun _ _ _ => 1
    E := fun _ _ _ _ _ => 1 }

/-- The bond of `pairNet`. -/
def pairBond : Bond := ⟨(0, 0), (1, 0), 2⟩

theorem pairNet_tensor (M : Fin 2 → Fin 2 → ℂ) : Spec.bondTensor (pairNet M) pairBond = fun u r d l' u' d' p q =>
    if u = 0 then if r = 0 then if d = 0 then if l' = 0 then if u' = 0 then if d' = 0 then M p q else 0 else 0 else 0 else 0
      else 0 else 0 := by
  funext u r d l' u' d' p q
  have h : ∀ a : ATensor (Fin 2) (Fin 2) ℂ, bondPermute ((2 : ℕ) : ℤ) (bondPermute 2 a) = a := fun a => by
    rw [bondPermute_add, bondPermute_mod _ 0 (by norm_num), bondPermute_zero]
  unfold Spec.bondTensor pairNet pairBond
  simp only [h]
  unfold Spec.twoSite legTensor
  by_cases h1 : u = 0 <;> by_cases h2 : r = 0 <;> by_cases h3 : d = 0 <;> by_cases h4 : l' = 0 <;>
    by_cases h5 : u' = 0 <;> by_cases h6 : d' = 0 <;> simp [h1, h2, h3, h4, h5, h6]

theorem rdmOf_one {B P : Type} [Fintype B] (T : B → B → B → B → B → B → P → P → 𝕜) (bra1 bra2 ket1 ket2 : P) :
    rdmOf (fun _ _ _ _ _ _ _ _ _ _ _ _ => 1) T bra1 bra2 ket1 ket2 =
      (∑ u, ∑ r, ∑ d, ∑ l', ∑ u', ∑ d', T u r d l' u' d' ket1 ket2) *
        star (∑ u, ∑ r, ∑ d, ∑ l', ∑ u', ∑ d', T u r d l' u' d' bra1 bra2) := by
  unfold rdmOf
  einsum_ring

theorem pairNet_rdm (init : Fin 2 → Fin 2 → Fin 2 → Fin 2 → ℂ) (M : Fin 2 → Fin 2 → ℂ) :
    Spec.rdmMatrix init (pairNet M) pairBond = of fun x y => M y.1 y.2 * star (M x.1 x.2) := by
  ext x y
  refine (buildBondRdm_env init (pairNet M) pairBond _ _ _ _).trans ?_
  have he : bondEnv (pairNet M) pairBond = fun _ _ _ _ _ _ _ _ _ _ _ _ => 1 := by
    funext u r d l' u' d' U R D L' U' D'
    simp [bondEnv, ringEnv, pairNet]
  rw [he, rdmOf_one, pairNet_tensor]
  simp

theorem pairNet_pos (init : Fin 2 → Fin 2 → Fin 2 → Fin 2 → ℂ) (M : Fin 2 → Fin 2 → ℂ) :
    (Spec.rdmMatrix init (pairNet M) pairBond).PosSemidef := by
  rw [pairNet_rdm]
  have h := Matrix.posSemidef_vecMulVec_star_self (fun x : Fin 2 × Fin 2 => M x.1 x.2)
  have e : (of fun x y : Fin 2 × Fin 2 => M y.1 y.2 * star (M x.1 x.2)) =
      vecMulVec (star fun x : Fin 2 × Fin 2 => M x.1 x.2) (fun x : Fin 2 × Fin 2 => M x.1 x.2) := by
    ext x y
    simp [vecMulVec_apply, mul_comm]
  rw [e]
  exact h

/-- For every model with Hermitian terms and every time step there is an entangled bond to which `C72_descent` applies:
two sites in a maximally entangled state, and the network with the gate applied. -/
example (init : Fin 2 → Fin 2 → Fin 2 → Fin 2 → ℂ) (m : ModelTerms (Fin 2) ℂ) (dtau : ℝ) :
    ∃ net net' : NetT (Fin 2) (Fin 2) (Fin 1) ℂ, ∃ b : Bond, Spec.SameBoundary net net' b ∧
      (Spec.rdmMatrix init net b).PosSemidef ∧ 0 < bondNorm (buildBondRdm init net b.s1 b.s2 b.k) ∧
      Spec.bondTensor net' b = fun u r d l' u' d' p q =>
        1 * Spec.gated (twoSiteGate m dtau b) (Spec.bondTensor net b) u r d l' u' d' p q := by
  refine ⟨pairNet fun p q => if p = q then 1 else 0,
    pairNet fun p q => ∑ p', ∑ q', (if p' = q' then 1 else 0) * twoSiteGate m dtau pairBond p' q' p q, pairBond,
    ⟨⟨rfl, rfl⟩, rfl, rfl⟩, pairNet_pos _ _, ?_, ?_⟩
  · rw [bondNorm_trace, pairNet_rdm]
    simp [trace, Fintype.sum_prod_type]
  · rw [pairNet_tensor, pairNet_tensor]
    funext u r d l' u' d' p q
    unfold Spec.gated
    by_cases h1 : u = 0 <;> by_cases h2 : r = 0 <;> by_cases h3 : d = 0 <;> by_cases h4 : l' = 0 <;>
      by_cases h5 : u' = 0 <;> by_cases h6 : d' = 0 <;> simp [h1, h2, h3, h4, h5, h6]

/-- The energy of such a bond can have a variance: a field on the first site. -/
example (init : Fin 2 → Fin 2 → Fin 2 → Fin 2 → ℂ) :
    ∃ m : ModelTerms (Fin 2) ℂ, m.Hermitian ∧ ∃ (net : NetT (Fin 2) (Fin 2) (Fin 1) ℂ) (b : Bond),
      measureTwoSite (buildBondRdm init net b.s1 b.s2 b.k) (Spec.fourIndex (bondHam m b)) ^ 2 ≠
        measureTwoSite (buildBondRdm init net b.s1 b.s2 b.k) (Spec.fourIndex (bondHam m b * bondHam m b)) *
          bondNorm (buildBondRdm init net b.s1 b.s2 b.k) := by
  refine ⟨⟨fun _ => diagonal fun x => if x.1 = 0 then 1 else 0, fun _ => none⟩, ⟨fun _ => ?_, fun _ _ h => by simp at h⟩,
    pairNet fun p q => if p = q then 1 else 0, pairBond, ?_⟩
  · refine isHermitian_diagonal_of_self_adjoint _ ?_
    rw [IsSelfAdjoint]
    funext x
    simp only [Pi.star_apply]
    split_ifs <;> simp
  · rw [measureTwoSite_trace, measureTwoSite_trace, bondNorm_trace, pairNet_rdm]
    simp [bondHam, trace, Fintype.sum_prod_type, Matrix.mul_apply, diagonal_mul_diagonal, diagonal_apply]

end example_

end AceTN
