import Verif.Props.Rdm
import Verif.Lemmas.Double
import Verif.Model.Measure
import Verif.Spec.QForm
import Mathlib.Data.Complex.BigOperators
import Mathlib.LinearAlgebra.Matrix.Notation
import Mathlib.LinearAlgebra.Matrix.Hermitian

/-!
Properties C47 and C49: expectation values.
-/

set_option autoImplicit false

namespace AceTN

open Matrix SumTac

variable {𝕜 : Type} [RCLike 𝕜] {B P X : Type} [Fintype B] [Fintype P] [Fintype X]

/-! ### C47 -/

namespace Spec

/-- The identity on one site. -/
def idOp [DecidableEq P] : P → P → 𝕜 := fun p q => if p = q then 1 else 0

/-- The identity on two sites. -/
def idOp2 {pD : ℕ} : Fin pD → Fin pD → Fin pD → Fin pD → 𝕜 := fun p q p' q' => if p = p' ∧ q = q' then 1 else 0

/-- `s'` has the tensors of `s`, each multiplied by a factor: boundary tensors by positive factors, the site tensor by any
nonzero factor. -/
def Rescaled (s s' : NumSite B P X 𝕜) : Prop :=
  (∃ f : 𝕜, f ≠ 0 ∧ s'.A = fun l u r d p => f * s.A l u r d p) ∧
  (∀ k, ∃ f : ℝ, 0 < f ∧ s'.C k = fun x y => (f : 𝕜) * s.C k x y) ∧
  (∀ k, ∃ f : ℝ, 0 < f ∧ s'.E k = fun x y z w => (f : 𝕜) * s.E k x y z w)

end Spec

open Spec

/-- **C47** (identity, one site). -/
theorem C47_site_identity [DecidableEq P] (net : NetT B P X 𝕜) (s : Site) (h : siteNorm (buildSiteRdm net s) ≠ 0) :
    siteValue net s idOp = 1 := by
  unfold siteValue
  have : measureOneSite (buildSiteRdm net s) idOp = siteNorm (buildSiteRdm net s) := by
    unfold measureOneSite siteNorm idOp
    simp
  rw [this, div_self h]

/-- **C47** (identity, two sites). -/
theorem C47_bond_identity {pD : ℕ} (init : Fin pD → Fin pD → Fin pD → Fin pD → 𝕜) (net : NetT B (Fin pD) X 𝕜) (b : Bond)
    (h : bondNorm (buildBondRdm init net b.s1 b.s2 b.k) ≠ 0) : bondValue init net b idOp2 = 1 := by
  unfold bondValue
  have : measureTwoSite (buildBondRdm init net b.s1 b.s2 b.k) idOp2 = bondNorm (buildBondRdm init net b.s1 b.s2 b.k) := by
    unfold measureTwoSite bondNorm idOp2
    congr 1
    refine Finset.sum_congr rfl fun P _ => ?_
    refine Finset.sum_congr rfl fun Q _ => ?_
    rw [Finset.sum_eq_single P, Finset.sum_eq_single Q]
    · simp
    · intro q _ hq
      simp [hq]
    · simp
    · intro p _ hp
      exact Finset.sum_eq_zero fun q _ => by simp [hp]
    · simp
  rw [this, div_self h]

/-- **C47** (linearity, one site). -/
theorem C47_site_linear (net : NetT B P X 𝕜) (s : Site) (a b : ℝ) (O O' : P → P → 𝕜) :
    siteValue net s (fun p q => a * O p q + b * O' p q) = a * siteValue net s O + b * siteValue net s O' := by
  unfold siteValue
  have : measureOneSite (buildSiteRdm net s) (fun p q => a * O p q + b * O' p q) =
      a * measureOneSite (buildSiteRdm net s) O + b * measureOneSite (buildSiteRdm net s) O' := by
    unfold measureOneSite
    rw [← RCLike.re_ofReal_mul, ← RCLike.re_ofReal_mul, ← map_add, Finset.mul_sum, Finset.mul_sum, ← Finset.sum_add_distrib]
    congr 1
    refine Finset.sum_congr rfl fun P _ => ?_
    rw [Finset.mul_sum, Finset.mul_sum, ← Finset.sum_add_distrib]
    exact Finset.sum_congr rfl fun p _ => by ring
  rw [this]
  ring

/-- **C47** (linearity, two sites). -/
theorem C47_bond_linear {pD : ℕ} (init : Fin pD → Fin pD → Fin pD → Fin pD → 𝕜) (net : NetT B (Fin pD) X 𝕜) (bd : Bond)
    (a b : ℝ) (O O' : Fin pD → Fin pD → Fin pD → Fin pD → 𝕜) :
    bondValue init net bd (fun p q p' q' => a * O p q p' q' + b * O' p q p' q') =
      a * bondValue init net bd O + b * bondValue init net bd O' := by
  unfold bondValue
  generalize buildBondRdm init net bd.s1 bd.s2 bd.k = ρ
  have : measureTwoSite ρ (fun p q p' q' => a * O p q p' q' + b * O' p q p' q') =
      a * measureTwoSite ρ O + b * measureTwoSite ρ O' := by
    unfold measureTwoSite
    rw [← RCLike.re_ofReal_mul, ← RCLike.re_ofReal_mul, ← map_add, Finset.mul_sum, Finset.mul_sum, ← Finset.sum_add_distrib]
    congr 1
    refine Finset.sum_congr rfl fun P _ => ?_
    rw [Finset.mul_sum, Finset.mul_sum, ← Finset.sum_add_distrib]
    refine Finset.sum_congr rfl fun Q _ => ?_
    rw [Finset.mul_sum, Finset.mul_sum, ← Finset.sum_add_distrib]
    refine Finset.sum_congr rfl fun p _ => ?_
    rw [Finset.mul_sum, Finset.mul_sum, ← Finset.sum_add_distrib]
    exact Finset.sum_congr rfl fun q _ => by ring
  rw [this]
  ring

/-- **C47** (shift, one site).  Adding a constant to an operator shifts its value by the constant. -/
theorem C47_site_shift [DecidableEq P] (net : NetT B P X 𝕜) (s : Site) (h : siteNorm (buildSiteRdm net s) ≠ 0) (c : ℝ)
    (O : P → P → 𝕜) : siteValue net s (fun p q => O p q + c * idOp p q) = siteValue net s O + c := by
  have := C47_site_linear net s 1 c O idOp
  rw [C47_site_identity net s h] at this
  simpa using this

/-- **C47** (shift, two sites). -/
theorem C47_bond_shift {pD : ℕ} (init : Fin pD → Fin pD → Fin pD → Fin pD → 𝕜) (net : NetT B (Fin pD) X 𝕜) (b : Bond)
    (h : bondNorm (buildBondRdm init net b.s1 b.s2 b.k) ≠ 0) (c : ℝ) (O : Fin pD → Fin pD → Fin pD → Fin pD → 𝕜) :
    bondValue init net b (fun p q p' q' => O p q p' q' + c * idOp2 p q p' q') = bondValue init net b O + c := by
  have := C47_bond_linear init net b 1 c O idOp2
  rw [C47_bond_identity init net b h] at this
  simpa using this

theorem star_mul_self_pos (f : 𝕜) (hf : f ≠ 0) : ∃ c : ℝ, 0 < c ∧ f * star f = (c : 𝕜) := by
  refine ⟨‖f‖ ^ 2, pow_pos (norm_pos_iff.2 hf) 2, ?_⟩
  rw [show star f = (starRingEnd 𝕜) f from rfl, RCLike.mul_conj, RCLike.ofReal_pow]

/-- **C47** (scale, one site).  Rescaling the tensors of the site changes no value. -/
theorem C47_site_scale (net net' : NetT B P X 𝕜) (s : Site) (h : Rescaled (net s) (net' s)) (O : P → P → 𝕜) :
    siteValue net' s O = siteValue net s O := by
  obtain ⟨⟨fA, hfA, hA⟩, hC, hE⟩ := h
  choose c hc0 hc using hC
  choose e he0 he using hE
  obtain ⟨g, hg, hgA⟩ := star_mul_self_pos fA hfA
  have key : ∃ F : ℝ, 0 < F ∧ ∀ bra ket, buildSiteRdm net' s bra ket = F * buildSiteRdm net s bra ket := by
    refine ⟨c 0 * e 0 * c 1 * e 1 * c 2 * e 2 * c 3 * e 3 * g, ?_, fun bra ket => ?_⟩
    · have := hc0 0; have := hc0 1; have := hc0 2; have := hc0 3
      have := he0 0; have := he0 1; have := he0 2; have := he0 3
      positivity
    · rw [C46_site, C46_site, hA, hc 0, hc 1, hc 2, hc 3, he 0, he 1, he 2, he 3, siteRdm_scale, hgA]
      push_cast
      rfl
  obtain ⟨F, hF, h1⟩ := key
  have e1 : measureOneSite (buildSiteRdm net' s) O = F * measureOneSite (buildSiteRdm net s) O := by
    unfold measureOneSite
    rw [← RCLike.re_ofReal_mul, Finset.mul_sum]
    congr 1
    refine Finset.sum_congr rfl fun P _ => ?_
    rw [Finset.mul_sum]
    exact Finset.sum_congr rfl fun p _ => by rw [h1]; ring
  have e2 : siteNorm (buildSiteRdm net' s) = F * siteNorm (buildSiteRdm net s) := by
    unfold siteNorm
    rw [← RCLike.re_ofReal_mul, Finset.mul_sum]
    congr 1
    exact Finset.sum_congr rfl fun p _ => by rw [h1]
  unfold siteValue
  rw [e1, e2, mul_div_mul_left _ _ hF.ne']

/-- **C47** (scale, two sites).  Rescaling the tensors of both sites, with different factors, changes no value. -/
theorem C47_bond_scale {pD : ℕ} (init : Fin pD → Fin pD → Fin pD → Fin pD → 𝕜) (net net' : NetT B (Fin pD) X 𝕜) (b : Bond)
    (h1 : Rescaled (net b.s1) (net' b.s1)) (h2 : Rescaled (net b.s2) (net' b.s2))
    (O : Fin pD → Fin pD → Fin pD → Fin pD → 𝕜) : bondValue init net' b O = bondValue init net b O := by
  obtain ⟨⟨fA, hfA, hA⟩, hC, hE⟩ := h1
  choose c hc0 hc using hC
  choose e he0 he using hE
  obtain ⟨g, hg, hgA⟩ := star_mul_self_pos fA hfA
  obtain ⟨⟨fA', hfA', hA'⟩, hC', hE'⟩ := h2
  choose c' hc0' hc' using hC'
  choose e' he0' he' using hE'
  obtain ⟨g', hg', hgA'⟩ := star_mul_self_pos fA' hfA'
  have hperm : ∀ (k : ℤ) (f : 𝕜) (A : ATensor B (Fin pD) 𝕜), bondPermute k (fun l u r d p => f * A l u r d p) =
      fun l u r d p => f * bondPermute k A l u r d p := fun _ _ _ => rfl
  have key : ∃ F : ℝ, 0 < F ∧ ∀ P Q p q, buildBondRdm init net' b.s1 b.s2 b.k P Q p q =
      F * buildBondRdm init net b.s1 b.s2 b.k P Q p q := by
    generalize hk : (b.k : ℤ) = k
    refine ⟨c (rotIdx k 1) * e (rotIdx k 1) * e (rotIdx k 0) * c (rotIdx k 2) * e (rotIdx k 2) * c' (rotIdx k 0) *
      e' (rotIdx k 0) * e' (rotIdx k 3) * c' (rotIdx k 3) * e' (rotIdx k 2) * g * g', ?_, fun P Q p q => ?_⟩
    · have := hc0 (rotIdx k 1); have := he0 (rotIdx k 1); have := he0 (rotIdx k 0); have := hc0 (rotIdx k 2)
      have := he0 (rotIdx k 2); have := hc0' (rotIdx k 0); have := he0' (rotIdx k 0); have := he0' (rotIdx k 3)
      have := hc0' (rotIdx k 3); have := he0' (rotIdx k 2)
      positivity
    · rw [C46_bond, C46_bond, hA, hA', hperm, hperm, hc (rotIdx k 1), he (rotIdx k 1), he (rotIdx k 0), hc (rotIdx k 2),
        he (rotIdx k 2), hc' (rotIdx k 0), he' (rotIdx k 0), he' (rotIdx k 3), hc' (rotIdx k 3), he' (rotIdx k 2),
        bondRdm_scale, hgA, hgA']
      push_cast
      rfl
  obtain ⟨F, hF, hr⟩ := key
  revert hr
  unfold bondValue
  generalize buildBondRdm init net' b.s1 b.s2 b.k = ρ'
  generalize buildBondRdm init net b.s1 b.s2 b.k = ρ
  intro hr
  have e1 : measureTwoSite ρ' O = F * measureTwoSite ρ O := by
    unfold measureTwoSite
    rw [← RCLike.re_ofReal_mul, Finset.mul_sum]
    congr 1
    refine Finset.sum_congr rfl fun P _ => ?_
    rw [Finset.mul_sum]
    refine Finset.sum_congr rfl fun Q _ => ?_
    rw [Finset.mul_sum]
    refine Finset.sum_congr rfl fun p _ => ?_
    rw [Finset.mul_sum]
    exact Finset.sum_congr rfl fun q _ => by rw [hr]; ring
  have e2 : bondNorm ρ' = F * bondNorm ρ := by
    unfold bondNorm
    rw [← RCLike.re_ofReal_mul, Finset.mul_sum]
    congr 1
    refine Finset.sum_congr rfl fun p _ => ?_
    rw [Finset.mul_sum]
    exact Finset.sum_congr rfl fun q _ => by rw [hr]
  rw [e1, e2, mul_div_mul_left _ _ hF.ne']

/-! ### C49 -/

namespace Spec

/-- The tensor of the site is a product of a bond part and the site state `st`. -/
def IsProduct (A : ATensor B P 𝕜) (st : P → 𝕜) : Prop := ∃ v : B → B → B → B → 𝕜, ∀ l u r d p, A l u r d p = v l u r d * st p

/-- The intended statement: on a product site the value of a Hermitian operator is its expectation value in the site
state. -/
def ProductExpectation (𝕜 : Type) [RCLike 𝕜] : Prop :=
  ∀ (B P X : Type) [Fintype B] [Fintype P] [Fintype X] (net : NetT B P X 𝕜) (s : Site) (st : P → 𝕜) (O : Matrix P P 𝕜),
    IsProduct (net s).A st → O.IsHermitian → siteNorm (buildSiteRdm net s) ≠ 0 →
    siteValue net s O = RCLike.re (qform O st) / normSq st

end Spec

omit [Fintype P] in
/-- On a product site the density matrix is a multiple of the projector on the state. -/
theorem product_rdm (net : NetT B P X 𝕜) (s : Site) (st : P → 𝕜) (h : IsProduct (net s).A st) :
    ∃ K : 𝕜, ∀ bra ket, buildSiteRdm net s bra ket = K * (st ket * star (st bra)) := by
  obtain ⟨v, hv⟩ := h
  refine ⟨Spec.siteRdm ((net s).C 0) ((net s).E 0) ((net s).C 1) ((net s).E 1) ((net s).C 2) ((net s).E 2) ((net s).C 3)
    ((net s).E 3) (fun l u r d (_ : Unit) => v l u r d) () (), fun bra ket => ?_⟩
  have hA : (net s).A = fun l u r d p => v l u r d * st p := by
    funext l u r d p
    exact hv l u r d p
  rw [C46_site, hA]
  unfold Spec.siteRdm
  einsum_ring

theorem qform_real {n : Type} [Fintype n] (O : Matrix n n 𝕜) (hO : O.IsHermitian) (v : n → 𝕜) :
    ((RCLike.re (qform O v) : ℝ) : 𝕜) = qform O v := by
  have h1 : star (qform O v) = qform O v := by
    have hij : ∀ i j, star (O i j) = O j i := fun i j => by
      rw [← hO.apply j i]
    unfold qform
    rw [star_sum]
    conv_rhs => rw [Finset.sum_comm]
    refine Finset.sum_congr rfl fun i _ => ?_
    rw [star_sum]
    refine Finset.sum_congr rfl fun j _ => ?_
    rw [SumTac.mul_star, SumTac.mul_star, star_star, hij]
    ring
  exact RCLike.conj_eq_iff_re.1 h1

/-- **C49, partial.**  On a product site the value of a Hermitian operator is the expectation value of the *transposed*
operator in the site state, whatever the boundary tensors are.  Missing: for complex states the operator itself,
`C49_violated_complex`. -/
theorem C49_partial (net : NetT B P X 𝕜) (s : Site) (st : P → 𝕜) (O : Matrix P P 𝕜) (h : IsProduct (net s).A st)
    (hO : O.IsHermitian) (hn : siteNorm (buildSiteRdm net s) ≠ 0) :
    siteValue net s O = RCLike.re (qform Oᵀ st) / normSq st := by
  obtain ⟨K, hK⟩ := product_rdm net s st h
  have hnorm : siteNorm (buildSiteRdm net s) = RCLike.re K * normSq st := by
    have : (∑ p, buildSiteRdm net s p p) = K * ((normSq st : ℝ) : 𝕜) := by
      unfold normSq
      push_cast
      rw [Finset.mul_sum]
      refine Finset.sum_congr rfl fun p _ => ?_
      rw [hK, ← RCLike.mul_conj]
      rfl
    unfold siteNorm
    rw [this, mul_comm, RCLike.re_ofReal_mul, mul_comm]
  have hval : measureOneSite (buildSiteRdm net s) O = RCLike.re K * RCLike.re (qform Oᵀ st) := by
    have hOt : Oᵀ.IsHermitian := by
      have := hO.transpose
      exact this
    have : (∑ bra, ∑ ket, buildSiteRdm net s bra ket * O ket bra) = K * qform Oᵀ st := by
      simp only [hK]
      unfold qform
      simp only [transpose_apply]
      einsum_ring
    unfold measureOneSite
    rw [this, ← qform_real Oᵀ hOt, mul_comm, RCLike.re_ofReal_mul, mul_comm, RCLike.ofReal_re]
  have hK0 : RCLike.re K ≠ 0 := fun h0 => hn (by rw [hnorm, h0, zero_mul])
  unfold siteValue
  rw [hnorm, hval, mul_div_mul_left _ _ hK0]

/-- **C49** (symmetric operators).  For operators with `Oᵀ = O`, such as real ones, the value is the expectation value. -/
theorem C49_symmetric (net : NetT B P X 𝕜) (s : Site) (st : P → 𝕜) (O : Matrix P P 𝕜) (h : IsProduct (net s).A st)
    (hO : O.IsHermitian) (hs : Oᵀ = O) (hn : siteNorm (buildSiteRdm net s) ≠ 0) :
    siteValue net s O = RCLike.re (qform O st) / normSq st := by
  rw [C49_partial net s st O h hO hn, hs]

/-- **C49** (real dtype). -/
theorem C49_real : ProductExpectation ℝ := by
  intro B P X _ _ _ net s st O h hO hn
  refine C49_symmetric net s st O h hO ?_ hn
  have : Oᴴ = Oᵀ := by ext i j; simp
  rw [← this]
  exact hO

/-- **C49** (real states).  The statement holds for states with real amplitudes and any Hermitian operator. -/
theorem C49_real_state (net : NetT B P X 𝕜) (s : Site) (st : P → 𝕜) (O : Matrix P P 𝕜) (h : IsProduct (net s).A st)
    (hO : O.IsHermitian) (hst : ∀ p, star (st p) = st p) (hn : siteNorm (buildSiteRdm net s) ≠ 0) :
    siteValue net s O = RCLike.re (qform O st) / normSq st := by
  rw [C49_partial net s st O h hO hn]
  congr 2
  unfold qform
  rw [Finset.sum_comm]
  refine Finset.sum_congr rfl fun i _ => Finset.sum_congr rfl fun j _ => ?_
  rw [transpose_apply, hst, hst]
  ring

/-- A one-dimensional network whose site state is `st`. -/
def productSite (st : P → 𝕜) : NumSite Unit P Unit 𝕜 :=
  { A := fun _ _ _ _ p => st p, C := fun _ _ _ => 1, E := fun _ _ _ _ _ => 1 }

theorem productSite_norm (st : P → 𝕜) (net : NetT Unit P Unit 𝕜) (s : Site) (h : net s = productSite st) :
    siteNorm (buildSiteRdm net s) = normSq st := by
  unfold siteNorm
  rw [C46_site, h]
  have : (∑ p, Spec.siteRdm (𝕜 := 𝕜) ((productSite st).C 0) ((productSite st).E 0) ((productSite st).C 1)
      ((productSite st).E 1) ((productSite st).C 2) ((productSite st).E 2) ((productSite st).C 3) ((productSite st).E 3)
      (productSite st).A p p) = ((normSq st : ℝ) : 𝕜) := by
    unfold Spec.siteRdm productSite normSq
    push_cast
    refine Finset.sum_congr rfl fun p _ => ?_
    rw [← RCLike.mul_conj]
    simp
  rw [this, RCLike.ofReal_re]

/-- **C49 is violated (complex states).**  A site in the `+1` eigenstate of the Pauli matrix `Y` is measured to have
`⟨Y⟩ = -1`. -/
theorem C49_violated_complex : ¬ ProductExpectation ℂ := by
  intro h
  let st : Fin 2 → ℂ := ![1, Complex.I]
  let Y : Matrix (Fin 2) (Fin 2) ℂ := !![0, -Complex.I; Complex.I, 0]
  have hY : Y.IsHermitian := by
    ext i j
    fin_cases i <;> fin_cases j <;> simp [Y]
  have hp : IsProduct (productSite st).A st := ⟨fun _ _ _ _ => 1, fun _ _ _ _ _ => by simp [productSite]⟩
  have hns : normSq st = 2 := by
    simp [normSq, st, Fin.sum_univ_two]
    norm_num
  have hn : siteNorm (buildSiteRdm (fun _ => productSite st) (0, 0)) ≠ 0 := by
    rw [productSite_norm st _ _ rfl, hns]
    norm_num
  have h1 := h Unit (Fin 2) Unit (fun _ => productSite st) (0, 0) st Y hp hY hn
  have h2 := C49_partial (fun _ => productSite st) (0, 0) st Y hp hY hn
  rw [h1, hns] at h2
  simp [qform, st, Y, Fin.sum_univ_two] at h2
  norm_num at h2

/-- The hypotheses of C47 and C49 are met by a product state with both amplitudes nonzero. -/
example : siteNorm (buildSiteRdm (fun _ => productSite (![1, 2] : Fin 2 → ℝ)) (0, 0)) ≠ 0 := by
  rw [productSite_norm _ _ _ rfl]
  simp [normSq, Fin.sum_univ_two]
  norm_num

end AceTN
