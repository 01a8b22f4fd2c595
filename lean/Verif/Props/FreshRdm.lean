import Verif.Props.Boundary
import Verif.Lemmas.Double
import Verif.Model.Measure
import Verif.Spec.QForm
import Mathlib.LinearAlgebra.Matrix.PosDef
import Mathlib.Data.List.GetD

/-!
Property C50: the density matrices of freshly initialised sites.
-/

set_option autoImplicit false

namespace AceTN

open Matrix ComplexOrder SumTac

variable {𝕜 : Type} [RCLike 𝕜] {B P : Type} [Fintype B] [Fintype P]

namespace Spec

/-- The outward legs of a three by three patch with the site in the middle left out: for every corner two bonds and the
physical leg, for every edge one bond and the physical leg. -/
abbrev Outer (B P : Type) := (B × B × P) × (B × P) × (B × B × P) × (B × P) × (B × B × P) × (B × P) × (B × B × P) × (B × P)

/-- The state of a three by three patch of copies of the site tensor (legs left, up, right, down, physical).

```
   NW -n1- N -n2- NE
   |       |      |
   w1      u      e1
   |       |      |
   W  -l-  *  -r- E
   |       |      |
   w2      d      e2
   |       |      |
   SW -s2- S -s1- SE
```
-/
def patchState (A : ATensor B P 𝕜) (o : Outer B P) (p : P) : 𝕜 :=
  let (nw, n, ne, e, se, s, sw, w) := o
  ∑ w1, ∑ n1, ∑ n2, ∑ e1, ∑ e2, ∑ s1, ∑ s2, ∑ w2, ∑ l, ∑ u, ∑ r, ∑ d,
    A nw.1 nw.2.1 n1 w1 nw.2.2 * A n1 n.1 n2 u n.2 * A n2 ne.1 ne.2.1 e1 ne.2.2 * A r e1 e.1 e2 e.2 *
    A s1 e2 se.1 se.2.1 se.2.2 * A s2 d s1 s.1 s.2 * A sw.2.1 w2 s2 sw.1 sw.2.2 * A w.1 w1 l w2 w.2 * A l u r d p

/-- The Gram matrix of the patch states, with the physical leg of the middle site left open. -/
def patchGram (A : ATensor B P 𝕜) (bra ket : P) : 𝕜 := ∑ o : Outer B P, patchState A o ket * star (patchState A o bra)

end Spec

open Spec

theorem sum_outer (f : Outer B P → 𝕜) : ∑ o, f o = ∑ a, ∑ b, ∑ c, ∑ d, ∑ e, ∑ g, ∑ h, ∑ i, f (a, b, c, d, e, g, h, i) := by
  rw [Fintype.sum_prod_type]
  refine Finset.sum_congr rfl fun a _ => ?_
  rw [Fintype.sum_prod_type]
  refine Finset.sum_congr rfl fun b _ => ?_
  rw [Fintype.sum_prod_type]
  refine Finset.sum_congr rfl fun c _ => ?_
  rw [Fintype.sum_prod_type]
  refine Finset.sum_congr rfl fun d _ => ?_
  rw [Fintype.sum_prod_type]
  refine Finset.sum_congr rfl fun e _ => ?_
  rw [Fintype.sum_prod_type]
  refine Finset.sum_congr rfl fun g _ => ?_
  rw [Fintype.sum_prod_type]

/-- The density matrix of a fresh site is a positive multiple of the reduced density matrix of the patch state. -/
theorem C50_patch (net : NetT B P (B × B) 𝕜) (s : Site) (A : ATensor B P 𝕜) (hA : A ≠ 0) (hs : net s = freshSite A) :
    ∃ c : ℝ, 0 < c ∧ ∀ bra ket, buildSiteRdm net s bra ket = c * patchGram A bra ket := by
  have hC := fun k : ℤ => (C53_corner A hA k).2
  have hE := fun k : ℤ => (C53_edge A hA k).2
  choose c hc0 hc using hC
  choose e he0 he using hE
  have hC' : ∀ k : ℤ, initialCorner A k = fun x y => ((c k)⁻¹ : 𝕜) *
      double2 (fun (h : B × B × P) x y => bondPermute k A h.1 h.2.1 y x h.2.2) x y := by
    intro k
    funext x y
    have hne : (c k : 𝕜) ≠ 0 := RCLike.ofReal_ne_zero.2 (hc0 k).ne'
    rw [eq_inv_mul_iff_mul_eq₀ hne, ← hc k x y]
    unfold double2
    simp only [Fintype.sum_prod_type]
  have hE' : ∀ k : ℤ, initialEdge A k = fun x y z z' => ((e k)⁻¹ : 𝕜) *
      double3 (fun (h : B × P) x y d => bondPermute k A x h.1 y d h.2) x y z z' := by
    intro k
    funext x y z z'
    have hne : (e k : 𝕜) ≠ 0 := RCLike.ofReal_ne_zero.2 (he0 k).ne'
    rw [eq_inv_mul_iff_mul_eq₀ hne, ← he k x y z z']
    unfold double3
    simp only [Fintype.sum_prod_type]
  refine ⟨(c 0)⁻¹ * (e 0)⁻¹ * (c 1)⁻¹ * (e 1)⁻¹ * (c 2)⁻¹ * (e 2)⁻¹ * (c 3)⁻¹ * (e 3)⁻¹, ?_, fun bra ket => ?_⟩
  · have := hc0 0; have := hc0 1; have := hc0 2; have := hc0 3
    have := he0 0; have := he0 1; have := he0 2; have := he0 3
    positivity
  rw [C46_site, hs]
  have h0 : (freshSite A).C 0 = initialCorner A 0 := rfl
  have h1 : (freshSite A).C 1 = initialCorner A 1 := rfl
  have h2 : (freshSite A).C 2 = initialCorner A 2 := rfl
  have h3 : (freshSite A).C 3 = initialCorner A 3 := rfl
  have g0 : (freshSite A).E 0 = initialEdge A 0 := rfl
  have g1 : (freshSite A).E 1 = initialEdge A 1 := rfl
  have g2 : (freshSite A).E 2 = initialEdge A 2 := rfl
  have g3 : (freshSite A).E 3 = initialEdge A 3 := rfl
  have gA : (freshSite A).A = fun l u r d p => 1 * A l u r d p := by funext l u r d p; rw [one_mul]; rfl
  rw [h0, h1, h2, h3, g0, g1, g2, g3, gA, hC' 0, hC' 1, hC' 2, hC' 3, hE' 0, hE' 1, hE' 2, hE' 3, siteRdm_scale,
    siteRdm_double]
  unfold patchGram
  rw [sum_outer]
  congr 1
  simp

omit [Fintype B] in
theorem gram_posSemidef {ι : Type} [Fintype ι] (c : ℝ) (hc : 0 ≤ c) (f : ι → P → 𝕜) :
    (of fun bra ket => (c : 𝕜) * ∑ o, f o ket * star (f o bra)).PosSemidef := by
  have h := (posSemidef_conjTranspose_mul_self (of f)).smul (RCLike.ofReal_nonneg.2 hc : (0 : 𝕜) ≤ (c : 𝕜))
  convert h using 1
  ext i j
  simp [mul_apply, mul_comm]

/-- **C50** (positivity).  The density matrix of a freshly initialised site is Hermitian and positive semidefinite, for
every nonzero site tensor. -/
theorem C50_posSemidef (net : NetT B P (B × B) 𝕜) (s : Site) (A : ATensor B P 𝕜) (hA : A ≠ 0) (hs : net s = freshSite A) :
    (of (buildSiteRdm net s)).PosSemidef := by
  obtain ⟨c, hc, h⟩ := C50_patch net s A hA hs
  rw [show of (buildSiteRdm net s) = of fun bra ket => (c : 𝕜) * ∑ o, patchState A o ket * star (patchState A o bra) from by
    ext bra ket; exact h bra ket]
  exact gram_posSemidef c hc.le _

theorem gram_trace {ι : Type} [Fintype ι] (f : ι → P → 𝕜) :
    (∑ p, ∑ o, f o p * star (f o p)) = ((∑ p, ∑ o, ‖f o p‖ ^ 2 : ℝ) : 𝕜) := by
  push_cast
  exact Finset.sum_congr rfl fun p _ => Finset.sum_congr rfl fun o _ => RCLike.mul_conj _

/-- **C50** (norm).  The norm a measurement divides by is never negative, and it is positive exactly if the patch state
does not vanish. -/
theorem C50_norm (net : NetT B P (B × B) 𝕜) (s : Site) (A : ATensor B P 𝕜) (hA : A ≠ 0) (hs : net s = freshSite A) :
    0 ≤ siteNorm (buildSiteRdm net s) ∧ (0 < siteNorm (buildSiteRdm net s) ↔ patchState A ≠ 0) := by
  obtain ⟨c, hc, h⟩ := C50_patch net s A hA hs
  have e : siteNorm (buildSiteRdm net s) = c * ∑ p, ∑ o, ‖patchState A o p‖ ^ 2 := by
    unfold siteNorm
    simp only [h]
    rw [← Finset.mul_sum]
    unfold patchGram
    rw [gram_trace, ← RCLike.ofReal_mul, RCLike.ofReal_re]
  have hn : 0 ≤ ∑ p, ∑ o, ‖patchState A o p‖ ^ 2 :=
    Finset.sum_nonneg fun _ _ => Finset.sum_nonneg fun _ _ => sq_nonneg _
  rw [e]
  refine ⟨mul_nonneg hc.le hn, ?_⟩
  rw [mul_pos_iff_of_pos_left hc]
  constructor
  · rintro h0 h1
    simp [h1] at h0
  · intro h0
    refine lt_of_le_of_ne hn fun h1 => h0 ?_
    rw [eq_comm, Finset.sum_eq_zero_iff_of_nonneg fun _ _ => Finset.sum_nonneg fun _ _ => sq_nonneg _] at h1
    funext o p
    have h2 := h1 p (Finset.mem_univ _)
    rw [Finset.sum_eq_zero_iff_of_nonneg fun _ _ => sq_nonneg _] at h2
    exact norm_eq_zero.1 (pow_eq_zero_iff two_ne_zero |>.1 (h2 o (Finset.mem_univ _)))

/-- **C50** (bounds).  On a fresh site with nonzero patch state the expectation value of a Hermitian operator is real and
lies between any lower and upper bound of the operator. -/
theorem C50_bounds (net : NetT B P (B × B) 𝕜) (s : Site) (A : ATensor B P 𝕜) (hA : A ≠ 0) (hs : net s = freshSite A)
    (hp : patchState A ≠ 0) (O : Matrix P P 𝕜) (hO : O.IsHermitian) (lo hi : ℝ)
    (hlo : AtLeast O lo) (hhi : AtLeast (-O) (-hi)) :
    RCLike.im (∑ bra, ∑ ket, buildSiteRdm net s bra ket * O ket bra) = 0 ∧
    lo ≤ siteValue net s O ∧ siteValue net s O ≤ hi := by
  have hpos := (C50_norm net s A hA hs).2.2 hp
  obtain ⟨c, hc, h⟩ := C50_patch net s A hA hs
  have e : siteNorm (buildSiteRdm net s) = c * ∑ o, normSq (star (patchState A o)) := by
    unfold siteNorm
    simp only [h]
    rw [← Finset.mul_sum]
    unfold patchGram
    rw [gram_trace, ← RCLike.ofReal_mul, RCLike.ofReal_re, Finset.sum_comm]
    simp [normSq]
  have e2 : ∑ bra, ∑ ket, buildSiteRdm net s bra ket * O ket bra = c * ∑ o, qform O (star (patchState A o)) := by
    simp only [h]
    unfold patchGram qform
    simp only [Pi.star_apply]
    generalize patchState A = f
    generalize (c : 𝕜) = c'
    einsum_ring
  have hreal : ∀ v, RCLike.im (qform O v) = 0 := by
    intro v
    have h1 : star (qform O v) = qform O v := by
      have hij : ∀ i j, star (O i j) = O j i := fun i j => by
        rw [← hO.apply j i]
      unfold qform
      rw [star_sum]
      conv_rhs => rw [Finset.sum_comm]
      refine Finset.sum_congr rfl fun i _ => ?_
      rw [star_sum]
      refine Finset.sum_congr rfl fun j _ => ?_
      rw [SumTac.mul_star, SumTac.mul_star, star_star, hij]
      ring
    have h2 := congrArg RCLike.im h1
    rw [show star (qform O v) = (starRingEnd 𝕜) (qform O v) from rfl, RCLike.conj_im] at h2
    linarith
  have e3 : measureOneSite (buildSiteRdm net s) O = c * ∑ o, RCLike.re (qform O (star (patchState A o))) := by
    have : measureOneSite (buildSiteRdm net s) O = RCLike.re (∑ bra, ∑ ket, buildSiteRdm net s bra ket * O ket bra) := rfl
    rw [this, e2, RCLike.re_ofReal_mul, map_sum]
  refine ⟨?_, ?_, ?_⟩
  · rw [e2, RCLike.im_ofReal_mul, map_sum, Finset.sum_eq_zero fun o _ => hreal _, mul_zero]
  · unfold siteValue
    rw [le_div_iff₀ hpos, e3, e, mul_left_comm, Finset.mul_sum _ _ lo]
    exact mul_le_mul_of_nonneg_left (Finset.sum_le_sum fun o _ => hlo _) hc.le
  · unfold siteValue
    rw [div_le_iff₀ hpos, e3, e, mul_left_comm, Finset.mul_sum _ _ hi]
    refine mul_le_mul_of_nonneg_left (Finset.sum_le_sum fun o _ => ?_) hc.le
    have h1 := hhi (star (patchState A o))
    have h2 : qform (-O) (star (patchState A o)) = -qform O (star (patchState A o)) := by
      unfold qform
      rw [← Finset.sum_neg_distrib]
      refine Finset.sum_congr rfl fun i _ => ?_
      rw [← Finset.sum_neg_distrib]
      refine Finset.sum_congr rfl fun j _ => ?_
      rw [neg_apply]
      ring
    rw [h2, map_neg] at h1
    linarith

/-! ### When the norm vanishes -/

omit [Fintype P] in
/-- **C50** (initial tensors).  The patch state of a tensor with non-negative entries, at least one of them positive with
all four bond indices equal, does not vanish; this covers initialisation from non-negative site states. -/
theorem C50_nonneg (a : ATensor B P ℝ) (h0 : ∀ l u r d p, 0 ≤ a l u r d p) (b : B) (p : P) (hb : 0 < a b b b b p) :
    patchState (fun l u r d p => ((a l u r d p : ℝ) : 𝕜)) ≠ 0 := by
  intro h
  have h1 := congrFun (congrFun h ((b, b, p), (b, p), (b, b, p), (b, p), (b, b, p), (b, p), (b, b, p), (b, p))) p
  have hcast : ∀ o p, patchState (fun l u r d p => ((a l u r d p : ℝ) : 𝕜)) o p = ((patchState a o p : ℝ) : 𝕜) := by
    intro o p
    unfold patchState
    dsimp only
    iterate 12
      rw [RCLike.ofReal_sum]
      refine Finset.sum_congr rfl fun _ _ => ?_
    simp only [RCLike.ofReal_mul]
  rw [hcast, Pi.zero_apply, Pi.zero_apply, RCLike.ofReal_eq_zero] at h1
  have step : ∀ (f : B → ℝ), (∀ x, 0 ≤ f x) → 0 < f b → 0 < ∑ x, f x := fun f h1 h2 =>
    Finset.sum_pos' (fun x _ => h1 x) ⟨b, Finset.mem_univ _, h2⟩
  refine absurd h1 (ne_of_gt ?_)
  unfold patchState
  dsimp only
  iterate 12
    refine step _ (fun _ => ?_) ?_
    · repeat refine Finset.sum_nonneg fun _ _ => ?_
      repeat' first | exact h0 _ _ _ _ _ | refine mul_nonneg ?_ ?_
  repeat' first | exact hb | refine mul_pos ?_ ?_

/-- **C50** (initialisation).  With a non-negative site state, not all zero, non-negative draws and noise, the norm of every
freshly initialised site is positive. -/
theorem C50_initial {bD pD : ℕ} (hb : 0 < bD) (noise : ℝ) (hn : 0 ≤ noise)
    (draw : Fin bD → Fin bD → Fin bD → Fin bD → Fin pD → ℝ) (hd : ∀ l u r d p, 0 ≤ draw l u r d p) (s : List ℝ)
    (hs : s.length ≤ pD) (h0 : ∀ v ∈ s, 0 ≤ v) (h1 : ∃ v ∈ s, v ≠ 0) (net : NetT (Fin bD) (Fin pD) (Fin bD × Fin bD) 𝕜)
    (site : Site) : ∃ A, initializeSiteTensor noise draw (s.map ((↑) : ℝ → 𝕜)) = .ok A ∧
      (net site = freshSite A → 0 < siteNorm (buildSiteRdm net site)) := by
  obtain ⟨v, hv, hv0⟩ := h1
  obtain ⟨n, hlen, rfl⟩ := List.getElem_of_mem hv
  have hget : ∀ i, (s.map ((↑) : ℝ → 𝕜)).getD i 0 = ((s.getD i 0 : ℝ) : 𝕜) := by
    intro i
    by_cases hi : i < s.length
    · rw [List.getD_eq_getElem _ _ (by simpa using hi), List.getD_eq_getElem _ _ hi, List.getElem_map]
    · rw [List.getD_eq_default _ _ (by simpa using hi), List.getD_eq_default _ _ (by simpa using hi), RCLike.ofReal_zero]
  have hgetn : ∀ i, 0 ≤ s.getD i 0 := by
    intro i
    by_cases hi : i < s.length
    · rw [List.getD_eq_getElem _ _ hi]
      exact h0 _ (List.getElem_mem hi)
    · rw [List.getD_eq_default _ _ (by simpa using hi)]
  have hst : stateWithNoise noise draw (s.map ((↑) : ℝ → 𝕜)) =
      fun l u r d p => ((stateWithNoise noise draw s l u r d p : ℝ) : 𝕜) := by
    funext l u r d p
    unfold stateWithNoise
    rw [RCLike.ofReal_add, hget]
    split <;> simp
  have hnn : ∀ l u r d p, 0 ≤ stateWithNoise noise draw s l u r d p := by
    intro l u r d p
    unfold stateWithNoise
    refine add_nonneg (mul_nonneg hn (hd _ _ _ _ _)) ?_
    split
    · exact hgetn _
    · exact le_rfl
  set z : Fin bD := ⟨0, hb⟩
  set pn : Fin pD := ⟨n, by omega⟩
  have hpos : 0 < stateWithNoise noise draw s z z z z pn := by
    unfold stateWithNoise
    rw [if_pos ⟨rfl, rfl, rfl, rfl⟩, List.getD_eq_getElem _ _ hlen]
    exact add_pos_of_nonneg_of_pos (mul_nonneg hn (hd _ _ _ _ _)) (lt_of_le_of_ne (h0 _ hv) (Ne.symm hv0))
  have hne : stateWithNoise noise draw (s.map ((↑) : ℝ → 𝕜)) ≠ 0 := by
    rw [hst]
    intro h
    have := congrFun (congrFun (congrFun (congrFun (congrFun h z) z) z) z) pn
    exact hpos.ne' (RCLike.ofReal_eq_zero.1 this)
  obtain ⟨A, hA, hU, c, hc, hm⟩ := C53_site hb noise draw (s.map ((↑) : ℝ → 𝕜)) (by simpa using hs) hne
  refine ⟨A, hA, fun hf => ?_⟩
  have hc' : (c : 𝕜) ≠ 0 := RCLike.ofReal_ne_zero.2 hc.ne'
  have hA' : A = fun l u r d p => ((c⁻¹ * stateWithNoise noise draw s l u r d p : ℝ) : 𝕜) := by
    funext l u r d p
    have h2 := hm l u r d p
    rw [hst] at h2
    dsimp only at h2
    rw [RCLike.ofReal_mul, h2, RCLike.ofReal_inv, inv_mul_cancel_left₀ hc']
  have hA0 : A ≠ 0 := by
    intro h
    rw [h] at hU
    simp at hU
  refine (C50_norm net site A hA0 hf).2.2 ?_
  rw [hA']
  exact C50_nonneg _ (fun l u r d p => mul_nonneg (inv_nonneg.2 hc.le) (hnn _ _ _ _ _)) z pn (mul_pos (inv_pos.2 hc) hpos)

namespace Spec

/-- The intended statement: measuring a fresh site is well defined for every site tensor. -/
def FreshNormPositive (𝕜 : Type) [RCLike 𝕜] : Prop :=
  ∀ (B P : Type) [Fintype B] [Fintype P] (net : NetT B P (B × B) 𝕜) (s : Site) (A : ATensor B P 𝕜), A ≠ 0 →
    net s = freshSite A → 0 < siteNorm (buildSiteRdm net s)

end Spec

/-- **C50 is violated** for tensors whose patch state vanishes: a tensor of norm one whose left and right legs never take
the same value gives norm zero, and every measurement is zero divided by zero. -/
theorem C50_violated_zero_norm : ¬ FreshNormPositive 𝕜 := by
  intro h
  let A : ATensor (Fin 2) (Fin 1) 𝕜 := fun l _ r _ _ => if l = 0 ∧ r = 1 then 1 else 0
  have hA : A ≠ 0 := by
    intro h0
    have := congrFun (congrFun (congrFun (congrFun (congrFun h0 0) 0) 1) 0) 0
    simp [A] at this
  have hpos := h (Fin 2) (Fin 1) (fun _ => freshSite A) (0, 0) A hA rfl
  refine (C50_norm (fun _ => freshSite A) (0, 0) A hA rfl).2.1 hpos ?_
  funext o p
  unfold patchState
  dsimp only
  rw [Pi.zero_apply, Pi.zero_apply]
  iterate 12
    refine Finset.sum_eq_zero fun _ _ => ?_
  rename_i w1 _ n1 _ n2 _ e1 _ e2 _ s1 _ s2 _ w2 _ l _ u _ r _ d _
  by_cases h1 : n2 = 1
  · subst h1; simp [A]
  · simp [A, h1]

/-- A concrete case: the all-up product state. -/
example : ∃ A : ATensor (Fin 2) (Fin 2) ℂ, A ≠ 0 ∧ patchState A ≠ 0 := by
  refine ⟨fun l u r d p => ((if l = 0 ∧ u = 0 ∧ r = 0 ∧ d = 0 ∧ p = 0 then 1 else 0 : ℝ) : ℂ), ?_, ?_⟩
  · intro h
    have := congrFun (congrFun (congrFun (congrFun (congrFun h 0) 0) 0) 0) 0
    simp at this
  · exact C50_nonneg (fun l u r d p => if l = 0 ∧ u = 0 ∧ r = 0 ∧ d = 0 ∧ p = 0 then (1 : ℝ) else 0)
      (fun l u r d p => by split <;> norm_num) 0 0 (by simp)

end AceTN
