import Verif.Model.Boundary
import Verif.Lemmas.SumTac
import Verif.Props.Rdm

/-!
Properties C52 and C53: boundary tensors and initial site tensors are normalised.
-/

set_option autoImplicit false

namespace AceTN

open Matrix SumTac

variable {𝕜 : Type} [RCLike 𝕜]

/-! ### Division by the Frobenius norm -/

/-- The sum of the squared moduli of the entries of `x`, divided by its root, is one. -/
theorem sum_normalised {ι : Type} [Fintype ι] (x : ι → 𝕜) (hx : x ≠ 0) :
    0 < Real.sqrt (∑ i, ‖x i‖ ^ 2) ∧ ∑ i, ‖x i / ((Real.sqrt (∑ i, ‖x i‖ ^ 2) : ℝ) : 𝕜)‖ ^ 2 = 1 := by
  have hpos : 0 < ∑ i, ‖x i‖ ^ 2 := by
    obtain ⟨i, hi⟩ := Function.ne_iff.1 hx
    exact Finset.sum_pos' (fun i _ => sq_nonneg _) ⟨i, Finset.mem_univ _, pow_pos (norm_pos_iff.2 hi) 2⟩
  refine ⟨Real.sqrt_pos.2 hpos, ?_⟩
  have h : ∀ i, ‖x i / ((Real.sqrt (∑ i, ‖x i‖ ^ 2) : ℝ) : 𝕜)‖ ^ 2 = ‖x i‖ ^ 2 / ∑ i, ‖x i‖ ^ 2 := by
    intro i
    rw [norm_div, div_pow, RCLike.norm_ofReal, sq_abs, Real.sq_sqrt hpos.le]
  simp only [h]
  rw [← Finset.sum_div, div_self hpos.ne']

namespace Spec

/-- `t` has Frobenius norm one and is a positive multiple of `s`. -/
def UnitMultiple2 {a b : Type} [Fintype a] [Fintype b] (s t : a → b → 𝕜) : Prop :=
  ∑ i, ∑ j, ‖t i j‖ ^ 2 = 1 ∧ ∃ c : ℝ, 0 < c ∧ ∀ i j, s i j = c * t i j

/-- The same for four legs. -/
def UnitMultiple4 {a b c d : Type} [Fintype a] [Fintype b] [Fintype c] [Fintype d] (s t : a → b → c → d → 𝕜) : Prop :=
  ∑ i, ∑ j, ∑ k, ∑ l, ‖t i j k l‖ ^ 2 = 1 ∧ ∃ c : ℝ, 0 < c ∧ ∀ i j k l, s i j k l = c * t i j k l

/-- The same for a site tensor. -/
def UnitMultipleA {B P : Type} [Fintype B] [Fintype P] (s t : ATensor B P 𝕜) : Prop :=
  ∑ l, ∑ u, ∑ r, ∑ d, ∑ p, ‖t l u r d p‖ ^ 2 = 1 ∧ ∃ c : ℝ, 0 < c ∧ ∀ l u r d p, s l u r d p = c * t l u r d p

end Spec

open Spec

theorem normalise2_spec {a b : Type} [Fintype a] [Fintype b] (s : a → b → 𝕜) (hs : s ≠ 0) :
    UnitMultiple2 s (normalise2 s) := by
  have h := sum_normalised (fun i : a × b => s i.1 i.2) (fun h0 => hs (by
    funext i j; exact congrFun h0 (i, j)))
  simp only [Fintype.sum_prod_type] at h
  refine ⟨h.2, _, h.1, fun i j => ?_⟩
  unfold normalise2 norm2
  rw [mul_div_cancel₀ _ (RCLike.ofReal_ne_zero.2 h.1.ne')]

theorem normalise4_spec {a b c d : Type} [Fintype a] [Fintype b] [Fintype c] [Fintype d] (s : a → b → c → d → 𝕜)
    (hs : s ≠ 0) : UnitMultiple4 s (normalise4 s) := by
  have h := sum_normalised (fun i : a × b × c × d => s i.1 i.2.1 i.2.2.1 i.2.2.2) (fun h0 => hs (by
    funext i j k l; exact congrFun h0 (i, j, k, l)))
  simp only [Fintype.sum_prod_type] at h
  refine ⟨h.2, _, h.1, fun i j k l => ?_⟩
  unfold normalise4 norm4
  rw [mul_div_cancel₀ _ (RCLike.ofReal_ne_zero.2 h.1.ne')]

theorem normaliseA_spec {B P : Type} [Fintype B] [Fintype P] (s : ATensor B P 𝕜) (hs : s ≠ 0) :
    UnitMultipleA s (Full.normalise s) := by
  have h := sum_normalised (fun i : B × B × B × B × P => s i.1 i.2.1 i.2.2.1 i.2.2.2.1 i.2.2.2.2) (fun h0 => hs (by
    funext l u r d p; exact congrFun h0 (l, u, r, d, p)))
  simp only [Fintype.sum_prod_type] at h
  refine ⟨h.2, _, h.1, fun l u r d p => ?_⟩
  unfold Full.normalise Full.normA
  rw [mul_div_cancel₀ _ (RCLike.ofReal_ne_zero.2 h.1.ne')]

/-! ### C52 -/

namespace Spec

variable {xa xb xc L U R D P Z Z' : Type} [Fintype xa] [Fintype xb] [Fintype xc] [Fintype L] [Fintype U] [Fintype R] [Fintype D]
  [Fintype P] [Fintype Z] [Fintype Z']

/-- The corner `c` and the edge `e` below it, with the open legs of the corner and the edge going through the projector.

```
   c
   |
   C --.
   |    p -- x
   E --'
   |
   a
```
-/
def lowerCorner (C : xb → xc → 𝕜) (E : xa → xb → L → L → 𝕜) (p : xc → L → L → Z → 𝕜) : xa → Z → 𝕜 :=
  fun a x => ∑ b, ∑ c, ∑ l, ∑ l', E a b l l' * C b c * p c l l' x

/-- The corner and the edge after it. -/
def upperCorner (C : xa → xb → 𝕜) (E : xb → xc → R → R → 𝕜) (p : xa → R → R → Z → 𝕜) : Z → xc → 𝕜 :=
  fun x c => ∑ a, ∑ b, ∑ r, ∑ r', C a b * E b c r r' * p a r r' x

/-- The edge with the double-layer site between two projectors. -/
def absorbedEdge (E : xa → xb → L → L → 𝕜) (A : L → U → R → D → P → 𝕜) (p2 : xa → D → D → Z' → 𝕜) (p1 : xb → U → U → Z → 𝕜) :
    Z' → Z → R → R → 𝕜 :=
  fun y x r r' => ∑ a, ∑ b, ∑ l, ∑ l', ∑ u, ∑ u', ∑ d, ∑ d', ∑ q,
    E a b l l' * (A l u r d q * star (A l' u' r' d' q)) * p1 b u u' x * p2 a d d' y

end Spec

section renormalize

variable {xa xb xc L U R D P Z Z' : Type} [Fintype xa] [Fintype xb] [Fintype xc] [Fintype L] [Fintype U] [Fintype R] [Fintype D]
  [Fintype P] [Fintype Z] [Fintype Z']

theorem renormalizeCj1_eq (ci : xb → xc → 𝕜) (ei : xa → xb → L → L → 𝕜) (proj : xc → L → L → Z → 𝕜) :
    renormalizeCj1 ci ei proj = normalise2 (lowerCorner ci ei proj) := by
  unfold renormalizeCj1
  dsimp only
  congr 1
  funext a₀ x₀
  unfold lowerCorner
  einsum_ring

theorem renormalizeCj2_eq (ci : xa → xb → 𝕜) (ei : xb → xc → R → R → 𝕜) (proj : xa → R → R → Z → 𝕜) :
    renormalizeCj2 ci ei proj = normalise2 (upperCorner ci ei proj) := by
  unfold renormalizeCj2
  dsimp only
  congr 1
  funext x₀ c₀
  unfold upperCorner
  einsum_ring

theorem renormalizeEj_eq (ei : xa → xb → L → L → 𝕜) (ai : L → U → R → D → P → 𝕜) (proj2 : xa → D → D → Z' → 𝕜)
    (proj1 : xb → U → U → Z → 𝕜) :
    renormalizeEj ei ai proj2 proj1 = normalise4 (absorbedEdge ei ai proj2 proj1) := by
  unfold renormalizeEj
  dsimp only
  congr 1
  funext y₀ x₀ r₀ s₀
  unfold absorbedEdge
  einsum_ring

/-- **C52** (first corner). -/
theorem C52_corner1 (ci : xb → xc → 𝕜) (ei : xa → xb → L → L → 𝕜) (proj : xc → L → L → Z → 𝕜)
    (h : lowerCorner ci ei proj ≠ 0) : UnitMultiple2 (lowerCorner ci ei proj) (renormalizeCj1 ci ei proj) := by
  rw [renormalizeCj1_eq]
  exact normalise2_spec _ h

/-- **C52** (second corner). -/
theorem C52_corner2 (ci : xa → xb → 𝕜) (ei : xb → xc → R → R → 𝕜) (proj : xa → R → R → Z → 𝕜)
    (h : upperCorner ci ei proj ≠ 0) : UnitMultiple2 (upperCorner ci ei proj) (renormalizeCj2 ci ei proj) := by
  rw [renormalizeCj2_eq]
  exact normalise2_spec _ h

/-- **C52** (edge). -/
theorem C52_edge (ei : xa → xb → L → L → 𝕜) (ai : L → U → R → D → P → 𝕜) (proj2 : xa → D → D → Z' → 𝕜)
    (proj1 : xb → U → U → Z → 𝕜) (h : absorbedEdge ei ai proj2 proj1 ≠ 0) :
    UnitMultiple4 (absorbedEdge ei ai proj2 proj1) (renormalizeEj ei ai proj2 proj1) := by
  rw [renormalizeEj_eq]
  exact normalise4_spec _ h

/-- The hypotheses are met by tensors of ones with one-dimensional legs except the last. -/
example : lowerCorner (fun (_ _ : Fin 1) => (1 : ℂ)) (fun (_ _ : Fin 1) (_ _ : Fin 2) => 1)
    (fun (_ : Fin 1) (_ _ : Fin 2) (_ : Fin 3) => 1) ≠ 0 := by
  intro h
  have := congrFun (congrFun h 0) 0
  simp [lowerCorner] at this

end renormalize

/-! ### C53 -/

section initial

variable {bD pD : ℕ}

namespace Spec

/-- The product state with site state `s` (missing entries are zero) plus the scaled draw. -/
def stateWithNoise (noise : ℝ) (draw : Fin bD → Fin bD → Fin bD → Fin bD → Fin pD → ℝ) (s : List 𝕜) : ATensor (Fin bD) (Fin pD) 𝕜 :=
  fun l u r d p => ((noise * draw l u r d p : ℝ) : 𝕜) +
    if l.val = 0 ∧ u.val = 0 ∧ r.val = 0 ∧ d.val = 0 then s.getD p.val 0 else 0

end Spec

theorem addState_spec (hb : 0 < bD) (s : List 𝕜) : ∀ (n : ℕ) (A : ATensor (Fin bD) (Fin pD) 𝕜), n + s.length ≤ pD →
    addState A n s = .ok fun l u r d p => A l u r d p +
      if l.val = 0 ∧ u.val = 0 ∧ r.val = 0 ∧ d.val = 0 ∧ n ≤ p.val then s.getD (p.val - n) 0 else 0 := by
  induction s with
  | nil =>
    intro n A _
    simp [addState]
  | cons v vs ih =>
    intro n A h
    rw [List.length_cons] at h
    have e : addAtOrigin A n v = .ok fun l u r d p => if l.val = 0 ∧ u.val = 0 ∧ r.val = 0 ∧ d.val = 0 ∧ p.val = n then
        A l u r d p + v else A l u r d p := by
      unfold addAtOrigin
      rw [if_pos ⟨hb, by omega⟩]
    unfold addState
    rw [e, show (Except.ok _ >>= fun A' => addState A' (n + 1) vs) = addState _ (n + 1) vs from rfl, ih (n + 1) _ (by omega)]
    congr 1
    funext l u r d p
    by_cases h0 : l.val = 0 ∧ u.val = 0 ∧ r.val = 0 ∧ d.val = 0
    · obtain ⟨h1, h2, h3, h4⟩ := h0
      simp only [h1, h2, h3, h4, true_and]
      rcases lt_trichotomy p.val n with hp | hp | hp
      · rw [if_neg (by omega), if_neg (by omega), if_neg (by omega)]
      · rw [if_pos hp, if_neg (by omega), if_pos (by omega), hp, Nat.sub_self]
        simp
      · rw [if_neg (by omega), if_pos (by omega), if_pos (by omega), show p.val - n = (p.val - (n + 1)) + 1 by omega,
          List.getD_cons_succ]
    · rw [if_neg (fun h => h0 ⟨h.1, h.2.1, h.2.2.1, h.2.2.2.1⟩), if_neg (fun h => h0 ⟨h.1, h.2.1, h.2.2.1, h.2.2.2.1⟩),
        if_neg (fun h => h0 ⟨h.1, h.2.1, h.2.2.1, h.2.2.2.1⟩)]

/-- **C53** (site tensor).  For every draw and every site state that fits the physical dimension, initialisation succeeds
and the result is the product state plus noise divided by its norm, provided it is nonzero. -/
theorem C53_site (hb : 0 < bD) (noise : ℝ) (draw : Fin bD → Fin bD → Fin bD → Fin bD → Fin pD → ℝ) (s : List 𝕜)
    (hs : s.length ≤ pD) (h0 : stateWithNoise noise draw s ≠ 0) :
    ∃ A, initializeSiteTensor noise draw s = .ok A ∧ UnitMultipleA (stateWithNoise noise draw s) A := by
  refine ⟨Full.normalise (stateWithNoise noise draw s), ?_, normaliseA_spec _ h0⟩
  unfold initializeSiteTensor
  rw [addState_spec hb s 0 _ (by omega)]
  show Except.ok _ = _
  congr 2
  funext l u r d p
  simp [stateWithNoise]

/-- **C53** (no noise).  Without noise the initial tensor is exactly the normalised product state, for every nonzero site
state. -/
theorem C53_product (hb : 0 < bD) (draw : Fin bD → Fin bD → Fin bD → Fin bD → Fin pD → ℝ) (s : List 𝕜)
    (hs : s.length ≤ pD) (h0 : ∃ v ∈ s, v ≠ 0) :
    ∃ A, initializeSiteTensor 0 draw s = .ok A ∧ ∑ l, ∑ u, ∑ r, ∑ d, ∑ p, ‖A l u r d p‖ ^ 2 = 1 ∧
      ∃ c : ℝ, 0 < c ∧ ∀ l u r d p, A l u r d p =
        if l.val = 0 ∧ u.val = 0 ∧ r.val = 0 ∧ d.val = 0 then c * s.getD p.val 0 else 0 := by
  obtain ⟨v, hv, hv0⟩ := h0
  obtain ⟨n, hn, rfl⟩ := List.getElem_of_mem hv
  have hne : stateWithNoise 0 draw s ≠ 0 := by
    intro h
    have := congrFun (congrFun (congrFun (congrFun (congrFun h ⟨0, hb⟩) ⟨0, hb⟩) ⟨0, hb⟩) ⟨0, hb⟩) ⟨n, by omega⟩
    simp [stateWithNoise, hn] at this
    exact hv0 this
  obtain ⟨A, hA, h1, c, hc, h2⟩ := C53_site hb 0 draw s hs hne
  refine ⟨A, hA, h1, c⁻¹, inv_pos.2 hc, fun l u r d p => ?_⟩
  have h3 := h2 l u r d p
  have hc' : (c : 𝕜) ≠ 0 := RCLike.ofReal_ne_zero.2 hc.ne'
  have h4 : A l u r d p = (c : 𝕜)⁻¹ * stateWithNoise 0 draw s l u r d p := by rw [h3, inv_mul_cancel_left₀ hc']
  rw [h4]
  unfold stateWithNoise
  split <;> simp

/-- **C53** (errors).  A site state longer than the physical dimension is an `IndexError`. -/
theorem C53_too_long (noise : ℝ) (draw : Fin bD → Fin bD → Fin bD → Fin bD → Fin pD → ℝ) (s : List 𝕜)
    (hs : pD < s.length) : initializeSiteTensor noise draw s = .error .indexError := by
  have key : ∀ (s : List 𝕜) (n : ℕ) (A : ATensor (Fin bD) (Fin pD) 𝕜), n ≤ pD → pD < n + s.length →
      addState A n s = .error .indexError := by
    intro s
    induction s with
    | nil => intro n A _ h; simp at h; omega
    | cons v vs ih =>
      intro n A h1 h2
      rw [List.length_cons] at h2
      unfold addState addAtOrigin
      by_cases h : 0 < bD ∧ n < pD
      · rw [if_pos h]
        exact ih (n + 1) _ (by omega) (by omega)
      · rw [if_neg h]
        rfl
  unfold initializeSiteTensor
  rw [key s 0 _ (Nat.zero_le _) (by omega)]
  rfl

end initial

section fresh

variable {B P : Type} [Fintype B] [Fintype P]

omit [Fintype B] [Fintype P] in
theorem bondPermute_ne_zero (k : ℤ) (A : ATensor B P 𝕜) (hA : A ≠ 0) : bondPermute k A ≠ 0 := by
  intro h
  apply hA
  have h0 : bondPermute (4 - k) (bondPermute k A) = A := C29_round_trip k A
  rw [← h0, h]
  rfl

/-- **C53** (boundary).  The initial corners of every nonzero site tensor have norm one and are the double-layer site with
the legs towards the outside closed. -/
theorem C53_corner (A : ATensor B P 𝕜) (hA : A ≠ 0) (k : ℤ) :
    UnitMultiple2 (fun x y : B × B => ∑ l, ∑ u, ∑ p, bondPermute k A l u y.1 x.1 p * star (bondPermute k A l u y.2 x.2 p))
      (initialCorner A k) := by
  refine normalise2_spec _ fun h => bondPermute_ne_zero k A hA ?_
  funext l u r d p
  have h1 := congrFun (congrFun h (d, d)) (r, r)
  have h2 : ((∑ l, ∑ u, ∑ p, ‖bondPermute k A l u r d p‖ ^ 2 : ℝ) : 𝕜) = 0 := by
    rw [← show _ = (0 : 𝕜) from h1]
    push_cast
    refine Finset.sum_congr rfl fun l _ => Finset.sum_congr rfl fun u _ => Finset.sum_congr rfl fun p _ => ?_
    exact (RCLike.mul_conj _).symm
  rw [RCLike.ofReal_eq_zero, Finset.sum_eq_zero_iff_of_nonneg fun _ _ => Finset.sum_nonneg fun _ _ => Finset.sum_nonneg fun _ _ => sq_nonneg _] at h2
  have h3 := h2 l (Finset.mem_univ _)
  rw [Finset.sum_eq_zero_iff_of_nonneg fun _ _ => Finset.sum_nonneg fun _ _ => sq_nonneg _] at h3
  have h4 := h3 u (Finset.mem_univ _)
  rw [Finset.sum_eq_zero_iff_of_nonneg fun _ _ => by positivity] at h4
  exact norm_eq_zero.1 (pow_eq_zero_iff (two_ne_zero) |>.1 (h4 p (Finset.mem_univ _)))

/-- **C53** (boundary).  The same for the initial edges. -/
theorem C53_edge (A : ATensor B P 𝕜) (hA : A ≠ 0) (k : ℤ) :
    UnitMultiple4 (fun (x y : B × B) d D => ∑ u, ∑ p, bondPermute k A x.1 u y.1 d p * star (bondPermute k A x.2 u y.2 D p))
      (initialEdge A k) := by
  refine normalise4_spec _ fun h => bondPermute_ne_zero k A hA ?_
  funext l u r d p
  have h1 := congrFun (congrFun (congrFun (congrFun h (l, l)) (r, r)) d) d
  have h2 : ((∑ u, ∑ p, ‖bondPermute k A l u r d p‖ ^ 2 : ℝ) : 𝕜) = 0 := by
    rw [← show _ = (0 : 𝕜) from h1]
    push_cast
    refine Finset.sum_congr rfl fun u _ => Finset.sum_congr rfl fun p _ => ?_
    exact (RCLike.mul_conj _).symm
  rw [RCLike.ofReal_eq_zero, Finset.sum_eq_zero_iff_of_nonneg fun _ _ => Finset.sum_nonneg fun _ _ => sq_nonneg _] at h2
  have h4 := h2 u (Finset.mem_univ _)
  rw [Finset.sum_eq_zero_iff_of_nonneg fun _ _ => by positivity] at h4
  exact norm_eq_zero.1 (pow_eq_zero_iff (two_ne_zero) |>.1 (h4 p (Finset.mem_univ _)))

/-- The hypotheses are met: the spin-up state with bond dimension 2. -/
example : (∃ v ∈ ([1, 0] : List ℂ), v ≠ 0) ∧ ([1, 0] : List ℂ).length ≤ 2 := ⟨⟨1, by simp, one_ne_zero⟩, by simp⟩

end fresh

end AceTN
