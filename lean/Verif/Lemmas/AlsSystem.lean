import Verif.Model.FullUpdate
import Verif.Lemmas.Quad
import Verif.Lemmas.SumTac

/-!
The linear systems of the alternating solver: the cost is a quadratic function of each of the two tensors.
-/

set_option autoImplicit false

namespace AceTN

open Full Matrix Spec SumTac ComplexOrder

variable {𝕜 : Type} [RCLike 𝕜] {N B P : Type} [Fintype N] [Fintype B] [Fintype P]

/-- A tensor with its first two legs combined. -/
def asMat (a : N → B → P → 𝕜) : Matrix (N × B) P 𝕜 := of fun i p => a i.1 i.2 p

/-- A four-leg tensor as a matrix. -/
def asSq (R : N → B → N → B → 𝕜) : Matrix (N × B) (N × B) 𝕜 := of fun i j => R i.1 i.2 j.1 j.2

theorem cost_first (n12 : N → N → N → N → 𝕜) (a12g : N → N → P → P → 𝕜) (a1r a2r : N → B → P → 𝕜) :
    cost a1r a2r a12g n12 = quad (asSq (buildR1 n12 a2r)) (asMat (buildS1 (n12gOf n12 a12g) a2r)) (asMat a1r) := by
  unfold cost quad
  have h1 : (einsum% "YXpq,YXpq->" (einsum% "yxYX,yxpq->YXpq" n12 (einsum% "yup,xuq->yxpq" a1r a2r))
      (star (einsum% "yup,xuq->yxpq" a1r a2r))) =
      ∑ p, ∑ Y, ∑ U, ∑ y, ∑ u, star (a1r Y U p) * buildR1 n12 a2r Y U y u * a1r y u p := by
    unfold buildR1
    dsimp only
    einsum_ring
  have h2 : (einsum% "YXpq,YXpq->" (einsum% "yxYX,yxpq->YXpq" n12 a12g) (star (einsum% "yup,xuq->yxpq" a1r a2r))) =
      ∑ p, ∑ Y, ∑ U, star (a1r Y U p) * buildS1 (n12gOf n12 a12g) a2r Y U p := by
    unfold buildS1 n12gOf
    einsum_ring
  simp only
  rw [h1, h2]
  simp only [Fintype.sum_prod_type, asSq, asMat, of_apply]

theorem cost_second (n12 : N → N → N → N → 𝕜) (a12g : N → N → P → P → 𝕜) (a1r a2r : N → B → P → 𝕜) :
    cost a1r a2r a12g n12 = quad (asSq (buildR2 n12 a1r)) (asMat (buildS2 (n12gOf n12 a12g) a1r)) (asMat a2r) := by
  unfold cost quad
  have h1 : (einsum% "YXpq,YXpq->" (einsum% "yxYX,yxpq->YXpq" n12 (einsum% "yup,xuq->yxpq" a1r a2r))
      (star (einsum% "yup,xuq->yxpq" a1r a2r))) =
      ∑ p, ∑ Y, ∑ U, ∑ y, ∑ u, star (a2r Y U p) * buildR2 n12 a1r Y U y u * a2r y u p := by
    unfold buildR2
    dsimp only
    einsum_ring
  have h2 : (einsum% "YXpq,YXpq->" (einsum% "yxYX,yxpq->YXpq" n12 a12g) (star (einsum% "yup,xuq->yxpq" a1r a2r))) =
      ∑ p, ∑ Y, ∑ U, star (a2r Y U p) * buildS2 (n12gOf n12 a12g) a1r Y U p := by
    unfold buildS2 n12gOf
    einsum_ring
  simp only
  rw [h1, h2]
  simp only [Fintype.sum_prod_type, asSq, asMat, of_apply]

omit [Fintype B] in
theorem r1_herm (n12 : N → N → N → N → 𝕜) (hN : (normMat n12).IsHermitian) (a : N → B → P → 𝕜) :
    (asSq (buildR1 n12 a)).IsHermitian := by
  have hs : ∀ y x Y X, star (n12 Y X y x) = n12 y x Y X := fun y x Y X => congrFun (congrFun hN (y, x)) (Y, X)
  ext ⟨Y, U⟩ ⟨y, u⟩
  rw [conjTranspose_apply]
  simp only [asSq, of_apply]
  have e : star (buildR1 n12 a y u Y U) = ∑ X, ∑ x, ∑ q, star (n12 Y X y x) * a x u q * star (a X U q) := by
    unfold buildR1
    dsimp only
    einsum_ring
  rw [e]
  simp only [hs]
  unfold buildR1
  dsimp only
  einsum_ring

omit [Fintype B] in
theorem r2_herm (n12 : N → N → N → N → 𝕜) (hN : (normMat n12).IsHermitian) (a : N → B → P → 𝕜) :
    (asSq (buildR2 n12 a)).IsHermitian := by
  have hs : ∀ y x Y X, star (n12 Y X y x) = n12 y x Y X := fun y x Y X => congrFun (congrFun hN (y, x)) (Y, X)
  ext ⟨X, V⟩ ⟨x, v⟩
  rw [conjTranspose_apply]
  simp only [asSq, of_apply]
  have e : star (buildR2 n12 a x v X V) = ∑ Y, ∑ y, ∑ p, star (n12 Y X y x) * a y v p * star (a Y V p) := by
    unfold buildR2
    dsimp only
    einsum_ring
  rw [e]
  simp only [hs]
  unfold buildR2
  dsimp only
  einsum_ring

/-- The two-site vectors whose norms make up the quadratic form of the first system. -/
def phi1 (a : N → B → P → 𝕜) (v : N × B → 𝕜) (q : P) : N × N → 𝕜 := fun i => star (∑ u, v (i.1, u) * a i.2 u q)

/-- The same for the second system. -/
def phi2 (a : N → B → P → 𝕜) (v : N × B → 𝕜) (p : P) : N × N → 𝕜 := fun i => star (∑ u, v (i.2, u) * a i.1 u p)

theorem r1_form (n12 : N → N → N → N → 𝕜) (a : N → B → P → 𝕜) (v : N × B → 𝕜) :
    qform (asSq (buildR1 n12 a)) v = ∑ q, qform (normMat n12) (phi1 a v q) := by
  unfold qform phi1 normMat asSq buildR1
  simp only [Fintype.sum_prod_type, of_apply]
  have key : ∀ w : N → B → 𝕜, (∑ Y, ∑ U, ∑ y, ∑ u, star (w Y U) *
      (∑ X, ∑ q, (∑ x, n12 y x Y X * a x u q) * star (a X U q)) * w y u) =
      ∑ q, ∑ y, ∑ x, ∑ Y, ∑ X, star (star (∑ u, w y u * a x u q)) * n12 y x Y X * star (∑ u, w Y u * a X u q) := by
    intro w
    einsum_ring
  exact key fun y u => v (y, u)

theorem r2_form (n12 : N → N → N → N → 𝕜) (a : N → B → P → 𝕜) (v : N × B → 𝕜) :
    qform (asSq (buildR2 n12 a)) v = ∑ p, qform (normMat n12) (phi2 a v p) := by
  unfold qform phi2 normMat asSq buildR2
  simp only [Fintype.sum_prod_type, of_apply]
  have key : ∀ w : N → B → 𝕜, (∑ X, ∑ U, ∑ x, ∑ u, star (w X U) *
      (∑ Y, ∑ p, (∑ y, n12 y x Y X * a y u p) * star (a Y U p)) * w x u) =
      ∑ p, ∑ y, ∑ x, ∑ Y, ∑ X, star (star (∑ u, w x u * a y u p)) * n12 y x Y X * star (∑ u, w X u * a Y u p) := by
    intro w
    einsum_ring
  exact key fun y u => v (y, u)

theorem r1_psd (n12 : N → N → N → N → 𝕜) (hp : AtLeast (normMat n12) 0) (a : N → B → P → 𝕜) :
    AtLeast (asSq (buildR1 n12 a)) 0 := by
  intro v
  rw [r1_form, map_sum, zero_mul]
  exact Finset.sum_nonneg fun q _ => by simpa using hp (phi1 a v q)

theorem r2_psd (n12 : N → N → N → N → 𝕜) (hp : AtLeast (normMat n12) 0) (a : N → B → P → 𝕜) :
    AtLeast (asSq (buildR2 n12 a)) 0 := by
  intro v
  rw [r2_form, map_sum, zero_mul]
  exact Finset.sum_nonneg fun q _ => by simpa using hp (phi2 a v q)

/-- The right-hand side of the first system is orthogonal to the kernel of its matrix. -/
theorem s1_range [DecidableEq N] (n12 : N → N → N → N → 𝕜) (hN : (normMat n12).IsHermitian)
    (hp : AtLeast (normMat n12) 0) (a12g : N → N → P → P → 𝕜) (a : N → B → P → 𝕜) (v : N × B → 𝕜)
    (h : asSq (buildR1 n12 a) *ᵥ v = 0) (k : P) :
    ∑ i, star (v i) * asMat (buildS1 (n12gOf n12 a12g) a) i k = 0 := by
  have h1 : RCLike.re (qform (asSq (buildR1 n12 a)) v) = 0 := by
    rw [qform_eq, h, dotProduct_zero, map_zero]
  have hn : ∀ q, 0 ≤ RCLike.re (qform (normMat n12) (phi1 a v q)) := fun q => by simpa using hp (phi1 a v q)
  rw [r1_form, map_sum, Finset.sum_eq_zero_iff_of_nonneg (fun q _ => hn q)] at h1
  have h2 : ∀ q, normMat n12 *ᵥ phi1 a v q = 0 := fun q => psd_kernel _ hN hp _ (h1 q (Finset.mem_univ _)).le
  have e : ∑ i, star (v i) * asMat (buildS1 (n12gOf n12 a12g) a) i k =
      ∑ q, ∑ y, ∑ x, a12g y x k q * ∑ Y, ∑ X, n12 y x Y X * star (∑ u, v (Y, u) * a X u q) := by
    simp only [Fintype.sum_prod_type, asMat, of_apply]
    have key : ∀ w : N → B → 𝕜, (∑ Y, ∑ U, star (w Y U) * buildS1 (n12gOf n12 a12g) a Y U k) =
        ∑ q, ∑ y, ∑ x, a12g y x k q * ∑ Y, ∑ X, n12 y x Y X * star (∑ u, w Y u * a X u q) := by
      intro w
      unfold buildS1 n12gOf
      einsum_ring
    exact key fun y u => v (y, u)
  rw [e]
  refine Finset.sum_eq_zero fun q _ => Finset.sum_eq_zero fun y _ => Finset.sum_eq_zero fun x _ => ?_
  have h3 : ∑ Y, ∑ X, n12 y x Y X * star (∑ u, v (Y, u) * a X u q) = 0 := by
    have := congrFun (h2 q) (y, x)
    simp only [mulVec, dotProduct, Fintype.sum_prod_type, Pi.zero_apply] at this
    exact this
  rw [h3, mul_zero]

/-- The same for the second system. -/
theorem s2_range [DecidableEq N] (n12 : N → N → N → N → 𝕜) (hN : (normMat n12).IsHermitian)
    (hp : AtLeast (normMat n12) 0) (a12g : N → N → P → P → 𝕜) (a : N → B → P → 𝕜) (v : N × B → 𝕜)
    (h : asSq (buildR2 n12 a) *ᵥ v = 0) (k : P) :
    ∑ i, star (v i) * asMat (buildS2 (n12gOf n12 a12g) a) i k = 0 := by
  have h1 : RCLike.re (qform (asSq (buildR2 n12 a)) v) = 0 := by
    rw [qform_eq, h, dotProduct_zero, map_zero]
  have hn : ∀ q, 0 ≤ RCLike.re (qform (normMat n12) (phi2 a v q)) := fun q => by simpa using hp (phi2 a v q)
  rw [r2_form, map_sum, Finset.sum_eq_zero_iff_of_nonneg (fun q _ => hn q)] at h1
  have h2 : ∀ q, normMat n12 *ᵥ phi2 a v q = 0 := fun q => psd_kernel _ hN hp _ (h1 q (Finset.mem_univ _)).le
  have e : ∑ i, star (v i) * asMat (buildS2 (n12gOf n12 a12g) a) i k =
      ∑ q, ∑ y, ∑ x, a12g y x q k * ∑ Y, ∑ X, n12 y x Y X * star (∑ u, v (X, u) * a Y u q) := by
    simp only [Fintype.sum_prod_type, asMat, of_apply]
    have key : ∀ w : N → B → 𝕜, (∑ Y, ∑ U, star (w Y U) * buildS2 (n12gOf n12 a12g) a Y U k) =
        ∑ q, ∑ y, ∑ x, a12g y x q k * ∑ Y, ∑ X, n12 y x Y X * star (∑ u, w X u * a Y u q) := by
      intro w
      unfold buildS2 n12gOf
      einsum_ring
    exact key fun y u => v (y, u)
  rw [e]
  refine Finset.sum_eq_zero fun q _ => Finset.sum_eq_zero fun y _ => Finset.sum_eq_zero fun x _ => ?_
  have h3 : ∑ Y, ∑ X, n12 y x Y X * star (∑ u, v (X, u) * a Y u q) = 0 := by
    have := congrFun (h2 q) (y, x)
    simp only [mulVec, dotProduct, Fintype.sum_prod_type, Pi.zero_apply] at this
    exact this
  rw [h3, mul_zero]

omit [Fintype N] [Fintype B] in
theorem hermAvg_eq (R : N → B → N → B → 𝕜) (h : (asSq R).IsHermitian) : hermAvg R = asSq R := by
  unfold hermAvg
  have e : (of fun (a b : N × B) => R a.1 a.2 b.1 b.2) = asSq R := rfl
  dsimp only
  rw [e, h.eq, ← two_smul 𝕜 (asSq R), smul_smul]
  have h2 : ((0.5 : ℝ) : 𝕜) * 2 = 1 := by
    have : ((0.5 * 2 : ℝ) : 𝕜) = 1 := by norm_num
    rw [← this]; push_cast; rfl
  rw [h2, one_smul]

theorem absMax_nonneg {n : Type} [Fintype n] (R : Matrix n n 𝕜) : 0 ≤ absMax R :=
  Real.iSup_nonneg fun _ => norm_nonneg _

end AceTN
