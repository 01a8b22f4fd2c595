import Verif.Props.PositiveApprox
import Verif.Lemmas.Pinv
import Verif.Lemmas.SumTac

/-! C34: gauge fixing. -/

set_option autoImplicit false

namespace AceTN

open Full Matrix SumTac

variable {𝕜 : Type} [RCLike 𝕜] {N B P Z : Type} [Fintype N] [Fintype B] [Fintype P] [Fintype Z]
  [DecidableEq N] [DecidableEq Z]

/-- The square root of the norm applied to a two-site tensor. -/
def sqrtApply {W Z : Type} [Fintype W] (nz : W → W → Z → 𝕜) (a : W → W → P → P → 𝕜) (z : Z) (p q : P) : 𝕜 :=
  ∑ y, ∑ x, nz y x z * a y x p q

omit [DecidableEq N] [DecidableEq Z] in
theorem cost_squareNorm (nz : N → N → Z → 𝕜) (a1r a2r : N → B → P → 𝕜) (a12g : N → N → P → P → 𝕜) :
    cost a1r a2r a12g (squareNorm nz) =
      RCLike.re (∑ z, ∑ p, ∑ q, sqrtApply nz (einsum% "yup,xuq->yxpq" a1r a2r) z p q *
        star (sqrtApply nz (einsum% "yup,xuq->yxpq" a1r a2r) z p q)) -
      2 * RCLike.re (∑ z, ∑ p, ∑ q, sqrtApply nz a12g z p q *
        star (sqrtApply nz (einsum% "yup,xuq->yxpq" a1r a2r) z p q)) := by
  unfold cost
  have h1 : (einsum% "YXpq,YXpq->" (einsum% "yxYX,yxpq->YXpq" (squareNorm nz) (einsum% "yup,xuq->yxpq" a1r a2r))
      (star (einsum% "yup,xuq->yxpq" a1r a2r))) =
      ∑ z, ∑ p, ∑ q, sqrtApply nz (einsum% "yup,xuq->yxpq" a1r a2r) z p q *
        star (sqrtApply nz (einsum% "yup,xuq->yxpq" a1r a2r) z p q) := by
    unfold squareNorm sqrtApply
    einsum_ring
  have h2 : (einsum% "YXpq,YXpq->" (einsum% "yxYX,yxpq->YXpq" (squareNorm nz) a12g)
      (star (einsum% "yup,xuq->yxpq" a1r a2r))) =
      ∑ z, ∑ p, ∑ q, sqrtApply nz a12g z p q *
        star (sqrtApply nz (einsum% "yup,xuq->yxpq" a1r a2r) z p q) := by
    unfold squareNorm sqrtApply
    einsum_ring
  simp only
  rw [h1, h2]

/-- The square root of the norm after gauge fixing. -/
def gaugedRoot {W : Type} (nz : N → N → Z → 𝕜) (tx ty : N → W → 𝕜) : W → W → Z → 𝕜 :=
  fun v w z => ∑ y, ∑ x, nz y x z * tx x w * ty y v

/-- **C34** (cost).  If the pseudo-inverses invert the gauge factors, every candidate pair of the gauge-fixed problem has
the cost of the pair obtained by undoing the gauge, in the original problem. -/
theorem C34_cost (la : Lapack 𝕜) (atol : ℝ) (nz : N → N → Z → 𝕜) (a12g : N → N → P → P → 𝕜)
    (hy : la.pinv atol (nzyrOf la nz) * nzyrOf la nz = 1) (hx : la.pinv atol (nzxrOf la nz) * nzxrOf la nz = 1)
    (b : (Fin (wD N Z) → B → P → 𝕜) × (Fin (wD N Z) → B → P → 𝕜)) :
    cost b.1 b.2 (gaugeFix la atol nz a12g).a12g (gaugeFix la atol nz a12g).n12 =
      cost (undoGauge (gaugeFix la atol nz a12g).nzyr_inv (gaugeFix la atol nz a12g).nzxr_inv b).1
        (undoGauge (gaugeFix la atol nz a12g).nzyr_inv (gaugeFix la atol nz a12g).nzxr_inv b).2 a12g
        (squareNorm nz) := by
  set ry := nzyrOf la nz with hry
  set rx := nzxrOf la nz with hrx
  set ty := la.pinv atol ry with hty
  set tx := la.pinv atol rx with htx
  have hn : (gaugeFix la atol nz a12g).n12 = squareNorm (gaugedRoot nz tx ty) := by
    funext v w V W
    unfold gaugeFix squareNorm gaugedRoot
    dsimp only
    simp only [← hry, ← hrx, ← hty, ← htx]
    einsum_ring
  have e1 : sqrtApply (gaugedRoot nz tx ty) (einsum% "yup,xuq->yxpq" b.1 b.2) =
      sqrtApply nz (einsum% "yup,xuq->yxpq" (undoGauge ty tx b).1 (undoGauge ty tx b).2) := by
    funext z p q
    unfold sqrtApply gaugedRoot undoGauge
    dsimp only
    einsum_ring
  have e2 : sqrtApply (gaugedRoot nz tx ty) (gaugeFix la atol nz a12g).a12g = sqrtApply nz a12g := by
    funext z p q
    have h1 : sqrtApply (gaugedRoot nz tx ty) (gaugeFix la atol nz a12g).a12g z p q =
        ∑ y', ∑ x', nz y' x' z * ∑ y, ∑ x, (∑ v, ty y' v * ry v y) * (∑ w, tx x' w * rx w x) * a12g y x p q := by
      unfold sqrtApply gaugedRoot gaugeFix
      dsimp only
      simp only [← hry, ← hrx]
      einsum_ring
    have hy' : ∀ a c, (∑ v, ty a v * ry v c) = if a = c then 1 else 0 := fun a c => by
      rw [← mul_apply, hy, one_apply]
    have hx' : ∀ a c, (∑ v, tx a v * rx v c) = if a = c then 1 else 0 := fun a c => by
      rw [← mul_apply, hx, one_apply]
    rw [h1]
    simp only [hy', hx', sqrtApply]
    refine Finset.sum_congr rfl fun y' _ => Finset.sum_congr rfl fun x' _ => ?_
    congr 1
    rw [Finset.sum_eq_single y' (fun a _ ha => by simp [Ne.symm ha]) (by simp),
      Finset.sum_eq_single x' (fun a _ ha => by simp [Ne.symm ha]) (by simp)]
    simp
  rw [hn, cost_squareNorm, cost_squareNorm, e1, e2]
  rfl


omit [DecidableEq N] [DecidableEq Z] in
theorem qform_squareNorm (nz : N → N → Z → 𝕜) (ψ : N × N → 𝕜) :
    Spec.qform (normMat (squareNorm nz)) (fun a => star (ψ a)) =
      ∑ z, (∑ y, ∑ x, nz y x z * ψ (y, x)) * star (∑ y, ∑ x, nz y x z * ψ (y, x)) := by
  unfold Spec.qform normMat squareNorm
  simp only [Fintype.sum_prod_type, of_apply, star_star]
  have key : ∀ φ : N → N → 𝕜,
      (∑ y, ∑ x, ∑ Y, ∑ X, φ y x * (∑ z, nz y x z * star (nz Y X z)) * star (φ Y X)) =
      ∑ z, (∑ y, ∑ x, nz y x z * φ y x) * star (∑ y, ∑ x, nz y x z * φ y x) := by
    intro φ
    einsum_ring
  exact key fun y x => ψ (y, x)

omit [DecidableEq N] [DecidableEq Z] in
/-- The norm's root is bounded below if the norm is. -/
theorem root_key (nz : N → N → Z → 𝕜) (c : ℝ) (h : Spec.AtLeast (normMat (squareNorm nz)) c) (ψ : N × N → 𝕜) :
    c * Spec.normSq ψ ≤ ∑ z, ‖∑ y, ∑ x, nz y x z * ψ (y, x)‖ ^ 2 := by
  have h1 := h fun a => star (ψ a)
  rw [qform_squareNorm] at h1
  have h2 : Spec.normSq (fun a => star (ψ a)) = Spec.normSq ψ := by simp [Spec.normSq]
  have h3 : RCLike.re (∑ z, (∑ y, ∑ x, nz y x z * ψ (y, x)) * star (∑ y, ∑ x, nz y x z * ψ (y, x))) =
      ∑ z, ‖∑ y, ∑ x, nz y x z * ψ (y, x)‖ ^ 2 := by
    rw [map_sum]
    refine Finset.sum_congr rfl fun z _ => ?_
    rw [RCLike.star_def, RCLike.mul_conj]
    norm_cast
  rwa [h2, h3] at h1

omit [DecidableEq Z] in
/-- The product of the norm's root with a vector in one of the two slots is bounded below. -/
theorem root_bounded (nz : N → N → Z → 𝕜) (c : ℝ) (h : Spec.AtLeast (normMat (squareNorm nz)) c) (v : N → 𝕜) :
    (c * Fintype.card N * Spec.normSq v ≤ ∑ x, ∑ z, ‖∑ y, nz y x z * v y‖ ^ 2) ∧
    (c * Fintype.card N * Spec.normSq v ≤ ∑ y, ∑ z, ‖∑ x, nz y x z * v x‖ ^ 2) := by
  have key := root_key nz c h
  have hcard : ∀ t : ℝ, c * Fintype.card N * t = ∑ _x : N, c * t := by
    intro t
    rw [Finset.sum_const, Finset.card_univ, nsmul_eq_mul]; ring
  constructor
  · rw [hcard]
    refine Finset.sum_le_sum fun x _ => ?_
    have h1 := key fun a => if a.2 = x then v a.1 else 0
    have h2 : Spec.normSq (fun a : N × N => if a.2 = x then v a.1 else 0) = Spec.normSq v := by
      unfold Spec.normSq
      rw [Fintype.sum_prod_type]
      refine Finset.sum_congr rfl fun y _ => ?_
      rw [Finset.sum_eq_single x (fun b _ hb => by simp [hb]) (by simp)]
      simp
    rw [h2] at h1
    refine h1.trans (le_of_eq (Finset.sum_congr rfl fun z _ => ?_))
    congr 2
    refine Finset.sum_congr rfl fun y _ => ?_
    rw [Finset.sum_eq_single x (fun b _ hb => by simp [hb]) (by simp)]
    simp
  · rw [hcard]
    refine Finset.sum_le_sum fun y _ => ?_
    have h1 := key fun a => if a.1 = y then v a.2 else 0
    have h2 : Spec.normSq (fun a : N × N => if a.1 = y then v a.2 else 0) = Spec.normSq v := by
      unfold Spec.normSq
      rw [Fintype.sum_prod_type, Finset.sum_eq_single y (fun b _ hb => by simp [hb]) (by simp)]
      simp
    rw [h2] at h1
    refine h1.trans (le_of_eq (Finset.sum_congr rfl fun z _ => ?_))
    congr 2
    rw [Finset.sum_eq_single y (fun b _ hb => by simp [hb]) (by simp)]
    simp

omit [DecidableEq N] in
theorem qr_bounded {m n k : Type} [Fintype m] [Fintype n] [Fintype k] [DecidableEq k] {A : Matrix m n 𝕜}
    {Q : Matrix m k 𝕜} {R : Matrix k n 𝕜} (h : IsQR A Q R) (v : n → 𝕜) :
    Spec.normSq (R *ᵥ v) = Spec.normSq (A *ᵥ v) := by
  have e : ((Spec.normSq (R *ᵥ v) : ℝ) : 𝕜) = (Spec.normSq (A *ᵥ v) : ℝ) := by
    conv_rhs => rw [h.mul, ← mulVec_mulVec]
    rw [normSq_eq, normSq_eq, star_mulVec Q, ← dotProduct_mulVec, mulVec_mulVec, h.iso, one_mulVec]
  exact_mod_cast e

/-- The gauge factor of the first tensor is bounded below if the norm is. -/
theorem nzyr_bounded (la : Lapack 𝕜) (nz : N → N → Z → 𝕜) (c : ℝ)
    (h : Spec.AtLeast (normMat (squareNorm nz)) c) (v : N → 𝕜) :
    c * Fintype.card N * Spec.normSq v ≤ Spec.normSq (nzyrOf la nz *ᵥ v) := by
  let A : Matrix (Z × N) N 𝕜 := of fun i y => nz y i.2 i.1
  have hqr : IsQR A (la.qr A).1 (nzyrOf la nz) := la.qr_ok A
  rw [qr_bounded hqr]
  refine (root_bounded nz c h v).1.trans (le_of_eq ?_)
  unfold Spec.normSq
  rw [Fintype.sum_prod_type, Finset.sum_comm]
  rfl

/-- The gauge factor of the second tensor is bounded below if the norm is. -/
theorem nzxr_bounded (la : Lapack 𝕜) (nz : N → N → Z → 𝕜) (c : ℝ)
    (h : Spec.AtLeast (normMat (squareNorm nz)) c) (v : N → 𝕜) :
    c * Fintype.card N * Spec.normSq v ≤ Spec.normSq (nzxrOf la nz *ᵥ v) := by
  let A : Matrix (Z × N) N 𝕜 := of fun i x => nz i.2 x i.1
  have hqr : IsQR A (la.qr A).1 (nzxrOf la nz) := la.qr_ok A
  rw [qr_bounded hqr]
  refine (root_bounded nz c h v).2.trans (le_of_eq ?_)
  unfold Spec.normSq
  rw [Fintype.sum_prod_type, Finset.sum_comm]
  rfl

/-- **C34** (invertibility).  If the eigenvalues of the norm are at least `c > 0` and the tolerance of the
pseudo-inverse is below `sqrt(c * nD)`, the pseudo-inverses are two-sided inverses of the gauge factors. -/
theorem C34_invertible [Nonempty N] (la : Lapack 𝕜) (atol c : ℝ) (hc : 0 < c)
    (hatol : atol < Real.sqrt (c * Fintype.card N)) (nz : N → N → Z → 𝕜)
    (h : Spec.AtLeast (normMat (squareNorm nz)) c) :
    la.pinv atol (nzyrOf la nz) * nzyrOf la nz = 1 ∧ la.pinv atol (nzxrOf la nz) * nzxrOf la nz = 1 ∧
    nzyrOf la nz * la.pinv atol (nzyrOf la nz) = 1 ∧ nzxrOf la nz * la.pinv atol (nzxrOf la nz) = 1 := by
  have hc' : 0 < c * Fintype.card N := mul_pos hc (by exact_mod_cast Fintype.card_pos)
  have h1 := pinv_left_inverse la (nzyrOf la nz) _ atol hc' hatol (nzyr_bounded la nz c h)
  have h2 := pinv_left_inverse la (nzxrOf la nz) _ atol hc' hatol (nzxr_bounded la nz c h)
  have hcard : Fintype.card N = Fintype.card (Fin (wD N Z)) := by
    have := card_le_of_bounded _ _ hc' (nzyr_bounded la nz c h)
    rw [Fintype.card_fin] at this ⊢
    exact le_antisymm this (Nat.min_le_right _ _)
  have e := Fintype.equivOfCardEq hcard
  exact ⟨h1, h2, (Matrix.mul_eq_one_comm_of_equiv e).1 h1, (Matrix.mul_eq_one_comm_of_equiv e).1 h2⟩

/-- **C34**.  With the norm tensor the code uses, i.e. the positive approximation with a positive cutoff (`1e-12` by
default), and a tolerance below `sqrt(cutoff * nD)` (`1e-12` by default): gauge fixing leaves the cost of every pair
unchanged under the change of variables, every pair of the original problem comes from exactly one pair of the
gauge-fixed problem, and the target of the gauge-fixed problem corresponds to the original one. -/
theorem C34_gauge_fix [Nonempty N] (la : Lapack 𝕜) (atol cutoff : ℝ) (hc : 0 < cutoff)
    (hatol : atol < Real.sqrt (cutoff * Fintype.card N)) (fuel : ℕ) (n12 : N → N → N → N → 𝕜)
    (nz : N → N → Fin (Fintype.card (N × N)) → 𝕜) (h : positiveApprox la (fuel + 2) cutoff n12 = some nz)
    (a12g : N → N → P → P → 𝕜) :
    let g := gaugeFix la atol nz a12g
    (∀ b : (_ → B → P → 𝕜) × (_ → B → P → 𝕜), cost b.1 b.2 g.a12g g.n12 =
      cost (undoGauge g.nzyr_inv g.nzxr_inv b).1 (undoGauge g.nzyr_inv g.nzxr_inv b).2 a12g (squareNorm nz)) ∧
    (∀ a : (N → B → P → 𝕜) × (N → B → P → 𝕜), ∃! b, undoGauge g.nzyr_inv g.nzxr_inv b = a) ∧
    (∀ y x p q, ∑ v, ∑ w, g.nzyr_inv y v * g.nzxr_inv x w * g.a12g v w p q = a12g y x p q) := by
  intro g
  obtain ⟨_, -, -, -, hp, -⟩ := C33_result la cutoff hc.le fuel n12 nz h
  obtain ⟨h1, h2, h3, h4⟩ := C34_invertible la atol cutoff hc hatol nz hp
  refine ⟨C34_cost la atol nz a12g h1 h2, ?_, ?_⟩
  · have hdo : ∀ (M : Matrix (Fin (wD N _)) N 𝕜) (T : Matrix N (Fin (wD N _)) 𝕜), M * T = 1 → T * M = 1 →
        ∀ a : N → B → P → 𝕜, ∀ b : Fin (wD N (Fin (Fintype.card (N × N)))) → B → P → 𝕜,
        (fun y u p => ∑ z, T y z * b z u p) = a ↔ b = fun z u p => ∑ y, M z y * a y u p := by
      intro M T hMT hTM a b
      constructor
      · rintro rfl
        funext z u p
        have := congrFun (congrArg (fun X => X *ᵥ fun z => b z u p) hMT) z
        simp only [one_mulVec, ← mulVec_mulVec] at this
        rw [← this]; rfl
      · rintro rfl
        funext y u p
        have := congrFun (congrArg (fun X => X *ᵥ fun y => a y u p) hTM) y
        simp only [one_mulVec, ← mulVec_mulVec] at this
        rw [← this]; rfl
    intro a
    have e1 := hdo _ _ h3 h1
    have e2 := hdo _ _ h4 h2
    refine ⟨(fun z u p => ∑ y, nzyrOf la nz z y * a.1 y u p, fun z u p => ∑ y, nzxrOf la nz z y * a.2 y u p), ?_, ?_⟩
    · exact Prod.ext ((e1 _ _).2 rfl) ((e2 _ _).2 rfl)
    · intro b hb
      exact Prod.ext ((e1 _ _).1 (congrArg Prod.fst hb)) ((e2 _ _).1 (congrArg Prod.snd hb))
  · intro y₀ x₀ p q
    set ry := nzyrOf la nz with hry
    set rx := nzxrOf la nz with hrx
    have e : ∑ v, ∑ w, g.nzyr_inv y₀ v * g.nzxr_inv x₀ w * g.a12g v w p q =
        ∑ y', ∑ x', (∑ v, la.pinv atol ry y₀ v * ry v y') * (∑ w, la.pinv atol rx x₀ w * rx w x') * a12g y' x' p q := by
      simp only [g]
      unfold gaugeFix
      dsimp only
      simp only [← hry, ← hrx]
      einsum_ring
    have hy' : ∀ a c, (∑ v, la.pinv atol ry a v * ry v c) = if a = c then 1 else 0 := fun a c => by
      rw [← mul_apply, h1, one_apply]
    have hx' : ∀ a c, (∑ v, la.pinv atol rx a v * rx v c) = if a = c then 1 else 0 := fun a c => by
      rw [← mul_apply, h2, one_apply]
    rw [e]
    simp only [hy', hx']
    rw [Finset.sum_eq_single y₀ (fun a _ ha => by simp [Ne.symm ha]) (by simp),
      Finset.sum_eq_single x₀ (fun a _ ha => by simp [Ne.symm ha]) (by simp)]
    simp

/-- The default settings meet the hypotheses. -/
example : (1e-12 : ℝ) < Real.sqrt (1e-12 * Fintype.card (Fin 2)) := by
  rw [Real.lt_sqrt (by norm_num)]
  norm_num

end AceTN
