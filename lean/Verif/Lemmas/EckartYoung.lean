import Verif.Lemmas.Svd
import Verif.Spec.Frob
import Mathlib.LinearAlgebra.Matrix.Trace

/-!
The truncated singular value decomposition is the best approximation of its rank in the Frobenius norm.
-/

set_option autoImplicit false

namespace AceTN

open Matrix Spec

variable {𝕜 : Type} [RCLike 𝕜] {m n l : Type} [Fintype m] [Fintype n] [Fintype l]

theorem frobSq_eq_trace (A : Matrix m n 𝕜) : ((frobSq A : ℝ) : 𝕜) = trace (Aᴴ * A) := by
  unfold frobSq trace
  push_cast
  rw [Finset.sum_comm]
  refine Finset.sum_congr rfl fun j _ => ?_
  rw [diag_apply, mul_apply]
  refine Finset.sum_congr rfl fun i _ => ?_
  rw [conjTranspose_apply, RCLike.star_def, RCLike.conj_mul]

theorem frobSq_nonneg (A : Matrix m n 𝕜) : 0 ≤ frobSq A := by
  unfold frobSq; positivity

theorem frobSq_eq_zero (A : Matrix m n 𝕜) : frobSq A = 0 ↔ A = 0 := by
  unfold frobSq
  rw [Finset.sum_eq_zero_iff_of_nonneg (fun _ _ => by positivity)]
  constructor
  · intro h
    ext i j
    have := h i (Finset.mem_univ _)
    rw [Finset.sum_eq_zero_iff_of_nonneg (fun _ _ => by positivity)] at this
    simpa using this j (Finset.mem_univ _)
  · rintro rfl i _
    simp

theorem frobSq_conjTranspose (A : Matrix m n 𝕜) : frobSq Aᴴ = frobSq A := by
  unfold frobSq
  rw [Finset.sum_comm]
  simp

/-- Multiplying by an isometry from the left keeps the norm. -/
theorem frobSq_iso_mul [DecidableEq l] (Q : Matrix m l 𝕜) (hQ : Qᴴ * Q = 1) (A : Matrix l n 𝕜) :
    frobSq (Q * A) = frobSq A := by
  have h : ((frobSq (Q * A) : ℝ) : 𝕜) = frobSq A := by
    rw [frobSq_eq_trace, frobSq_eq_trace, conjTranspose_mul, Matrix.mul_assoc, ← Matrix.mul_assoc Qᴴ, hQ,
      Matrix.one_mul]
  exact_mod_cast h

/-- Multiplying by a co-isometry from the right keeps the norm. -/
theorem frobSq_mul_coiso [DecidableEq l] (V : Matrix l n 𝕜) (hV : V * Vᴴ = 1) (A : Matrix m l 𝕜) :
    frobSq (A * V) = frobSq A := by
  rw [← frobSq_conjTranspose (A * V), conjTranspose_mul,
    frobSq_iso_mul _ (by rwa [conjTranspose_conjTranspose]), frobSq_conjTranspose]

theorem frobSq_pyth [DecidableEq m] [DecidableEq l] (Q : Matrix m l 𝕜) (hQ : Qᴴ * Q = 1) (A : Matrix m n 𝕜) :
    frobSq A = frobSq (Qᴴ * A) + frobSq (A - Q * (Qᴴ * A)) := by
  have h : ((frobSq A : ℝ) : 𝕜) = (frobSq (Qᴴ * A) : ℝ) + (frobSq (A - Q * (Qᴴ * A)) : ℝ) := by
    rw [frobSq_eq_trace, frobSq_eq_trace, frobSq_eq_trace, ← trace_add]
    congr 1
    have e1 : Aᴴ * (Q * (Qᴴ * A)) = (Qᴴ * A)ᴴ * (Qᴴ * A) := by
      rw [conjTranspose_mul, conjTranspose_conjTranspose, Matrix.mul_assoc]
    have e2 : (Q * (Qᴴ * A))ᴴ * A = (Qᴴ * A)ᴴ * (Qᴴ * A) := by
      rw [conjTranspose_mul, Matrix.mul_assoc]
    have e3 : (Q * (Qᴴ * A))ᴴ * (Q * (Qᴴ * A)) = (Qᴴ * A)ᴴ * (Qᴴ * A) := by
      rw [conjTranspose_mul, Matrix.mul_assoc, ← Matrix.mul_assoc Qᴴ, hQ, Matrix.one_mul]
    rw [conjTranspose_sub, Matrix.mul_sub, Matrix.sub_mul, Matrix.sub_mul, e1, e2, e3]
    abel
  exact_mod_cast h

theorem frobSq_isoH_mul_le [DecidableEq m] [DecidableEq l] (Q : Matrix m l 𝕜) (hQ : Qᴴ * Q = 1) (A : Matrix m n 𝕜) :
    frobSq (Qᴴ * A) ≤ frobSq A := by
  rw [frobSq_pyth Q hQ A]
  linarith [frobSq_nonneg (A - Q * (Qᴴ * A))]

theorem frobSq_iso [DecidableEq l] (Q : Matrix m l 𝕜) (hQ : Qᴴ * Q = 1) : frobSq Q = Fintype.card l := by
  have h : ((frobSq Q : ℝ) : 𝕜) = ((Fintype.card l : ℝ) : 𝕜) := by
    rw [frobSq_eq_trace, hQ, trace_one]; simp
  exact_mod_cast h

theorem frobSq_mul_diagonal [DecidableEq n] (A : Matrix m n 𝕜) (S : n → ℝ) :
    frobSq (A * diagonal (fun i => (S i : 𝕜))) = ∑ j, S j ^ 2 * ∑ i, ‖A i j‖ ^ 2 := by
  unfold frobSq
  rw [Finset.sum_comm]
  refine Finset.sum_congr rfl fun j _ => ?_
  rw [Finset.mul_sum]
  refine Finset.sum_congr rfl fun i _ => ?_
  rw [mul_diagonal, norm_mul, RCLike.norm_ofReal, mul_pow, sq_abs, mul_comm]

/-- Rearrangement: weights in `[0, 1]` with sum at most `k` collect at most the `k` largest values. -/
theorem sum_weights_le {r : ℕ} (c t : Fin r → ℝ) (k : ℕ) (hc0 : ∀ i, 0 ≤ c i) (hc : ∀ i j, i ≤ j → c j ≤ c i)
    (ht0 : ∀ i, 0 ≤ t i) (ht1 : ∀ i, t i ≤ 1) (hsum : ∑ i, t i ≤ k) :
    ∑ i, c i * t i ≤ ∑ i, if i.val < k then c i else 0 := by
  by_cases hk : k < r
  · let d := c ⟨k, hk⟩
    have h1 : ∀ i, c i * t i ≤ (if i.val < k then c i else 0) + d * t i - (if i.val < k then d else 0) := by
      intro i
      split
      · next h =>
        have : d ≤ c i := hc _ _ (by rw [Fin.le_def]; simp only; omega)
        nlinarith [ht1 i, ht0 i]
      · next h =>
        have : c i ≤ d := hc _ _ (by rw [Fin.le_def]; simp only; omega)
        nlinarith [ht0 i]
    have h2 : ∑ i : Fin r, (if i.val < k then d else 0) = k * d := by
      rw [← Finset.sum_filter, Finset.sum_const, nsmul_eq_mul]
      congr 2
      rw [Fin.card_filter_val_lt]
      omega
    have h3 := Finset.sum_le_sum fun i (_ : i ∈ Finset.univ) => h1 i
    rw [Finset.sum_sub_distrib, Finset.sum_add_distrib, h2, ← Finset.mul_sum] at h3
    have h4 : d * ∑ i, t i ≤ d * k := mul_le_mul_of_nonneg_left hsum (hc0 _)
    linarith
  · refine Finset.sum_le_sum fun i _ => ?_
    rw [if_pos (by omega)]
    nlinarith [hc0 i, ht1 i]

/-- The product of the first `k` singular triples. -/
def truncSVD {r : ℕ} (U : Matrix m (Fin r) 𝕜) (S : Fin r → ℝ) (Vh : Matrix (Fin r) n 𝕜) (k : ℕ) : Matrix m n 𝕜 :=
  U * diagonal (fun i => if i.val < k then (S i : 𝕜) else 0) * Vh

theorem frobSq_usv {r : ℕ} (U : Matrix m (Fin r) 𝕜) (S : Fin r → ℝ) (Vh : Matrix (Fin r) n 𝕜)
    (hU : Uᴴ * U = 1) (hV : Vh * Vhᴴ = 1) :
    frobSq (U * diagonal (fun i => (S i : 𝕜)) * Vh) = ∑ i, S i ^ 2 := by
  rw [frobSq_mul_coiso _ hV, frobSq_mul_diagonal]
  refine Finset.sum_congr rfl fun j _ => ?_
  have h : ((∑ i, ‖U i j‖ ^ 2 : ℝ) : 𝕜) = ((1 : ℝ) : 𝕜) := by
    have := congrFun (congrFun hU j) j
    rw [mul_apply, one_apply_eq] at this
    push_cast
    rw [← this]
    refine Finset.sum_congr rfl fun i _ => ?_
    rw [conjTranspose_apply, RCLike.star_def, RCLike.conj_mul]
  have h' : (∑ i, ‖U i j‖ ^ 2 : ℝ) = 1 := by exact_mod_cast h
  rw [h', mul_one]

theorem frobSq_sub_truncSVD {r : ℕ} (A : Matrix m n 𝕜) (U : Matrix m (Fin r) 𝕜) (S : Fin r → ℝ)
    (Vh : Matrix (Fin r) n 𝕜) (h : IsSVD A U S Vh) (k : ℕ) :
    frobSq (A - truncSVD U S Vh k) = ∑ i, if i.val < k then 0 else S i ^ 2 := by
  have e : A - truncSVD U S Vh k = U * diagonal (fun i => ((if i.val < k then 0 else S i : ℝ) : 𝕜)) * Vh := by
    unfold truncSVD
    conv_lhs => rw [h.mul]
    rw [← Matrix.sub_mul, ← Matrix.mul_sub, diagonal_sub]
    congr 3
    funext i
    split <;> simp
  rw [e, frobSq_usv _ _ _ h.left h.right]
  refine Finset.sum_congr rfl fun i _ => ?_
  split <;> simp

/-- **Eckart-Young** (Frobenius norm): no product through `k` indices is closer to `A` than the truncated SVD. -/
theorem eckart_young {r : ℕ} (A : Matrix m n 𝕜) (U : Matrix m (Fin r) 𝕜) (S : Fin r → ℝ)
    (Vh : Matrix (Fin r) n 𝕜) (h : IsSVD A U S Vh) (X : Matrix m l 𝕜) (Y : Matrix l n 𝕜) :
    frobSq (A - truncSVD U S Vh (Fintype.card l)) ≤ frobSq (A - X * Y) := by
  classical
  obtain ⟨Q, R, hQR⟩ := exists_qr X
  have hQ := hQR.iso
  have hB : X * Y = Q * (R * Y) := by rw [hQR.mul, Matrix.mul_assoc]
  have h1 : frobSq (A - Q * (Qᴴ * A)) ≤ frobSq (A - X * Y) := by
    rw [frobSq_pyth Q hQ (A - X * Y)]
    have : A - X * Y - Q * (Qᴴ * (A - X * Y)) = A - Q * (Qᴴ * A) := by
      rw [hB, Matrix.mul_sub, Matrix.mul_sub, ← Matrix.mul_assoc Qᴴ Q, hQ, Matrix.one_mul]
      abel
    rw [this]
    linarith [frobSq_nonneg (Qᴴ * (A - X * Y))]
  have h2 := frobSq_pyth Q hQ A
  have hA : frobSq A = ∑ i, S i ^ 2 := by
    rw [h.mul, frobSq_usv _ _ _ h.left h.right]
  have h3 : frobSq (Qᴴ * A) = ∑ i, S i ^ 2 * ∑ q, ‖(Qᴴ * U) q i‖ ^ 2 := by
    conv_lhs => rw [h.mul, ← Matrix.mul_assoc, ← Matrix.mul_assoc, frobSq_mul_coiso _ h.right, frobSq_mul_diagonal]
  have hcol : ∀ i : Fin r, ∑ q, ‖(Qᴴ * U) q i‖ ^ 2 ≤ 1 := by
    intro i
    let u : Matrix m Unit 𝕜 := of fun a _ => U a i
    have e1 : frobSq (Qᴴ * u) = ∑ q, ‖(Qᴴ * U) q i‖ ^ 2 := by
      unfold frobSq
      simp [u, mul_apply]
    have hu : uᴴ * u = 1 := by
      ext a b
      have := congrFun (congrFun h.left i) i
      rw [mul_apply, one_apply_eq] at this
      rw [mul_apply, one_apply, if_pos (Subsingleton.elim _ _), ← this]
      rfl
    have e2 : frobSq u = 1 := by rw [frobSq_iso u hu]; simp
    rw [← e1, ← e2]
    exact frobSq_isoH_mul_le Q hQ u
  have htot : ∑ i : Fin r, ∑ q, ‖(Qᴴ * U) q i‖ ^ 2 ≤ (Fintype.card l : ℝ) := by
    have e1 : ∑ i : Fin r, ∑ q, ‖(Qᴴ * U) q i‖ ^ 2 = frobSq (Qᴴ * U) := by
      unfold frobSq; rw [Finset.sum_comm]
    have e2 : frobSq (Qᴴ * U) = frobSq (Uᴴ * Q) := by
      rw [← frobSq_conjTranspose, conjTranspose_mul, conjTranspose_conjTranspose]
    rw [e1, e2]
    refine (frobSq_isoH_mul_le U h.left Q).trans ?_
    rw [frobSq_iso Q hQ, Fintype.card_fin]
    exact_mod_cast Nat.min_le_right _ _
  have h4 := sum_weights_le (fun i => S i ^ 2) (fun i => ∑ q, ‖(Qᴴ * U) q i‖ ^ 2) (Fintype.card l)
    (fun i => sq_nonneg _) (fun i j hij => pow_le_pow_left₀ (h.nonneg j) (h.sorted i j hij) 2)
    (fun i => by positivity) hcol htot
  rw [frobSq_sub_truncSVD A U S Vh h]
  have h5 : ∑ i : Fin r, S i ^ 2 = (∑ i : Fin r, if i.val < Fintype.card l then S i ^ 2 else 0) +
      ∑ i : Fin r, if i.val < Fintype.card l then 0 else S i ^ 2 := by
    rw [← Finset.sum_add_distrib]
    refine Finset.sum_congr rfl fun i _ => ?_
    split <;> simp
  linarith

/-- If `A` is a product through `k` indices then the truncated SVD is exact. -/
theorem truncSVD_exact {r : ℕ} (A : Matrix m n 𝕜) (U : Matrix m (Fin r) 𝕜) (S : Fin r → ℝ)
    (Vh : Matrix (Fin r) n 𝕜) (h : IsSVD A U S Vh) (X : Matrix m l 𝕜) (Y : Matrix l n 𝕜) (hA : A = X * Y) :
    truncSVD U S Vh (Fintype.card l) = A := by
  have h1 := eckart_young A U S Vh h X Y
  rw [← hA, sub_self] at h1
  have h2 : frobSq (A - truncSVD U S Vh (Fintype.card l)) = 0 :=
    le_antisymm (h1.trans (by rw [(frobSq_eq_zero (0 : Matrix m n 𝕜)).2 rfl])) (frobSq_nonneg _)
  exact (sub_eq_zero.1 ((frobSq_eq_zero _).1 h2)).symm

end AceTN
