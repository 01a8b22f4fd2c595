import Verif.Lemmas.SvdUnique
import Verif.Spec.LinkChange
import Mathlib.LinearAlgebra.Matrix.Kronecker

/-!
Singular vectors weighted with a function of their singular values, of a matrix and of the same matrix in other bases.
-/

set_option autoImplicit false

namespace AceTN

open Matrix Spec

variable {𝕜 : Type} [RCLike 𝕜] {m n : Type} [Fintype m] [Fintype n] [DecidableEq m] [DecidableEq n] {r : ℕ}

/-- In a descending sequence the positive entries come first. -/
theorem positive_first {S : Fin r → ℝ} (h0 : ∀ i, 0 ≤ S i) (hs : ∀ i j, i ≤ j → S j ≤ S i) (k : ℕ) (hk : k ≤ r) :
    ∃ p ≤ k, (∀ i : Fin r, i.val < p → 0 < S i) ∧ ∀ i : Fin r, p ≤ i.val → i.val < k → S i = 0 := by
  induction k with
  | zero => exact ⟨0, le_rfl, fun i hi => absurd hi (Nat.not_lt_zero _), fun i _ hi => absurd hi (Nat.not_lt_zero _)⟩
  | succ k ih =>
    obtain ⟨p, hp, h1, h2⟩ := ih (by omega)
    by_cases h : S ⟨k, by omega⟩ = 0
    · refine ⟨p, by omega, h1, fun i hi hi' => ?_⟩
      rcases Nat.lt_succ_iff_lt_or_eq.1 hi' with hlt | heq
      · exact h2 i hi hlt
      · rw [← h]
        exact congrArg S (Fin.ext heq)
    · refine ⟨k + 1, le_rfl, fun i hi => ?_, fun i hi hi' => absurd hi' (by omega)⟩
      exact lt_of_lt_of_le (lt_of_le_of_ne (h0 _) (Ne.symm h)) (hs i ⟨k, by omega⟩ (by
        show i.val ≤ k
        omega))

omit [DecidableEq m] [DecidableEq n] in
/-- Two decompositions of a matrix, of which `k` singular values are kept, with no tie where they are cut off: the kept singular
vectors, weighted with a function of the singular values that vanishes at zero, differ by a unitary that mixes vectors of equal
singular value only. -/
theorem svd_weighted' {A : Matrix m n 𝕜} {U U' : Matrix m (Fin r) 𝕜} {S : Fin r → ℝ} {Vh Vh' : Matrix (Fin r) n 𝕜}
    (h : IsSVD A U S Vh) (h' : IsSVD A U' S Vh') (k : ℕ) (hk : k ≤ r)
    (hcut : ∀ i j : Fin r, i.val < k → k ≤ j.val → S j = 0 ∨ S j < S i) (f : ℝ → 𝕜) (hf : f 0 = 0) :
    ∃ W : Matrix (Fin k) (Fin k) 𝕜, Unit2 W ∧
      (∀ a b, W a b ≠ 0 → S (Fin.castLE hk a) = S (Fin.castLE hk b) ∧ (a = b ∨ S (Fin.castLE hk a) ≠ 0)) ∧
      (∀ x a, U' x (Fin.castLE hk a) * f (S (Fin.castLE hk a)) =
        ∑ b, W b a * (U x (Fin.castLE hk b) * f (S (Fin.castLE hk b)))) ∧
      ∀ a y, Vh' (Fin.castLE hk a) y * f (S (Fin.castLE hk a)) =
        ∑ b, star (W b a) * (Vh (Fin.castLE hk b) y * f (S (Fin.castLE hk b))) := by
  obtain ⟨p, hp, h1, h2⟩ := positive_first h.nonneg h.sorted k hk
  obtain ⟨W, u1, u2, hW, e1, e2⟩ := svd_leading h h' p (hp.trans hk) h1 (by
    intro i j hi hj
    by_cases hjk : j.val < k
    · rw [h2 j hj hjk]
      exact h1 i hi
    · rcases hcut i j (by omega) (by omega) with hz | hz
      · rw [hz]
        exact h1 i hi
      · exact hz)
  obtain ⟨q, rfl⟩ := Nat.exists_eq_add_of_le hp
  have cl : ∀ a : Fin p, Fin.castLE hk (Fin.castAdd q a) = Fin.castLE (hp.trans hk) a := fun a => rfl
  have cr : ∀ b : Fin q, S (Fin.castLE hk (Fin.natAdd p b)) = 0 := fun b =>
    h2 _ (by simp) (by simp)
  have ha : ∀ a : Fin p, S (Fin.castLE hk (Fin.castAdd q a)) ≠ 0 := fun a => (h1 _ (by simp)).ne'
  refine ⟨(fromBlocks W 0 0 1).submatrix finSumFinEquiv.symm finSumFinEquiv.symm, ⟨?_, ?_⟩, ?_, ?_, ?_⟩
  · rw [conjTranspose_submatrix, submatrix_mul_equiv, fromBlocks_conjTranspose, fromBlocks_multiply]
    simp [u1]
  · rw [conjTranspose_submatrix, submatrix_mul_equiv, fromBlocks_conjTranspose, fromBlocks_multiply]
    simp [u2]
  · intro a b
    refine Fin.addCases (fun a => ?_) (fun a => ?_) a <;> refine Fin.addCases (fun b => ?_) (fun b => ?_) b
    · simp only [submatrix_apply, finSumFinEquiv_symm_apply_castAdd, fromBlocks_apply₁₁]
      exact fun hab => ⟨hW a b hab, Or.inr (ha a)⟩
    · simp
    · simp
    · intro hab
      refine ⟨by rw [cr, cr], Or.inl ?_⟩
      by_contra hne
      refine hab ?_
      simp only [submatrix_apply, finSumFinEquiv_symm_apply_natAdd, fromBlocks_apply₂₂]
      exact one_apply_ne fun e => hne (by rw [e])
  · intro x a
    refine Fin.addCases (fun a => ?_) (fun a => ?_) a
    · rw [Fin.sum_univ_add]
      simp only [submatrix_apply, finSumFinEquiv_symm_apply_castAdd, finSumFinEquiv_symm_apply_natAdd, fromBlocks_apply₁₁,
        fromBlocks_apply₂₁, Matrix.zero_apply, zero_mul, Finset.sum_const_zero, add_zero]
      have := congrFun (congrFun e1 x) a
      rw [mul_apply] at this
      simp only [submatrix_apply, id_eq] at this
      rw [cl, this, Finset.sum_mul]
      refine Finset.sum_congr rfl fun b _ => ?_
      by_cases hb : W b a = 0
      · simp [hb]
      · rw [cl, hW b a hb]
        ring
    · rw [cr, hf, mul_zero]
      symm
      refine Finset.sum_eq_zero fun b _ => ?_
      refine Fin.addCases (fun b => ?_) (fun b => ?_) b
      · simp
      · rw [cr, hf, mul_zero, mul_zero]
  · intro a y
    refine Fin.addCases (fun a => ?_) (fun a => ?_) a
    · rw [Fin.sum_univ_add]
      simp only [submatrix_apply, finSumFinEquiv_symm_apply_castAdd, finSumFinEquiv_symm_apply_natAdd, fromBlocks_apply₁₁,
        fromBlocks_apply₂₁, Matrix.zero_apply, star_zero, zero_mul, Finset.sum_const_zero, add_zero]
      have := congrFun (congrFun e2 a) y
      rw [mul_apply] at this
      simp only [submatrix_apply, id_eq, conjTranspose_apply] at this
      rw [cl, this, Finset.sum_mul]
      refine Finset.sum_congr rfl fun b _ => ?_
      by_cases hb : W b a = 0
      · simp [hb]
      · rw [cl, hW b a hb]
        ring
    · rw [cr, hf, mul_zero]
      symm
      refine Finset.sum_eq_zero fun b _ => ?_
      refine Fin.addCases (fun b => ?_) (fun b => ?_) b
      · simp
      · rw [cr, hf, mul_zero, mul_zero]

omit [DecidableEq m] [DecidableEq n] in
/-- The same, without what it says about vanishing singular values. -/
theorem svd_weighted {A : Matrix m n 𝕜} {U U' : Matrix m (Fin r) 𝕜} {S : Fin r → ℝ} {Vh Vh' : Matrix (Fin r) n 𝕜}
    (h : IsSVD A U S Vh) (h' : IsSVD A U' S Vh') (k : ℕ) (hk : k ≤ r)
    (hcut : ∀ i j : Fin r, i.val < k → k ≤ j.val → S j = 0 ∨ S j < S i) (f : ℝ → 𝕜) (hf : f 0 = 0) :
    ∃ W : Matrix (Fin k) (Fin k) 𝕜, Unit2 W ∧ (∀ a b, W a b ≠ 0 → S (Fin.castLE hk a) = S (Fin.castLE hk b)) ∧
      (∀ x a, U' x (Fin.castLE hk a) * f (S (Fin.castLE hk a)) =
        ∑ b, W b a * (U x (Fin.castLE hk b) * f (S (Fin.castLE hk b)))) ∧
      ∀ a y, Vh' (Fin.castLE hk a) y * f (S (Fin.castLE hk a)) =
        ∑ b, star (W b a) * (Vh (Fin.castLE hk b) y * f (S (Fin.castLE hk b))) := by
  obtain ⟨W, h1, h2, h3, h4⟩ := svd_weighted' h h' k hk hcut f hf
  exact ⟨W, h1, fun a b hab => (h2 a b hab).1, h3, h4⟩

theorem mapScalar_mul (σ : ScalarMap 𝕜) {a b c : Type} [Fintype b] (M : Matrix a b 𝕜) (N : Matrix b c 𝕜) :
    (M * N).map σ.f = M.map σ.f * N.map σ.f := by
  ext i j
  simp only [map_apply, mul_apply, map_sum, map_mul]

theorem mapScalar_conjTranspose (σ : ScalarMap 𝕜) {a b : Type} (M : Matrix a b 𝕜) : Mᴴ.map σ.f = (M.map σ.f)ᴴ := by
  ext i j
  simp only [map_apply, conjTranspose_apply, σ.star]

theorem mapScalar_one (σ : ScalarMap 𝕜) {a : Type} [DecidableEq a] : (1 : Matrix a a 𝕜).map σ.f = 1 := by
  ext i j
  rw [map_apply]
  by_cases hij : i = j
  · subst hij; simp
  · simp [hij]

/-- The decomposition of a matrix in other bases, up to a positive factor. -/
theorem svd_turned {A : Matrix m n 𝕜} {U : Matrix m (Fin r) 𝕜} {S : Fin r → ℝ} {Vh : Matrix (Fin r) n 𝕜} (h : IsSVD A U S Vh)
    (σ : ScalarMap 𝕜) {L : Matrix m m 𝕜} {R : Matrix n n 𝕜} (hL : Unit2 L) (hR : Unit2 R) {t : ℝ} (ht : 0 < t) :
    IsSVD ((t : 𝕜) • (L * A.map σ.f * R)) (L * U.map σ.f) (fun i => t * S i) (Vh.map σ.f * R) where
  mul := by
    have hd : (diagonal fun i => (S i : 𝕜)).map σ.f = diagonal fun i => (S i : 𝕜) := by
      rw [diagonal_map (map_zero σ.f)]
      congr 1
      funext i
      exact σ.real _
    have ht : (diagonal fun i => ((t * S i : ℝ) : 𝕜)) = (t : 𝕜) • diagonal fun i => (S i : 𝕜) := by
      rw [smul_eq_diagonal_mul, diagonal_mul_diagonal]
      congr 1
      funext i
      push_cast
      rfl
    rw [h.mul, mapScalar_mul, mapScalar_mul, hd, ht]
    simp only [Matrix.mul_smul, Matrix.smul_mul, Matrix.mul_assoc]
  left := by
    rw [conjTranspose_mul, Matrix.mul_assoc, ← Matrix.mul_assoc Lᴴ, hL.left, Matrix.one_mul, ← mapScalar_conjTranspose, ← mapScalar_mul,
      h.left, mapScalar_one]
  right := by
    rw [conjTranspose_mul, Matrix.mul_assoc, ← Matrix.mul_assoc R, hR.right, Matrix.one_mul, ← mapScalar_conjTranspose, ← mapScalar_mul,
      h.right, mapScalar_one]
  nonneg i := mul_nonneg ht.le (h.nonneg i)
  sorted i j hij := mul_le_mul_of_nonneg_left (h.sorted i j hij) ht.le

theorem Spec.Unit2.kron {a b : Type} [Fintype a] [Fintype b] [DecidableEq a] [DecidableEq b] {M : Matrix a a 𝕜} {N : Matrix b b 𝕜}
    (hM : Unit2 M) (hN : Unit2 N) : Unit2 (kroneckerMap (· * ·) M N) := by
  constructor
  · rw [conjTranspose_kronecker, ← mul_kronecker_mul, hM.left, hN.left, one_kronecker_one]
  · rw [conjTranspose_kronecker, ← mul_kronecker_mul, hM.right, hN.right, one_kronecker_one]

theorem Spec.Unit2.transpose {a : Type} [Fintype a] [DecidableEq a] {M : Matrix a a 𝕜} (hM : Unit2 M) : Unit2 Mᵀ := by
  constructor
  · have := congrArg Matrix.transpose hM.right
    rw [transpose_mul, transpose_one] at this
    exact this
  · have := congrArg Matrix.transpose hM.left
    rw [transpose_mul, transpose_one] at this
    exact this

end AceTN
