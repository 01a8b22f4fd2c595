import Verif.Model.LinAlg
import Mathlib.LinearAlgebra.Matrix.Charpoly.Basic
import Mathlib.LinearAlgebra.Matrix.Charpoly.Coeff
import Mathlib.Data.List.Sort
import Mathlib.Data.Matrix.ColumnRowPartitioned

/-!
How far the singular value decomposition of a matrix is determined: the singular values always, the leading singular vectors up
to a unitary change of basis whenever the singular values drop after them.
-/

set_option autoImplicit false

namespace AceTN

open Matrix Polynomial

variable {𝕜 : Type} [RCLike 𝕜]

theorem antitone_of_multiset {r : ℕ} (f g : Fin r → ℝ) (hf : ∀ i j, i ≤ j → f j ≤ f i) (hg : ∀ i j, i ≤ j → g j ≤ g i)
    (h : Finset.univ.val.map f = Finset.univ.val.map g) : f = g := by
  have e : ∀ f : Fin r → ℝ, Finset.univ.val.map f = (List.ofFn f : Multiset ℝ) := by
    intro f
    simp [List.ofFn_eq_map]
  rw [e, e, Multiset.coe_eq_coe] at h
  refine List.ofFn_injective (h.eq_of_pairwise (le := fun a b => b ≤ a) ?_ ?_ ?_)
  · intro a b _ _ h1 h2
    exact le_antisymm h2 h1
  · rw [List.pairwise_ofFn]
    exact fun i j hij => hf i j hij.le
  · rw [List.pairwise_ofFn]
    exact fun i j hij => hg i j hij.le

section

variable {m n : Type} [Fintype m] [Fintype n] [DecidableEq m] {r : ℕ}

theorem svd_charpoly {A : Matrix m n 𝕜} {U : Matrix m (Fin r) 𝕜} {S : Fin r → ℝ} {Vh : Matrix (Fin r) n 𝕜} (h : IsSVD A U S Vh) :
    X ^ r * (A * Aᴴ).charpoly = X ^ Fintype.card m * ∏ i, (X - C ((S i : 𝕜) ^ 2)) := by
  have e : A * Aᴴ = U * (diagonal (fun i => (S i : 𝕜) ^ 2) * Uᴴ) := by
    have hd : (diagonal fun i => (S i : 𝕜))ᴴ = diagonal fun i => (S i : 𝕜) := by
      rw [diagonal_conjTranspose]
      congr 1
      funext i
      simp
    rw [h.mul, conjTranspose_mul, conjTranspose_mul, hd]
    calc _ = U * (diagonal (fun i => (S i : 𝕜)) * (Vh * Vhᴴ) * diagonal (fun i => (S i : 𝕜)) * Uᴴ) := by
          simp only [Matrix.mul_assoc]
      _ = _ := by
          rw [h.right, Matrix.mul_one, diagonal_mul_diagonal]
          simp only [pow_two]
  have := charpoly_mul_comm' U (diagonal (fun i => (S i : 𝕜) ^ 2) * Uᴴ)
  rw [Fintype.card_fin] at this
  rw [e, this, Matrix.mul_assoc, h.left, Matrix.mul_one, charpoly_diagonal]

/-- Singular values are unique. -/
theorem svd_values {A : Matrix m n 𝕜} {U U' : Matrix m (Fin r) 𝕜} {S S' : Fin r → ℝ} {Vh Vh' : Matrix (Fin r) n 𝕜}
    (h : IsSVD A U S Vh) (h' : IsSVD A U' S' Vh') : S = S' := by
  have e := (svd_charpoly h).symm.trans (svd_charpoly h')
  have e := mul_left_cancel₀ (pow_ne_zero _ X_ne_zero) e
  have hp : ∀ S : Fin r → ℝ, ∏ i, (X - C ((S i : 𝕜) ^ 2)) =
      ((Finset.univ.val.map fun i => (S i : 𝕜) ^ 2).map fun a => X - C a).prod := by
    intro S
    rw [Multiset.map_map]
    rfl
  rw [hp, hp] at e
  have e := congrArg roots e
  rw [roots_multiset_prod_X_sub_C, roots_multiset_prod_X_sub_C] at e
  have e := congrArg (Multiset.map fun x : 𝕜 => Real.sqrt (RCLike.re x)) e
  rw [Multiset.map_map, Multiset.map_map] at e
  have hs : ∀ S : Fin r → ℝ, (∀ i, 0 ≤ S i) → ((fun x : 𝕜 => Real.sqrt (RCLike.re x)) ∘ fun i => (S i : 𝕜) ^ 2) = S := by
    intro S hS
    funext i
    show Real.sqrt (RCLike.re ((S i : 𝕜) ^ 2)) = S i
    rw [← RCLike.ofReal_pow, RCLike.ofReal_re, Real.sqrt_sq (hS i)]
  rw [hs S h.nonneg, hs S' h'.nonneg] at e
  exact antitone_of_multiset S S' h.sorted h'.sorted e

omit [DecidableEq m] in
/-- The leading singular vectors are unique up to a unitary that mixes vectors of equal singular value. -/
theorem svd_leading {A : Matrix m n 𝕜} {U U' : Matrix m (Fin r) 𝕜} {S : Fin r → ℝ} {Vh Vh' : Matrix (Fin r) n 𝕜}
    (h : IsSVD A U S Vh) (h' : IsSVD A U' S Vh') (k : ℕ) (hk : k ≤ r) (hpos : ∀ i : Fin r, i.val < k → 0 < S i)
    (hgap : ∀ i j : Fin r, i.val < k → k ≤ j.val → S j < S i) :
    ∃ W : Matrix (Fin k) (Fin k) 𝕜, Wᴴ * W = 1 ∧ W * Wᴴ = 1 ∧
      (∀ a b, W a b ≠ 0 → S (Fin.castLE hk a) = S (Fin.castLE hk b)) ∧
      U'.submatrix id (Fin.castLE hk) = U.submatrix id (Fin.castLE hk) * W ∧
      Vh'.submatrix (Fin.castLE hk) id = Wᴴ * Vh.submatrix (Fin.castLE hk) id := by
  set O : Matrix (Fin r) (Fin r) 𝕜 := Uᴴ * U' with hO
  set Q : Matrix (Fin r) (Fin r) 𝕜 := Vh * Vh'ᴴ with hQ
  set D : Matrix (Fin r) (Fin r) 𝕜 := diagonal fun i => (S i : 𝕜) with hD
  have hd : Dᴴ = D := by
    rw [hD, diagonal_conjTranspose]
    congr 1
    funext i
    simp
  have e1 : U' * D = U * D * Q := by
    calc U' * D = U' * D * (Vh' * Vh'ᴴ) := by rw [h'.right, Matrix.mul_one]
      _ = (U' * D * Vh') * Vh'ᴴ := by simp only [Matrix.mul_assoc]
      _ = (U * D * Vh) * Vh'ᴴ := by rw [← h'.mul, ← h.mul]
      _ = _ := by rw [Matrix.mul_assoc]
  have e2 : Vh'ᴴ * D = Vhᴴ * D * O := by
    have hA : Aᴴ * U' = Vh'ᴴ * D := by
      rw [h'.mul, conjTranspose_mul, conjTranspose_mul, hd]
      simp only [Matrix.mul_assoc]
      rw [h'.left, Matrix.mul_one]
    have hA' : Aᴴ * U' = Vhᴴ * D * O := by
      rw [h.mul, conjTranspose_mul, conjTranspose_mul, hd]
      simp only [Matrix.mul_assoc]
      rfl
    rw [← hA, hA']
  have f1 : O * D = D * Q := by
    rw [hO, Matrix.mul_assoc, e1]
    calc Uᴴ * (U * D * Q) = (Uᴴ * U) * (D * Q) := by simp only [Matrix.mul_assoc]
      _ = _ := by rw [h.left, Matrix.one_mul]
  have f2 : Q * D = D * O := by
    rw [hQ, Matrix.mul_assoc, e2]
    calc Vh * (Vhᴴ * D * O) = (Vh * Vhᴴ) * (D * O) := by simp only [Matrix.mul_assoc]
      _ = _ := by rw [h.right, Matrix.one_mul]
  have g1 : ∀ i j, O i j * (S j : 𝕜) = (S i : 𝕜) * Q i j := by
    intro i j
    have := congrFun (congrFun f1 i) j
    rwa [hD, mul_diagonal, diagonal_mul] at this
  have g2 : ∀ i j, Q i j * (S j : 𝕜) = (S i : 𝕜) * O i j := by
    intro i j
    have := congrFun (congrFun f2 i) j
    rwa [hD, mul_diagonal, diagonal_mul] at this
  -- entries between different singular values vanish
  have hne : ∀ i j, S i ≠ S j → O i j = 0 ∧ Q i j = 0 := by
    intro i j hij
    have hsq : ((S j : 𝕜) ^ 2 - (S i : 𝕜) ^ 2) ≠ 0 := by
      rw [sub_ne_zero]
      intro hc
      have hc : S j ^ 2 = S i ^ 2 := by exact_mod_cast hc
      rw [sq_eq_sq₀ (h.nonneg j) (h.nonneg i)] at hc
      exact hij hc.symm
    constructor
    · have : O i j * ((S j : 𝕜) ^ 2 - (S i : 𝕜) ^ 2) = 0 := by
        linear_combination (S j : 𝕜) * g1 i j + (S i : 𝕜) * g2 i j
      exact (mul_eq_zero.1 this).resolve_right hsq
    · have : Q i j * ((S j : 𝕜) ^ 2 - (S i : 𝕜) ^ 2) = 0 := by
        linear_combination (S j : 𝕜) * g2 i j + (S i : 𝕜) * g1 i j
      exact (mul_eq_zero.1 this).resolve_right hsq
  have heq : ∀ i j : Fin r, j.val < k → Q i j = O i j := by
    intro i j hj
    by_cases hij : S i = S j
    · have := g2 i j
      rw [hij, mul_comm] at this
      exact mul_left_cancel₀ (RCLike.ofReal_ne_zero.2 (hpos j hj).ne') this
    · rw [(hne i j hij).1, (hne i j hij).2]
  have hout : ∀ (i : Fin r) (j : Fin r), j.val < k → k ≤ i.val → O i j = 0 := by
    intro i j hj hi
    exact (hne i j (hgap j i hj hi).ne).1
  have hsum : ∀ (F : Fin r → 𝕜), (∀ i : Fin r, k ≤ i.val → F i = 0) → ∑ i, F i = ∑ w : Fin k, F (Fin.castLE hk w) := by
    intro F hF
    symm
    refine Finset.sum_of_injOn (Fin.castLE hk) (Fin.castLE_injective hk).injOn (by simp) ?_ (fun _ _ => rfl)
    intro i _ hi
    refine hF i ?_
    by_contra hc
    exact hi ⟨⟨i.val, by omega⟩, by simp, rfl⟩
  set W : Matrix (Fin k) (Fin k) 𝕜 := O.submatrix (Fin.castLE hk) (Fin.castLE hk) with hW
  have u1 : U'.submatrix id (Fin.castLE hk) = U.submatrix id (Fin.castLE hk) * W := by
    ext x z
    have hz : (Fin.castLE hk z).val < k := z.isLt
    have := congrFun (congrFun e1 x) (Fin.castLE hk z)
    rw [Matrix.mul_assoc, hD, mul_diagonal, mul_apply, hsum] at this
    · refine mul_right_cancel₀ (RCLike.ofReal_ne_zero.2 (hpos _ hz).ne') (this.trans ?_)
      rw [mul_apply, Finset.sum_mul]
      refine Finset.sum_congr rfl fun w _ => ?_
      rw [diagonal_mul, ← g1, ← mul_assoc]
      rfl
    · intro i hi
      rw [diagonal_mul, heq _ _ hz, hout _ _ hz hi, mul_zero, mul_zero]
  have u2 : Vh'.submatrix (Fin.castLE hk) id = Wᴴ * Vh.submatrix (Fin.castLE hk) id := by
    have : (Vh'ᴴ).submatrix id (Fin.castLE hk) = (Vhᴴ).submatrix id (Fin.castLE hk) * W := by
      ext x z
      have hz : (Fin.castLE hk z).val < k := z.isLt
      have := congrFun (congrFun e2 x) (Fin.castLE hk z)
      rw [Matrix.mul_assoc, hD, mul_diagonal, mul_apply, hsum] at this
      · refine mul_right_cancel₀ (RCLike.ofReal_ne_zero.2 (hpos _ hz).ne') (this.trans ?_)
        rw [mul_apply, Finset.sum_mul]
        refine Finset.sum_congr rfl fun w _ => ?_
        rw [diagonal_mul, ← g2, ← mul_assoc, heq _ _ hz]
        rfl
      · intro i hi
        rw [diagonal_mul, hout _ _ hz hi, mul_zero, mul_zero]
    have := congrArg conjTranspose this
    have c1 : ∀ M : Matrix (Fin r) n 𝕜, (Mᴴ.submatrix id (Fin.castLE hk))ᴴ = M.submatrix (Fin.castLE hk) id := by
      intro M
      ext i j
      simp
    rwa [conjTranspose_mul, c1, c1] at this
  have gram : ∀ (U : Matrix m (Fin r) 𝕜), Uᴴ * U = 1 →
      (U.submatrix id (Fin.castLE hk))ᴴ * U.submatrix id (Fin.castLE hk) = 1 := by
    intro U hU
    ext a b
    have := congrFun (congrFun hU (Fin.castLE hk a)) (Fin.castLE hk b)
    rw [mul_apply] at this
    rw [mul_apply]
    refine this.trans ?_
    rw [one_apply, one_apply]
    simp [Fin.castLE_inj]
  have hWW : Wᴴ * W = 1 := by
    have := gram U' h'.left
    rw [u1, conjTranspose_mul, Matrix.mul_assoc, ← Matrix.mul_assoc _ _ W, gram U h.left, Matrix.one_mul] at this
    exact this
  refine ⟨W, hWW, mul_eq_one_comm.1 hWW, fun a b hab => ?_, u1, u2⟩
  by_contra hc
  exact hab (hne _ _ hc).1

end

end AceTN
