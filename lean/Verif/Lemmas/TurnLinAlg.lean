import Verif.Lemmas.SvdGauge
import Mathlib.LinearAlgebra.Matrix.Block

/-!
Decompositions of a matrix and of the same matrix in other bases: eigenvalues, pseudo-inverses, triangular factors.
-/

set_option autoImplicit false

namespace AceTN

open Matrix Spec Polynomial

variable {𝕜 : Type} [RCLike 𝕜]

section eigh

variable {n : Type} [Fintype n] [DecidableEq n] {r : ℕ}

/-- Eigenvalues are unique. -/
theorem eigh_values {M : Matrix n n 𝕜} {w w' : Fin r → ℝ} {z z' : Matrix n (Fin r) 𝕜} (h : IsEigh M w z) (h' : IsEigh M w' z') :
    w = w' := by
  have key : ∀ (w : Fin r → ℝ) (z : Matrix n (Fin r) 𝕜), IsEigh M w z →
      X ^ r * M.charpoly = X ^ Fintype.card n * ∏ i, (X - C (w i : 𝕜)) := by
    intro w z h
    have := charpoly_mul_comm' z (diagonal (fun i => (w i : 𝕜)) * zᴴ)
    rw [Fintype.card_fin, ← Matrix.mul_assoc, ← h.mul, Matrix.mul_assoc, h.left, Matrix.mul_one, charpoly_diagonal] at this
    exact this
  have e := mul_left_cancel₀ (pow_ne_zero _ X_ne_zero) ((key w z h).symm.trans (key w' z' h'))
  have hp : ∀ S : Fin r → ℝ, ∏ i, (X - C (S i : 𝕜)) = ((Finset.univ.val.map fun i => (S i : 𝕜)).map fun a => X - C a).prod := by
    intro S
    rw [Multiset.map_map]
    rfl
  rw [hp, hp] at e
  have e := congrArg roots e
  rw [roots_multiset_prod_X_sub_C, roots_multiset_prod_X_sub_C] at e
  have e := congrArg (Multiset.map fun x : 𝕜 => -RCLike.re x) e
  rw [Multiset.map_map, Multiset.map_map] at e
  have hs : ∀ S : Fin r → ℝ, ((fun x : 𝕜 => -RCLike.re x) ∘ fun i => (S i : 𝕜)) = fun i => -S i := by
    intro S
    funext i
    simp
  rw [hs, hs] at e
  have := antitone_of_multiset _ _ (fun i j hij => neg_le_neg (h.sorted i j hij)) (fun i j hij => neg_le_neg (h'.sorted i j hij)) e
  funext i
  exact neg_injective (congrFun this i)

/-- A function of a Hermitian matrix does not depend on the choice of eigenvectors. -/
theorem eigh_function {M : Matrix n n 𝕜} {w : Fin r → ℝ} {z z' : Matrix n (Fin r) 𝕜} (h : IsEigh M w z) (h' : IsEigh M w z')
    (f : Fin r → 𝕜) (hf : ∀ i j, w i = w j → f i = f j) : z' * diagonal f * z'ᴴ = z * diagonal f * zᴴ := by
  set O : Matrix (Fin r) (Fin r) 𝕜 := zᴴ * z' with hO
  have e1 : z' = z * O := by rw [hO, ← Matrix.mul_assoc, h.right, Matrix.one_mul]
  have e2 : O * diagonal (fun i => (w i : 𝕜)) = diagonal (fun i => (w i : 𝕜)) * O := by
    have a1 : M * z' = z' * diagonal fun i => (w i : 𝕜) := by
      rw [h'.mul, Matrix.mul_assoc, h'.left, Matrix.mul_one]
    have a2 : zᴴ * M = diagonal (fun i => (w i : 𝕜)) * zᴴ := by
      rw [h.mul, ← Matrix.mul_assoc, ← Matrix.mul_assoc, h.left, Matrix.one_mul]
    rw [hO, Matrix.mul_assoc, ← a1, ← Matrix.mul_assoc, a2, Matrix.mul_assoc]
  have e3 : O * diagonal f = diagonal f * O := by
    ext i j
    have := congrFun (congrFun e2 i) j
    rw [mul_diagonal, diagonal_mul] at this ⊢
    by_cases hij : O i j = 0
    · rw [hij, mul_zero, zero_mul]
    · have : w i = w j := by
        have h0 : (w j : 𝕜) = w i := mul_left_cancel₀ hij (by rw [this, mul_comm])
        exact (RCLike.ofReal_inj.1 h0).symm
      rw [hf i j this, mul_comm]
  have e4 : O * Oᴴ = 1 := by
    rw [hO, conjTranspose_mul, conjTranspose_conjTranspose, Matrix.mul_assoc, ← Matrix.mul_assoc z', h'.right, Matrix.one_mul, h.left]
  rw [e1, conjTranspose_mul]
  calc z * O * diagonal f * (Oᴴ * zᴴ) = z * (O * diagonal f) * (Oᴴ * zᴴ) := by simp only [Matrix.mul_assoc]
    _ = z * diagonal f * (O * Oᴴ) * zᴴ := by rw [e3]; simp only [Matrix.mul_assoc]
    _ = _ := by rw [e4, Matrix.mul_one]

/-- The eigenvectors of a matrix in another basis. -/
theorem eigh_turned {M : Matrix n n 𝕜} {w : Fin r → ℝ} {z : Matrix n (Fin r) 𝕜} (h : IsEigh M w z) {K : Matrix n n 𝕜} (hK : Unit2 K) :
    IsEigh (K * M * Kᴴ) w (K * z) where
  mul := by
    conv_lhs => rw [h.mul]
    rw [conjTranspose_mul]
    simp only [Matrix.mul_assoc]
  left := by rw [conjTranspose_mul, Matrix.mul_assoc, ← Matrix.mul_assoc Kᴴ, hK.left, Matrix.one_mul, h.left]
  right := by rw [conjTranspose_mul, Matrix.mul_assoc, ← Matrix.mul_assoc z, h.right, Matrix.one_mul, hK.right]
  sorted := h.sorted

/-- The pseudo-inverse of a Hermitian matrix in another basis. -/
theorem pinvH_turned (la la' : Lapack 𝕜) (rcond : ℝ) {M : Matrix n n 𝕜} (hM : M.IsHermitian) {K : Matrix n n 𝕜} (hK : Unit2 K) :
    la'.pinvH rcond (K * M * Kᴴ) = K * la.pinvH rcond M * Kᴴ := by
  obtain ⟨w, z, h, e⟩ := la.pinvH_ok rcond M
  obtain ⟨w', z', h', e'⟩ := la'.pinvH_ok rcond (K * M * Kᴴ)
  rw [la.herm_of _ hM] at h
  rw [la'.herm_of _ (isHermitian_mul_mul_conjTranspose K hM)] at h'
  have ht := eigh_turned h hK
  obtain rfl := eigh_values ht h'
  rw [e, e', eigh_function ht h']
  · rw [conjTranspose_mul]
    simp only [Matrix.mul_assoc]
  · intro i j hij
    rw [hij]

end eigh

section pinv

variable {m n : Type} [Fintype m] [Fintype n] [DecidableEq m] [DecidableEq n] {r : ℕ}

omit [DecidableEq m] [DecidableEq n] in
/-- A weighted sum over pairs of singular vectors is determined by the matrix. -/
theorem svd_function {A : Matrix m n 𝕜} {U U' : Matrix m (Fin r) 𝕜} {S : Fin r → ℝ} {Vh Vh' : Matrix (Fin r) n 𝕜}
    (h : IsSVD A U S Vh) (h' : IsSVD A U' S Vh') (f : ℝ → 𝕜) (hf : f 0 = 0) :
    Vh'ᴴ * diagonal (fun i => f (S i)) * U'ᴴ = Vhᴴ * diagonal (fun i => f (S i)) * Uᴴ := by
  obtain ⟨p, hp, h1, h2⟩ := positive_first h.nonneg h.sorted r le_rfl
  obtain ⟨W, u1, u2, hW, e1, e2⟩ := svd_leading h h' p hp h1 (by
    intro i j hi hj
    rw [h2 j hj j.isLt]
    exact h1 i hi)
  have cut : ∀ (U : Matrix m (Fin r) 𝕜) (Vh : Matrix (Fin r) n 𝕜), Vhᴴ * diagonal (fun i => f (S i)) * Uᴴ =
      (Vh.submatrix (Fin.castLE hp) id)ᴴ * diagonal (fun i => f (S (Fin.castLE hp i))) * (U.submatrix id (Fin.castLE hp))ᴴ := by
    intro U Vh
    ext x y
    rw [mul_apply, mul_apply]
    simp only [mul_diagonal, conjTranspose_apply, submatrix_apply, id_eq]
    symm
    refine Finset.sum_of_injOn (Fin.castLE hp) (fun a _ b _ hab => Fin.castLE_injective hp hab) (fun _ _ => Finset.mem_coe.2 (Finset.mem_univ _)) ?_ (fun _ _ => rfl)
    intro i _ hi
    rw [h2 i ?_ i.isLt, hf, mul_zero, zero_mul]
    by_contra hlt
    exact hi ⟨⟨i.val, by omega⟩, by simp, rfl⟩
  have e3 : W * diagonal (fun i => f (S (Fin.castLE hp i))) = diagonal (fun i => f (S (Fin.castLE hp i))) * W := by
    ext a b
    rw [mul_diagonal, diagonal_mul]
    by_cases hab : W a b = 0
    · rw [hab, mul_zero, zero_mul]
    · rw [hW a b hab, mul_comm]
  rw [cut, cut, e1, e2, conjTranspose_mul, conjTranspose_mul, conjTranspose_conjTranspose]
  calc _ = (Vh.submatrix (Fin.castLE hp) id)ᴴ * (W * diagonal (fun i => f (S (Fin.castLE hp i)))) * (Wᴴ * (U.submatrix id (Fin.castLE hp))ᴴ) := by
        simp only [Matrix.mul_assoc]
    _ = (Vh.submatrix (Fin.castLE hp) id)ᴴ * diagonal (fun i => f (S (Fin.castLE hp i))) * (W * Wᴴ) * (U.submatrix id (Fin.castLE hp))ᴴ := by
        rw [e3]
        simp only [Matrix.mul_assoc]
    _ = _ := by rw [u2, Matrix.mul_one]

/-- The decomposition of a matrix in other bases. -/
theorem svd_turned' {A : Matrix m n 𝕜} {U : Matrix m (Fin r) 𝕜} {S : Fin r → ℝ} {Vh : Matrix (Fin r) n 𝕜} (h : IsSVD A U S Vh)
    {L : Matrix m m 𝕜} {R : Matrix n n 𝕜} (hL : Unit2 L) (hR : Unit2 R) : IsSVD (L * A * R) (L * U) S (Vh * R) where
  mul := by
    conv_lhs => rw [h.mul]
    simp only [Matrix.mul_assoc]
  left := by rw [conjTranspose_mul, Matrix.mul_assoc, ← Matrix.mul_assoc Lᴴ, hL.left, Matrix.one_mul, h.left]
  right := by rw [conjTranspose_mul, Matrix.mul_assoc, ← Matrix.mul_assoc R, hR.right, Matrix.one_mul, h.right]
  nonneg := h.nonneg
  sorted := h.sorted

/-- The pseudo-inverse of a matrix in other bases. -/
theorem pinv_turned (la la' : Lapack 𝕜) (atol : ℝ) (A : Matrix m n 𝕜) {L : Matrix m m 𝕜} {R : Matrix n n 𝕜} (hL : Unit2 L) (hR : Unit2 R) :
    la'.pinv atol (L * A * R) = Rᴴ * la.pinv atol A * Lᴴ := by
  obtain ⟨U, S, Vh, h, e⟩ := la.pinv_ok atol A
  obtain ⟨U', S', Vh', h', e'⟩ := la'.pinv_ok atol (L * A * R)
  have ht := svd_turned' h hL hR
  obtain rfl := svd_values ht h'
  rw [e, e']
  rw [svd_function ht h' (fun s => if atol < s then ((s : ℝ) : 𝕜)⁻¹ else 0) (by simp)]
  rw [conjTranspose_mul, conjTranspose_mul]
  simp only [Matrix.mul_assoc]

end pinv

end AceTN
