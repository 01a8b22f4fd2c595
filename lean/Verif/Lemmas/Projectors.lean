import Verif.Model.Projectors
import Verif.Props.Rsvd

/-! The algebra of the boundary projectors. -/

set_option autoImplicit false

namespace AceTN

open Matrix Spec

variable {𝕜 : Type} [RCLike 𝕜]

theorem maxAbs_pos {m n : Type} [Fintype m] [Fintype n] (A : Matrix m n 𝕜) (h : A ≠ 0) : 0 < maxAbs A := by
  unfold maxAbs
  rw [NNReal.coe_pos]
  by_contra hc
  apply h
  ext i j
  have h1 : ‖A i j‖₊ ≤ Finset.univ.sup fun i : m × n => ‖A i.1 i.2‖₊ :=
    Finset.le_sup (f := fun i : m × n => ‖A i.1 i.2‖₊) (Finset.mem_univ (i, j))
  have h2 : ‖A i j‖₊ = 0 := le_antisymm (h1.trans (not_lt.1 hc)) bot_le
  simpa using h2

theorem maxNormalise_eq {m n : Type} [Fintype m] [Fintype n] (A : Matrix m n 𝕜) (h : A ≠ 0) :
    A = ((maxAbs A : ℝ) : 𝕜) • maxNormalise A := by
  unfold maxNormalise
  rw [smul_smul, ← RCLike.ofReal_mul, mul_inv_cancel₀ (maxAbs_pos A h).ne', RCLike.ofReal_one, one_smul]

/-- A projector as a matrix from the three legs of the cut to the new bond. -/
def Spec.pmat {X B : Type} {k : ℕ} (p : X → B → B → Fin k → 𝕜) : Matrix (X × B × B) (Fin k) 𝕜 :=
  of fun i z => p i.1 i.2.1 i.2.2 z

section keep

variable {r : ℕ}

/-- The kept singular values are those above the cut-off. -/
theorem keep_gt (cutoff : ℝ) (chi : ℕ) (s : Fin r → ℝ) (hs : ∀ i j, i ≤ j → s j ≤ s i) (h0 : 0 < firstS s) (i : Fin r)
    (hi : i.val < keep cutoff chi s) : cutoff < s i / firstS s := by
  by_contra hc
  have hsub : (Finset.univ.filter fun j => cutoff < s j / firstS s) ⊆ Finset.univ.filter fun j : Fin r => j < i := by
    intro j hj
    rw [Finset.mem_filter] at hj ⊢
    refine ⟨hj.1, ?_⟩
    by_contra hij
    have h1 := hs i j (not_lt.1 hij)
    exact hc (hj.2.trans_le (div_le_div_of_nonneg_right h1 h0.le))
  have h2 := Finset.card_le_card hsub
  have h3 : (Finset.univ.filter fun j : Fin r => j < i).card = i.val := by
    rw [show (Finset.univ.filter fun j : Fin r => j < i) = Finset.Iio i by ext; simp, Fin.card_Iio]
  have h4 : keep cutoff chi s ≤ (Finset.univ.filter fun j => cutoff < s j / firstS s).card := Nat.min_le_right _ _
  omega

/-- Every value above the cut-off whose position is below `chi` is kept. -/
theorem lt_keep (cutoff : ℝ) (chi : ℕ) (s : Fin r → ℝ) (hs : ∀ i j, i ≤ j → s j ≤ s i) (h0 : 0 < firstS s) (i : Fin r)
    (hi : i.val < chi) (hc : cutoff < s i / firstS s) : i.val < keep cutoff chi s := by
  have hsub : (Finset.univ.filter fun j : Fin r => j ≤ i) ⊆ Finset.univ.filter fun j => cutoff < s j / firstS s := by
    intro j hj
    rw [Finset.mem_filter] at hj ⊢
    exact ⟨hj.1, hc.trans_le (div_le_div_of_nonneg_right (hs j i hj.2) h0.le)⟩
  have h2 := Finset.card_le_card hsub
  have h3 : (Finset.univ.filter fun j : Fin r => j ≤ i).card = i.val + 1 := by
    rw [show (Finset.univ.filter fun j : Fin r => j ≤ i) = Finset.Iic i by ext; simp, Fin.card_Iic]
  unfold keep
  omega

end keep

section core

variable {m n X B : Type} [Fintype m] [Fintype n] [Fintype X] [Fintype B] {r : ℕ}

omit [Fintype n] [Fintype X] [Fintype B] in
theorem pmat_proj1 (cutoff : ℝ) (chi : ℕ) (R1 : Matrix m (X × B × B) 𝕜) (R2 : Matrix (X × B × B) n 𝕜) [Fintype n]
    (x : LowRank m n r 𝕜) :
    (pmat (k := keep cutoff chi x.S) (projFromSvd cutoff chi R1 R2 x).proj1)ᵀ = (scaled cutoff chi x.S x.U)ᴴ * R1 := by
  ext z i
  rw [mul_apply]
  unfold pmat projFromSvd
  simp only [transpose_apply, of_apply, conjTranspose_apply]
  refine Finset.sum_congr rfl fun a _ => ?_
  rw [mul_comm]
  rfl

omit [Fintype n] [Fintype X] [Fintype B] in
theorem pmat_proj2 (cutoff : ℝ) (chi : ℕ) (R1 : Matrix m (X × B × B) 𝕜) (R2 : Matrix (X × B × B) n 𝕜) [Fintype n]
    (x : LowRank m n r 𝕜) :
    pmat (k := keep cutoff chi x.S) (projFromSvd cutoff chi R1 R2 x).proj2 = R2 * scaled cutoff chi x.S x.V := by
  ext i z
  rw [mul_apply]
  rfl

/-- The kept columns. -/
def kept {k : ℕ} (hk : k ≤ r) (V : Matrix n (Fin r) 𝕜) : Matrix n (Fin k) 𝕜 := V.submatrix id (Fin.castLE hk)

theorem kept_iso {k : ℕ} (hk : k ≤ r) (V : Matrix n (Fin r) 𝕜) (hV : Vᴴ * V = 1) : (kept hk V)ᴴ * kept hk V = 1 := by
  have : (kept hk V)ᴴ * kept hk V = (Vᴴ * V).submatrix (Fin.castLE hk) (Fin.castLE hk) := by
    ext i j
    rw [mul_apply, submatrix_apply, mul_apply]
    rfl
  rw [this, hV]
  exact submatrix_one _ (Fin.castLE_injective hk)

omit [Fintype n] [Fintype m] in
theorem scaled_eq (cutoff : ℝ) (chi : ℕ) (s : Fin r → ℝ) (U : Matrix m (Fin r) 𝕜) :
    scaled cutoff chi s U = kept (keep_le cutoff chi s) U * diagonal fun z =>
      ((1 / Real.sqrt (s (Fin.castLE (keep_le cutoff chi s) z) / firstS s) : ℝ) : 𝕜) := by
  ext i z
  rw [mul_diagonal]
  rfl

/-- Biorthogonality of the scaled singular vectors, and what their product inserts, for any factorised middle matrix. -/
theorem scaled_core (cutoff : ℝ) (hcut : 0 ≤ cutoff) (chi : ℕ) (M : Matrix m n 𝕜) (x : LowRank m n r 𝕜) (f : ℝ)
    (hleft : x.Uᴴ * M = (f : 𝕜) • (diagonal (fun i => (x.S i : 𝕜)) * x.Vᴴ)) (hV : x.Vᴴ * x.V = 1)
    (hs : ∀ i j, i ≤ j → x.S j ≤ x.S i) (h0 : 0 < firstS x.S) :
    (scaled cutoff chi x.S x.U)ᴴ * M * scaled cutoff chi x.S x.V = ((f * firstS x.S : ℝ) : 𝕜) • (1 : Matrix _ _ 𝕜) ∧
    scaled cutoff chi x.S x.V * (scaled cutoff chi x.S x.U)ᴴ * M =
      ((f * firstS x.S : ℝ) : 𝕜) • (kept (keep_le cutoff chi x.S) x.V * (kept (keep_le cutoff chi x.S) x.V)ᴴ) := by
  set hk := keep_le cutoff chi x.S
  set D : Matrix (Fin (keep cutoff chi x.S)) (Fin (keep cutoff chi x.S)) 𝕜 := diagonal fun z =>
    ((1 / Real.sqrt (x.S (Fin.castLE hk z) / firstS x.S) : ℝ) : 𝕜) with hD
  have hDH : Dᴴ = D := by
    rw [hD, diagonal_conjTranspose]
    congr 1
    funext z
    simp
  have hleft' : (kept hk x.U)ᴴ * M = (f : 𝕜) • (diagonal (fun z => (x.S (Fin.castLE hk z) : 𝕜)) * (kept hk x.V)ᴴ) := by
    have e1 : (kept hk x.U)ᴴ * M = (x.Uᴴ * M).submatrix (Fin.castLE hk) id := by
      ext i j
      rw [mul_apply, submatrix_apply, mul_apply]
      rfl
    rw [e1, hleft]
    ext i j
    simp [kept, diagonal_mul, RCLike.real_smul_eq_coe_mul]
  have hpos : ∀ z : Fin (keep cutoff chi x.S), 0 < x.S (Fin.castLE hk z) / firstS x.S := fun z =>
    hcut.trans_lt (keep_gt cutoff chi x.S hs h0 _ (by simp))
  have hsq : ∀ z : Fin (keep cutoff chi x.S),
      (1 / Real.sqrt (x.S (Fin.castLE hk z) / firstS x.S)) * (1 / Real.sqrt (x.S (Fin.castLE hk z) / firstS x.S)) *
        x.S (Fin.castLE hk z) = firstS x.S := by
    intro z
    have h1 := hpos z
    have h2 := Real.mul_self_sqrt h1.le
    have h3 : 0 < Real.sqrt (x.S (Fin.castLE hk z) / firstS x.S) := Real.sqrt_pos.2 h1
    rw [div_mul_div_comm, one_mul, h2, one_div, inv_div, div_mul_cancel₀]
    intro hz
    rw [hz, zero_div] at h1
    exact lt_irrefl _ h1
  have hDD : D * D * diagonal (fun z => (x.S (Fin.castLE hk z) : 𝕜)) = ((firstS x.S : ℝ) : 𝕜) • (1 : Matrix _ _ 𝕜) := by
    rw [hD, diagonal_mul_diagonal, diagonal_mul_diagonal, smul_one_eq_diagonal]
    congr 1
    funext z
    rw [← RCLike.ofReal_mul, ← RCLike.ofReal_mul, hsq]
  have hDS : D * diagonal (fun z => (x.S (Fin.castLE hk z) : 𝕜)) = diagonal (fun z => (x.S (Fin.castLE hk z) : 𝕜)) * D := by
    rw [hD, diagonal_mul_diagonal, diagonal_mul_diagonal]
    congr 1
    funext z
    rw [mul_comm]
  have hVk := kept_iso hk x.V hV
  rw [scaled_eq, scaled_eq, ← hD, conjTranspose_mul, hDH]
  constructor
  · rw [Matrix.mul_assoc D, hleft', Matrix.mul_smul, Matrix.smul_mul, Matrix.mul_assoc D, Matrix.mul_assoc _ (kept hk x.V)ᴴ,
      ← Matrix.mul_assoc (kept hk x.V)ᴴ, hVk, Matrix.one_mul, ← hDS, ← Matrix.mul_assoc, hDD, smul_smul, RCLike.ofReal_mul]
  · rw [Matrix.mul_assoc _ _ M, Matrix.mul_assoc D, hleft', Matrix.mul_smul, Matrix.mul_assoc, Matrix.mul_smul,
      ← Matrix.mul_assoc D D, Matrix.mul_smul, ← Matrix.mul_assoc (D * D), hDD, Matrix.smul_mul, Matrix.one_mul,
      Matrix.mul_smul, smul_smul, RCLike.ofReal_mul]

omit [Fintype m] in
/-- Projecting on the kept right singular vectors is truncating the SVD. -/
theorem mul_kept {k : ℕ} (hk : k ≤ r) (U : Matrix m (Fin r) 𝕜) (S : Fin r → ℝ) (V : Matrix n (Fin r) 𝕜)
    (hV : Vᴴ * V = 1) :
    U * diagonal (fun i => (S i : 𝕜)) * Vᴴ * (kept hk V * (kept hk V)ᴴ) = truncSVD U S Vᴴ k := by
  have e1 : kept hk V * (kept hk V)ᴴ = V * diagonal (fun i : Fin r => if i.val < k then (1 : 𝕜) else 0) * Vᴴ := by
    ext i j
    rw [mul_apply, mul_apply]
    simp only [mul_diagonal, conjTranspose_apply, kept, submatrix_apply, id]
    have e4 : ∀ x : Fin r, (V i x * if x.val < k then (1 : 𝕜) else 0) * star (V j x) =
        if x.val < k then V i x * star (V j x) else 0 := by
      intro x; split <;> simp
    simp only [e4]
    rw [← sum_castLE hk fun x => V i x * star (V j x)]
  rw [e1, Matrix.mul_assoc, ← Matrix.mul_assoc Vᴴ, ← Matrix.mul_assoc Vᴴ, hV, Matrix.one_mul, ← Matrix.mul_assoc,
    Matrix.mul_assoc U, diagonal_mul_diagonal]
  unfold truncSVD
  simp

end core

end AceTN
