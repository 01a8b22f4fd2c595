import Verif.Spec.Turned
import Verif.Lemmas.TurnLinAlg

/-!
The QR decomposition of a matrix and of the same matrix in other bases.
-/

set_option autoImplicit false

namespace AceTN

open Matrix Spec

variable {𝕜 : Type} [RCLike 𝕜] {sgn : Bool}

section allowed

variable {n m : Type} [Fintype n] [DecidableEq n] [Fintype m] [DecidableEq m]

theorem Spec.Allowed.one : Allowed sgn (1 : Matrix n n 𝕜) :=
  ⟨⟨by simp, by simp⟩, fun _ _ _ h => one_apply_ne h⟩

theorem Spec.Allowed.conjTranspose {W : Matrix n n 𝕜} (h : Allowed sgn W) : Allowed sgn Wᴴ :=
  ⟨⟨by rw [conjTranspose_conjTranspose]; exact h.unit.right, by rw [conjTranspose_conjTranspose]; exact h.unit.left⟩,
    fun hs i j hij => by rw [conjTranspose_apply, h.diag hs j i hij.symm, star_zero]⟩

theorem Spec.Allowed.transpose {W : Matrix n n 𝕜} (h : Allowed sgn W) : Allowed sgn Wᵀ :=
  ⟨h.unit.transpose, fun hs i j hij => by rw [transpose_apply, h.diag hs j i hij.symm]⟩

theorem Spec.Allowed.kron {W : Matrix n n 𝕜} {V : Matrix m m 𝕜} (h : Allowed sgn W) (h' : Allowed sgn V) :
    Allowed sgn (kroneckerMap (· * ·) W V) :=
  ⟨h.unit.kron h'.unit, fun hs i j hij => by
    rw [kroneckerMap_apply]
    by_cases h1 : i.1 = j.1
    · rw [h'.diag hs i.2 j.2 fun h2 => hij (Prod.ext h1 h2), mul_zero]
    · rw [h.diag hs i.1 j.1 h1, zero_mul]⟩

theorem unit2_conjTranspose {W : Matrix m n 𝕜} (h : Unit2 W) : Unit2 Wᴴ :=
  ⟨by rw [conjTranspose_conjTranspose]; exact h.right, by rw [conjTranspose_conjTranspose]; exact h.left⟩

/-- A square matrix with orthonormal columns. -/
theorem unit2_of_left {W : Matrix n n 𝕜} (h : Wᴴ * W = 1) : Unit2 W := ⟨h, mul_eq_one_comm.1 h⟩

end allowed

section qr

variable {m n : Type} [Fintype m] [Fintype n] [DecidableEq m] [DecidableEq n]

omit [DecidableEq n] in
/-- Everything follows from one equation. -/
theorem qr_turn_of {k : Type} [Fintype k] [DecidableEq k] {A : Matrix m n 𝕜} {L : Matrix m m 𝕜} {T : Matrix n n 𝕜} {Q Q' : Matrix m k 𝕜}
    {R R' : Matrix k n 𝕜} (h : IsQR A Q R) (h' : IsQR (L * A * T) Q' R') (hL : Unit2 L) (h1 : Q' * (Q'ᴴ * (L * Q)) = L * Q) :
    Unit2 (Q'ᴴ * (L * Q)) ∧ Q' = L * Q * (Q'ᴴ * (L * Q))ᴴ ∧ R' = Q'ᴴ * (L * Q) * R * T := by
  have hu : Unit2 (Q'ᴴ * (L * Q)) := by
    refine unit2_of_left ?_
    calc (Q'ᴴ * (L * Q))ᴴ * (Q'ᴴ * (L * Q)) = (L * Q)ᴴ * (Q' * (Q'ᴴ * (L * Q))) := by
          rw [conjTranspose_mul, conjTranspose_conjTranspose, Matrix.mul_assoc]
      _ = 1 := by rw [h1, conjTranspose_mul, Matrix.mul_assoc, ← Matrix.mul_assoc Lᴴ, hL.left, Matrix.one_mul, h.iso]
  refine ⟨hu, ?_, ?_⟩
  · calc Q' = Q' * (Q'ᴴ * (L * Q) * (Q'ᴴ * (L * Q))ᴴ) := by rw [hu.right, Matrix.mul_one]
      _ = _ := by rw [← Matrix.mul_assoc, h1]
  · calc R' = Q'ᴴ * Q' * R' := by rw [h'.iso, Matrix.one_mul]
      _ = Q'ᴴ * (L * A * T) := by rw [h'.mul, Matrix.mul_assoc]
      _ = _ := by
        rw [h.mul]
        simp only [Matrix.mul_assoc]

omit [DecidableEq m] in
/-- A factorisation of some columns determines the isometry. -/
theorem qr_range {k : Type} [Fintype k] [DecidableEq k] {Q Q' : Matrix m k 𝕜} {L : Matrix m m 𝕜} {R R' S : Matrix k k 𝕜}
    (hQ' : Q'ᴴ * Q' = 1) (h : L * Q * R = Q' * R') (hS : R * S = 1) :
    Q' * (Q'ᴴ * (L * Q)) = L * Q ∧ Q'ᴴ * (L * Q) = R' * S := by
  have e : L * Q = Q' * (R' * S) := by
    calc L * Q = L * Q * (R * S) := by rw [hS, Matrix.mul_one]
      _ = _ := by rw [← Matrix.mul_assoc, h, Matrix.mul_assoc]
  refine ⟨?_, ?_⟩
  · rw [e, ← Matrix.mul_assoc Q'ᴴ, hQ', Matrix.one_mul]
  · rw [e, ← Matrix.mul_assoc, hQ', Matrix.one_mul]

variable (ord : ∀ (n : Type) [Fintype n], n ≃ Fin (Fintype.card n))

theorem lead_injective (m n : Type) [Fintype m] [Fintype n] : Function.Injective (lead ord m n) := fun _ _ h =>
  Fin.castLE_injective _ ((ord n).symm.injective h)

omit [DecidableEq m] in
/-- Linearly independent columns are enough. -/
theorem qrUnique_of_left {A : Matrix m n 𝕜} {B : Matrix n m 𝕜} (h : B * A = 1) : QrUnique ord sgn A := by
  cases sgn with
  | false => exact Or.inr ⟨B, h⟩
  | true =>
    refine ⟨B.submatrix (lead ord m n) id, ?_⟩
    ext i j
    have := congrFun (congrFun h (lead ord m n i)) (lead ord m n j)
    rw [mul_apply] at this ⊢
    simp only [submatrix_apply, id_eq]
    rw [this, one_apply, one_apply]
    by_cases hij : i = j
    · rw [hij]; simp
    · rw [if_neg hij, if_neg fun e => hij (lead_injective ord m n e)]

/-- The QR decompositions of a matrix, by two libraries and in two bases. -/
theorem qr_turn (la la' : Lapack 𝕜) (hla : sgn = true → Triangular ord la ∧ Triangular ord la') {A : Matrix m n 𝕜} {L : Matrix m m 𝕜}
    {T : Matrix n n 𝕜} (hL : Unit2 L) (hT : Allowed sgn T) (hA : QrUnique ord sgn A) :
    ∃ W, Allowed sgn W ∧ (la'.qr (L * A * T)).1 = L * (la.qr A).1 * Wᴴ ∧ (la'.qr (L * A * T)).2 = W * (la.qr A).2 * T := by
  have h := la.qr_ok A
  have h' := la'.qr_ok (L * A * T)
  cases sgn with
  | false =>
    have key : (la'.qr (L * A * T)).1 * ((la'.qr (L * A * T)).1ᴴ * (L * (la.qr A).1)) = L * (la.qr A).1 := by
      rcases hA with hA | ⟨B, hB⟩
      · have hc : Fintype.card (Fin (min (Fintype.card m) (Fintype.card n))) = Fintype.card m := by
          rw [Fintype.card_fin, Nat.min_eq_left hA]
        have := (Matrix.mul_eq_one_comm_of_equiv (Fintype.equivOfCardEq hc)).1 h'.iso
        rw [← Matrix.mul_assoc, this, Matrix.one_mul]
      · have h1 : B * (la.qr A).1 * (la.qr A).2 = 1 := by rw [Matrix.mul_assoc, ← h.mul, hB]
        have hc : Fintype.card n = Fintype.card (Fin (min (Fintype.card m) (Fintype.card n))) := by
          have h2 : Fintype.card n ≤ Fintype.card (Fin (min (Fintype.card m) (Fintype.card n))) := by
            have := (rank_mul_le_left (B * (la.qr A).1) (la.qr A).2)
            rw [h1, rank_one] at this
            exact this.trans (rank_le_card_width _)
          rw [Fintype.card_fin] at h2 ⊢
          exact le_antisymm h2 (Nat.min_le_right _ _)
        have h2 := (Matrix.mul_eq_one_comm_of_equiv (Fintype.equivOfCardEq hc)).1 h1
        have h3 : L * (la.qr A).1 = (la'.qr (L * A * T)).1 * ((la'.qr (L * A * T)).2 * Tᴴ * (B * (la.qr A).1)) := by
          calc L * (la.qr A).1 = L * (la.qr A).1 * ((la.qr A).2 * (T * Tᴴ) * (B * (la.qr A).1)) := by
                rw [hT.unit.right, Matrix.mul_one, h2, Matrix.mul_one]
            _ = L * ((la.qr A).1 * (la.qr A).2) * T * Tᴴ * (B * (la.qr A).1) := by simp only [Matrix.mul_assoc]
            _ = _ := by
              rw [← h.mul]
              conv_lhs => rw [h'.mul]
              simp only [Matrix.mul_assoc]
        rw [h3, ← Matrix.mul_assoc (la'.qr _).1ᴴ, h'.iso, Matrix.one_mul]
    obtain ⟨hu, e1, e2⟩ := qr_turn_of h h' hL key
    exact ⟨_, ⟨hu, fun hs => absurd hs (by simp)⟩, e1, e2⟩
  | true =>
    obtain ⟨B, hB⟩ := hA
    obtain ⟨t1, t2⟩ := hla rfl
    set ι := lead ord m n with hι
    have hinj : Function.Injective ι := lead_injective ord m n
    set R0 := (la.qr A).2.submatrix id ι with hR0
    set R0' := (la'.qr (L * A * T)).2.submatrix id ι with hR0'
    set D := T.submatrix ι ι with hD
    have hd : ∀ {k : Type} (M : Matrix k n 𝕜), (M * T).submatrix id ι = M.submatrix id ι * D := by
      intro k M
      ext i j
      rw [submatrix_apply, mul_apply, mul_apply, Finset.sum_eq_single (ι j) (fun x _ hx => by rw [hT.diag rfl x (ι j) hx, mul_zero])
        (fun hx => absurd (Finset.mem_univ _) hx), Finset.sum_eq_single j (fun x _ hx => by
          rw [show D x j = T (ι x) (ι j) from rfl, hT.diag rfl _ _ fun e => hx (hinj e), mul_zero]) (fun hx => absurd (Finset.mem_univ _) hx)]
      rfl
    have hs : ∀ {k l : Type} [Fintype l] (M : Matrix k l 𝕜) (N : Matrix l n 𝕜), (M * N).submatrix id ι = M * N.submatrix id ι := fun M N => rfl
    have h1 : B * (la.qr A).1 * R0 = 1 := by
      rw [Matrix.mul_assoc, hR0, ← hs, ← h.mul]
      exact hB
    have h2 : R0 * (B * (la.qr A).1) = 1 := mul_eq_one_comm.1 h1
    have hDu : D * Dᴴ = 1 := by
      ext i j
      have := congrFun (congrFun hT.unit.right (ι i)) (ι j)
      rw [mul_apply, Finset.sum_eq_single (ι i) (fun x _ hx => by rw [hT.diag rfl _ _ hx.symm, zero_mul])
        (fun hx => absurd (Finset.mem_univ _) hx)] at this
      rw [mul_apply, Finset.sum_eq_single i (fun x _ hx => by
          rw [show D i x = T (ι i) (ι x) from rfl, hT.diag rfl _ _ fun e => hx (hinj e.symm), zero_mul]) (fun hx => absurd (Finset.mem_univ _) hx)]
      rw [hD, conjTranspose_apply, submatrix_apply, submatrix_apply, ← conjTranspose_apply, this, one_apply, one_apply]
      by_cases hij : i = j
      · rw [hij]; simp
      · rw [if_neg hij, if_neg fun e => hij (hinj e)]
    have h3 : L * (la.qr A).1 * (R0 * D) = (la'.qr (L * A * T)).1 * R0' := by
      have ha : A.submatrix id ι = (la.qr A).1 * R0 := by
        rw [hR0, ← hs, ← h.mul]
      rw [hR0', ← hs, ← h'.mul, hd, hs, ha]
      simp only [Matrix.mul_assoc]
    have hS : R0 * D * (Dᴴ * (B * (la.qr A).1)) = 1 := by
      rw [Matrix.mul_assoc, ← Matrix.mul_assoc D, hDu, Matrix.one_mul, h2]
    obtain ⟨k1, k2⟩ := qr_range h'.iso h3 hS
    obtain ⟨hu, e1, e2⟩ := qr_turn_of h h' hL k1
    refine ⟨_, ⟨hu, fun _ => ?_⟩, e1, e2⟩
    have ordι : ∀ i, (ord n (ι i)).val = i.val := fun i => by
      rw [hι]
      unfold lead
      rw [Equiv.apply_symm_apply]
      rfl
    have b1 : BlockTriangular (R0 * D) id := by
      refine BlockTriangular.mul (fun i j hij => t1 m n A i (ι j) ?_) fun i j hij => ?_
      · rw [ordι]; exact hij
      · exact hT.diag rfl _ _ fun e => (ne_of_gt hij) (hinj e)
    have b2 : BlockTriangular R0' id := fun i j hij => t2 m n _ i (ι j) (by rw [ordι]; exact hij)
    have b3 : BlockTriangular (Dᴴ * (B * (la.qr A).1)) id := by
      have : Invertible (R0 * D) := ⟨_, mul_eq_one_comm.1 hS, hS⟩
      have := blockTriangular_inv_of_blockTriangular b1
      rwa [inv_eq_right_inv hS] at this
    have b4 := b2.mul b3
    rw [← k2] at b4
    have b5 : BlockTriangular ((la'.qr (L * A * T)).1ᴴ * (L * (la.qr A).1))ᴴ id := by
      have : Invertible ((la'.qr (L * A * T)).1ᴴ * (L * (la.qr A).1)) := ⟨_, hu.left, hu.right⟩
      have := blockTriangular_inv_of_blockTriangular b4
      rwa [inv_eq_right_inv hu.right] at this
    intro i j hij
    rcases lt_or_gt_of_ne hij with hlt | hlt
    · have := b5 (i := j) (j := i) hlt
      rw [conjTranspose_apply, star_eq_zero] at this
      exact this
    · exact b4 hlt

end qr

end AceTN
