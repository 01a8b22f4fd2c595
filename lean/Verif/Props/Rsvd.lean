import Verif.Model.Rsvd
import Verif.Lemmas.EckartYoung
import Verif.Props.Split
import Verif.Lemmas.Svd

/-!
Properties C43 (the randomised SVD is a projected SVD, exact on captured matrices) and C44 (fused variants).
-/

set_option autoImplicit false

namespace AceTN

open Matrix

variable {𝕜 : Type} [RCLike 𝕜]
variable {m n k k1 k2 k3 : Type} [Fintype m] [Fintype n] [Fintype k] [Fintype k1] [Fintype k2] [Fintype k3]
  [DecidableEq m] [DecidableEq n]

/-- Specification: `(U, S, V)` is the SVD of the orthogonal projection `Q Qᴴ A` of `A` onto the range of `Q`, whose
columns are orthonormal: the factors have orthonormal columns, the singular values are non-negative and descend, and
`U diag(S) Vᴴ = Q Qᴴ A`. -/
structure Spec.IsProjectedSVD {q r : ℕ} (A : Matrix m n 𝕜) (Q : Matrix m (Fin q) 𝕜) (x : LowRank m n r 𝕜) : Prop where
  iso : Qᴴ * Q = 1
  left : x.Uᴴ * x.U = 1
  right : x.Vᴴ * x.V = 1
  nonneg : ∀ i, 0 ≤ x.S i
  sorted : ∀ i j, i ≤ j → x.S j ≤ x.S i
  mul : x.U * diagonal (fun i => (x.S i : 𝕜)) * x.Vᴴ = Q * (Qᴴ * A)
  /-- The left vectors applied to the input itself, whatever was captured. -/
  leftMul : x.Uᴴ * A = diagonal (fun i => (x.S i : 𝕜)) * x.Vᴴ

/-- Specification: the sample `Ω` captures the range of `A`: every column of `A` is a combination of the sampled
columns `A Ω`. -/
def Spec.Captures {q : ℕ} (A : Matrix m n 𝕜) (Ω : Matrix n (Fin q) 𝕜) : Prop := ∃ X, A = A * Ω * X

open Spec

omit [DecidableEq n] in
theorem qrQ_ok (la : Lapack 𝕜) {q : ℕ} (h : q ≤ Fintype.card m) (Y : Matrix m (Fin q) 𝕜) :
    (qrQ la h Y)ᴴ * qrQ la h Y = 1 ∧ ∃ R, Y = qrQ la h Y * R := by
  have hq := la.qr_ok Y
  constructor
  · unfold qrQ
    rw [conjTranspose_submatrix, show ((la.qr Y).1ᴴ.submatrix (Fin.cast (qr_cast h)) id *
      (la.qr Y).1.submatrix id (Fin.cast (qr_cast h))) = _ from
        submatrix_mul_equiv _ _ _ (Equiv.refl m) _, hq.iso]
    exact submatrix_one _ (Fin.cast_injective _)
  · refine ⟨(la.qr Y).2.submatrix (Fin.cast (qr_cast h)) id, ?_⟩
    unfold qrQ
    conv_lhs => rw [hq.mul]
    exact (submatrix_mul_equiv (la.qr Y).1 (la.qr Y).2 id (finCongr (qr_cast h)) id).symm

omit [DecidableEq m] in
/-- The projected SVD. -/
theorem projectedSvd_ok (la : Lapack 𝕜) {q : ℕ} (A : Matrix m n 𝕜) (Q : Matrix m (Fin q) 𝕜) (hQ : Qᴴ * Q = 1) :
    IsProjectedSVD A Q (projectedSvd la Q (Qᴴ * A)) := by
  have h := la.svd_ok (Qᴴ * A)
  unfold projectedSvd
  refine ⟨hQ, ?_, ?_, h.nonneg, h.sorted, ?_, ?_⟩
  · dsimp only
    rw [conjTranspose_mul, Matrix.mul_assoc, ← Matrix.mul_assoc _ Q, hQ, Matrix.one_mul, h.left]
  · dsimp only
    rw [conjTranspose_conjTranspose, h.right]
  · dsimp only
    rw [conjTranspose_conjTranspose, Matrix.mul_assoc, Matrix.mul_assoc, ← Matrix.mul_assoc _ _ (la.svd (Qᴴ * A)).2.2, ← h.mul]
  · dsimp only
    rw [conjTranspose_mul, Matrix.mul_assoc _ Qᴴ, conjTranspose_conjTranspose]
    conv_lhs => enter [2]; rw [h.mul]
    rw [← Matrix.mul_assoc, ← Matrix.mul_assoc, h.left, Matrix.one_mul]

/-- A power-iteration step that spans the image of the sample under `A Aᴴ`. -/
def Steps {q : ℕ} (A : Matrix m n 𝕜) (f : Matrix m (Fin q) 𝕜 → Matrix m (Fin q) 𝕜) : Prop :=
  ∀ Y, ∃ R, A * (Aᴴ * Y) = f Y * R

omit [DecidableEq n] in
theorem steps_iterate {q : ℕ} (A : Matrix m n 𝕜) (f : Matrix m (Fin q) 𝕜 → Matrix m (Fin q) 𝕜) (hf : Steps A f)
    (Y : Matrix m (Fin q) 𝕜) (niter : ℕ) : ∃ R, (A * Aᴴ) ^ niter * Y = f^[niter] Y * R := by
  induction niter with
  | zero => exact ⟨1, by simp⟩
  | succ i ih =>
    obtain ⟨R, hR⟩ := ih
    obtain ⟨R', hR'⟩ := hf (f^[i] Y)
    refine ⟨R' * R, ?_⟩
    rw [Function.iterate_succ_apply', ← Matrix.mul_assoc, ← hR', pow_succ', Matrix.mul_assoc, hR, ← Matrix.mul_assoc,
      ← Matrix.mul_assoc]

/-- `A` is in the range of its own power iterates. -/
theorem power_range (la : Lapack 𝕜) (A : Matrix m n 𝕜) (i : ℕ) : ∃ Z : Matrix n n 𝕜, A = (A * Aᴴ) ^ i * A * Z := by
  have h1 : ∃ V : Matrix n n 𝕜, A = A * Aᴴ * A * V := by
    have h := la.svd_ok A
    revert h
    generalize (la.svd A).1 = U
    generalize (la.svd A).2.1 = S
    generalize (la.svd A).2.2 = Vh
    intro h
    set D := diagonal (fun i => (S i : 𝕜)) with hD
    have hDH : Dᴴ = D := by
      rw [hD, diagonal_conjTranspose]
      congr 1
      funext i
      simp
    have e1 : Aᴴ = Vhᴴ * D * Uᴴ := by
      conv_lhs => rw [h.mul]
      rw [conjTranspose_mul, conjTranspose_mul, hDH, Matrix.mul_assoc]
    refine ⟨Vhᴴ * diagonal (fun i => if S i = 0 then 0 else ((S i : 𝕜) ^ 2)⁻¹) * Vh, ?_⟩
    have e2 : A * Aᴴ * A = U * (D * D * D) * Vh := by
      rw [e1, h.mul]
      calc U * D * Vh * (Vhᴴ * D * Uᴴ) * (U * D * Vh) = U * D * (Vh * Vhᴴ) * D * (Uᴴ * U) * D * Vh := by
            simp only [Matrix.mul_assoc]
        _ = _ := by rw [h.right, h.left]; simp only [Matrix.mul_assoc, Matrix.one_mul]
    rw [e2]
    calc A = U * D * Vh := h.mul
      _ = U * (D * D * D * diagonal (fun i => if S i = 0 then 0 else ((S i : 𝕜) ^ 2)⁻¹)) * Vh := by
          congr 2
          rw [hD, diagonal_mul_diagonal, diagonal_mul_diagonal, diagonal_mul_diagonal]
          congr 1
          funext i
          by_cases hi : S i = 0
          · simp [hi]
          · have : (S i : 𝕜) ≠ 0 := RCLike.ofReal_ne_zero.2 hi
            rw [if_neg hi]
            field_simp
      _ = U * (D * D * D) * (Vh * Vhᴴ) * diagonal (fun i => if S i = 0 then 0 else ((S i : 𝕜) ^ 2)⁻¹) * Vh := by
          rw [h.right]; simp only [Matrix.mul_assoc, Matrix.one_mul]
      _ = _ := by simp only [Matrix.mul_assoc]
  obtain ⟨V, hV⟩ := h1
  induction i with
  | zero => exact ⟨1, by simp⟩
  | succ i ih =>
    obtain ⟨Z, hZ⟩ := ih
    refine ⟨V * Z, ?_⟩
    rw [pow_succ]
    conv_lhs => rw [hZ]
    conv_lhs => enter [1, 2]; rw [hV]
    simp only [Matrix.mul_assoc]

/-- Common form of the three routines. -/
theorem lowrank_core (la : Lapack 𝕜) {q : ℕ} (hq : q ≤ Fintype.card m) (niter : ℕ) (A : Matrix m n 𝕜)
    (Ω : Matrix n (Fin q) 𝕜) (f : Matrix m (Fin q) 𝕜 → Matrix m (Fin q) 𝕜) (hf : Steps A f) :
    let Q := qrQ la hq (f^[niter] (A * Ω))
    IsProjectedSVD A Q (projectedSvd la Q (Qᴴ * A)) ∧
    (∃ R, (A * Aᴴ) ^ niter * A * Ω = Q * R) ∧
    (Captures A Ω → Q * (Qᴴ * A) = A) := by
  intro Q
  obtain ⟨hQ, R, hR⟩ := qrQ_ok la hq (f^[niter] (A * Ω))
  obtain ⟨R', hR'⟩ := steps_iterate A f hf (A * Ω) niter
  have hspan : (A * Aᴴ) ^ niter * A * Ω = Q * (R * R') := by
    rw [Matrix.mul_assoc, hR']
    conv_lhs => rw [hR]
    rw [Matrix.mul_assoc]
  refine ⟨projectedSvd_ok la A Q hQ, ⟨_, hspan⟩, ?_⟩
  rintro ⟨X, hX⟩
  obtain ⟨Z, hZ⟩ := power_range la A niter
  have h1 : A = Q * (R * R' * X * Z) := by
    conv_lhs => rw [hZ]
    conv_lhs => enter [1, 2]; rw [hX]
    rw [← Matrix.mul_assoc _ (A * Ω) X, ← Matrix.mul_assoc _ A Ω, hspan]
    simp only [Matrix.mul_assoc]
  conv_lhs => rw [h1]
  rw [← Matrix.mul_assoc Qᴴ, hQ, Matrix.one_mul, ← h1]

omit [DecidableEq n] in
theorem steps_plain (la : Lapack 𝕜) {q : ℕ} (hq : q ≤ Fintype.card m) (A : Matrix m n 𝕜) :
    Steps A fun Y : Matrix m (Fin q) 𝕜 => A * (Aᴴ * qrQ la hq Y) := by
  intro Y
  obtain ⟨-, R, hR⟩ := qrQ_ok la hq Y
  refine ⟨R, ?_⟩
  conv_lhs => rw [hR]
  simp only [Matrix.mul_assoc]

theorem steps_double (la : Lapack 𝕜) {q : ℕ} (hq : q ≤ Fintype.card m) (hq' : q ≤ Fintype.card n) (A : Matrix m n 𝕜) :
    Steps A fun Y : Matrix m (Fin q) 𝕜 => A * qrQ la hq' (Aᴴ * qrQ la hq Y) := by
  intro Y
  obtain ⟨-, R, hR⟩ := qrQ_ok la hq Y
  obtain ⟨-, R', hR'⟩ := qrQ_ok la hq' (Aᴴ * qrQ la hq Y)
  refine ⟨R' * R, ?_⟩
  conv_lhs => rw [hR]
  rw [← Matrix.mul_assoc Aᴴ]
  conv_lhs => enter [2, 1]; rw [hR']
  simp only [Matrix.mul_assoc]

/-- **C43.** For every matrix, target rank, number of power iterations and random draw, the randomised SVD is the SVD of
the orthogonal projection of the input onto a subspace that contains the sampled one, `(A Aᴴ)^niter A Ω`. -/
theorem C43_projected (la : Lapack 𝕜) (q niter : ℕ) (A : Matrix m n 𝕜) (Ω : Matrix n (Fin (clipRank m n q)) 𝕜) :
    ∃ Q : Matrix m (Fin (clipRank m n q)) 𝕜, IsProjectedSVD A Q (svdLowrank la q niter A Ω) ∧
      ∃ R, (A * Aᴴ) ^ niter * A * Ω = Q * R :=
  have h := lowrank_core la (clipRank_le_left q) niter A Ω _ (steps_plain la (clipRank_le_left q) A)
  ⟨_, h.1, h.2.1⟩

/-- **C43 (exactness).** If the draw captures the range, the result is an SVD of the input itself, whatever the number of
power iterations. -/
theorem C43_exact (la : Lapack 𝕜) (q niter : ℕ) (A : Matrix m n 𝕜) (Ω : Matrix n (Fin (clipRank m n q)) 𝕜)
    (hc : Captures A Ω) :
    let x := svdLowrank la q niter A Ω
    IsSVD A x.U x.S x.Vᴴ := by
  intro x
  have h := lowrank_core la (clipRank_le_left q) niter A Ω _ (steps_plain la (clipRank_le_left q) A)
  exact ⟨(h.1.mul.trans (h.2.2 hc)).symm, h.1.left, by rw [conjTranspose_conjTranspose]; exact h.1.right, h.1.nonneg, h.1.sorted⟩

/-- **C43 (capturing draws exist).** For every matrix that factors through the target rank there is a draw that captures
its range. -/
theorem C43_captures_exists {q : ℕ} (hq : q ≤ min (Fintype.card m) (Fintype.card n)) (A : Matrix m n 𝕜)
    (X : Matrix m (Fin q) 𝕜) (Y : Matrix (Fin q) n 𝕜) (hA : A = X * Y) : ∃ Ω : Matrix n (Fin q) 𝕜, Captures A Ω := by
  obtain ⟨la⟩ := nonempty_lapack (𝕜 := 𝕜)
  have h := la.svd_ok A
  have ht := truncSVD_exact A _ _ _ h X Y hA
  rw [Fintype.card_fin] at ht
  set U := (la.svd A).1
  set S := (la.svd A).2.1
  set Vh := (la.svd A).2.2
  refine ⟨(Vh.submatrix (Fin.castLE hq) id)ᴴ, Vh.submatrix (Fin.castLE hq) id, ?_⟩
  rw [Matrix.mul_assoc]
  have e : A * Vhᴴ = U * diagonal (fun i => (S i : 𝕜)) := by
    conv_lhs => rw [h.mul]
    rw [Matrix.mul_assoc, h.right, Matrix.mul_one]
  have e2 : (Vh.submatrix (Fin.castLE hq) id)ᴴ * Vh.submatrix (Fin.castLE hq) id =
      Vhᴴ * diagonal (fun i => if i.val < q then (1 : 𝕜) else 0) * Vh := by
    ext i j
    rw [mul_apply, mul_apply]
    simp only [mul_diagonal, conjTranspose_apply, submatrix_apply, id]
    have e4 : ∀ x : Fin (min (Fintype.card m) (Fintype.card n)), (star (Vh x i) * if x.val < q then (1 : 𝕜) else 0) * Vh x j =
        if x.val < q then star (Vh x i) * Vh x j else 0 := by
      intro x; split <;> simp
    simp only [e4]
    rw [← sum_castLE hq fun x => star (Vh x i) * Vh x j]
  rw [e2, Matrix.mul_assoc, ← Matrix.mul_assoc A, e]
  calc A = truncSVD U S Vh q := ht.symm
    _ = _ := by
      unfold truncSVD
      rw [Matrix.mul_assoc U (diagonal fun i => (S i : 𝕜)), ← Matrix.mul_assoc (diagonal _) (diagonal _) Vh,
        diagonal_mul_diagonal, Matrix.mul_assoc]
      simp

/-- **C44 (two matrices).** The fused routine returns exactly what the plain one returns on the product, for the same
draw. -/
theorem C44_fused (la : Lapack 𝕜) (q niter : ℕ) (A : Matrix m k 𝕜) (B : Matrix k n 𝕜)
    (Ω : Matrix n (Fin (clipRank m n q)) 𝕜) :
    fusedSvdLowrank la q niter A B Ω = svdLowrank la q niter (A * B) Ω := by
  unfold fusedSvdLowrank svdLowrank
  simp only [Matrix.mul_assoc, conjTranspose_mul]

/-- **C44 (four matrices).** The fused routine on four matrices returns the SVD of the orthogonal projection of their
product onto a subspace containing the sampled one. -/
theorem C44_fused3 (la : Lapack 𝕜) (q niter : ℕ) (A : Matrix m k1 𝕜) (B : Matrix k1 k2 𝕜) (C : Matrix k2 k3 𝕜)
    (D : Matrix k3 n 𝕜) (Ω : Matrix n (Fin (clipRank m n q)) 𝕜) :
    ∃ Q : Matrix m (Fin (clipRank m n q)) 𝕜,
      IsProjectedSVD (A * B * C * D) Q (fused3SvdLowrank la q niter A B C D Ω) ∧
      (∃ R, ((A * B * C * D) * (A * B * C * D)ᴴ) ^ niter * (A * B * C * D) * Ω = Q * R) ∧
      (Captures (A * B * C * D) Ω → Q * (Qᴴ * (A * B * C * D)) = A * B * C * D) := by
  have h := lowrank_core la (clipRank_le_left q) niter (A * B * C * D) Ω _
    (steps_double la (clipRank_le_left q) (clipRank_le_right q) (A * B * C * D))
  refine ⟨_, ?_, h.2.1, h.2.2⟩
  have e := h.1
  unfold fused3SvdLowrank
  simp only [Matrix.mul_assoc, conjTranspose_mul] at e ⊢
  exact e

/-- **C44 (four matrices, exactness).** -/
theorem C44_fused3_exact (la : Lapack 𝕜) (q niter : ℕ) (A : Matrix m k1 𝕜) (B : Matrix k1 k2 𝕜) (C : Matrix k2 k3 𝕜)
    (D : Matrix k3 n 𝕜) (Ω : Matrix n (Fin (clipRank m n q)) 𝕜) (hc : Captures (A * B * C * D) Ω) :
    let x := fused3SvdLowrank la q niter A B C D Ω
    IsSVD (A * B * C * D) x.U x.S x.Vᴴ := by
  intro x
  obtain ⟨Q, h, -, hex⟩ := C44_fused3 la q niter A B C D Ω
  exact ⟨(h.mul.trans (hex hc)).symm, h.left, by rw [conjTranspose_conjTranspose]; exact h.right, h.nonneg, h.sorted⟩

/-- Non-vacuity of the exactness theorems: a 2 × 3 matrix of rank one with target rank one has a capturing draw. -/
example : ∃ Ω : Matrix (Fin 3) (Fin (clipRank (Fin 2) (Fin 3) 1)) ℝ,
    Captures (of fun (i : Fin 2) (j : Fin 3) => ((i : ℝ) + 1) * ((j : ℝ) + 1)) Ω := by
  have h : clipRank (Fin 2) (Fin 3) 1 = 1 := by simp [clipRank]
  rw [h]
  refine C43_captures_exists (by simp) _ (of fun (i : Fin 2) (_ : Fin 1) => (i : ℝ) + 1)
    (of fun (_ : Fin 1) (j : Fin 3) => (j : ℝ) + 1) ?_
  ext i j
  simp [mul_apply]

end AceTN
