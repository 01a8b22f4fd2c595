import Verif.Lemmas.RsvdLimit
import Verif.Props.RandomDraw

/-!
Property C78: the error of the randomised SVD and of the projectors made with it.
-/

set_option autoImplicit false

namespace AceTN

open Matrix Spec MeasureTheory Filter

namespace Spec

variable {𝕜 : Type} [RCLike 𝕜] {m n : Type} [Fintype m] [Fintype n]

/-- The product `U diag(S) Vᴴ` of a decomposition. -/
def LowRank.product {r : ℕ} (x : LowRank m n r 𝕜) : Matrix m n 𝕜 := x.U * diagonal (fun i => (x.S i : 𝕜)) * x.Vᴴ

/-- The squared error of the best approximation of rank `k` of a matrix with the singular values `S`. -/
def tail {r : ℕ} (S : Fin r → ℝ) (k : ℕ) : ℝ := ∑ i, if i.val < k then 0 else S i ^ 2

/-- What the sample adds to the error of the best approximation of rank `k`, for `p` power iterations: `T` is the sample of the right
singular vectors, normalised such that its first `k` rows are the identity. -/
noncomputable def excess {r k : ℕ} (hk : k ≤ r) (S : Fin r → ℝ) (T : Matrix (Fin r) (Fin k) 𝕜) (p : ℕ) : ℝ :=
  ∑ i : Fin r, ∑ j : Fin k, if i.val < k then 0 else (S i / S (Fin.castLE hk j)) ^ (4 * p) * S i ^ 2 * ‖T i j‖ ^ 2

end Spec

variable {𝕜 : Type} [RCLike 𝕜] {m n : Type} [Fintype m] [Fintype n] [DecidableEq m] [DecidableEq n] {r : ℕ}

/-- **C78 (bound).** For every draw whose sample of the `k` leading right singular vectors has a right inverse `G`, the squared error of
the randomised SVD is that of the best approximation of rank `k` plus a term that contains the ratios of the singular values to the
power of four times the number of power iterations. -/
theorem C78_bound (la : Lapack 𝕜) (q niter : ℕ) (A : Matrix m n 𝕜) (Ω : Matrix n (Fin (clipRank m n q)) 𝕜)
    {U : Matrix m (Fin r) 𝕜} {S : Fin r → ℝ} {Vh : Matrix (Fin r) n 𝕜} (h : IsSVD A U S Vh) {k : ℕ} (hk : k ≤ r)
    (hpos : ∀ j : Fin k, 0 < S (Fin.castLE hk j)) (G : Matrix (Fin (clipRank m n q)) (Fin k) 𝕜)
    (hG : Vh.submatrix (Fin.castLE hk) id * Ω * G = 1) :
    frobSq (A - LowRank.product (svdLowrank la q niter A Ω)) ≤ tail S k + excess hk S (Vh * Ω * G) niter := by
  obtain ⟨Q, hQ, R, hR⟩ := C43_projected la q niter A Ω
  unfold LowRank.product
  rw [hQ.mul]
  exact range_error h hk hpos Ω G hG niter Q hQ.iso R hR

omit [DecidableEq m] [DecidableEq n] in
/-- **C78 (best approximation).** `tail` is the smallest error of all matrices of rank `k`. -/
theorem C78_tail {A : Matrix m n 𝕜} {U : Matrix m (Fin r) 𝕜} {S : Fin r → ℝ} {Vh : Matrix (Fin r) n 𝕜} (h : IsSVD A U S Vh) (k : ℕ) :
    (∀ (Y : Matrix m (Fin k) 𝕜) (Z : Matrix (Fin k) n 𝕜), tail S k ≤ frobSq (A - Y * Z)) ∧
    (k ≤ r → ∃ (Y : Matrix m (Fin k) 𝕜) (Z : Matrix (Fin k) n 𝕜), frobSq (A - Y * Z) = tail S k) := by
  refine ⟨fun Y Z => ?_, fun hk => ?_⟩
  · have := eckart_young A U S Vh h Y Z
    rwa [frobSq_sub_truncSVD A U S Vh h, Fintype.card_fin] at this
  · refine ⟨(U * diagonal (fun i => (S i : 𝕜))).submatrix id (Fin.castLE hk), Vh.submatrix (Fin.castLE hk) id, ?_⟩
    have e : (U * diagonal (fun i => (S i : 𝕜))).submatrix id (Fin.castLE hk) * Vh.submatrix (Fin.castLE hk) id = truncSVD U S Vh k := by
      unfold truncSVD
      ext i j
      rw [mul_apply, mul_apply]
      simp only [mul_diagonal, submatrix_apply, id]
      have e4 : ∀ x : Fin r, (U i x * if x.val < k then (S x : 𝕜) else 0) * Vh x j = if x.val < k then U i x * S x * Vh x j else 0 := by
        intro x; split <;> simp
      simp only [e4]
      rw [← sum_castLE hk fun x => U i x * S x * Vh x j]
    rw [e, frobSq_sub_truncSVD A U S Vh h]
    rfl

/-- **C78 (fused products).** The same bound for the two fused routines. -/
theorem C78_fused {l l1 l2 l3 : Type} [Fintype l] [Fintype l1] [Fintype l2] [Fintype l3] (la : Lapack 𝕜) (q niter : ℕ)
    (A : Matrix m n 𝕜) (Ω : Matrix n (Fin (clipRank m n q)) 𝕜)
    {U : Matrix m (Fin r) 𝕜} {S : Fin r → ℝ} {Vh : Matrix (Fin r) n 𝕜} (h : IsSVD A U S Vh) {k : ℕ} (hk : k ≤ r)
    (hpos : ∀ j : Fin k, 0 < S (Fin.castLE hk j)) (G : Matrix (Fin (clipRank m n q)) (Fin k) 𝕜)
    (hG : Vh.submatrix (Fin.castLE hk) id * Ω * G = 1) :
    (∀ (A1 : Matrix m l 𝕜) (A2 : Matrix l n 𝕜), A = A1 * A2 →
      frobSq (A - LowRank.product (fusedSvdLowrank la q niter A1 A2 Ω)) ≤ tail S k + excess hk S (Vh * Ω * G) niter) ∧
    ∀ (A1 : Matrix m l1 𝕜) (A2 : Matrix l1 l2 𝕜) (A3 : Matrix l2 l3 𝕜) (A4 : Matrix l3 n 𝕜), A = A1 * A2 * A3 * A4 →
      frobSq (A - LowRank.product (fused3SvdLowrank la q niter A1 A2 A3 A4 Ω)) ≤ tail S k + excess hk S (Vh * Ω * G) niter := by
  refine ⟨fun A1 A2 e => ?_, fun A1 A2 A3 A4 e => ?_⟩
  · rw [C44_fused, ← e]
    exact C78_bound la q niter A Ω h hk hpos G hG
  · obtain ⟨Q, hQ, ⟨R, hR⟩, -⟩ := C44_fused3 la q niter A1 A2 A3 A4 Ω
    rw [← e] at hQ hR
    unfold LowRank.product
    rw [hQ.mul]
    exact range_error h hk hpos Ω G hG niter Q hQ.iso R hR

/-- Truncating a projected SVD is as good as the best approximation up to the error of the projection. -/
theorem near_optimal {A : Matrix m n 𝕜} {q : ℕ} {Q : Matrix m (Fin q) 𝕜} {x : LowRank m n r 𝕜} (hQ : IsProjectedSVD A Q x) {k : ℕ} (hk : k ≤ r)
    (Y : Matrix m (Fin k) 𝕜) (Z : Matrix (Fin k) n 𝕜) :
    frobSq (A - A * (kept hk x.V * (kept hk x.V)ᴴ)) ≤ frobSq (A - Y * Z) + frobSq (A - LowRank.product x) := by
  set P := kept hk x.V * (kept hk x.V)ᴴ with hP
  have hPr : LowRank.product x = Q * (Qᴴ * A) := hQ.mul
  have hV := kept_iso hk x.V hQ.right
  have cut : ∀ M : Matrix m n 𝕜, frobSq (M - M * P) ≤ frobSq M := by
    intro M
    have := frobSq_pyth (kept hk x.V) hV Mᴴ
    have e : Mᴴ - kept hk x.V * ((kept hk x.V)ᴴ * Mᴴ) = (M - M * P)ᴴ := by
      rw [conjTranspose_sub, conjTranspose_mul, hP, conjTranspose_mul, conjTranspose_conjTranspose, Matrix.mul_assoc]
    rw [e, frobSq_conjTranspose, frobSq_conjTranspose] at this
    linarith [frobSq_nonneg ((kept hk x.V)ᴴ * Mᴴ)]
  rw [frobSq_pyth Q hQ.iso (A - A * P)]
  have e1 : A - A * P - Q * (Qᴴ * (A - A * P)) = (A - LowRank.product x) - (A - LowRank.product x) * P := by
    rw [hPr, Matrix.mul_sub, Matrix.mul_sub, Matrix.sub_mul]
    simp only [Matrix.mul_assoc]
    abel
  have e2 : frobSq (Qᴴ * (A - A * P)) = frobSq (LowRank.product x - LowRank.product x * P) := by
    rw [← frobSq_iso_mul Q hQ.iso, hPr, Matrix.mul_sub, Matrix.mul_sub]
    simp only [Matrix.mul_assoc]
  have hx : IsSVD (LowRank.product x) x.U x.S x.Vᴴ :=
    ⟨rfl, hQ.left, by rw [conjTranspose_conjTranspose]; exact hQ.right, hQ.nonneg, hQ.sorted⟩
  have e3 : LowRank.product x * P = truncSVD x.U x.S x.Vᴴ k := by
    exact mul_kept hk x.U x.S x.V hQ.right
  have e4 := eckart_young _ _ _ _ hx (Q * (Qᴴ * Y)) Z
  rw [Fintype.card_fin, ← e3] at e4
  have e5 : frobSq (LowRank.product x - Q * (Qᴴ * Y) * Z) ≤ frobSq (A - Y * Z) := by
    have : LowRank.product x - Q * (Qᴴ * Y) * Z = Q * (Qᴴ * (A - Y * Z)) := by
      rw [hPr, Matrix.mul_sub, Matrix.mul_sub]
      simp only [Matrix.mul_assoc]
    rw [this, frobSq_iso_mul Q hQ.iso]
    exact frobSq_isoH_mul_le Q hQ.iso _
  have e6 := cut (A - LowRank.product x)
  rw [e1, e2]
  linarith

section half

variable {X B : Type} [Fintype X] [Fintype B]

/-- **C78 (half-system projectors).** For every draw that is not annihilated by the environment, inserting the projectors is as good as
any other truncation to the same dimension up to the error of the randomised SVD. -/
theorem C78_half (la : Lapack 𝕜) (cutoff : ℝ) (hcut : 0 ≤ cutoff) (chi oversampling niter : ℕ) (Q1 : Matrix m (X × B × B) 𝕜)
    (Q4 : Matrix (X × B × B) n 𝕜) (Ω : Matrix n (Fin (clipRank m n (chi + oversampling))) 𝕜) (hΩ : Q1 * Q4 * Ω ≠ 0) :
    ∃ c, Resolves Q1 Q4 (halfRsvd la cutoff chi oversampling niter Q1 Q4 Ω).proj1 (halfRsvd la cutoff chi oversampling niter Q1 Q4 Ω).proj2 c ∧
      ∀ (Y : Matrix m (Fin (halfRsvd la cutoff chi oversampling niter Q1 Q4 Ω).cD) 𝕜)
        (Z : Matrix (Fin (halfRsvd la cutoff chi oversampling niter Q1 Q4 Ω).cD) n 𝕜),
        frobSq (Q1 * Q4 - ((c⁻¹ : ℝ) : 𝕜) • (Q1 * pmat (halfRsvd la cutoff chi oversampling niter Q1 Q4 Ω).proj2 *
          (pmat (halfRsvd la cutoff chi oversampling niter Q1 Q4 Ω).proj1)ᵀ * Q4)) ≤
        frobSq (Q1 * Q4 - Y * Z) + frobSq (Q1 * Q4 - LowRank.product (fusedSvdLowrank la (chi + oversampling) niter Q1 Q4 Ω)) := by
  obtain ⟨Q, hQ, hR⟩ := C43_projected la (chi + oversampling) niter (Q1 * Q4) Ω
  have hp : halfRsvd la cutoff chi oversampling niter Q1 Q4 Ω =
      projFromSvd cutoff chi Q1 Q4 (svdLowrank la (chi + oversampling) niter (Q1 * Q4) Ω) := by
    show projFromSvd cutoff chi Q1 Q4 _ = _
    rw [C44_fused]
  have h0 := projected_pos _ Q Ω niter _ hQ hR hΩ
  rw [hp, C44_fused]
  revert hQ h0
  generalize svdLowrank la (chi + oversampling) niter (Q1 * Q4) Ω = x
  intro hQ h0
  obtain ⟨h1, h2, h3⟩ := resolves_core cutoff hcut chi Q1 Q1 Q4 Q4 1 1 1 one_pos (by simp) (by simp) x
    (by rw [hQ.leftMul, RCLike.ofReal_one, one_smul]) hQ.right hQ.sorted h0 _ _
    (pmat_proj1 cutoff chi Q1 Q4 x) (pmat_proj2 cutoff chi Q1 Q4 x)
  refine ⟨_, ⟨h1, h2, _, kept_iso _ _ hQ.right, h3⟩, fun Y Z => ?_⟩
  refine le_of_eq_of_le ?_ (near_optimal hQ (keep_le cutoff chi x.S) Y Z)
  refine congrArg (fun M => frobSq (Q1 * Q4 - M)) ((congrArg (fun M => (((1 * firstS x.S)⁻¹ : ℝ) : 𝕜) • M) h3).trans ?_)
  rw [smul_smul, ← RCLike.ofReal_mul, inv_mul_cancel₀ h1.ne', RCLike.ofReal_one, one_smul]

end half

section ae

variable [MeasurableSpace 𝕜] [BorelSpace 𝕜] (μ : Measure 𝕜) [SigmaFinite μ] [NullSingletonClass μ]

omit [DecidableEq m] [DecidableEq n] [MeasurableSpace 𝕜] [BorelSpace 𝕜] [Fintype m] in
theorem rows_iso {Vh : Matrix (Fin r) n 𝕜} (h : Vh * Vhᴴ = 1) {k : ℕ} (hk : k ≤ r) :
    Vh.submatrix (Fin.castLE hk) id * (Vh.submatrix (Fin.castLE hk) id)ᴴ = 1 := by
  have : Vh.submatrix (Fin.castLE hk) id * (Vh.submatrix (Fin.castLE hk) id)ᴴ = (Vh * Vhᴴ).submatrix (Fin.castLE hk) (Fin.castLE hk) := by
    ext i j
    rw [mul_apply, submatrix_apply, mul_apply]
    rfl
  rw [this, h]
  exact submatrix_one _ (Fin.castLE_injective hk)

omit [DecidableEq n] in
/-- What the three routines have in common: in the limit the range of the sampled matrix is as good as any of rank `k`. -/
theorem range_converges {q : ℕ} (A : Matrix m n 𝕜) {U : Matrix m (Fin r) 𝕜} {S : Fin r → ℝ} {Vh : Matrix (Fin r) n 𝕜} (h : IsSVD A U S Vh)
    {k : ℕ} (hkq : k ≤ q) :
    ∀ᵐ ω ∂iid μ n q, ∀ ε > 0, ∃ N, ∀ niter ≥ N, ∀ (Q : Matrix m (Fin q) 𝕜) (_ : Qᴴ * Q = 1) (R : Matrix (Fin q) (Fin q) 𝕜),
      (A * Aᴴ) ^ niter * A * drawn ω = Q * R → frobSq (A - Q * (Qᴴ * A)) ≤ tail S k + ε := by
  obtain ⟨k', hk', hk, hpos, ht⟩ := drop_zeros S h.nonneg h.sorted k
  refine (ae_right_inverse μ (hk'.trans hkq) _ (rows_iso h.right hk)).mono fun ω ⟨G, hG⟩ ε hε => ?_
  obtain ⟨N, hN⟩ := range_error_limit h hk hpos (drawn ω) G hG hε
  refine ⟨N, fun niter hn Q hQ R hR => (hN niter hn Q hQ R hR).trans (le_of_eq ?_)⟩
  rw [ht]
  rfl

/-- **C78 (convergence).** With probability one, the error of the randomised SVD converges with the number of power iterations to that of
the best approximations of rank `k`, for every `k` up to the requested rank and every spectrum; how many iterations are needed does not
depend on the library. -/
theorem C78_converges (q : ℕ) (A : Matrix m n 𝕜) {k : ℕ} (hkq : k ≤ clipRank m n q) :
    ∀ᵐ ω ∂iid μ n (clipRank m n q), ∀ ε > 0, ∃ N, ∀ niter ≥ N, ∀ (la : Lapack 𝕜) (Y : Matrix m (Fin k) 𝕜) (Z : Matrix (Fin k) n 𝕜),
      frobSq (A - LowRank.product (svdLowrank la q niter A (drawn ω))) ≤ frobSq (A - Y * Z) + ε := by
  obtain ⟨l0⟩ := nonempty_lapack (𝕜 := 𝕜)
  have h := l0.svd_ok A
  refine (range_converges μ A h hkq).mono fun ω hω ε hε => ?_
  obtain ⟨N, hN⟩ := hω ε hε
  refine ⟨N, fun niter hn la Y Z => ?_⟩
  obtain ⟨Q, hQ, R, hR⟩ := C43_projected la q niter A (drawn ω)
  unfold LowRank.product
  rw [hQ.mul]
  exact (hN niter hn Q hQ.iso R hR).trans (add_le_add ((C78_tail h k).1 Y Z) le_rfl)

/-- **C78 (convergence of the fused routines).** -/
theorem C78_fused_converges {l l1 l2 l3 : Type} [Fintype l] [Fintype l1] [Fintype l2] [Fintype l3] (q : ℕ) (A : Matrix m n 𝕜) {k : ℕ}
    (hkq : k ≤ clipRank m n q) :
    ∀ᵐ ω ∂iid μ n (clipRank m n q), ∀ ε > 0, ∃ N, ∀ niter ≥ N, ∀ (la : Lapack 𝕜) (Y : Matrix m (Fin k) 𝕜) (Z : Matrix (Fin k) n 𝕜),
      (∀ (A1 : Matrix m l 𝕜) (A2 : Matrix l n 𝕜), A = A1 * A2 →
        frobSq (A - LowRank.product (fusedSvdLowrank la q niter A1 A2 (drawn ω))) ≤ frobSq (A - Y * Z) + ε) ∧
      ∀ (A1 : Matrix m l1 𝕜) (A2 : Matrix l1 l2 𝕜) (A3 : Matrix l2 l3 𝕜) (A4 : Matrix l3 n 𝕜), A = A1 * A2 * A3 * A4 →
        frobSq (A - LowRank.product (fused3SvdLowrank la q niter A1 A2 A3 A4 (drawn ω))) ≤ frobSq (A - Y * Z) + ε := by
  obtain ⟨l0⟩ := nonempty_lapack (𝕜 := 𝕜)
  have h := l0.svd_ok A
  refine (range_converges μ A h hkq).mono fun ω hω ε hε => ?_
  obtain ⟨N, hN⟩ := hω ε hε
  refine ⟨N, fun niter hn la Y Z => ⟨fun A1 A2 e => ?_, fun A1 A2 A3 A4 e => ?_⟩⟩
  · rw [C44_fused, ← e]
    obtain ⟨Q, hQ, R, hR⟩ := C43_projected la q niter A (drawn ω)
    unfold LowRank.product
    rw [hQ.mul]
    exact (hN niter hn Q hQ.iso R hR).trans (add_le_add ((C78_tail h k).1 Y Z) le_rfl)
  · obtain ⟨Q, hQ, ⟨R, hR⟩, -⟩ := C44_fused3 la q niter A1 A2 A3 A4 (drawn ω)
    rw [← e] at hQ hR
    unfold LowRank.product
    rw [hQ.mul]
    exact (hN niter hn Q hQ.iso R hR).trans (add_le_add ((C78_tail h k).1 Y Z) le_rfl)

/-- **C78 (projectors, with probability one).** With more power iterations the error of the truncation comes as close as wanted to the
best error plus the weight of the singular values after the sampled ones. -/
theorem C78_half_converges {X B : Type} [Fintype X] [Fintype B] (cutoff : ℝ) (hcut : 0 ≤ cutoff) (chi oversampling : ℕ)
    (Q1 : Matrix m (X × B × B) 𝕜) (Q4 : Matrix (X × B × B) n 𝕜) (h0 : Q1 * Q4 ≠ 0) {U : Matrix m (Fin r) 𝕜} {S : Fin r → ℝ}
    {Vh : Matrix (Fin r) n 𝕜} (h : IsSVD (Q1 * Q4) U S Vh) (hq : 0 < clipRank m n (chi + oversampling)) :
    ∀ᵐ ω ∂iid μ n (clipRank m n (chi + oversampling)), ∀ ε > 0, ∃ N, ∀ niter ≥ N, ∀ la : Lapack 𝕜,
      ∃ c, Resolves Q1 Q4 (halfRsvd la cutoff chi oversampling niter Q1 Q4 (drawn ω)).proj1
          (halfRsvd la cutoff chi oversampling niter Q1 Q4 (drawn ω)).proj2 c ∧
        ∀ (Y : Matrix m (Fin (halfRsvd la cutoff chi oversampling niter Q1 Q4 (drawn ω)).cD) 𝕜)
          (Z : Matrix (Fin (halfRsvd la cutoff chi oversampling niter Q1 Q4 (drawn ω)).cD) n 𝕜),
          frobSq (Q1 * Q4 - ((c⁻¹ : ℝ) : 𝕜) • (Q1 * pmat (halfRsvd la cutoff chi oversampling niter Q1 Q4 (drawn ω)).proj2 *
            (pmat (halfRsvd la cutoff chi oversampling niter Q1 Q4 (drawn ω)).proj1)ᵀ * Q4)) ≤
          frobSq (Q1 * Q4 - Y * Z) + tail S (clipRank m n (chi + oversampling)) + ε := by
  filter_upwards [range_converges μ (Q1 * Q4) h le_rfl, C77_sampled μ hq _ h0] with ω hω hΩ ε hε
  obtain ⟨N, hN⟩ := hω ε hε
  refine ⟨N, fun niter hn la => ?_⟩
  obtain ⟨c, hc, hopt⟩ := C78_half la cutoff hcut chi oversampling niter Q1 Q4 _ hΩ
  refine ⟨c, hc, fun Y Z => (hopt Y Z).trans ?_⟩
  rw [add_assoc]
  refine add_le_add le_rfl ?_
  rw [C44_fused]
  obtain ⟨Q, hQ, R, hR⟩ := C43_projected la (chi + oversampling) niter (Q1 * Q4) (drawn ω)
  unfold LowRank.product
  rw [hQ.mul]
  exact hN niter hn Q hQ.iso R hR

end ae

/-- Non-vacuity: a diagonal matrix whose second and third singular value agree, two sampled columns; the best error of rank two is 4. -/
example : ∃ (U : Matrix (Fin 3) (Fin 3) ℝ) (S : Fin 3 → ℝ) (Vh : Matrix (Fin 3) (Fin 3) ℝ),
    IsSVD (diagonal ![3, 2, 2]) U S Vh ∧ (∀ j : Fin 2, 0 < S (Fin.castLE (by omega) j)) ∧ 2 ≤ clipRank (Fin 3) (Fin 3) 2 ∧ tail S 2 = 4 := by
  refine ⟨1, ![3, 2, 2], 1, ⟨by simp, by simp, by simp, ?_, ?_⟩, ?_, by simp [clipRank], ?_⟩
  · intro i
    fin_cases i <;> simp
  · intro i j
    fin_cases i <;> fin_cases j <;> (simp; try norm_num)
  · intro j
    fin_cases j <;> simp
  · simp [tail, Fin.sum_univ_three]
    norm_num

end AceTN
