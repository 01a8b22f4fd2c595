import Verif.Lemmas.RandomDraw
import Verif.Spec.RandomDraw
import Verif.Props.Projectors
import Mathlib.Probability.Distributions.Gaussian.Real
import Mathlib.MeasureTheory.Constructions.BorelSpace.Complex

/-!
Property C77: a random draw captures every matrix of the sampled rank with probability one.
-/

set_option autoImplicit false

namespace AceTN

open Matrix Spec MeasureTheory

variable {𝕜 : Type} [RCLike 𝕜] [MeasurableSpace 𝕜] [BorelSpace 𝕜] {m n : Type} [Fintype m] [Fintype n]

section ae

variable (μ : Measure 𝕜) [SigmaFinite μ] [NullSingletonClass μ]

/-- The sample of orthonormal rows has a right inverse almost surely. -/
theorem ae_right_inverse {k q : ℕ} (hk : k ≤ q) (Y : Matrix (Fin k) n 𝕜) (hY : Y * Yᴴ = 1) :
    ∀ᵐ ω ∂iid μ n q, ∃ G : Matrix (Fin q) (Fin k) 𝕜, Y * drawn ω * G = 1 := by
  classical
  let P : MvPolynomial (n × Fin q) 𝕜 :=
    det (of fun i j : Fin k => ∑ a : n, MvPolynomial.C (Y i a) * MvPolynomial.X (a, Fin.castLE hk j))
  have ev : ∀ ω, MvPolynomial.eval ω P = det (Y * drawn ω * (1 : Matrix (Fin q) (Fin q) 𝕜).submatrix id (Fin.castLE hk)) := by
    intro ω
    show MvPolynomial.eval ω (det _) = _
    rw [RingHom.map_det]
    congr 1
    ext i j
    have e : (Y * drawn ω * (1 : Matrix (Fin q) (Fin q) 𝕜).submatrix id (Fin.castLE hk)) i j = (Y * drawn ω) i (Fin.castLE hk j) := by
      rw [mul_apply, Finset.sum_eq_single (Fin.castLE hk j)]
      · rw [submatrix_apply, id, one_apply_eq, mul_one]
      · intro b _ hb
        rw [submatrix_apply, id, one_apply_ne hb, mul_zero]
      · exact fun h => absurd (Finset.mem_univ _) h
    rw [e, mul_apply]
    simp [drawn]
  have hP : P ≠ 0 := by
    intro h0
    have h1 := ev fun x => if h : x.2.val < k then star (Y ⟨x.2.val, h⟩ x.1) else 0
    rw [h0, map_zero] at h1
    have e : Y * drawn (fun x : n × Fin q => if h : x.2.val < k then star (Y ⟨x.2.val, h⟩ x.1) else 0) *
        (1 : Matrix (Fin q) (Fin q) 𝕜).submatrix id (Fin.castLE hk) = 1 := by
      rw [← hY]
      ext i j
      rw [mul_apply, Finset.sum_eq_single (Fin.castLE hk j)]
      · rw [submatrix_apply, id, one_apply_eq, mul_one]
        simp [mul_apply, drawn]
      · intro b _ hb
        rw [submatrix_apply, id, one_apply_ne hb, mul_zero]
      · exact fun h => absurd (Finset.mem_univ _) h
    rw [e, det_one] at h1
    exact zero_ne_one h1
  refine (poly_ae (fun _ : n × Fin q => μ) P hP).mono fun ω hω => ?_
  rw [ev] at hω
  refine ⟨(1 : Matrix (Fin q) (Fin q) 𝕜).submatrix id (Fin.castLE hk) *
    (Y * drawn ω * (1 : Matrix (Fin q) (Fin q) 𝕜).submatrix id (Fin.castLE hk))⁻¹, ?_⟩
  rw [← Matrix.mul_assoc, Matrix.mul_nonsing_inv _ (Ne.isUnit hω)]

omit [MeasurableSpace 𝕜] [BorelSpace 𝕜] in
theorem rankLE_clip (A : Matrix m n 𝕜) (q : ℕ) (h : RankLE A q) : RankLE A (clipRank m n q) := by
  classical
  unfold clipRank
  rcases le_total q (min (Fintype.card m) (Fintype.card n)) with h1 | h1
  · rwa [min_eq_left h1]
  · rw [min_eq_right h1]
    rcases le_total (Fintype.card m) (Fintype.card n) with h2 | h2
    · rw [min_eq_left h2]
      refine ⟨(1 : Matrix m m 𝕜).submatrix id (Fintype.equivFin m).symm, A.submatrix (Fintype.equivFin m).symm id, ?_⟩
      rw [submatrix_mul_equiv, Matrix.one_mul, submatrix_id_id]
    · rw [min_eq_right h2]
      refine ⟨A.submatrix id (Fintype.equivFin n).symm, (1 : Matrix n n 𝕜).submatrix (Fintype.equivFin n).symm id, ?_⟩
      rw [submatrix_mul_equiv, Matrix.mul_one, submatrix_id_id]

/-- **C77 (captured).** A draw with independent entries of any distribution without atoms captures, with probability one, the range
of every matrix whose rank is at most the requested number of columns. -/
theorem C77_captured (q : ℕ) (A : Matrix m n 𝕜) (hA : RankLE A q) :
    ∀ᵐ ω ∂iid μ n (clipRank m n q), Captures A (drawn ω) := by
  classical
  obtain ⟨X, Y, hXY⟩ := rankLE_clip A q hA
  obtain ⟨la⟩ := nonempty_lapack (𝕜 := 𝕜)
  have h := la.svd_ok A
  have ht := truncSVD_exact A _ _ _ h X Y hXY
  rw [Fintype.card_fin] at ht
  set U := (la.svd A).1
  set S := (la.svd A).2.1
  set Vh := (la.svd A).2.2
  have hq : clipRank m n q ≤ min (Fintype.card m) (Fintype.card n) := by unfold clipRank; omega
  set Y1 := Vh.submatrix (Fin.castLE hq) id with hY1
  have h1 : Y1 * Y1ᴴ = 1 := by
    have : Y1 * Y1ᴴ = (Vh * Vhᴴ).submatrix (Fin.castLE hq) (Fin.castLE hq) := by
      ext i j
      rw [mul_apply, submatrix_apply, mul_apply]
      rfl
    rw [this, h.right]
    exact submatrix_one _ (Fin.castLE_injective hq)
  have h2 : A = (U * diagonal (fun i => (S i : 𝕜))).submatrix id (Fin.castLE hq) * Y1 := by
    rw [← ht]
    unfold truncSVD
    ext i j
    rw [mul_apply, mul_apply]
    simp only [mul_diagonal, submatrix_apply, id, hY1]
    have e4 : ∀ x : Fin (min (Fintype.card m) (Fintype.card n)), (U i x * if x.val < clipRank m n q then (S x : 𝕜) else 0) * Vh x j =
        if x.val < clipRank m n q then U i x * S x * Vh x j else 0 := by
      intro x; split <;> simp
    simp only [e4]
    rw [← sum_castLE hq fun x => U i x * S x * Vh x j]
  refine (ae_right_inverse μ le_rfl Y1 h1).mono fun ω ⟨G, hG⟩ => ?_
  refine ⟨G * Y1, ?_⟩
  conv_rhs => rw [h2]
  rw [Matrix.mul_assoc _ Y1, Matrix.mul_assoc _ (Y1 * _), ← Matrix.mul_assoc (Y1 * _), hG, Matrix.one_mul]
  exact h2

omit [MeasurableSpace 𝕜] [BorelSpace 𝕜] [Fintype m] in
/-- **C77 (only if).** No draw captures a matrix of larger rank. -/
theorem C77_only_low_rank {q : ℕ} (A : Matrix m n 𝕜) (Ω : Matrix n (Fin q) 𝕜) (h : Captures A Ω) : RankLE A q := by
  obtain ⟨X, hX⟩ := h
  exact ⟨_, _, hX⟩

/-- **C77 (not annihilated).** A draw with at least one column is not annihilated by a nonzero matrix, with probability one. -/
theorem C77_sampled {q : ℕ} (hq : 0 < q) (A : Matrix m n 𝕜) (hA : A ≠ 0) : ∀ᵐ ω ∂iid μ n q, A * drawn ω ≠ 0 := by
  classical
  obtain ⟨i, j, hij⟩ : ∃ i j, A i j ≠ 0 := by
    by_contra hn
    push Not at hn
    exact hA (by ext i j; exact hn i j)
  let P : MvPolynomial (n × Fin q) 𝕜 := ∑ a : n, MvPolynomial.C (A i a) * MvPolynomial.X (a, ⟨0, hq⟩)
  have ev : ∀ ω, MvPolynomial.eval ω P = (A * drawn ω) i ⟨0, hq⟩ := by
    intro ω
    rw [mul_apply]
    simp [P, drawn]
  have hP : P ≠ 0 := by
    intro h0
    have h1 := ev fun x => if x.1 = j then 1 else 0
    rw [h0, map_zero, mul_apply] at h1
    simp [drawn] at h1
    exact hij h1.symm
  refine (poly_ae (fun _ : n × Fin q => μ) P hP).mono fun ω hω h => hω ?_
  rw [ev, h, Matrix.zero_apply]

variable [DecidableEq m] [DecidableEq n]

/-- **C77 (randomised SVD).** With probability one the randomised SVD of a matrix whose rank is at most the requested one is an SVD of
the matrix, for any number of power iterations. -/
theorem C77_svd (q : ℕ) (A : Matrix m n 𝕜) (hA : RankLE A q) :
    ∀ᵐ ω ∂iid μ n (clipRank m n q), ∀ (la : Lapack 𝕜) (niter : ℕ),
      IsSVD A (svdLowrank la q niter A (drawn ω)).U (svdLowrank la q niter A (drawn ω)).S (svdLowrank la q niter A (drawn ω)).Vᴴ :=
  (C77_captured μ q A hA).mono fun _ h la niter => C43_exact la q niter A _ h

/-- **C77 (fused products).** The same for the two fused routines. -/
theorem C77_fused {k k1 k2 k3 : Type} [Fintype k] [Fintype k1] [Fintype k2] [Fintype k3] (q : ℕ) :
    (∀ (A : Matrix m k 𝕜) (B : Matrix k n 𝕜), RankLE (A * B) q → ∀ᵐ ω ∂iid μ n (clipRank m n q), ∀ (la : Lapack 𝕜) (niter : ℕ),
      IsSVD (A * B) (fusedSvdLowrank la q niter A B (drawn ω)).U (fusedSvdLowrank la q niter A B (drawn ω)).S
        (fusedSvdLowrank la q niter A B (drawn ω)).Vᴴ) ∧
    ∀ (A : Matrix m k1 𝕜) (B : Matrix k1 k2 𝕜) (C : Matrix k2 k3 𝕜) (D : Matrix k3 n 𝕜), RankLE (A * B * C * D) q →
      ∀ᵐ ω ∂iid μ n (clipRank m n q), ∀ (la : Lapack 𝕜) (niter : ℕ),
      IsSVD (A * B * C * D) (fused3SvdLowrank la q niter A B C D (drawn ω)).U (fused3SvdLowrank la q niter A B C D (drawn ω)).S
        (fused3SvdLowrank la q niter A B C D (drawn ω)).Vᴴ := by
  refine ⟨fun A B h => ?_, fun A B C D h => ?_⟩
  · refine (C77_captured μ q (A * B) h).mono fun _ h la niter => ?_
    rw [C44_fused]
    exact C43_exact la q niter (A * B) _ h
  · exact (C77_captured μ q _ h).mono fun _ h la niter => C44_fused3_exact la q niter A B C D _ h

variable {X B : Type} [Fintype X] [Fintype B]

/-- **C77 (half-system projectors).** With probability one they are biorthogonal and project the environment, and if the rank of the
environment is at most `chi + rsvd_oversampling` they are optimal, and exact if it is at most `chi`. -/
theorem C77_half (cutoff : ℝ) (hcut : 0 ≤ cutoff) (hcut1 : cutoff < 1) (chi : ℕ) (hchi : 0 < chi) (oversampling : ℕ)
    (Q1 : Matrix m (X × B × B) 𝕜) (Q4 : Matrix (X × B × B) n 𝕜) (h0 : Q1 * Q4 ≠ 0) :
    ∀ᵐ ω ∂iid μ n (clipRank m n (chi + oversampling)), ∀ (la : Lapack 𝕜) (niter : ℕ),
      (∃ c, Resolves Q1 Q4 (halfRsvd la cutoff chi oversampling niter Q1 Q4 (drawn ω)).proj1
        (halfRsvd la cutoff chi oversampling niter Q1 Q4 (drawn ω)).proj2 c) ∧
      (RankLE (Q1 * Q4) (chi + oversampling) → GoodCut Q1 Q4 cutoff chi (halfRsvd la cutoff chi oversampling niter Q1 Q4 (drawn ω))) := by
  have hq : 0 < clipRank m n (chi + oversampling) := by
    have hm : Nonempty m := by
      by_contra h
      rw [not_nonempty_iff] at h
      exact h0 (by ext i; exact (h.false i).elim)
    have hn : Nonempty n := by
      by_contra h
      rw [not_nonempty_iff] at h
      exact h0 (by ext i j; exact (h.false j).elim)
    have := Fintype.card_pos (α := m)
    have := Fintype.card_pos (α := n)
    unfold clipRank
    omega
  have h1 := C77_sampled μ hq _ h0
  by_cases hr : RankLE (Q1 * Q4) (chi + oversampling)
  · filter_upwards [h1, C77_captured μ _ _ hr] with ω a1 a2 la niter
    have := C45_half_rsvd la cutoff hcut hcut1 chi hchi oversampling niter Q1 Q4 _ a1
    exact ⟨this.1, fun _ => this.2 a2⟩
  · filter_upwards [h1] with ω a1 la niter
    have := C45_half_rsvd la cutoff hcut hcut1 chi hchi oversampling niter Q1 Q4 _ a1
    exact ⟨this.1, fun h => absurd h hr⟩

end ae

/-- Non-vacuity: the real and the complex normal distribution have no atoms. -/
example (q : ℕ) (A : Matrix m n ℝ) (hA : RankLE A q) :
    ∀ᵐ ω ∂iid (ProbabilityTheory.gaussianReal 0 1) n (clipRank m n q), Captures A (drawn ω) := by
  have := ProbabilityTheory.nullSingletonClass_gaussianReal (μ := 0) (v := 1) one_ne_zero
  exact C77_captured _ q A hA

example (q : ℕ) (A : Matrix m n ℂ) (hA : RankLE A q) :
    ∀ᵐ ω ∂iid (((ProbabilityTheory.gaussianReal 0 2⁻¹).prod (ProbabilityTheory.gaussianReal 0 2⁻¹)).map
      Complex.measurableEquivRealProd.symm) n (clipRank m n q), Captures A (drawn ω) := by
  have := ProbabilityTheory.nullSingletonClass_gaussianReal (μ := 0) (v := 2⁻¹) (by simp)
  have : NullSingletonClass (((ProbabilityTheory.gaussianReal 0 2⁻¹).prod (ProbabilityTheory.gaussianReal 0 2⁻¹)).map
      Complex.measurableEquivRealProd.symm) := ⟨fun x => by
    rw [MeasurableEquiv.map_apply]
    have : Complex.measurableEquivRealProd.symm ⁻¹' {x} = {Complex.measurableEquivRealProd x} := by
      ext y
      simp [Complex.ext_iff, Prod.ext_iff]
    rw [this]
    exact measure_singleton _⟩
  have : IsProbabilityMeasure (((ProbabilityTheory.gaussianReal 0 2⁻¹).prod (ProbabilityTheory.gaussianReal 0 2⁻¹)).map
      Complex.measurableEquivRealProd.symm) := Measure.isProbabilityMeasure_map Complex.measurableEquivRealProd.symm.measurable.aemeasurable
  exact C77_captured _ q A hA

end AceTN
