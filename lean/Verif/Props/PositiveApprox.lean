import Verif.Model.FullUpdate
import Verif.Lemmas.Eigh
import Verif.Lemmas.Svd

/-! C33: the positive approximation of the norm tensor. -/

set_option autoImplicit false

namespace AceTN

open Full Matrix

variable {𝕜 : Type} [RCLike 𝕜]

section loop

variable {n : Type} [Fintype n] [DecidableEq n] [Nonempty n]

/-- One shift suffices, for every cutoff (negative ones too). -/
theorem posLoop_two (la : Lapack 𝕜) (cutoff : ℝ) (fuel : ℕ) (A : Matrix n n 𝕜) :
    ∃ (t : ℝ) (w : Fin (Fintype.card n) → ℝ) (z : Matrix n (Fin (Fintype.card n)) 𝕜),
      posLoop la cutoff (fuel + 2) A = some (w, z) ∧ 0 ≤ t ∧ IsEigh (la.herm A + (t : 𝕜) • 1) w z ∧
      (∀ k, cutoff ≤ w k) ∧ (Spec.AtLeast (la.herm A) cutoff → t = 0) := by
  have h0 := la.eigh_ok A
  by_cases hlt : (la.eigh A).1 ⟨0, Fintype.card_pos⟩ < cutoff
  · set nw0 := (la.eigh A).1 ⟨0, Fintype.card_pos⟩ with hnw0
    set t := 2 * max cutoff |nw0| with ht
    have h1 := la.eigh_ok (A + (t : 𝕜) • 1)
    rw [la.herm_add] at h1
    have hge : ∀ k, cutoff ≤ (la.eigh (A + (t : 𝕜) • 1)).1 k := by
      refine eigh_of_atLeast h1 cutoff ?_
      have hA : Spec.AtLeast (la.herm A) nw0 := atLeast_of_eigh h0 _ fun k => h0.sorted _ _ (Fin.mk_le_of_le_val (Nat.zero_le _))
      have hs := atLeast_add hA t
      have hle : cutoff ≤ nw0 + t := by
        have h1 := le_max_left cutoff |nw0|
        have h2 := le_max_right cutoff |nw0|
        have h3 := neg_abs_le nw0
        have h4 := abs_nonneg nw0
        rw [ht]; linarith
      intro v
      exact (mul_le_mul_of_nonneg_right hle (normSq_nonneg v)).trans (hs v)
    refine ⟨t, _, _, ?_, ?_, h1, hge, ?_⟩
    · simp only [posLoop]
      rw [if_pos hlt, if_neg (not_lt.2 (hge _))]
    · rw [ht]
      have := (abs_nonneg nw0).trans (le_max_right cutoff |nw0|)
      linarith
    · intro h
      exact absurd (eigh_of_atLeast h0 _ h ⟨0, Fintype.card_pos⟩) (not_le.2 hlt)
  · refine ⟨0, (la.eigh A).1, (la.eigh A).2, ?_, le_refl _, ?_, ?_, fun _ => rfl⟩
    · simp only [posLoop]
      rw [if_neg hlt]
    · simpa using h0
    · intro k
      exact (not_lt.1 hlt).trans (h0.sorted _ _ (Fin.mk_le_of_le_val (Nat.zero_le _)))

end loop

variable {N : Type} [Fintype N] [DecidableEq N] [Nonempty N]

/-- **C33** (termination).  The loop ends after at most two tests of its condition, i.e. at most one shift, for all
norm tensors and cutoffs. -/
theorem C33_terminates (la : Lapack 𝕜) (cutoff : ℝ) (fuel : ℕ) (n12 : N → N → N → N → 𝕜) :
    (positiveApprox la (fuel + 2) cutoff n12).isSome = true := by
  obtain ⟨t, w, z, h, -⟩ := posLoop_two la cutoff fuel (normMat n12)
  unfold positiveApprox
  rw [h]
  rfl

/-- **C33** (result).  The tensor rebuilt from the returned square root is the Hermitian norm tensor that was passed
(the triangle read by the eigensolver) plus a non-negative multiple of the identity; it is Hermitian, its eigenvalues are
at least the cutoff, and nothing is added if the eigenvalues already were. -/
theorem C33_result (la : Lapack 𝕜) (cutoff : ℝ) (hc : 0 ≤ cutoff) (fuel : ℕ) (n12 : N → N → N → N → 𝕜)
    (nz : N → N → Fin (Fintype.card (N × N)) → 𝕜) (h : positiveApprox la (fuel + 2) cutoff n12 = some nz) :
    ∃ t : ℝ, 0 ≤ t ∧ normMat (squareNorm nz) = la.herm (normMat n12) + (t : 𝕜) • 1 ∧
      (normMat (squareNorm nz)).IsHermitian ∧ Spec.AtLeast (normMat (squareNorm nz)) cutoff ∧
      (Spec.AtLeast (la.herm (normMat n12)) cutoff → t = 0) := by
  obtain ⟨t, w, z, h1, h2, h3, h4, h5⟩ := posLoop_two la cutoff fuel (normMat n12)
  unfold positiveApprox at h
  rw [h1] at h
  have hnz := (Option.some.inj h).symm
  have e : normMat (squareNorm nz) = la.herm (normMat n12) + (t : 𝕜) • 1 := by
    rw [h3.mul, hnz]
    ext a b
    rw [mul_apply]
    simp only [normMat, squareNorm, of_apply]
    refine Finset.sum_congr rfl fun k _ => ?_
    rw [mul_diagonal]
    have hs : ((Real.sqrt (w k) : ℝ) : 𝕜) * ((Real.sqrt (w k) : ℝ) : 𝕜) = (w k : 𝕜) := by
      rw [← RCLike.ofReal_mul, Real.mul_self_sqrt (hc.trans (h4 k))]
    simp only [Pi.star_apply, star_mul', RCLike.star_def, RCLike.conj_ofReal, conjTranspose_apply]
    rw [← hs]
    ring
  refine ⟨t, h2, e, ?_, ?_, h5⟩
  · rw [e]; exact h3.isHermitian
  · rw [e]; exact atLeast_of_eigh h3 _ h4

/-- **C33** (no change).  A Hermitian norm tensor whose eigenvalues are at least the cutoff is returned unchanged. -/
theorem C33_unchanged (la : Lapack 𝕜) (cutoff : ℝ) (hc : 0 ≤ cutoff) (fuel : ℕ) (n12 : N → N → N → N → 𝕜)
    (nz : N → N → Fin (Fintype.card (N × N)) → 𝕜) (h : positiveApprox la (fuel + 2) cutoff n12 = some nz)
    (hH : (normMat n12).IsHermitian) (hp : Spec.AtLeast (normMat n12) cutoff) : squareNorm nz = n12 := by
  obtain ⟨t, -, h2, -, -, h5⟩ := C33_result la cutoff hc fuel n12 nz h
  rw [la.herm_of _ hH] at h2 h5
  rw [h5 hp] at h2
  funext a b c d
  have := congrFun (congrFun h2 (a, b)) (c, d)
  simpa [normMat] using this

/-- The hypotheses are met: the identity norm tensor and the default cutoff `1e-12`. -/
example : ∃ (n12 : Fin 2 → Fin 2 → Fin 2 → Fin 2 → ℂ), (normMat n12).IsHermitian ∧
    Spec.AtLeast (normMat n12) (1e-12) := by
  refine ⟨fun a b c d => if a = c ∧ b = d then 1 else 0, ?_, ?_⟩
  · ext ⟨a, b⟩ ⟨c, d⟩
    simp [normMat, conjTranspose_apply, eq_comm]
  · have e : normMat (fun a b c d : Fin 2 => if a = c ∧ b = d then (1 : ℂ) else 0) = 1 := by
      ext ⟨a, b⟩ ⟨c, d⟩
      simp [normMat, one_apply]
    rw [e]
    intro v
    have h1 : Spec.qform (1 : Matrix (Fin 2 × Fin 2) (Fin 2 × Fin 2) ℂ) v = (Spec.normSq v : ℝ) := by
      rw [qform_eq, one_mulVec]; exact (normSq_eq v).symm
    rw [h1]
    have := normSq_nonneg v
    simp only [RCLike.re_to_complex, Complex.ofReal_re]
    nlinarith

end AceTN
