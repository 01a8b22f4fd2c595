import Verif.Lemmas.PosFallback
import Verif.Props.PositiveApprox

/-! C71: the positive approximation when the eigensolver raises. -/

set_option autoImplicit false

namespace AceTN

open Full Matrix

variable {𝕜 : Type} [RCLike 𝕜]

variable {N : Type} [Fintype N] [DecidableEq N] [Nonempty N]

theorem posLoopF_never {n : Type} [Fintype n] [DecidableEq n] [Nonempty n] (la : Lapack 𝕜) (cutoff : ℝ) (fuel : ℕ)
    (A : Matrix n n 𝕜) : posLoopF la cutoff fuel (fun _ => false) A = posLoop la cutoff fuel A := by
  induction fuel generalizing A with
  | zero => rfl
  | succ fuel ih =>
    simp only [posLoopF, posLoop, ih]
    rfl

/-- **C71** (without failures).  If no call of the eigensolver raises, this is the function of the other C33 theorems. -/
theorem C71_never (la : Lapack 𝕜) (fuel : ℕ) (cutoff : ℝ) (n12 : N → N → N → N → 𝕜) :
    positiveApproxF la (fun _ => false) fuel cutoff n12 = positiveApprox la fuel cutoff n12 := by
  unfold positiveApproxF positiveApprox
  rw [posLoopF_never]

/-- **C71** (termination, with failures).  For every norm tensor and positive cutoff there is a number of passes after
which the loop has ended, whichever calls of the eigensolver raise. -/
theorem C71_terminates (la : Lapack 𝕜) (cutoff : ℝ) (hc : 0 < cutoff) (n12 : N → N → N → N → 𝕜) :
    ∃ passes : ℕ, ∀ (fails : ℕ → Bool) (fuel : ℕ), passes ≤ fuel →
      (positiveApproxF la fails fuel cutoff n12).isSome = true := by
  obtain ⟨c1, h1⟩ := exists_atLeast (normMat n12)
  obtain ⟨c2, h2⟩ := exists_atLeast (la.herm (normMat n12))
  obtain ⟨k, hk⟩ := exists_nat_ge ((cutoff - min c1 c2) / (2 * cutoff))
  refine ⟨k + 1, fun fails fuel hf => ?_⟩
  obtain ⟨f, rfl⟩ := Nat.exists_eq_add_of_le hf
  unfold positiveApproxF
  rw [Option.isSome_map]
  refine posLoopF_fuel la cutoff k f fails _ (min c1 c2) (AtLeast_mono h1 (min_le_left _ _))
    (AtLeast_mono h2 (min_le_right _ _)) ?_
  rw [div_le_iff₀ (by positivity)] at hk
  linarith

/-- **C71** (termination, with failures, Hermitian norm tensor).  The condition is tested at most one time more than the
matrix has rows, whatever the cutoff (whose ratio to the eigenvalues does not matter) and whichever calls of the
eigensolver raise. -/
theorem C71_passes (la : Lapack 𝕜) (cutoff : ℝ) (n12 : N → N → N → N → 𝕜) (hH : (normMat n12).IsHermitian)
    (fails : ℕ → Bool) (fuel : ℕ) :
    (positiveApproxF la fails (Fintype.card (N × N) + 1 + fuel) cutoff n12).isSome = true := by
  unfold positiveApproxF
  rw [Option.isSome_map]
  have h := la.eigh_ok (normMat n12)
  rw [la.herm_of _ hH] at h
  refine posLoopF_hermitian la cutoff _ fuel fails _ _ _ h ?_
  exact (Finset.card_le_univ _).trans (by simp)

omit [Nonempty N] in
theorem normMat_squareNorm {w : Fin (Fintype.card (N × N)) → ℝ} {z : Matrix (N × N) (Fin (Fintype.card (N × N))) 𝕜}
    {B : Matrix (N × N) (N × N) 𝕜} (h : IsEigh B w z) (h0 : ∀ k, 0 ≤ w k) :
    normMat (squareNorm fun (y x : N) (k : Fin (Fintype.card (N × N))) => z (y, x) k * ((Real.sqrt (w k) : ℝ) : 𝕜)) =
      B := by
  rw [h.mul]
  ext a b
  rw [mul_apply]
  simp only [normMat, squareNorm, of_apply]
  refine Finset.sum_congr rfl fun k _ => ?_
  rw [mul_diagonal]
  have hs : ((Real.sqrt (w k) : ℝ) : 𝕜) * ((Real.sqrt (w k) : ℝ) : 𝕜) = (w k : 𝕜) := by
    rw [← RCLike.ofReal_mul, Real.mul_self_sqrt (h0 k)]
  simp only [Pi.star_apply, star_mul', RCLike.star_def, RCLike.conj_ofReal, conjTranspose_apply]
  rw [← hs]
  ring

/-- **C71** (result, with failures).  Whichever calls of the eigensolver raise, the rebuilt tensor is Hermitian and its
eigenvalues are at least the cutoff.  It is the Hermitian norm tensor plus a multiple of the identity, or, only if some
call raised, the positive square root of `M Mᴴ` for such a shifted norm tensor `M`. -/
theorem C71_result (la : Lapack 𝕜) (cutoff : ℝ) (hc : 0 ≤ cutoff) (fails : ℕ → Bool) (fuel : ℕ)
    (n12 : N → N → N → N → 𝕜) (nz : N → N → Fin (Fintype.card (N × N)) → 𝕜)
    (h : positiveApproxF la fails fuel cutoff n12 = some nz) :
    (normMat (squareNorm nz)).IsHermitian ∧ Spec.AtLeast (normMat (squareNorm nz)) cutoff ∧
    ∃ t : ℝ, 0 ≤ t ∧
      (normMat (squareNorm nz) = la.herm (normMat n12) + (t : 𝕜) • 1 ∨
        ((∃ k, fails k = true) ∧ normMat (squareNorm nz) * normMat (squareNorm nz) =
          (normMat n12 + (t : 𝕜) • 1) * (normMat n12 + (t : 𝕜) • 1)ᴴ)) := by
  unfold positiveApproxF at h
  obtain ⟨⟨w, z⟩, hp, rfl⟩ := Option.map_eq_some_iff.1 h
  obtain ⟨t, B, h1, h2, h3, h4, h5⟩ := posLoopF_result la cutoff fuel fails _ w z hp
  have e := normMat_squareNorm h2 fun k => hc.trans (h3 k)
  rw [e]
  refine ⟨h2.isHermitian, atLeast_of_eigh h2 _ h3, t, h1, ?_⟩
  rcases h4 with h4 | ⟨h4, -, h6⟩
  · exact Or.inl h4
  · exact Or.inr ⟨h6, h4⟩

/-- **C71** (no change, with failures).  A Hermitian norm tensor whose eigenvalues are at least the cutoff is returned
unchanged, whichever calls of the eigensolver raise. -/
theorem C71_unchanged (la : Lapack 𝕜) (cutoff : ℝ) (hc : 0 ≤ cutoff) (fails : ℕ → Bool) (fuel : ℕ)
    (n12 : N → N → N → N → 𝕜) (nz : N → N → Fin (Fintype.card (N × N)) → 𝕜)
    (h : positiveApproxF la fails fuel cutoff n12 = some nz)
    (hH : (normMat n12).IsHermitian) (hp : Spec.AtLeast (normMat n12) cutoff) : squareNorm nz = n12 := by
  unfold positiveApproxF at h
  obtain ⟨⟨w, z⟩, hl, rfl⟩ := Option.map_eq_some_iff.1 h
  obtain ⟨t, B, h1, h2, h3, h4, h5⟩ := posLoopF_result la cutoff fuel fails _ w z hl
  have hherm := la.herm_of _ hH
  have ht := h5 hp (by rwa [hherm])
  subst ht
  have e := normMat_squareNorm h2 fun k => hc.trans (h3 k)
  have hB : B = normMat n12 := by
    rcases h4 with h4 | ⟨h4, h6, -⟩
    · rw [h4, hherm]; simp
    · have hA := la.eigh_ok (normMat n12)
      rw [hherm] at hA
      refine eigh_sq_unique h2 hA h6 (fun k => hc.trans (eigh_of_atLeast hA cutoff hp k)) ?_
      rw [h4]
      simp [hH.eq]
  rw [hB] at e
  funext a b c d
  have := congrFun (congrFun e (a, b)) (c, d)
  simpa [normMat] using this

/-- C71, the shift: the norm tensor is only shifted by a multiple of the identity. -/
def Spec.OnlyShifted : Prop :=
  ∀ (la : Lapack ℂ) (cutoff : ℝ), 0 < cutoff → ∀ (fails : ℕ → Bool) (fuel : ℕ)
    (n12 : Fin 2 → Fin 2 → Fin 2 → Fin 2 → ℂ) (nz : Fin 2 → Fin 2 → Fin (Fintype.card (Fin 2 × Fin 2)) → ℂ),
    (normMat n12).IsHermitian → positiveApproxF la fails fuel cutoff n12 = some nz →
    ∃ t : ℝ, normMat (squareNorm nz) = normMat n12 + (t : ℂ) • 1

/-- A norm tensor with one eigenvalue `-1`, the others `1`. -/
def signedNorm : Fin 2 → Fin 2 → Fin 2 → Fin 2 → ℂ := fun a b c d =>
  if a = c ∧ b = d then (if a = 0 ∧ b = 0 then -1 else 1) else 0

theorem normMat_signedNorm : normMat signedNorm = diagonal fun p : Fin 2 × Fin 2 => if p = (0, 0) then -1 else 1 := by
  ext ⟨a, b⟩ ⟨c, d⟩
  simp only [normMat, signedNorm, of_apply, diagonal_apply, Prod.mk.injEq]

/-- **C71** (violated when the eigensolver raises).  A negative eigenvalue is replaced by its modulus: the norm tensor with
eigenvalues `-1, 1, 1, 1` becomes the identity. -/
theorem C71_violated_shift : ¬ Spec.OnlyShifted := by
  intro hs
  obtain ⟨la⟩ := nonempty_lapack (𝕜 := ℂ)
  have hH : (normMat signedNorm).IsHermitian := by
    rw [normMat_signedNorm, IsHermitian, diagonal_conjTranspose]
    congr 1
    funext p
    by_cases hp : p = (0, 0) <;> simp [hp]
  have hsq : normMat signedNorm * normMat signedNorm = 1 := by
    rw [normMat_signedNorm, diagonal_mul_diagonal, ← diagonal_one]
    congr 1
    funext p
    by_cases hp : p = (0, 0) <;> simp [hp]
  obtain ⟨B, hB, hBB, h0⟩ := flippedSvd_ok la (normMat signedNorm)
  rw [hH.eq, hsq] at hBB
  have h1 : ∀ k, (1 / 2 : ℝ) ≤ (flippedSvd la (normMat signedNorm)).1 k := by
    refine eigh_of_sq_atLeast hB _ h0 ?_
    rw [hBB]
    intro v
    have e : Spec.qform (1 : Matrix (Fin 2 × Fin 2) (Fin 2 × Fin 2) ℂ) v = (Spec.normSq v : ℝ) := by
      rw [qform_eq, one_mulVec]; exact (normSq_eq v).symm
    rw [e]
    have := normSq_nonneg v
    simp only [RCLike.re_to_complex, Complex.ofReal_re]
    nlinarith
  have hl : posLoopF la (1 / 2) 1 (fun _ => true) (normMat signedNorm) =
      some (flippedSvd la (normMat signedNorm)) := by
    simp only [posLoopF, eighOrSvd, if_true]
    rw [if_neg (not_lt.2 (h1 _))]
  have hp : positiveApproxF la (fun _ => true) 1 (1 / 2) signedNorm = some fun y x k =>
      (flippedSvd la (normMat signedNorm)).2 (y, x) k *
        ((Real.sqrt ((flippedSvd la (normMat signedNorm)).1 k) : ℝ) : ℂ) := by
    unfold positiveApproxF
    rw [hl]
    rfl
  obtain ⟨t, ht⟩ := hs la (1 / 2) (by norm_num) (fun _ => true) 1 signedNorm _ hH hp
  have e := normMat_squareNorm hB h0
  replace ht : B = normMat signedNorm + (t : ℂ) • 1 := e.symm.trans ht
  rw [normMat_signedNorm] at ht
  have a0 := congrFun (congrFun hBB (0, 0)) (0, 0)
  have a1 := congrFun (congrFun hBB (1, 1)) (1, 1)
  have hd : B = diagonal fun p : Fin 2 × Fin 2 => (if p = (0, 0) then -1 else 1) + (t : ℂ) := by
    rw [ht]
    ext p q
    by_cases hpq : p = q
    · subst hpq; simp
    · simp [hpq]
  rw [hd, diagonal_mul_diagonal] at a0 a1
  simp at a0 a1
  have b0 : (-1 + t) * (-1 + t) = 1 := by exact_mod_cast a0
  have b1 : (1 + t) * (1 + t) = 1 := by exact_mod_cast a1
  have t0 : t = 0 := by linarith
  have hat := atLeast_of_eigh hB _ h1 (Pi.single (0, 0) 1)
  rw [hd, t0, qform_eq] at hat
  have hn := normSq_nonneg (Pi.single (0, 0) 1 : Fin 2 × Fin 2 → ℂ)
  simp at hat
  linarith

/-- The hypotheses of the theorems are met by a norm tensor that is not positive. -/
example : ∃ (n12 : Fin 2 → Fin 2 → Fin 2 → Fin 2 → ℂ), (normMat n12).IsHermitian ∧ ¬ Spec.AtLeast (normMat n12) 0 := by
  refine ⟨signedNorm, ?_, fun h => ?_⟩
  · rw [normMat_signedNorm, IsHermitian, diagonal_conjTranspose]
    congr 1
    funext p
    by_cases hp : p = (0, 0) <;> simp [hp]
  · have := h (Pi.single (0, 0) 1)
    rw [normMat_signedNorm, qform_eq] at this
    simp at this
    norm_num at this

end AceTN
