import Verif.Lemmas.CholeskyError

/-!
The half-steps of the solver with the pseudo-inverse that drops small eigenvalues.
-/

set_option autoImplicit false
set_option linter.unusedSectionVars false

namespace AceTN

open Spec Full Matrix

section quad

variable {𝕜 n p : Type} [RCLike 𝕜] [Fintype n] [Fintype p] [DecidableEq n]

/-- The entries of a Hermitian matrix do not exceed a bound of the moduli of its eigenvalues. -/
theorem entry_le_eigh {r : ℕ} {R : Matrix n n 𝕜} {w : Fin r → ℝ} {z : Matrix n (Fin r) 𝕜} (h : IsEigh R w z) (L : ℝ)
    (hL : ∀ k, |w k| ≤ L) (i j : n) (hL0 : 0 ≤ L) : ‖R i j‖ ≤ L := by
  have row : ∀ i, ∑ k, ‖z i k‖ ^ 2 = 1 := by
    intro i
    have h1 := congrFun (congrFun h.right i) i
    rw [mul_apply, one_apply_eq] at h1
    have h2 : ((∑ k, ‖z i k‖ ^ 2 : ℝ) : 𝕜) = 1 := by
      rw [← h1]
      push_cast
      refine Finset.sum_congr rfl fun k _ => ?_
      rw [conjTranspose_apply, RCLike.star_def, RCLike.mul_conj]
    exact_mod_cast h2
  rw [h.mul, mul_apply]
  simp only [mul_diagonal, conjTranspose_apply]
  calc ‖∑ k, z i k * (w k : 𝕜) * star (z j k)‖ ≤ ∑ k, L * ((‖z i k‖ ^ 2 + ‖z j k‖ ^ 2) / 2) := by
        refine (norm_sum_le _ _).trans (Finset.sum_le_sum fun k _ => ?_)
        rw [norm_mul, norm_mul, norm_star, RCLike.norm_ofReal]
        have h1 : ‖z i k‖ * ‖z j k‖ ≤ (‖z i k‖ ^ 2 + ‖z j k‖ ^ 2) / 2 := by nlinarith [sq_nonneg (‖z i k‖ - ‖z j k‖)]
        calc ‖z i k‖ * |w k| * ‖z j k‖ = |w k| * (‖z i k‖ * ‖z j k‖) := by ring
          _ ≤ _ := mul_le_mul (hL k) h1 (by positivity) hL0
    _ = L := by
        rw [← Finset.mul_sum, ← Finset.sum_div, Finset.sum_add_distrib, row, row]
        norm_num

/-- The eigenvalues do not exceed the largest entry times the dimension. -/
theorem eigh_le_absMax {r : ℕ} {R : Matrix n n 𝕜} {w : Fin r → ℝ} {z : Matrix n (Fin r) 𝕜} (h : IsEigh R w z) (k : Fin r) :
    w k ≤ Fintype.card n * absMax R := by
  set v := z *ᵥ Pi.single k 1 with hv
  have e : zᴴ *ᵥ v = Pi.single k 1 := by rw [hv, mulVec_mulVec, h.left, one_mulVec]
  have h1 := qform_eigh h v
  have h2 := normSq_eigh h v
  rw [e] at h1 h2
  have h3 : ∑ j, w j * ‖(Pi.single k 1 : Fin r → 𝕜) j‖ ^ 2 = w k := by
    rw [Finset.sum_eq_single k]
    · simp
    · intro j _ hj; simp [hj]
    · simp
  have h4 : normSq (Pi.single k 1 : Fin r → 𝕜) = 1 := by
    unfold normSq
    rw [Finset.sum_eq_single k]
    · simp
    · intro j _ hj; simp [hj]
    · simp
  rw [h3] at h1
  rw [h4] at h2
  have h5 : w k ≤ ‖qform R v‖ := by
    rw [h1, RCLike.norm_ofReal]
    exact le_abs_self _
  refine h5.trans ?_
  have hM := absMax_nonneg R
  calc ‖qform R v‖ ≤ ∑ i, ∑ j, absMax R * ((‖v i‖ ^ 2 + ‖v j‖ ^ 2) / 2) := by
        unfold qform
        refine (norm_sum_le _ _).trans (Finset.sum_le_sum fun i _ => (norm_sum_le _ _).trans (Finset.sum_le_sum fun j _ => ?_))
        rw [norm_mul, norm_mul, norm_star]
        have h6 : ‖v i‖ * ‖v j‖ ≤ (‖v i‖ ^ 2 + ‖v j‖ ^ 2) / 2 := by nlinarith [sq_nonneg (‖v i‖ - ‖v j‖)]
        calc ‖v i‖ * ‖R i j‖ * ‖v j‖ = ‖R i j‖ * (‖v i‖ * ‖v j‖) := by ring
          _ ≤ _ := mul_le_mul (le_absMax R i j) h6 (by positivity) hM
    _ = Fintype.card n * absMax R := by
        have h7 : ∑ i, ‖v i‖ ^ 2 = 1 := h2.symm
        simp only [← Finset.mul_sum, ← Finset.sum_div, Finset.sum_add_distrib, h7, Finset.sum_const, Finset.card_univ, nsmul_eq_mul]
        ring

/-- The quadratic form of columns in an eigenbasis. -/
theorem colForm_eigh {r : ℕ} {R : Matrix n n 𝕜} {w : Fin r → ℝ} {z : Matrix n (Fin r) 𝕜} (h : IsEigh R w z) (A : Matrix n p 𝕜) :
    colForm R A = ∑ k, ∑ i, w i * ‖(zᴴ * A) i k‖ ^ 2 := by
  unfold colForm
  refine Finset.sum_congr rfl fun k _ => ?_
  rw [qform_eigh h, RCLike.ofReal_re]
  rfl

theorem colSq_eigh {r : ℕ} {R : Matrix n n 𝕜} {w : Fin r → ℝ} {z : Matrix n (Fin r) 𝕜} (h : IsEigh R w z) (A : Matrix n p 𝕜) :
    ∑ k, ∑ i, ‖A i k‖ ^ 2 = ∑ k, ∑ i, ‖(zᴴ * A) i k‖ ^ 2 :=
  Finset.sum_congr rfl fun k _ => (normSq_eigh h fun i => A i k).symm

/-- What the pseudo-inverse with a relative cutoff returns, compared with any other unknown: what the function exceeds a lower bound by,
with the cutoff times the squared size, is at most a multiple of the same for the other unknown. -/
theorem pinvH_near [Nonempty n] (la : Lapack 𝕜) (ε : ℝ) (he : 0 ≤ ε) (R : Matrix n n 𝕜) (hR : R.IsHermitian) (hp : AtLeast R 0)
    (S : Matrix n p 𝕜) (hk : ∀ v, R *ᵥ v = 0 → ∀ k, ∑ i, star (v i) * S i k = 0) (c : ℝ) (hc : ∀ A, c ≤ quad R S A)
    (A : Matrix n p 𝕜) :
    quad R S (la.pinvH ε R * S) - c + ε * absMax R * ∑ k, ∑ i, ‖(la.pinvH ε R * S) i k‖ ^ 2 ≤
      2 * Fintype.card n * (quad R S A - c + ε * absMax R * ∑ k, ∑ i, ‖A i k‖ ^ 2) := by
  obtain ⟨w, z, hw, hpi⟩ := la.pinvH_ok ε R
  rw [la.herm_of R hR] at hw
  have hw0 : ∀ k, 0 ≤ w k := eigh_of_atLeast hw 0 hp
  set X := la.pinvH ε R * S with hX
  set Y := la.pinvH 0 R * S with hY
  have hYS : R * Y = S := pinvH_solves la 0 R hR S hk fun w z _ i j hi => by rw [zero_mul]; exact abs_pos.2 hi
  have hcard : 0 < Fintype.card n := Fintype.card_pos
  have : Nonempty (Fin (Fintype.card n)) := ⟨⟨0, hcard⟩⟩
  obtain ⟨j0, hj0⟩ := Finite.exists_max w
  set L := w j0 with hL
  have hL0 : 0 ≤ L := hw0 j0
  have hML : absMax R ≤ L := Real.iSup_le (fun ij => entry_le_eigh hw L (fun k => by rw [abs_of_nonneg (hw0 k)]; exact hj0 k) _ _ hL0) hL0
  have hLM : L ≤ Fintype.card n * absMax R := eigh_le_absMax hw j0
  have hM0 := absMax_nonneg R
  -- the kept modes of the exact solution
  have hXY : ∀ i k, (zᴴ * X) i k = if ε * L < w i then (zᴴ * Y) i k else 0 := by
    have e1 : zᴴ * X = diagonal (fun i => if ∀ j, ε * |w j| < |w i| then ((w i : ℝ) : 𝕜)⁻¹ else 0) *
        (diagonal (fun i => (w i : 𝕜)) * (zᴴ * Y)) := by
      rw [hX, hpi, ← hYS]
      conv_lhs => rw [hw.mul]
      simp only [Matrix.mul_assoc]
      rw [← Matrix.mul_assoc zᴴ z, hw.left, Matrix.one_mul, ← Matrix.mul_assoc zᴴ z, hw.left, Matrix.one_mul]
    intro i k
    rw [e1, diagonal_mul, diagonal_mul]
    have e2 : (∀ j, ε * |w j| < |w i|) ↔ ε * L < w i := by
      constructor
      · intro h
        have := h j0
        rwa [abs_of_nonneg (hw0 _), abs_of_nonneg (hw0 _)] at this
      · intro h j
        rw [abs_of_nonneg (hw0 _), abs_of_nonneg (hw0 _)]
        exact lt_of_le_of_lt (mul_le_mul_of_nonneg_left (hj0 j) he) h
    by_cases hi : ε * L < w i
    · rw [if_pos (e2.2 hi), if_pos hi, ← mul_assoc, inv_mul_cancel₀, one_mul]
      have : 0 < w i := lt_of_le_of_lt (mul_nonneg he hL0) hi
      exact_mod_cast this.ne'
    · rw [if_neg (fun h => hi (e2.1 h)), if_neg hi, zero_mul]
  have hq1 := quad_sub R hR S Y X hYS
  have hq2 := quad_sub R hR S Y A hYS
  rw [colForm_eigh hw, Matrix.mul_sub] at hq1 hq2
  have key : ∀ i k, w i * ‖(zᴴ * X - zᴴ * Y) i k‖ ^ 2 + ε * absMax R * ‖(zᴴ * X) i k‖ ^ 2 ≤
      2 * (w i * ‖(zᴴ * A - zᴴ * Y) i k‖ ^ 2) + 2 * (ε * L) * ‖(zᴴ * A) i k‖ ^ 2 := by
    intro i k
    rw [Matrix.sub_apply, Matrix.sub_apply, hXY]
    set y := (zᴴ * Y) i k
    set a := (zᴴ * A) i k
    have h1 : ‖y‖ ^ 2 ≤ 2 * ‖a - y‖ ^ 2 + 2 * ‖a‖ ^ 2 := by
      have h2 : ‖y‖ ≤ ‖a‖ + ‖a - y‖ := by
        calc ‖y‖ = ‖a - (a - y)‖ := by congr 1; ring
          _ ≤ _ := norm_sub_le _ _
      nlinarith [norm_nonneg y, norm_nonneg a, norm_nonneg (a - y), sq_nonneg (‖a‖ - ‖a - y‖)]
    have hεL : 0 ≤ ε * L := mul_nonneg he hL0
    by_cases hi : ε * L < w i
    · rw [if_pos hi, sub_self, norm_zero]
      have h3 : ε * absMax R * ‖y‖ ^ 2 ≤ ε * L * (2 * ‖a - y‖ ^ 2 + 2 * ‖a‖ ^ 2) :=
        mul_le_mul (mul_le_mul_of_nonneg_left hML he) h1 (by positivity) hεL
      have h4 : ε * L * ‖a - y‖ ^ 2 ≤ w i * ‖a - y‖ ^ 2 := mul_le_mul_of_nonneg_right hi.le (by positivity)
      nlinarith
    · rw [if_neg hi, zero_sub, norm_neg, norm_zero]
      have h3 : w i * ‖y‖ ^ 2 ≤ w i * (2 * ‖a - y‖ ^ 2 + 2 * ‖a‖ ^ 2) := mul_le_mul_of_nonneg_left h1 (hw0 i)
      have h4 : w i * ‖a‖ ^ 2 ≤ ε * L * ‖a‖ ^ 2 := mul_le_mul_of_nonneg_right (not_lt.1 hi) (by positivity)
      nlinarith
  have sum := Finset.sum_le_sum fun k (_ : k ∈ (Finset.univ : Finset p)) => Finset.sum_le_sum fun i (_ : i ∈ Finset.univ) => key i k
  simp only [Finset.sum_add_distrib, ← Finset.mul_sum] at sum
  rw [colSq_eigh hw X, colSq_eigh hw A, hq1]
  rw [hq2]
  have hcY := hc Y
  set sX := ∑ k, ∑ i, ‖(zᴴ * X) i k‖ ^ 2
  set sA := ∑ k, ∑ i, ‖(zᴴ * A) i k‖ ^ 2 with hsA
  set fX := ∑ k, ∑ i, w i * ‖(zᴴ * X - zᴴ * Y) i k‖ ^ 2
  set fA := ∑ k, ∑ i, w i * ‖(zᴴ * A - zᴴ * Y) i k‖ ^ 2 with hfA
  have hsA0 : 0 ≤ sA := Finset.sum_nonneg fun _ _ => Finset.sum_nonneg fun _ _ => by positivity
  have hfA0 : 0 ≤ fA := Finset.sum_nonneg fun _ _ => Finset.sum_nonneg fun i _ => mul_nonneg (hw0 i) (by positivity)
  have hd : (1 : ℝ) ≤ Fintype.card n := by exact_mod_cast hcard
  set d := (Fintype.card n : ℝ)
  have h5 : ε * L * sA ≤ d * (ε * absMax R * sA) := by
    calc ε * L * sA ≤ ε * (d * absMax R) * sA := mul_le_mul_of_nonneg_right (mul_le_mul_of_nonneg_left hLM he) hsA0
      _ = _ := by ring
  have h6 : quad R S Y + fA - c ≤ d * (quad R S Y + fA - c) := le_mul_of_one_le_left (by linarith) hd
  linarith

end quad

section halves

variable {𝕜 : Type} [RCLike 𝕜] {N P B : Type} [Fintype N] [Fintype P] [Fintype B] [DecidableEq N] [DecidableEq P] [DecidableEq B]
  [Nonempty N] [Nonempty B]

/-- The first half-step with either method, compared with any other tensor. -/
theorem first_near (la : Lapack 𝕜) (ε : ℝ) (he : 0 ≤ ε) (method : Als.Solver) (n : N → N → N → N → 𝕜)
    (hN : (normMat n).IsHermitian) (hp : AtLeast (normMat n) 0) (g : N → N → P → P → 𝕜) (c : ℝ) (a a2 : N → B → P → 𝕜)
    (hc : ∀ b : N → B → P → 𝕜, c ≤ cost b a2 g n)
    (h : solveAr la ε method (buildR1 n a2) (buildS1 (n12gOf n g) a2) = .ok a) (r : N → B → P → 𝕜) :
    cost a a2 g n - c + ε * (absMax (asSq (buildR1 n a2)) * size3 a) ≤
      2 * Fintype.card (N × B) * (cost r a2 g n - c + ε * (absMax (asSq (buildR1 n a2)) * size3 r)) := by
  have h0 : 0 ≤ cost r a2 g n - c + ε * (absMax (asSq (buildR1 n a2)) * size3 r) :=
    add_nonneg (sub_nonneg.2 (hc r)) (mul_nonneg he (mul_nonneg (absMax_nonneg _) (size3_nonneg r)))
  cases method with
  | cholesky =>
    have h1 := C35_first_regularised_partial la ε he n hN hp g _ _ h r
    have h2 : (1 : ℝ) ≤ 2 * Fintype.card (N × B) := by
      have : (1 : ℝ) ≤ Fintype.card (N × B) := by exact_mod_cast Fintype.card_pos (α := N × B)
      linarith
    refine le_trans ?_ (le_mul_of_one_le_left h0 h2)
    unfold size3
    linarith
  | pinv =>
    have h1 := solveAr_pinv la ε _ (r1_herm n hN a2) _ _ h
    have h2 := pinvH_near la ε he _ (r1_herm n hN a2) (r1_psd n hp a2) (asMat (buildS1 (n12gOf n g) a2)) (s1_range n hN hp g a2) c
      (fun A => by
        have := hc fun y u p => A (y, u) p
        rw [cost_first] at this
        exact this) (asMat r)
    rw [← h1, ← cost_first, ← cost_first, mul_assoc ε, mul_assoc ε] at h2
    exact h2

/-- The second half-step with either method, compared with any other tensor. -/
theorem second_near (la : Lapack 𝕜) (ε : ℝ) (he : 0 ≤ ε) (method : Als.Solver) (n : N → N → N → N → 𝕜)
    (hN : (normMat n).IsHermitian) (hp : AtLeast (normMat n) 0) (g : N → N → P → P → 𝕜) (c : ℝ) (a1 a : N → B → P → 𝕜)
    (hc : ∀ b : N → B → P → 𝕜, c ≤ cost a1 b g n)
    (h : solveAr la ε method (buildR2 n a1) (buildS2 (n12gOf n g) a1) = .ok a) (r : N → B → P → 𝕜) :
    cost a1 a g n - c + ε * (absMax (asSq (buildR2 n a1)) * size3 a) ≤
      2 * Fintype.card (N × B) * (cost a1 r g n - c + ε * (absMax (asSq (buildR2 n a1)) * size3 r)) := by
  have h0 : 0 ≤ cost a1 r g n - c + ε * (absMax (asSq (buildR2 n a1)) * size3 r) :=
    add_nonneg (sub_nonneg.2 (hc r)) (mul_nonneg he (mul_nonneg (absMax_nonneg _) (size3_nonneg r)))
  cases method with
  | cholesky =>
    have h1 := C35_second_regularised_partial la ε he n hN hp g _ _ h r
    have h2 : (1 : ℝ) ≤ 2 * Fintype.card (N × B) := by
      have : (1 : ℝ) ≤ Fintype.card (N × B) := by exact_mod_cast Fintype.card_pos (α := N × B)
      linarith
    refine le_trans ?_ (le_mul_of_one_le_left h0 h2)
    unfold size3
    linarith
  | pinv =>
    have h1 := solveAr_pinv la ε _ (r2_herm n hN a1) _ _ h
    have h2 := pinvH_near la ε he _ (r2_herm n hN a1) (r2_psd n hp a1) (asMat (buildS2 (n12gOf n g) a1)) (s2_range n hN hp g a1) c
      (fun A => by
        have := hc fun y u p => A (y, u) p
        rw [cost_second] at this
        exact this) (asMat r)
    rw [← h1, ← cost_second, ← cost_second, mul_assoc ε, mul_assoc ε] at h2
    exact h2

end halves

section solver

variable {𝕜 : Type} [RCLike 𝕜] {N P : Type} [Fintype N] [Fintype P] [DecidableEq N] [DecidableEq P]

/-- The solver with either method, compared with any pair whose second tensor is the one it starts from: the cost at the end
exceeds a lower bound of all costs by a multiple of what the cost of that pair, with the regularisation, exceeds it by.  The factor depends
on the norm tensor, the dimensions and the number of iterations. -/
theorem alsSolve_near {bD : ℕ} [NeZero bD] [Nonempty N] (la : Lapack 𝕜) (hb : bD ≤ min (Fintype.card (N × P)) (Fintype.card (N × P)))
    (n : N → N → N → N → 𝕜) (hN : (normMat n).IsHermitian) (c : ℝ) (hc0 : 0 < c) (hc : AtLeast (normMat n) c) (m : ℕ) :
    ∃ K, 1 ≤ K ∧ ∀ (g : N → N → P → P → 𝕜) (c0 : ℝ), (∀ b1 b2 : N → Fin bD → P → 𝕜, c0 ≤ cost b1 b2 g n) →
      ∀ (r : N → Fin bD → P → 𝕜) (F : Type) (fo : Als.FloatOps F) (rep : ℝ → F) (cfg : Settings F), 0 ≤ cfg.als_epsilon →
      cfg.als_niter = m + 1 → ∀ p, alsSolve la fo rep cfg hb n g = .ok p →
      cost p.1 p.2 g n - c0 ≤ K * (cost r (initReduced la hb g).2 g n - c0 +
        cfg.als_epsilon * (absMax (asSq (buildR1 n (initReduced la hb g).2)) * size3 r)) := by
  have hp : AtLeast (normMat n) 0 := fun v => le_trans (by
    rw [zero_mul]; exact mul_nonneg hc0.le (normSq_nonneg v)) (hc v)
  obtain ⟨y0⟩ := ‹Nonempty N›
  have hD : (0 : ℝ) < bD := by exact_mod_cast Nat.pos_of_neZero bD
  set C := (Fintype.card P : ℝ) * entrySum n with hC
  have hC0 : 0 ≤ C := mul_nonneg (Nat.cast_nonneg _)
    (Finset.sum_nonneg fun _ _ => Finset.sum_nonneg fun _ _ => Finset.sum_nonneg fun _ _ => Finset.sum_nonneg fun _ _ => norm_nonneg _)
  set k := 1 + C * bD / c with hk
  have hk1 : 1 ≤ k := by
    have : 0 ≤ C * bD / c := by positivity
    linarith
  have hk2 : C * bD / c ≤ k := by linarith
  -- the two strengths compared
  have cross1 : ∀ a b : N → Fin bD → P → 𝕜, absMax (asSq (buildR2 n a)) * size3 b ≤ k * (absMax (asSq (buildR1 n b)) * size3 a) := by
    intro a b
    have h1 := absMax_r2_le n a
    have h2 := size3_le_r1 n c hc b y0
    rw [Fintype.card_fin] at h2
    have h3 : size3 b ≤ bD * absMax (asSq (buildR1 n b)) / c := by rw [le_div_iff₀ hc0]; linarith
    calc absMax (asSq (buildR2 n a)) * size3 b ≤ C * size3 a * (bD * absMax (asSq (buildR1 n b)) / c) :=
          mul_le_mul h1 h3 (size3_nonneg b) (mul_nonneg hC0 (size3_nonneg a))
      _ = C * bD / c * (absMax (asSq (buildR1 n b)) * size3 a) := by ring
      _ ≤ _ := mul_le_mul_of_nonneg_right hk2 (mul_nonneg (absMax_nonneg _) (size3_nonneg a))
  have cross2 : ∀ a b : N → Fin bD → P → 𝕜, absMax (asSq (buildR1 n b)) * size3 a ≤ k * (absMax (asSq (buildR2 n a)) * size3 b) := by
    intro a b
    have h1 := absMax_r1_le n b
    have h2 := size3_le_r2 n c hc a y0
    rw [Fintype.card_fin] at h2
    have h3 : size3 a ≤ bD * absMax (asSq (buildR2 n a)) / c := by rw [le_div_iff₀ hc0]; linarith
    calc absMax (asSq (buildR1 n b)) * size3 a ≤ C * size3 b * (bD * absMax (asSq (buildR2 n a)) / c) :=
          mul_le_mul h1 h3 (size3_nonneg a) (mul_nonneg hC0 (size3_nonneg b))
      _ = C * bD / c * (absMax (asSq (buildR2 n a)) * size3 b) := by ring
      _ ≤ _ := mul_le_mul_of_nonneg_right hk2 (mul_nonneg (absMax_nonneg _) (size3_nonneg b))
  have hd1 : (1 : ℝ) ≤ 2 * Fintype.card (N × Fin bD) := by
    have : (1 : ℝ) ≤ Fintype.card (N × Fin bD) := by
      have : Nonempty (N × Fin bD) := ⟨(y0, 0)⟩
      exact_mod_cast Fintype.card_pos (α := N × Fin bD)
    linarith
  have : Nonempty N := ⟨y0⟩
  set d : ℝ := 2 * (Fintype.card (N × Fin bD) : ℝ) with hd
  have hdk : 1 ≤ d * k := one_le_mul_of_one_le_of_one_le hd1 hk1
  refine ⟨(d * k * (d * k)) ^ m * (d * k * d), one_le_mul_of_one_le_of_one_le (one_le_pow₀ (one_le_mul_of_one_le_of_one_le hdk hdk))
    (one_le_mul_of_one_le_of_one_le hdk hd1), fun g c0 hmin r F fo rep cfg he hni p h => ?_⟩
  set s := (initReduced la hb g).2 with hs
  set T := absMax (asSq (buildR1 n s)) * size3 r with hT
  have hT0 : 0 ≤ T := mul_nonneg (absMax_nonneg _) (size3_nonneg r)
  set ε := cfg.als_epsilon with hε
  let Y : (N → Fin bD → P → 𝕜) × (N → Fin bD → P → 𝕜) → ℝ := fun q =>
    cost q.1 q.2 g n - c0 + ε * (absMax (asSq (buildR2 n q.1)) * size3 q.2)
  -- the second half-step
  have half2 : ∀ q q', alsPass la ε n (n12gOf n g) cfg.als_method q = .ok q' →
      Y q' ≤ d * k * (cost q'.1 q.2 g n - c0 + ε * (absMax (asSq (buildR1 n q.2)) * size3 q'.1)) := by
    intro q q' hq
    have h2 := second_near la ε he cfg.als_method n hN hp g c0 _ _ (hmin _) (alsPass_ok la ε cfg.als_method n _ _ _ hq).2 q.2
    have h3 := mul_le_mul_of_nonneg_left (cross1 q'.1 q.2) he
    have h4 := le_mul_of_one_le_left (sub_nonneg.2 (hmin q'.1 q.2)) hk1
    refine h2.trans ?_
    rw [mul_assoc d k]
    exact mul_le_mul_of_nonneg_left (by linarith) (by linarith)
  have step : ∀ q q', alsPass la ε n (n12gOf n g) cfg.als_method q = .ok q' → Y q' ≤ d * k * (d * k) * Y q := by
    intro q q' hq
    refine (half2 q q' hq).trans ?_
    rw [mul_assoc (d * k)]
    refine mul_le_mul_of_nonneg_left ?_ (by linarith)
    have h1 := first_near la ε he cfg.als_method n hN hp g c0 _ _ (fun b => hmin b _) (alsPass_ok la ε cfg.als_method n _ _ _ hq).1 q.1
    have h3 := mul_le_mul_of_nonneg_left (cross2 q.1 q.2) he
    have h4 := le_mul_of_one_le_left (sub_nonneg.2 (hmin q.1 q.2)) hk1
    refine h1.trans ?_
    rw [mul_assoc d k]
    refine mul_le_mul_of_nonneg_left ?_ (by linarith)
    change _ ≤ k * (cost q.1 q.2 g n - c0 + ε * (absMax (asSq (buildR2 n q.1)) * size3 q.2))
    linarith
  have first : ∀ q', alsPass la ε n (n12gOf n g) cfg.als_method (initReduced la hb g) = .ok q' →
      Y q' ≤ d * k * d * (cost r s g n - c0 + ε * T) := by
    intro q' hq
    rw [mul_assoc (d * k)]
    refine (half2 _ q' hq).trans (mul_le_mul_of_nonneg_left ?_ (by linarith))
    exact first_near la ε he cfg.als_method n hN hp g c0 _ _ (fun b => hmin b _) (alsPass_ok la ε cfg.als_method n _ _ _ hq).1 r
  unfold alsSolve Als.solveTorch at h
  rw [hni] at h
  have h5 := torchLoop_bound fo _ _ cfg.als_tol Y (d * k * (d * k)) (one_le_mul_of_one_le_of_one_le hdk hdk) step m 0 _ p _
    (d * k * d * (cost r s g n - c0 + ε * T)) (mul_nonneg (mul_nonneg (by linarith) (by linarith))
      (add_nonneg (sub_nonneg.2 (hmin r s)) (mul_nonneg he hT0))) first h
  have h6 : 0 ≤ ε * (absMax (asSq (buildR2 n p.1)) * size3 p.2) :=
    mul_nonneg he (mul_nonneg (absMax_nonneg _) (size3_nonneg _))
  have h7 : cost p.1 p.2 g n - c0 + ε * (absMax (asSq (buildR2 n p.1)) * size3 p.2) ≤
    (d * k * (d * k)) ^ m * (d * k * d * (cost r s g n - c0 + ε * T)) := h5
  rw [mul_assoc]
  linarith

/-- The solver with either method, if with the second tensor it starts from the least possible cost can be reached: the cost at
the end is the least one up to a multiple of the regularisation. -/
theorem alsSolve_close {bD : ℕ} [NeZero bD] [Nonempty N] (la : Lapack 𝕜) (hb : bD ≤ min (Fintype.card (N × P)) (Fintype.card (N × P)))
    (n : N → N → N → N → 𝕜) (hN : (normMat n).IsHermitian) (c : ℝ) (hc0 : 0 < c) (hc : AtLeast (normMat n) c)
    (g : N → N → P → P → 𝕜) (c0 : ℝ) (hmin : ∀ b1 b2 : N → Fin bD → P → 𝕜, c0 ≤ cost b1 b2 g n) (r : N → Fin bD → P → 𝕜)
    (hr : cost r (initReduced la hb g).2 g n = c0) (m : ℕ) :
    ∃ K, 0 ≤ K ∧ ∀ (F : Type) (fo : Als.FloatOps F) (rep : ℝ → F) (cfg : Settings F), 0 ≤ cfg.als_epsilon →
      cfg.als_niter = m + 1 → ∀ p, alsSolve la fo rep cfg hb n g = .ok p → cost p.1 p.2 g n ≤ c0 + cfg.als_epsilon * K := by
  obtain ⟨K, hK, h⟩ := alsSolve_near la hb n hN c hc0 hc m
  refine ⟨K * (absMax (asSq (buildR1 n (initReduced la hb g).2)) * size3 r),
    mul_nonneg (by linarith) (mul_nonneg (absMax_nonneg _) (size3_nonneg r)), fun F fo rep cfg he hni p hp => ?_⟩
  have := h g c0 hmin r F fo rep cfg he hni p hp
  rw [hr, sub_self, zero_add] at this
  linarith

end solver

end AceTN
