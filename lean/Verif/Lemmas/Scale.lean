import Verif.Lemmas.TurnSolve
import Verif.Lemmas.TurnInit
import Verif.Model.FullEvolve
import Verif.Model.SimpleEvolve

/-!
Gates multiplied with a positive number: the simple and the full update do not notice.
-/

set_option autoImplicit false
set_option linter.unusedSectionVars false

namespace AceTN

open Matrix Spec SumTac Full

variable {𝕜 F : Type} [RCLike 𝕜]

/-- Routines whose QR decomposition and SVD of a positive multiple of a matrix are those of the matrix, with `R` and the singular
values multiplied. -/
structure Spec.Homogeneous (la : Lapack 𝕜) : Prop where
  qr : ∀ {m n : Type} [Fintype m] [Fintype n] [DecidableEq m] [DecidableEq n] (c : ℝ) (A : Matrix m n 𝕜), 0 < c →
    la.qr ((c : 𝕜) • A) = ((la.qr A).1, (c : 𝕜) • (la.qr A).2)
  svd : ∀ {m n : Type} [Fintype m] [Fintype n] [DecidableEq m] [DecidableEq n] (c : ℝ) (A : Matrix m n 𝕜), 0 < c →
    la.svd ((c : 𝕜) • A) = ((la.svd A).1, fun i => c * (la.svd A).2.1 i, (la.svd A).2.2)

/-- A stopping rule that depends on the ratio of the costs only. -/
def Spec.RatioTest (fo : Als.FloatOps F) (rep : ℝ → F) (tol : F) : Prop :=
  ∀ (t x y : ℝ), 0 < t → fo.lt (Als.relErr fo (rep (t * x)) (rep (t * y))) tol = fo.lt (Als.relErr fo (rep x) (rep y)) tol

section decompositions

variable {m n : Type} [Fintype m] [Fintype n] [DecidableEq m] [DecidableEq n]

theorem isSVD_smul {r : ℕ} {A : Matrix m n 𝕜} {U : Matrix m (Fin r) 𝕜} {S : Fin r → ℝ} {Vh : Matrix (Fin r) n 𝕜} (h : IsSVD A U S Vh)
    {c : ℝ} (hc : 0 ≤ c) : IsSVD ((c : 𝕜) • A) U (fun i => c * S i) Vh where
  mul := by
    have e : (diagonal fun i => ((c * S i : ℝ) : 𝕜)) = (c : 𝕜) • diagonal fun i => ((S i : ℝ) : 𝕜) := by
      rw [← diagonal_smul]
      congr 1
      funext i
      rw [RCLike.ofReal_mul]
      rfl
    rw [e, Matrix.mul_smul, Matrix.smul_mul, ← h.mul]
  left := h.left
  right := h.right
  nonneg i := mul_nonneg hc (h.nonneg i)
  sorted i j hij := mul_le_mul_of_nonneg_left (h.sorted i j hij) hc

theorem isQR_smul {k : Type} [Fintype k] [DecidableEq k] {A : Matrix m n 𝕜} {Q : Matrix m k 𝕜} {R : Matrix k n 𝕜} (h : IsQR A Q R)
    (c : 𝕜) : IsQR (c • A) Q (c • R) := ⟨by rw [Matrix.mul_smul, ← h.mul], h.iso⟩

theorem isEigh_smul {r : ℕ} {A : Matrix n n 𝕜} {w : Fin r → ℝ} {z : Matrix n (Fin r) 𝕜} (h : IsEigh A w z)
    {c : ℝ} (hc : 0 ≤ c) : IsEigh ((c : 𝕜) • A) (fun i => c * w i) z where
  mul := by
    have e : (diagonal fun i => ((c * w i : ℝ) : 𝕜)) = (c : 𝕜) • diagonal fun i => ((w i : ℝ) : 𝕜) := by
      rw [← diagonal_smul]
      congr 1
      funext i
      rw [RCLike.ofReal_mul]
      rfl
    rw [e, Matrix.mul_smul, Matrix.smul_mul, ← h.mul]
  left := h.left
  right := h.right
  sorted i j hij := mul_le_mul_of_nonneg_left (h.sorted i j hij) hc

/-- The pseudo-inverse of a multiple. -/
theorem pinvH_smul (la : Lapack 𝕜) (rcond : ℝ) {M : Matrix n n 𝕜} (hM : M.IsHermitian) {c : ℝ} (hc : 0 < c) :
    la.pinvH rcond ((c : 𝕜) • M) = ((c : 𝕜))⁻¹ • la.pinvH rcond M := by
  obtain ⟨w, z, h, e⟩ := la.pinvH_ok rcond M
  obtain ⟨w', z', h', e'⟩ := la.pinvH_ok rcond ((c : 𝕜) • M)
  rw [la.herm_of _ hM] at h
  have hM' : ((c : 𝕜) • M).IsHermitian := by
    rw [IsHermitian, conjTranspose_smul, hM.eq, RCLike.star_def, RCLike.conj_ofReal]
  rw [la.herm_of _ hM'] at h'
  have ht := isEigh_smul h hc.le
  obtain rfl := eigh_values ht h'
  rw [e, e', eigh_function ht h']
  · rw [← Matrix.smul_mul, ← Matrix.mul_smul, ← diagonal_smul]
    congr 3
    funext i
    have hiff : (∀ j, rcond * |c * w j| < |c * w i|) ↔ ∀ j, rcond * |w j| < |w i| := by
      refine forall_congr' fun j => ?_
      rw [abs_mul, abs_mul, abs_of_pos hc, mul_left_comm]
      exact mul_lt_mul_iff_right₀ hc
    simp only [hiff, Pi.smul_apply, smul_eq_mul]
    split_ifs
    · rw [RCLike.ofReal_mul, mul_inv]
    · rw [mul_zero]
  · intro i j hij
    simp only [mul_left_cancel₀ hc.ne' hij]

/-- The largest modulus of a multiple. -/
theorem absMax_smul (M : Matrix n n 𝕜) {c : ℝ} (hc : 0 < c) : absMax ((c : 𝕜) • M) = c * absMax M := by
  unfold absMax
  rw [Real.mul_iSup_of_nonneg hc.le]
  congr 1
  funext ij
  rw [Matrix.smul_apply, smul_eq_mul, norm_mul, RCLike.norm_ofReal, abs_of_pos hc]

end decompositions

section linear

variable {N B P : Type} [Fintype N] [Fintype B] [Fintype P] [DecidableEq N] [DecidableEq B] [DecidableEq P]

open ComplexOrder in
/-- The solver for multiples of the system and of the right hand side. -/
theorem solveAr_smul (la : Lapack 𝕜) (epsilon : ℝ) (method : Als.Solver) (R : N → B → N → B → 𝕜) (S : N → B → P → 𝕜)
    {t s : ℝ} (ht : 0 < t) :
    solveAr la epsilon method ((t : 𝕜) • R) ((s : 𝕜) • S) =
      (solveAr la epsilon method R S).map fun x => ((s / t : ℝ) : 𝕜) • x := by
  have htk : (t : 𝕜) ≠ 0 := RCLike.ofReal_ne_zero.2 ht.ne'
  have eS : asMat3 ((s : 𝕜) • S) = (s : 𝕜) • asMat3 S := rfl
  have eR : hermAvg ((t : 𝕜) • R) = (t : 𝕜) • hermAvg R := by
    have e : sysMat ((t : 𝕜) • R) = (t : 𝕜) • sysMat R := rfl
    rw [hermAvg_sum, hermAvg_sum, e, conjTranspose_smul, RCLike.star_def, RCLike.conj_ofReal, ← smul_add, smul_comm]
  have hH := hermAvg_isHerm R
  cases method with
  | pinv =>
    show Except.ok _ = Except.ok _
    congr 1
    have e : la.pinvH epsilon (hermAvg ((t : 𝕜) • R)) * asMat3 ((s : 𝕜) • S) =
        ((s / t : ℝ) : 𝕜) • (la.pinvH epsilon (hermAvg R) * asMat3 S) := by
      rw [eR, eS, pinvH_smul la epsilon hH ht, Matrix.mul_smul, Matrix.smul_mul, smul_smul, RCLike.ofReal_div, div_eq_mul_inv]
    funext y u p
    exact congrFun (congrFun e (y, u)) p
  | cholesky =>
    have eM : hermAvg ((t : 𝕜) • R) + ((epsilon * absMax (hermAvg ((t : 𝕜) • R)) : ℝ) : 𝕜) • 1 =
        (t : 𝕜) • (hermAvg R + ((epsilon * absMax (hermAvg R) : ℝ) : 𝕜) • 1) := by
      rw [eR, absMax_smul _ ht, smul_add, smul_smul, ← RCLike.ofReal_mul, mul_left_comm]
    have hM : (hermAvg R + ((epsilon * absMax (hermAvg R) : ℝ) : 𝕜) • 1).IsHermitian := by
      rw [IsHermitian, conjTranspose_add, hH.eq, conjTranspose_smul, conjTranspose_one]
      congr 2
      rw [← starRingEnd_apply, RCLike.conj_ofReal]
    unfold solveAr
    dsimp only
    change (match la.cholSolve (hermAvg ((t : 𝕜) • R) + ((epsilon * absMax (hermAvg ((t : 𝕜) • R)) : ℝ) : 𝕜) • 1) (asMat3 ((s : 𝕜) • S)) with
      | some ar => Except.ok fun y u p => ar (y, u) p
      | none => match la.linSolve (hermAvg ((t : 𝕜) • R) + ((epsilon * absMax (hermAvg ((t : 𝕜) • R)) : ℝ) : 𝕜) • 1) (asMat3 ((s : 𝕜) • S)) with
        | some ar => Except.ok fun y u p => ar (y, u) p
        | none => Except.error PyErr.runtimeError) =
      Except.map _ (match la.cholSolve (hermAvg R + ((epsilon * absMax (hermAvg R) : ℝ) : 𝕜) • 1) (asMat3 S) with
      | some ar => Except.ok fun y u p => ar (y, u) p
      | none => match la.linSolve (hermAvg R + ((epsilon * absMax (hermAvg R) : ℝ) : 𝕜) • 1) (asMat3 S) with
        | some ar => Except.ok fun y u p => ar (y, u) p
        | none => Except.error PyErr.runtimeError)
    rw [eM, eS]
    generalize hermAvg R + ((epsilon * absMax (hermAvg R) : ℝ) : 𝕜) • 1 = M at *
    generalize asMat3 S = Y
    have hM' : ((t : 𝕜) • M).IsHermitian := by
      rw [IsHermitian, conjTranspose_smul, hM.eq, RCLike.star_def, RCLike.conj_ofReal]
    have hpos : ((t : 𝕜) • M).PosDef ↔ M.PosDef := by
      have ht' : (0 : 𝕜) < (t : 𝕜) := RCLike.ofReal_pos.2 ht
      constructor
      · intro h
        have := h.smul (inv_pos.2 ht')
        rwa [smul_smul, inv_mul_cancel₀ htk, one_smul] at this
      · intro h
        exact h.smul ht'
    have hdet : IsUnit ((t : 𝕜) • M).det ↔ IsUnit M.det := by
      rw [det_smul, isUnit_iff_ne_zero, isUnit_iff_ne_zero, mul_ne_zero_iff]
      exact ⟨fun h => h.2, fun h => ⟨pow_ne_zero _ htk, h⟩⟩
    have fin : ∀ X X' : Matrix (N × B) P 𝕜, IsUnit M.det → M * X = Y → (t : 𝕜) • M * X' = (s : 𝕜) • Y →
        (fun y u p => X' (y, u) p : N → B → P → 𝕜) = ((s / t : ℝ) : 𝕜) • fun y u p => X (y, u) p := by
      intro X X' hu h h'
      have e : M * X' = M * (((s / t : ℝ) : 𝕜) • X) := by
        rw [Matrix.mul_smul, h, RCLike.ofReal_div, div_eq_inv_mul, ← smul_smul, ← h', Matrix.smul_mul, smul_smul, inv_mul_cancel₀ htk, one_smul]
      have e' : X' = ((s / t : ℝ) : 𝕜) • X := by
        have := congrArg (fun x => M⁻¹ * x) e
        simpa only [nonsing_inv_mul_cancel_left _ _ hu] using this
      rw [e']
      rfl
    by_cases hp : M.PosDef
    · obtain ⟨X, hX⟩ := Option.isSome_iff_exists.1 (la.cholSolve_some M Y hp)
      obtain ⟨X', hX'⟩ := Option.isSome_iff_exists.1 (la.cholSolve_some ((t : 𝕜) • M) ((s : 𝕜) • Y) (hpos.2 hp))
      rw [hX, hX']
      exact congrArg Except.ok (fin X X' (isUnit_iff_isUnit_det _ |>.1 hp.isUnit) (la.cholSolve_ok _ _ _ hM hX) (la.cholSolve_ok _ _ _ hM' hX'))
    · have n1 : la.cholSolve M Y = none := by
        rw [Option.eq_none_iff_forall_ne_some]
        exact fun X hX => hp (la.cholSolve_posDef _ _ _ hM hX)
      have n2 : la.cholSolve ((t : 𝕜) • M) ((s : 𝕜) • Y) = none := by
        rw [Option.eq_none_iff_forall_ne_some]
        exact fun X hX => hp (hpos.1 (la.cholSolve_posDef _ _ _ hM' hX))
      rw [n1, n2]
      dsimp only
      by_cases hu : IsUnit M.det
      · obtain ⟨X, hX⟩ := Option.isSome_iff_exists.1 ((la.linSolve_some M Y).2 hu)
        obtain ⟨X', hX'⟩ := Option.isSome_iff_exists.1 ((la.linSolve_some ((t : 𝕜) • M) ((s : 𝕜) • Y)).2 (hdet.2 hu))
        rw [hX, hX']
        exact congrArg Except.ok (fin X X' hu (la.linSolve_ok _ _ _ hX) (la.linSolve_ok _ _ _ hX'))
      · have m1 : la.linSolve M Y = none := by
          rw [← Option.not_isSome_iff_eq_none, la.linSolve_some]; exact hu
        have m2 : la.linSolve ((t : 𝕜) • M) ((s : 𝕜) • Y) = none := by
          rw [← Option.not_isSome_iff_eq_none, la.linSolve_some, hdet]; exact hu
        rw [m1, m2]
        rfl

theorem n12gOf_smul (n12 : N → N → N → N → 𝕜) (a12g : N → N → P → P → 𝕜) (c : 𝕜) : n12gOf n12 (c • a12g) = c • n12gOf n12 a12g := by
  funext y x p q
  unfold n12gOf
  simp only [Pi.smul_apply, smul_eq_mul, Finset.mul_sum]
  exact Finset.sum_congr rfl fun _ _ => Finset.sum_congr rfl fun _ _ => by ring

theorem buildS1_smul (m : N → N → P → P → 𝕜) (a : N → B → P → 𝕜) (c : 𝕜) : buildS1 (c • m) a = c • buildS1 m a := by
  funext y x p
  unfold buildS1
  simp only [Pi.smul_apply, smul_eq_mul, Finset.mul_sum, mul_assoc]

theorem buildS2_smul (m : N → N → P → P → 𝕜) (a : N → B → P → 𝕜) (c d : ℝ) :
    buildS2 ((c : 𝕜) • m) ((d : 𝕜) • a) = ((c * d : ℝ) : 𝕜) • buildS2 m a := by
  funext y x p
  unfold buildS2
  simp only [Pi.smul_apply, Pi.star_apply, smul_eq_mul, Finset.mul_sum, star_mul', RCLike.star_def, RCLike.conj_ofReal, RCLike.ofReal_mul]
  exact Finset.sum_congr rfl fun _ _ => Finset.sum_congr rfl fun _ _ => by ring

theorem buildR2_smul (n12 : N → N → N → N → 𝕜) (a : N → B → P → 𝕜) (d : ℝ) :
    buildR2 n12 ((d : 𝕜) • a) = ((d * d : ℝ) : 𝕜) • buildR2 n12 a := by
  funext y x p u
  unfold buildR2
  simp only [Pi.smul_apply, Pi.star_apply, smul_eq_mul, Finset.mul_sum, Finset.sum_mul, star_mul', RCLike.star_def, RCLike.conj_ofReal,
    RCLike.ofReal_mul]
  exact Finset.sum_congr rfl fun _ _ => Finset.sum_congr rfl fun _ _ => Finset.sum_congr rfl fun _ _ => by ring

theorem cost_smul (a1 a2 : N → B → P → 𝕜) (g : N → N → P → P → 𝕜) (n12 : N → N → N → N → 𝕜) (c : ℝ) :
    cost ((c : 𝕜) • a1) a2 ((c : 𝕜) • g) n12 = c ^ 2 * cost a1 a2 g n12 := by
  have form : ∀ (a1r a2r : N → B → P → 𝕜) (a12g : N → N → P → P → 𝕜), cost a1r a2r a12g n12 =
      RCLike.re (∑ y, ∑ x, ∑ p, ∑ q, n12gOf n12 (fun y x p q => ∑ u, a1r y u p * a2r x u q) y x p q * star (∑ u, a1r y u p * a2r x u q)) -
      2 * RCLike.re (∑ y, ∑ x, ∑ p, ∑ q, n12gOf n12 a12g y x p q * star (∑ u, a1r y u p * a2r x u q)) := fun _ _ _ => rfl
  have hp : ∀ y x p q, ∑ u, ((c : 𝕜) • a1) y u p * a2 x u q = (c : 𝕜) * ∑ u, a1 y u p * a2 x u q := by
    intro y x p q
    simp only [Pi.smul_apply, smul_eq_mul, Finset.mul_sum, mul_assoc]
  have hp' : (fun y x p q => ∑ u, ((c : 𝕜) • a1) y u p * a2 x u q) = (c : 𝕜) • fun y x p q => ∑ u, a1 y u p * a2 x u q := by
    funext y x p q
    exact hp y x p q
  rw [form, form, hp', n12gOf_smul, n12gOf_smul]
  have hst : ∀ z : 𝕜, star ((c : 𝕜) * z) = (c : 𝕜) * star z := by
    intro z
    rw [star_mul', RCLike.star_def, RCLike.conj_ofReal]
  simp only [hp, hst]
  simp only [Pi.smul_apply, smul_eq_mul]
  have e : ∀ f g : N → N → P → P → 𝕜, ∑ y, ∑ x, ∑ p, ∑ q, (c : 𝕜) * f y x p q * ((c : 𝕜) * g y x p q) =
      ((c ^ 2 : ℝ) : 𝕜) * ∑ y, ∑ x, ∑ p, ∑ q, f y x p q * g y x p q := by
    intro f g
    simp only [Finset.mul_sum]
    refine Finset.sum_congr rfl fun _ _ => Finset.sum_congr rfl fun _ _ => Finset.sum_congr rfl fun _ _ => Finset.sum_congr rfl fun _ _ => ?_
    push_cast
    ring
  rw [e _ fun y x p q => star (∑ u, a1 y u p * a2 x u q), e _ fun y x p q => star (∑ u, a1 y u p * a2 x u q), RCLike.re_ofReal_mul,
    RCLike.re_ofReal_mul]
  ring

/-- One pass of the iteration: the first tensor is multiplied, the second is the same. -/
theorem alsPass_smul (la : Lapack 𝕜) (epsilon : ℝ) (n12 : N → N → N → N → 𝕜) (g : N → N → P → P → 𝕜) (method : Als.Solver)
    {c : ℝ} (hc : 0 < c) (p p' : (N → B → P → 𝕜) × (N → B → P → 𝕜)) (h : p'.2 = p.2) :
    Alike (fun p p' => p'.1 = (c : 𝕜) • p.1 ∧ p'.2 = p.2) (alsPass la epsilon n12 (n12gOf n12 g) method p)
      (alsPass la epsilon n12 (n12gOf n12 ((c : 𝕜) • g)) method p') := by
  unfold alsPass
  rw [h, n12gOf_smul, buildS1_smul]
  have e1 := solveAr_smul la epsilon method (buildR1 n12 p.2) (buildS1 (n12gOf n12 g) p.2) (t := 1) (s := c) one_pos
  rw [RCLike.ofReal_one, one_smul, div_one] at e1
  rw [e1]
  cases solveAr la epsilon method (buildR1 n12 p.2) (buildS1 (n12gOf n12 g) p.2) with
  | error e => exact rfl
  | ok a =>
    show Alike _ (solveAr la epsilon method (buildR2 n12 a) (buildS2 (n12gOf n12 g) a) >>= fun b => pure (a, b))
      (solveAr la epsilon method (buildR2 n12 ((c : 𝕜) • a)) (buildS2 ((c : 𝕜) • n12gOf n12 g) ((c : 𝕜) • a)) >>= fun b => pure ((c : 𝕜) • a, b))
    rw [buildR2_smul, buildS2_smul, solveAr_smul la epsilon method _ _ (mul_pos hc hc), div_self (mul_pos hc hc).ne', RCLike.ofReal_one]
    cases solveAr la epsilon method (buildR2 n12 a) (buildS2 (n12gOf n12 g) a) with
    | error e => exact rfl
    | ok b => exact ⟨rfl, one_smul _ _⟩

end linear

section update

variable {N P : Type} [Fintype N] [Fintype P] [DecidableEq N] [DecidableEq P] {bD : ℕ}

theorem gateReduced_smul {B : Type} [Fintype B] (a1 a2 : N → B → P → 𝕜) (gate : P → P → P → P → 𝕜) (c : 𝕜) :
    gateReduced a1 a2 (c • gate) = c • gateReduced a1 a2 gate := by
  funext y x r s
  unfold gateReduced
  simp only [Pi.smul_apply, smul_eq_mul, Finset.mul_sum, Finset.sum_mul]
  exact Finset.sum_congr rfl fun _ _ => Finset.sum_congr rfl fun _ _ => Finset.sum_congr rfl fun _ _ => by ring

theorem gaugeFix_smul {Z : Type} [Fintype Z] [DecidableEq Z] (la : Lapack 𝕜) (atol : ℝ) (nz : N → N → Z → 𝕜) (g : N → N → P → P → 𝕜)
    (c : 𝕜) : gaugeFix la atol nz (c • g) = { gaugeFix la atol nz g with a12g := c • (gaugeFix la atol nz g).a12g } := by
  unfold gaugeFix
  dsimp only
  congr 1
  funext y x p q
  simp only [Pi.smul_apply, smul_eq_mul, Finset.mul_sum]
  exact Finset.sum_congr rfl fun _ _ => Finset.sum_congr rfl fun _ _ => by ring

/-- The start of the iteration is the same. -/
theorem initReduced_smul {la : Lapack 𝕜} (hla : Homogeneous la) (hb : bD ≤ min (Fintype.card (N × P)) (Fintype.card (N × P)))
    (g : N → N → P → P → 𝕜) {c : ℝ} (hc : 0 < c) : initReduced la hb ((c : 𝕜) • g) = initReduced la hb g := by
  have e : (Matrix.of fun (i j : N × P) => ((c : 𝕜) • g) i.1 j.1 i.2 j.2) = (c : 𝕜) • Matrix.of fun (i j : N × P) => g i.1 j.1 i.2 j.2 := rfl
  unfold initReduced
  dsimp only
  rw [e, hla.svd c _ hc]
  dsimp only
  simp only [mul_div_mul_left _ _ hc.ne']

/-- The end of the update is the same. -/
theorem finalizeCore_smul {la : Lapack 𝕜} (hla : Homogeneous la)
    (hb : bD ≤ min (Fintype.card (Fin (qD N P bD))) (Fintype.card (Fin (qD N P bD)))) (a1 a2 : N → Fin bD → P → 𝕜)
    {c : ℝ} (hc : 0 < c) : finalizeCore la hb ((c : 𝕜) • a1) a2 = finalizeCore la hb a1 a2 := by
  have e : finMat ((c : 𝕜) • a1) = (c : 𝕜) • finMat a1 := rfl
  unfold finalizeCore
  dsimp only
  rw [e, hla.qr c _ hc]
  dsimp only
  have em : (Matrix.of fun a b => ∑ u, ((c : 𝕜) • (la.qr (finMat a1)).2) a u * (la.qr (finMat a2)).2 b u) =
      (c : 𝕜) • Matrix.of fun a b => ∑ u, (la.qr (finMat a1)).2 a u * (la.qr (finMat a2)).2 b u := by
    ext a b
    simp only [of_apply, Matrix.smul_apply, smul_eq_mul, Finset.mul_sum, mul_assoc]
  rw [em, hla.svd c _ hc]
  dsimp only
  have es : ∀ s : Fin (min (Fintype.card (Fin (qD N P bD))) (Fintype.card (Fin (qD N P bD)))) → ℝ,
      Real.sqrt (∑ j, (c * s j) ^ 2) = c * Real.sqrt (∑ j, s j ^ 2) := by
    intro s
    simp only [mul_pow, ← Finset.mul_sum]
    rw [Real.sqrt_mul (by positivity), Real.sqrt_sq hc.le]
  simp only [es, mul_div_mul_left _ _ hc.ne']

theorem undoGauge_smul {W B : Type} [Fintype W] (iy ix : N → W → 𝕜) (p : (W → B → P → 𝕜) × (W → B → P → 𝕜)) (c : 𝕜) :
    undoGauge iy ix (c • p.1, p.2) = (c • (undoGauge iy ix p).1, (undoGauge iy ix p).2) := by
  unfold undoGauge
  dsimp only
  congr 1
  funext y u q
  simp only [Pi.smul_apply, smul_eq_mul, Finset.mul_sum]
  exact Finset.sum_congr rfl fun _ _ => by ring

end update

section loop

variable {Q Q' : Type}

/-- The iteration when a pass takes loosely related pairs to closely related ones, whose costs have a fixed ratio. -/
theorem torchLoop_ratio (fo : Als.FloatOps F) (rep : ℝ → F) (tol : F) (hr : RatioTest fo rep tol) {weak close : Q → Q' → Prop}
    (hw : ∀ p p', close p p' → weak p p')
    {half : Q → Except PyErr Q} {half' : Q' → Except PyErr Q'} {cost : Q → ℝ} {cost' : Q' → ℝ} {t : ℝ} (ht : 0 < t)
    (h : ∀ p p', weak p p' → Alike close (half p) (half' p')) (hc : ∀ p p', close p p' → cost' p' = t * cost p) :
    ∀ (fuel i : ℕ) (p : Q) (p' : Q') (d d' : F), weak p p' → (1 < i → ∃ x, d = rep x ∧ d' = rep (t * x)) →
    Alike weak (Als.torchLoop fo half (fun p => rep (cost p)) tol fuel i p d)
      (Als.torchLoop fo half' (fun p => rep (cost' p)) tol fuel i p' d') := by
  intro fuel
  induction fuel with
  | zero => intro i p p' d d' hp _; exact hp
  | succ fuel ih =>
    intro i p p' d d' hp hd
    unfold Als.torchLoop
    refine Alike.bind (h p p' hp) ?_
    intro q q' hq
    dsimp only
    rw [hc q q' hq]
    have e : (fo.lt (Als.relErr fo (rep (t * cost q)) d') tol && decide (1 < i)) =
        (fo.lt (Als.relErr fo (rep (cost q)) d) tol && decide (1 < i)) := by
      by_cases hi : 1 < i
      · obtain ⟨x, rfl, rfl⟩ := hd hi
        rw [hr t _ _ ht]
      · simp [hi]
    rw [e]
    split
    · exact hw _ _ hq
    · exact ih _ _ _ _ _ (hw _ _ hq) fun _ => ⟨_, rfl, rfl⟩

end loop

section bond

variable {N P : Type} [Fintype N] [Fintype P] [DecidableEq N] [DecidableEq P] {bD : ℕ}

/-- Equal, or with the first tensor multiplied. -/
def Times {B : Type} (c : ℝ) (p p' : (N → B → P → 𝕜) × (N → B → P → 𝕜)) : Prop := (p'.1 = p.1 ∨ p'.1 = (c : 𝕜) • p.1) ∧ p'.2 = p.2

theorem alsSolve_smul {la : Lapack 𝕜} (hla : Homogeneous la) (fo : Als.FloatOps F) (rep : ℝ → F) (cfg : Settings F)
    (hr : RatioTest fo rep cfg.als_tol) (hb : bD ≤ min (Fintype.card (N × P)) (Fintype.card (N × P)))
    (n12 : N → N → N → N → 𝕜) (g : N → N → P → P → 𝕜) {c : ℝ} (hc : 0 < c) :
    Alike (Times c) (alsSolve la fo rep cfg hb n12 g) (alsSolve la fo rep cfg hb n12 ((c : 𝕜) • g)) := by
  unfold alsSolve Als.solveTorch
  rw [initReduced_smul hla hb g hc]
  refine torchLoop_ratio fo rep cfg.als_tol hr (weak := Times c) (close := fun p p' => p'.1 = (c : 𝕜) • p.1 ∧ p'.2 = p.2)
    (fun p p' h => ⟨Or.inr h.1, h.2⟩) (t := c ^ 2) (by positivity) (fun p p' h => alsPass_smul la _ n12 g _ hc p p' h.2)
    (fun p p' h => ?_) cfg.als_niter 0 _ _ _ _ ⟨Or.inl rfl, rfl⟩ (fun h => absurd h (by omega))
  rw [h.1, h.2, cost_smul]

theorem finish_smul {la : Lapack 𝕜} (hla : Homogeneous la)
    (hb : bD ≤ min (Fintype.card (Fin (qD N P bD))) (Fintype.card (Fin (qD N P bD)))) {c : ℝ} (hc : 0 < c)
    {p p' : (N → Fin bD → P → 𝕜) × (N → Fin bD → P → 𝕜)} (h : Times c p p') : finalizeCore la hb p'.1 p'.2 = finalizeCore la hb p.1 p.2 := by
  obtain ⟨h1 | h1, h2⟩ := h
  · rw [h1, h2]
  · rw [h1, h2, finalizeCore_smul hla hb _ _ hc]

theorem Times.undo {W B : Type} [Fintype W] (iy ix : N → W → 𝕜) {c : ℝ} {p p' : (W → B → P → 𝕜) × (W → B → P → 𝕜)} (h : Times c p p') :
    Times c (undoGauge iy ix p) (undoGauge iy ix p') := by
  obtain ⟨p1', p2'⟩ := p'
  obtain ⟨h1 | h1, h2⟩ := h
  · dsimp only at h1 h2
    subst h1 h2
    exact ⟨Or.inl rfl, rfl⟩
  · dsimp only at h1 h2
    subst h1 h2
    rw [undoGauge_smul]
    exact ⟨Or.inr rfl, rfl⟩

/-- `update_reduced_tensors` after `positive_approx`. -/
noncomputable def reducedAfter [Nonempty N] (la : Lapack 𝕜) (fo : Als.FloatOps F) (rep : ℝ → F) (cfg : Settings F)
    (hb : bD ≤ Fintype.card (N × P)) (a12g : N → N → P → P → 𝕜) (nz : N → N → Fin (Fintype.card (N × N)) → 𝕜) :
    Except PyErr ((N → Fin bD → P → 𝕜) × (N → Fin bD → P → 𝕜)) :=
  if cfg.use_gauge_fix then do
    let g := gaugeFix la cfg.gauge_fix_atol nz a12g
    let p ← alsSolve la fo rep cfg (hb_init (hb_gauge hb)) g.n12 g.a12g
    let p := undoGauge g.nzyr_inv g.nzxr_inv p
    return finalizeCore la (hb_fin hb) p.1 p.2
  else do
    let p ← alsSolve la fo rep cfg (hb_init hb) (squareNorm nz) a12g
    return finalizeCore la (hb_fin hb) p.1 p.2

theorem updateReduced_after [Nonempty N] (la : Lapack 𝕜) (fo : Als.FloatOps F) (rep : ℝ → F) (cfg : Settings F)
    (hb : bD ≤ Fintype.card (N × P)) (a1r a2r : N → Fin bD → P → 𝕜) (n12 : N → N → N → N → 𝕜) (gate : P → P → P → P → 𝕜) :
    updateReduced la fo rep cfg hb a1r a2r n12 gate =
      (positiveApprox la 2 cfg.positive_approx_cutoff n12).map (reducedAfter la fo rep cfg hb (gateReduced a1r a2r gate)) := rfl

theorem Alike.bind_eq {α β γ : Type} {rel : α → β → Prop} {x : Except PyErr α} {y : Except PyErr β} (h : Alike rel x y)
    {f : α → Except PyErr γ} {g : β → Except PyErr γ} (hf : ∀ a b, rel a b → g b = f a) : (y >>= g) = x >>= f := by
  cases x with
  | error e => cases y with
    | error e' => exact congrArg Except.error h.symm
    | ok b => exact h.elim
  | ok a => cases y with
    | error e' => exact h.elim
    | ok b => exact hf a b h

theorem reducedAfter_smul [Nonempty N] {la : Lapack 𝕜} (hla : Homogeneous la) (fo : Als.FloatOps F) (rep : ℝ → F) (cfg : Settings F)
    (hr : RatioTest fo rep cfg.als_tol) (hb : bD ≤ Fintype.card (N × P)) (g : N → N → P → P → 𝕜)
    (nz : N → N → Fin (Fintype.card (N × N)) → 𝕜) {c : ℝ} (hc : 0 < c) :
    reducedAfter la fo rep cfg hb ((c : 𝕜) • g) nz = reducedAfter la fo rep cfg hb g nz := by
  unfold reducedAfter
  by_cases hg : cfg.use_gauge_fix = true
  · rw [if_pos hg, if_pos hg, gaugeFix_smul]
    exact (alsSolve_smul hla fo rep cfg hr (hb_init (hb_gauge hb)) _ _ hc).bind_eq fun p p' h =>
      congrArg Except.ok (finish_smul hla (hb_fin hb) hc (Times.undo _ _ h))
  · rw [if_neg hg, if_neg hg]
    exact (alsSolve_smul hla fo rep cfg hr (hb_init hb) _ _ hc).bind_eq fun p p' h =>
      congrArg Except.ok (finish_smul hla (hb_fin hb) hc h)

/-- `update_reduced_tensors` with a multiple of the gate. -/
theorem updateReduced_smul [Nonempty N] {la : Lapack 𝕜} (hla : Homogeneous la) (fo : Als.FloatOps F) (rep : ℝ → F) (cfg : Settings F)
    (hr : RatioTest fo rep cfg.als_tol) (hb : bD ≤ Fintype.card (N × P)) (a1r a2r : N → Fin bD → P → 𝕜) (n12 : N → N → N → N → 𝕜)
    (gate : P → P → P → P → 𝕜) {c : ℝ} (hc : 0 < c) :
    updateReduced la fo rep cfg hb a1r a2r n12 ((c : 𝕜) • gate) = updateReduced la fo rep cfg hb a1r a2r n12 gate := by
  rw [updateReduced_after, updateReduced_after, gateReduced_smul]
  exact congrArg (fun f => Option.map f (positiveApprox la 2 cfg.positive_approx_cutoff n12))
    (funext fun nz => reducedAfter_smul hla fo rep cfg hr hb _ nz hc)

end bond

section split

variable {P : Type} [Fintype P] [DecidableEq P] {bD : ℕ} [NeZero bD] [Nonempty P]

/-- The library whose singular values are those of a multiple, divided by the factor. -/
noncomputable def Lapack.scaled (la : Lapack 𝕜) (c : ℝ) (hc : 0 < c) : Lapack 𝕜 :=
  { la with
    svd := fun A => ((la.svd ((c : 𝕜) • A)).1, fun i => c⁻¹ * (la.svd ((c : 𝕜) • A)).2.1 i, (la.svd ((c : 𝕜) • A)).2.2)
    svd_ok := fun A => by
      have h := isSVD_smul (la.svd_ok ((c : 𝕜) • A)) (inv_pos.2 hc).le
      rwa [smul_smul, ← RCLike.ofReal_mul, inv_mul_cancel₀ hc.ne', RCLike.ofReal_one, one_smul] at h }

theorem decompose_scaled (la : Lapack 𝕜) (c : ℝ) (hc : 0 < c) (a1 a2 : ATensor (Fin bD) P 𝕜) :
    decompose (la.scaled c hc) a1 a2 = decompose la a1 a2 := rfl

theorem splitBond_smul (la : Lapack 𝕜) (gate : P → P → P → P → 𝕜) (a1 a2 : ATensor (Fin bD) P 𝕜) {c : ℝ} (hc : 0 < c) :
    Simple.splitBond la ((c : 𝕜) • gate) a1 a2 = Simple.splitBond (la.scaled c hc) gate a1 a2 := by
  have key : ∀ a1r a2r : Fin (nD (Fin bD) P) → Fin bD → P → 𝕜, Simple.splitReduced la Simple.bD_le a1r a2r ((c : 𝕜) • gate) =
      Simple.splitReduced (la.scaled c hc) Simple.bD_le a1r a2r gate := by
    intro a1r a2r
    have e : (Matrix.of fun (i j : Fin (nD (Fin bD) P) × P) => ∑ p, ∑ q, (∑ u, a1r i.1 u p * a2r j.1 u q) * ((c : 𝕜) • gate) p q i.2 j.2) =
        (c : 𝕜) • Matrix.of fun (i j : Fin (nD (Fin bD) P) × P) => ∑ p, ∑ q, (∑ u, a1r i.1 u p * a2r j.1 u q) * gate p q i.2 j.2 := by
      ext i j
      simp only [of_apply, Matrix.smul_apply, Pi.smul_apply, smul_eq_mul, Finset.mul_sum]
      exact Finset.sum_congr rfl fun _ _ => Finset.sum_congr rfl fun _ _ => by ring
    unfold Simple.splitReduced
    dsimp only
    rw [e]
    unfold Lapack.scaled
    dsimp only
    have hi : 0 < c⁻¹ := inv_pos.2 hc
    have es : ∀ s : Fin bD → ℝ, Real.sqrt (∑ j, (c⁻¹ * s j) ^ 2) = c⁻¹ * Real.sqrt (∑ j, s j ^ 2) := by
      intro s
      simp only [mul_pow, ← Finset.mul_sum]
      rw [Real.sqrt_mul (by positivity), Real.sqrt_sq hi.le]
    simp only [es, mul_div_mul_left _ _ hi.ne']
  unfold Simple.splitBond
  rw [decompose_scaled]
  dsimp only
  rw [key]

theorem Homogeneous.splitBond {la : Lapack 𝕜} (hla : Homogeneous la) (gate : P → P → P → P → 𝕜) (a1 a2 : ATensor (Fin bD) P 𝕜)
    {c : ℝ} (hc : 0 < c) : Simple.splitBond (la.scaled c hc) gate a1 a2 = Simple.splitBond la gate a1 a2 := by
  have key : ∀ a1r a2r : Fin (nD (Fin bD) P) → Fin bD → P → 𝕜, Simple.splitReduced (la.scaled c hc) Simple.bD_le a1r a2r gate =
      Simple.splitReduced la Simple.bD_le a1r a2r gate := by
    intro a1r a2r
    unfold Simple.splitReduced Lapack.scaled
    dsimp only
    rw [hla.svd c _ hc]
    simp only [inv_mul_cancel_left₀ hc.ne']
  unfold Simple.splitBond
  rw [decompose_scaled]
  dsimp only
  rw [key]

end split

end AceTN
