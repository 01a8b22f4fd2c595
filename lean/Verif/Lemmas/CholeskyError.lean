import Verif.Lemmas.CholeskyReturns
import Mathlib.Analysis.Normed.Module.FiniteDimension
import Mathlib.Analysis.InnerProductSpace.PiL2

/-!
How far the solver with the Cholesky method can end from a pair that it could have reached.
-/

set_option autoImplicit false
set_option linter.unusedSectionVars false

namespace AceTN

open Spec Full Matrix

section sizes

variable {𝕜 : Type} [RCLike 𝕜] {N P B : Type} [Fintype N] [Fintype P] [Fintype B] [DecidableEq N] [DecidableEq B]

/-- The size of a reduced tensor. -/
def size3 (a : N → B → P → 𝕜) : ℝ := ∑ p, ∑ i : N × B, ‖a i.1 i.2 p‖ ^ 2

theorem size3_nonneg (a : N → B → P → 𝕜) : 0 ≤ size3 a :=
  Finset.sum_nonneg fun _ _ => Finset.sum_nonneg fun _ _ => by positivity

theorem entry_le (a : N → B → P → 𝕜) (y : N) (u : B) (p : P) : ‖a y u p‖ ^ 2 ≤ size3 a :=
  (Finset.single_le_sum (f := fun i : N × B => ‖a i.1 i.2 p‖ ^ 2) (fun _ _ => by positivity) (Finset.mem_univ (y, u))).trans
    (Finset.single_le_sum (f := fun p => ∑ i : N × B, ‖a i.1 i.2 p‖ ^ 2)
      (fun _ _ => Finset.sum_nonneg fun _ _ => by positivity) (Finset.mem_univ p))

theorem entries_le (a : N → B → P → 𝕜) (y : N) (u : B) (p : P) (y' : N) (u' : B) (p' : P) :
    ‖a y u p‖ * ‖a y' u' p'‖ ≤ size3 a := by
  have h1 := entry_le a y u p
  have h2 := entry_le a y' u' p'
  nlinarith [sq_nonneg (‖a y u p‖ - ‖a y' u' p'‖)]

theorem le_absMax {n : Type} [Fintype n] (R : Matrix n n 𝕜) (i j : n) : ‖R i j‖ ≤ absMax R :=
  le_ciSup (f := fun ij : n × n => ‖R ij.1 ij.2‖) (Set.finite_range _).bddAbove (i, j)

/-- The sum of the entries of a norm tensor. -/
def entrySum (n : N → N → N → N → 𝕜) : ℝ := ∑ y, ∑ x, ∑ Y, ∑ X, ‖n y x Y X‖

theorem absMax_r1_le (n : N → N → N → N → 𝕜) (a : N → B → P → 𝕜) :
    absMax (asSq (buildR1 n a)) ≤ Fintype.card P * entrySum n * size3 a := by
  have h0 : 0 ≤ (Fintype.card P : ℝ) * entrySum n * size3 a := mul_nonneg (mul_nonneg (Nat.cast_nonneg _)
    (Finset.sum_nonneg fun _ _ => Finset.sum_nonneg fun _ _ => Finset.sum_nonneg fun _ _ => Finset.sum_nonneg fun _ _ => norm_nonneg _))
    (size3_nonneg a)
  refine Real.iSup_le (fun ij => ?_) h0
  obtain ⟨⟨Y, U⟩, ⟨y, u⟩⟩ := ij
  have e : asSq (buildR1 n a) (Y, U) (y, u) = ∑ q, ∑ x, ∑ X, n y x Y X * (a x u q * star (a X U q)) := by
    unfold asSq buildR1
    simp only [of_apply]
    einsum_ring
  dsimp only
  rw [e]
  refine (norm_sum_le _ _).trans ?_
  have h1 : ∀ q, ‖∑ x, ∑ X, n y x Y X * (a x u q * star (a X U q))‖ ≤ entrySum n * size3 a := by
    intro q
    have h2 : ‖∑ x, ∑ X, n y x Y X * (a x u q * star (a X U q))‖ ≤ ∑ x, ∑ X, ‖n y x Y X‖ * size3 a := by
      refine (norm_sum_le _ _).trans (Finset.sum_le_sum fun x _ => (norm_sum_le _ _).trans (Finset.sum_le_sum fun X _ => ?_))
      rw [norm_mul, norm_mul, norm_star]
      exact mul_le_mul_of_nonneg_left (entries_le a _ _ _ _ _ _) (norm_nonneg _)
    refine h2.trans ?_
    simp only [← Finset.sum_mul]
    refine mul_le_mul_of_nonneg_right ?_ (size3_nonneg a)
    have h3 : ∑ x, ∑ X, ‖n y x Y X‖ ≤ ∑ x, ∑ Y, ∑ X, ‖n y x Y X‖ := Finset.sum_le_sum fun x _ =>
      Finset.single_le_sum (f := fun Y => ∑ X, ‖n y x Y X‖) (fun _ _ => Finset.sum_nonneg fun _ _ => norm_nonneg _) (Finset.mem_univ Y)
    exact h3.trans (Finset.single_le_sum (f := fun y => ∑ x, ∑ Y, ∑ X, ‖n y x Y X‖)
      (fun _ _ => Finset.sum_nonneg fun _ _ => Finset.sum_nonneg fun _ _ => Finset.sum_nonneg fun _ _ => norm_nonneg _) (Finset.mem_univ y))
  refine (Finset.sum_le_sum fun q _ => h1 q).trans ?_
  rw [Finset.sum_const, Finset.card_univ, nsmul_eq_mul, mul_assoc]

theorem absMax_r2_le (n : N → N → N → N → 𝕜) (a : N → B → P → 𝕜) :
    absMax (asSq (buildR2 n a)) ≤ Fintype.card P * entrySum n * size3 a := by
  have h0 : 0 ≤ (Fintype.card P : ℝ) * entrySum n * size3 a := mul_nonneg (mul_nonneg (Nat.cast_nonneg _)
    (Finset.sum_nonneg fun _ _ => Finset.sum_nonneg fun _ _ => Finset.sum_nonneg fun _ _ => Finset.sum_nonneg fun _ _ => norm_nonneg _))
    (size3_nonneg a)
  refine Real.iSup_le (fun ij => ?_) h0
  obtain ⟨⟨X, V⟩, ⟨x, v⟩⟩ := ij
  have e : asSq (buildR2 n a) (X, V) (x, v) = ∑ q, ∑ y, ∑ Y, n y x Y X * (a y v q * star (a Y V q)) := by
    unfold asSq buildR2
    simp only [of_apply]
    einsum_ring
  dsimp only
  rw [e]
  refine (norm_sum_le _ _).trans ?_
  have h1 : ∀ q, ‖∑ y, ∑ Y, n y x Y X * (a y v q * star (a Y V q))‖ ≤ entrySum n * size3 a := by
    intro q
    have h2 : ‖∑ y, ∑ Y, n y x Y X * (a y v q * star (a Y V q))‖ ≤ ∑ y, ∑ Y, ‖n y x Y X‖ * size3 a := by
      refine (norm_sum_le _ _).trans (Finset.sum_le_sum fun y _ => (norm_sum_le _ _).trans (Finset.sum_le_sum fun Y _ => ?_))
      rw [norm_mul, norm_mul, norm_star]
      exact mul_le_mul_of_nonneg_left (entries_le a _ _ _ _ _ _) (norm_nonneg _)
    refine h2.trans ?_
    simp only [← Finset.sum_mul]
    refine mul_le_mul_of_nonneg_right ?_ (size3_nonneg a)
    refine Finset.sum_le_sum fun y _ => ?_
    have h3 : ∑ Y, ‖n y x Y X‖ ≤ ∑ Y, ∑ X, ‖n y x Y X‖ := Finset.sum_le_sum fun Y _ =>
      Finset.single_le_sum (f := fun X => ‖n y x Y X‖) (fun _ _ => norm_nonneg _) (Finset.mem_univ X)
    exact h3.trans (Finset.single_le_sum (f := fun x => ∑ Y, ∑ X, ‖n y x Y X‖)
      (fun _ _ => Finset.sum_nonneg fun _ _ => Finset.sum_nonneg fun _ _ => norm_nonneg _) (Finset.mem_univ x))
  refine (Finset.sum_le_sum fun q _ => h1 q).trans ?_
  rw [Finset.sum_const, Finset.card_univ, nsmul_eq_mul, mul_assoc]

/-- A diagonal entry as a value of the quadratic form. -/
theorem qform_single {n : Type} [Fintype n] [DecidableEq n] (R : Matrix n n 𝕜) (i : n) : qform R (Pi.single i 1) = R i i := by
  unfold qform
  rw [Finset.sum_eq_single i (fun j _ hj => by simp [Pi.single_eq_of_ne hj]) (by simp),
    Finset.sum_eq_single i (fun j _ hj => by simp [Pi.single_eq_of_ne hj]) (by simp)]
  simp

theorem size3_le_r1 (n : N → N → N → N → 𝕜) (c : ℝ) (hc : AtLeast (normMat n) c) (a : N → B → P → 𝕜) (y : N) :
    c * size3 a ≤ Fintype.card B * absMax (asSq (buildR1 n a)) := by
  have h1 : ∀ u, c * ∑ q, ∑ x, ‖a x u q‖ ^ 2 ≤ absMax (asSq (buildR1 n a)) := by
    intro u
    have e := r1_form n a (Pi.single (y, u) 1)
    rw [qform_single] at e
    have h2 := le_absMax (asSq (buildR1 n a)) (y, u) (y, u)
    refine le_trans ?_ ((RCLike.re_le_norm _).trans h2)
    rw [e, map_sum, Finset.mul_sum]
    refine Finset.sum_le_sum fun q _ => ?_
    refine le_trans (le_of_eq ?_) (hc _)
    congr 1
    unfold normSq phi1
    symm
    rw [Fintype.sum_prod_type, Finset.sum_eq_single y (fun y' _ hy' => ?_) (by simp)]
    · refine Finset.sum_congr rfl fun x _ => ?_
      rw [norm_star]
      dsimp only
      rw [Finset.sum_eq_single u (fun u' _ hu' => ?_) (by simp)]
      · simp
      · rw [Pi.single_eq_of_ne (by simp [hu']), zero_mul]
    · refine Finset.sum_eq_zero fun x _ => ?_
      rw [Finset.sum_eq_zero fun u' _ => ?_]
      · simp
      · rw [Pi.single_eq_of_ne (by simp [hy']), zero_mul]
  have h2 := Finset.sum_le_sum fun u (_ : u ∈ (Finset.univ : Finset B)) => h1 u
  rw [Finset.sum_const, Finset.card_univ, nsmul_eq_mul, ← Finset.mul_sum] at h2
  refine le_trans (le_of_eq ?_) h2
  congr 1
  unfold size3
  simp only [Fintype.sum_prod_type]
  exact (Finset.sum_congr rfl fun p _ => Finset.sum_comm).trans Finset.sum_comm

theorem size3_le_r2 (n : N → N → N → N → 𝕜) (c : ℝ) (hc : AtLeast (normMat n) c) (a : N → B → P → 𝕜) (x : N) :
    c * size3 a ≤ Fintype.card B * absMax (asSq (buildR2 n a)) := by
  have h1 : ∀ u, c * ∑ q, ∑ y, ‖a y u q‖ ^ 2 ≤ absMax (asSq (buildR2 n a)) := by
    intro u
    have e := r2_form n a (Pi.single (x, u) 1)
    rw [qform_single] at e
    have h2 := le_absMax (asSq (buildR2 n a)) (x, u) (x, u)
    refine le_trans ?_ ((RCLike.re_le_norm _).trans h2)
    rw [e, map_sum, Finset.mul_sum]
    refine Finset.sum_le_sum fun q _ => ?_
    refine le_trans (le_of_eq ?_) (hc _)
    congr 1
    unfold normSq phi2
    symm
    rw [Fintype.sum_prod_type, Finset.sum_comm, Finset.sum_eq_single x (fun y' _ hy' => ?_) (by simp)]
    · refine Finset.sum_congr rfl fun y _ => ?_
      rw [norm_star]
      dsimp only
      rw [Finset.sum_eq_single u (fun u' _ hu' => ?_) (by simp)]
      · simp
      · rw [Pi.single_eq_of_ne (by simp [hu']), zero_mul]
    · refine Finset.sum_eq_zero fun y _ => ?_
      rw [Finset.sum_eq_zero fun u' _ => ?_]
      · simp
      · rw [Pi.single_eq_of_ne (by simp [hy']), zero_mul]
  have h2 := Finset.sum_le_sum fun u (_ : u ∈ (Finset.univ : Finset B)) => h1 u
  rw [Finset.sum_const, Finset.card_univ, nsmul_eq_mul, ← Finset.mul_sum] at h2
  refine le_trans (le_of_eq ?_) h2
  congr 1
  unfold size3
  simp only [Fintype.sum_prod_type]
  exact (Finset.sum_congr rfl fun p _ => Finset.sum_comm).trans Finset.sum_comm

/-- A root without kernel bounds the norm from below. -/
theorem rootInj_bound {Z : Type} [Fintype Z] (nz : N → N → Z → 𝕜) (h : RootInj nz) :
    ∃ c, 0 < c ∧ AtLeast (normMat (squareNorm nz)) c := by
  let f : EuclideanSpace 𝕜 (N × N) →ₗ[𝕜] EuclideanSpace 𝕜 Z :=
    { toFun := fun ψ => WithLp.toLp 2 fun z => ∑ y, ∑ x, nz y x z * ψ (y, x)
      map_add' := fun a b => by
        ext z
        simp [mul_add, Finset.sum_add_distrib]
      map_smul' := fun r a => by
        ext z
        simp only [PiLp.smul_apply, smul_eq_mul, RingHom.id_apply, Finset.mul_sum]
        exact Finset.sum_congr rfl fun _ _ => Finset.sum_congr rfl fun _ _ => by ring }
  have hk : LinearMap.ker f = ⊥ := by
    rw [LinearMap.ker_eq_bot']
    intro ψ hψ
    have h1 := h (fun i => ψ i) fun z => congrFun (congrArg WithLp.ofLp hψ) z
    ext i
    exact congrFun h1 i
  obtain ⟨K, hK0, hK⟩ := f.exists_antilipschitzWith hk
  have hK1 : (0 : ℝ) < K := hK0
  refine ⟨((K : ℝ) ^ 2)⁻¹, by positivity, fun v => ?_⟩
  have e1 := qform_squareNorm nz fun a => star (v a)
  simp only [star_star] at e1
  have e2 : qform (normMat (squareNorm nz)) v = qform (normMat (squareNorm nz)) fun a => v a := rfl
  rw [e2, e1]
  have h2 := hK.le_mul_dist (WithLp.toLp 2 fun i => star (v i)) 0
  rw [map_zero, dist_zero_right, dist_zero_right] at h2
  have h3 : ‖(WithLp.toLp 2 fun i => star (v i) : EuclideanSpace 𝕜 (N × N))‖ ^ 2 = normSq v := by
    rw [EuclideanSpace.norm_sq_eq]
    simp [normSq]
  have h4 : ‖f (WithLp.toLp 2 fun i => star (v i))‖ ^ 2 =
      RCLike.re (∑ z, (∑ y, ∑ x, nz y x z * star (v (y, x))) * star (∑ y, ∑ x, nz y x z * star (v (y, x)))) := by
    rw [EuclideanSpace.norm_sq_eq, map_sum]
    refine Finset.sum_congr rfl fun z _ => ?_
    rw [RCLike.star_def, RCLike.mul_conj]
    norm_cast
  rw [← h3, ← h4, inv_mul_le_iff₀ (by positivity), ← mul_pow]
  exact pow_le_pow_left₀ (norm_nonneg _) h2 2

end sizes

section loop

variable {𝕜 F : Type} [RCLike 𝕜] {N P B : Type} [Fintype N] [Fintype P] [Fintype B] [DecidableEq N] [DecidableEq P] [DecidableEq B]

/-- Passes that worsen a bound by a factor at most. -/
theorem torchLoop_grows {Q F : Type} (fo : Als.FloatOps F) (half : Q → Except PyErr Q) (rep : Q → F) (tol : F) (Y : Q → ℝ) (k : ℝ)
    (hk : 1 ≤ k) (hY : ∀ q q', half q = .ok q' → Y q' ≤ k * Y q) (fuel i : ℕ) (q q' : Q) (d : F) (t : ℝ) (ht : 0 ≤ t) (hq : Y q ≤ t)
    (h : Als.torchLoop fo half rep tol fuel i q d = .ok q') : Y q' ≤ k ^ fuel * t := by
  induction fuel generalizing i q d t with
  | zero =>
    rw [Als.torchLoop] at h
    cases h
    simpa using hq
  | succ m ih =>
    rw [Als.torchLoop] at h
    cases hh : half q with
    | error e => rw [hh] at h; exact absurd h (by simp [bind, Except.bind])
    | ok q1 =>
      rw [hh] at h
      simp only [bind, Except.bind] at h
      have h1 : Y q1 ≤ k * t := (hY _ _ hh).trans (mul_le_mul_of_nonneg_left hq (by linarith))
      have hk0 : 0 ≤ k := by linarith
      split at h
      · have h : (Except.ok q1 : Except PyErr Q) = .ok q' := h
        cases h
        refine h1.trans ?_
        rw [pow_succ, mul_assoc]
        exact le_mul_of_one_le_left (mul_nonneg hk0 ht) (one_le_pow₀ hk)
      · have := ih (i + 1) q1 (rep q1) (k * t) (mul_nonneg hk0 ht) h1 h
        rw [pow_succ, mul_assoc]
        exact this

/-- The first pass brings a bound, the others worsen it by a factor at most. -/
theorem torchLoop_bound {Q F : Type} (fo : Als.FloatOps F) (half : Q → Except PyErr Q) (rep : Q → F) (tol : F) (Y : Q → ℝ) (k : ℝ)
    (hk : 1 ≤ k) (hY : ∀ q q', half q = .ok q' → Y q' ≤ k * Y q) (fuel i : ℕ) (q q' : Q) (d : F) (t : ℝ) (ht : 0 ≤ t)
    (hq : ∀ q', half q = .ok q' → Y q' ≤ t)
    (h : Als.torchLoop fo half rep tol (fuel + 1) i q d = .ok q') : Y q' ≤ k ^ fuel * t := by
  rw [Als.torchLoop] at h
  cases hh : half q with
  | error e => rw [hh] at h; exact absurd h (by simp [bind, Except.bind])
  | ok q1 =>
    rw [hh] at h
    simp only [bind, Except.bind] at h
    have h1 := hq _ hh
    split at h
    · have h : (Except.ok q1 : Except PyErr Q) = .ok q' := h
      cases h
      exact h1.trans (le_mul_of_one_le_left ht (one_le_pow₀ hk))
    · exact torchLoop_grows fo half rep tol Y k hk hY fuel (i + 1) q1 q' _ t ht h1 h

end loop

end AceTN
