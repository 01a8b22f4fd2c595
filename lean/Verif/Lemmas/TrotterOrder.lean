import Mathlib.Analysis.Normed.Algebra.Exponential
import Mathlib.Analysis.SpecialFunctions.Exponential
import Mathlib.Tactic.NoncommRing
import Mathlib.Tactic.Module
import Mathlib.Tactic.Linarith
import Mathlib.Tactic.Positivity

/-!
Products of exponentials in a Banach algebra to second order.
-/

set_option autoImplicit false

namespace AceTN.Trot

open NormedSpace

variable {𝔸 : Type*} [NormedRing 𝔸] [NormedAlgebra ℝ 𝔸] [CompleteSpace 𝔸] [NormOneClass 𝔸]

/-- The exponential series from the third term on. -/
noncomputable def e3 (x : ℝ) : ℝ := Real.exp x - 1 - x - x ^ 2 / 2

omit [NormOneClass 𝔸] in
theorem hasSum_exp (a : 𝔸) : HasSum (fun n : ℕ => ((n.factorial : ℝ)⁻¹) • a ^ n) (exp a) :=
  exp_series_hasSum_exp' (𝕂 := ℝ) a

theorem hasSum_e3 (x : ℝ) : HasSum (fun n : ℕ => (((n + 3).factorial : ℝ)⁻¹) * x ^ (n + 3)) (e3 x) := by
  have h := hasSum_exp (𝔸 := ℝ) x
  rw [← Real.exp_eq_exp_ℝ] at h
  have h3 := (hasSum_nat_add_iff' (f := fun n : ℕ => ((n.factorial : ℝ)⁻¹) • x ^ n) 3).2 h
  have e : Real.exp x - ∑ i ∈ Finset.range 3, ((i.factorial : ℝ)⁻¹) • x ^ i = e3 x := by
    simp [Finset.sum_range_succ, Nat.factorial, e3]
    ring
  rw [e] at h3
  exact h3

theorem e3_nonneg {x : ℝ} (hx : 0 ≤ x) : 0 ≤ e3 x :=
  (hasSum_e3 x).nonneg fun n => by positivity

theorem e3_le {x : ℝ} (hx : 0 ≤ x) : e3 x ≤ x ^ 3 * Real.exp x := by
  have h := hasSum_exp (𝔸 := ℝ) x
  rw [← Real.exp_eq_exp_ℝ] at h
  refine hasSum_le (fun n => ?_) (hasSum_e3 x) (h.mul_left (x ^ 3))
  rw [smul_eq_mul, pow_add]
  have hf : ((n + 3).factorial : ℝ)⁻¹ ≤ (n.factorial : ℝ)⁻¹ := by
    apply inv_anti₀
    · exact_mod_cast n.factorial_pos
    · exact_mod_cast Nat.factorial_le (by omega)
  calc ((n + 3).factorial : ℝ)⁻¹ * (x ^ n * x ^ 3) ≤ (n.factorial : ℝ)⁻¹ * (x ^ n * x ^ 3) := by gcongr
    _ = _ := by ring

theorem e3_mono {x y : ℝ} (hx : 0 ≤ x) (h : x ≤ y) : e3 x ≤ e3 y := by
  refine hasSum_le (fun n => ?_) (hasSum_e3 x) (hasSum_e3 y)
  gcongr

theorem norm_exp_le (a : 𝔸) : ‖exp a‖ ≤ Real.exp ‖a‖ := by
  have h := hasSum_exp (𝔸 := ℝ) ‖a‖
  rw [← Real.exp_eq_exp_ℝ] at h
  refine (hasSum_exp a).norm_le_of_bounded h fun n => ?_
  rw [norm_smul, smul_eq_mul, Real.norm_of_nonneg (by positivity)]
  gcongr
  exact norm_pow_le a n

theorem norm_exp_sub (a : 𝔸) : ‖exp a - 1 - a - (1 / 2 : ℝ) • a ^ 2‖ ≤ e3 ‖a‖ := by
  have h3 := (hasSum_nat_add_iff' (f := fun n : ℕ => ((n.factorial : ℝ)⁻¹) • a ^ n) 3).2 (hasSum_exp a)
  have e : exp a - ∑ i ∈ Finset.range 3, ((i.factorial : ℝ)⁻¹) • a ^ i = exp a - 1 - a - (1 / 2 : ℝ) • a ^ 2 := by
    simp [Finset.sum_range_succ, Nat.factorial]
    abel
  rw [e] at h3
  refine h3.norm_le_of_bounded (hasSum_e3 ‖a‖) fun n => ?_
  rw [norm_smul, Real.norm_of_nonneg (by positivity)]
  gcongr
  exact norm_pow_le a _

/-- The product of the exponentials of a list. -/
noncomputable def expProd (l : List 𝔸) : 𝔸 := (l.map exp).prod

/-- Its second-order term. -/
noncomputable def second : List 𝔸 → 𝔸
  | [] => 0
  | a :: l => (1 / 2 : ℝ) • a ^ 2 + a * l.sum + second l

/-- The sum of the norms. -/
noncomputable def normSum (l : List 𝔸) : ℝ := (l.map (‖·‖)).sum

omit [NormedAlgebra ℝ 𝔸] [CompleteSpace 𝔸] [NormOneClass 𝔸] in
theorem normSum_nonneg (l : List 𝔸) : 0 ≤ normSum l :=
  List.sum_nonneg (by simp only [List.mem_map]; rintro _ ⟨a, _, rfl⟩; exact norm_nonneg a)

omit [NormedAlgebra ℝ 𝔸] [CompleteSpace 𝔸] [NormOneClass 𝔸] in
theorem norm_sum_le_normSum (l : List 𝔸) : ‖l.sum‖ ≤ normSum l := by
  induction l with
  | nil => simp [normSum]
  | cons a l ih =>
    simp only [normSum, List.sum_cons, List.map_cons] at ih ⊢
    exact (norm_add_le _ _).trans (by linarith)

omit [CompleteSpace 𝔸] in
theorem norm_second_le (l : List 𝔸) : ‖second l‖ ≤ normSum l ^ 2 / 2 := by
  induction l with
  | nil => simp [second, normSum]
  | cons a l ih =>
    have h1 := norm_sum_le_normSum l
    have hn : normSum (a :: l) = ‖a‖ + normSum l := rfl
    have ha := norm_nonneg a
    have h2 : ‖(1 / 2 : ℝ) • a ^ 2‖ ≤ ‖a‖ ^ 2 / 2 := by
      rw [norm_smul]; have := norm_pow_le a 2; norm_num; linarith
    have h3 : ‖a * l.sum‖ ≤ ‖a‖ * normSum l := (norm_mul_le _ _).trans (by gcongr)
    rw [second, hn]
    refine (norm_add₃_le).trans ?_
    nlinarith

theorem norm_expProd_le (l : List 𝔸) : ‖expProd l‖ ≤ Real.exp (normSum l) := by
  induction l with
  | nil => simp [expProd, normSum]
  | cons a l ih =>
    have : expProd (a :: l) = exp a * expProd l := by simp [expProd]
    have hn : normSum (a :: l) = ‖a‖ + normSum l := rfl
    rw [this, hn, Real.exp_add]
    exact (norm_mul_le _ _).trans (mul_le_mul (norm_exp_le a) ih (norm_nonneg _) (Real.exp_pos _).le)

/-- The product agrees with its second-order expansion up to third order. -/
theorem norm_expProd_sub (l : List 𝔸) : ‖expProd l - 1 - l.sum - second l‖ ≤ e3 (normSum l) := by
  induction l with
  | nil => simp [expProd, second, e3, normSum]
  | cons a l ih =>
    have hp : expProd (a :: l) = exp a * expProd l := by simp [expProd]
    have hn : normSum (a :: l) = ‖a‖ + normSum l := rfl
    set r := expProd l - 1 - l.sum - second l with hr
    set q := exp a - 1 - a - (1 / 2 : ℝ) • a ^ 2 with hq
    have e : expProd (a :: l) - 1 - (a :: l).sum - second (a :: l) =
        exp a * r + q * (1 + l.sum + second l) + (a * second l + (1 / 2 : ℝ) • a ^ 2 * l.sum
          + (1 / 2 : ℝ) • a ^ 2 * second l) := by
      rw [hp, hr, hq, second, List.sum_cons]
      noncomm_ring
    have ha := norm_nonneg a
    have hy := normSum_nonneg l
    have h1 : ‖exp a * r‖ ≤ Real.exp ‖a‖ * e3 (normSum l) :=
      (norm_mul_le _ _).trans (mul_le_mul (norm_exp_le a) ih (norm_nonneg _) (Real.exp_pos _).le)
    have h2 : ‖q * (1 + l.sum + second l)‖ ≤ e3 ‖a‖ * (1 + normSum l + normSum l ^ 2 / 2) := by
      refine (norm_mul_le _ _).trans (mul_le_mul (norm_exp_sub a) ?_ (norm_nonneg _) (e3_nonneg ha))
      refine norm_add₃_le.trans ?_
      rw [norm_one]
      have := norm_sum_le_normSum l
      have := norm_second_le l
      linarith
    have ha2 : ‖(1 / 2 : ℝ) • a ^ 2‖ ≤ ‖a‖ ^ 2 / 2 := by
      rw [norm_smul]; have := norm_pow_le a 2; norm_num; linarith
    have h3 : ‖a * second l + (1 / 2 : ℝ) • a ^ 2 * l.sum + (1 / 2 : ℝ) • a ^ 2 * second l‖ ≤
        ‖a‖ * (normSum l ^ 2 / 2) + ‖a‖ ^ 2 / 2 * normSum l + ‖a‖ ^ 2 / 2 * (normSum l ^ 2 / 2) := by
      refine norm_add₃_le.trans ?_
      gcongr
      · exact (norm_mul_le _ _).trans (by gcongr; exact norm_second_le l)
      · exact (norm_mul_le _ _).trans (mul_le_mul ha2 (norm_sum_le_normSum l) (norm_nonneg _) (by positivity))
      · exact (norm_mul_le _ _).trans (mul_le_mul ha2 (norm_second_le l) (norm_nonneg _) (by positivity))
    rw [e, hn]
    refine norm_add₃_le.trans ?_
    have : e3 (‖a‖ + normSum l) = Real.exp ‖a‖ * e3 (normSum l) + e3 ‖a‖ * (1 + normSum l + normSum l ^ 2 / 2) +
        (‖a‖ * (normSum l ^ 2 / 2) + ‖a‖ ^ 2 / 2 * normSum l + ‖a‖ ^ 2 / 2 * (normSum l ^ 2 / 2)) := by
      unfold e3; rw [Real.exp_add]; ring
    rw [this]
    linarith

omit [CompleteSpace 𝔸] [NormOneClass 𝔸] in
theorem second_append (l l' : List 𝔸) : second (l ++ l') = second l + l.sum * l'.sum + second l' := by
  induction l with
  | nil => simp [second]
  | cons a l ih => rw [List.cons_append, second, ih, second, List.sum_append, List.sum_cons]; noncomm_ring

omit [CompleteSpace 𝔸] [NormOneClass 𝔸] in
theorem second_reverse (l : List 𝔸) : second l + second l.reverse = l.sum ^ 2 := by
  induction l with
  | nil => simp [second]
  | cons a l ih =>
    rw [List.reverse_cons, second_append, second, second, second, List.sum_cons, List.sum_reverse]
    have h2 : second l.reverse = l.sum ^ 2 - second l := by rw [← ih]; abel
    have h3 : (1 / 2 : ℝ) • a ^ 2 + (1 / 2 : ℝ) • a ^ 2 = a ^ 2 := by
      rw [← add_smul]; norm_num
    rw [h2]
    simp only [List.sum_nil, List.sum_cons, mul_zero, add_zero]
    generalize (1 / 2 : ℝ) • a ^ 2 = h at h3
    calc h + a * l.sum + second l + (l.sum ^ 2 - second l + l.sum * a + h)
        = (h + h) + a * l.sum + l.sum ^ 2 + l.sum * a := by abel
      _ = a ^ 2 + a * l.sum + l.sum ^ 2 + l.sum * a := by rw [h3]
      _ = (a + l.sum) ^ 2 := by noncomm_ring

/-- A palindromic product is correct to second order. -/
theorem norm_palindrome_sub (l : List 𝔸) :
    ‖expProd (l ++ l.reverse) - exp l.sum * exp l.sum‖ ≤ 2 * e3 (2 * normSum l) := by
  have h1 := norm_expProd_sub (l ++ l.reverse)
  have h2 := norm_expProd_sub [l.sum, l.sum]
  have hs : normSum (l ++ l.reverse) = 2 * normSum l := by
    simp only [normSum, List.map_append, List.sum_append, List.map_reverse, List.sum_reverse]; ring
  have hs' : normSum [l.sum, l.sum] ≤ 2 * normSum l := by
    have := norm_sum_le_normSum l
    simp only [normSum, List.map_cons, List.map_nil, List.sum_cons, List.sum_nil] at this ⊢
    linarith
  have e1 : second (l ++ l.reverse) = second [l.sum, l.sum] := by
    have h3 : (1 / 2 : ℝ) • l.sum ^ 2 + (1 / 2 : ℝ) • l.sum ^ 2 = l.sum ^ 2 := by
      rw [← add_smul]; norm_num
    rw [second_append, List.sum_reverse, second, second, second]
    simp only [List.sum_nil, List.sum_cons, mul_zero, add_zero]
    calc second l + l.sum * l.sum + second l.reverse = (second l + second l.reverse) + l.sum * l.sum := by abel
      _ = ((1 / 2 : ℝ) • l.sum ^ 2 + (1 / 2 : ℝ) • l.sum ^ 2) + l.sum * l.sum := by rw [second_reverse, h3]
      _ = _ := by abel
  have e2 : (l ++ l.reverse).sum = [l.sum, l.sum].sum := by simp [List.sum_reverse]
  have e3' : expProd [l.sum, l.sum] = exp l.sum * exp l.sum := by simp [expProd]
  rw [e1, e2, hs] at h1
  rw [e3'] at h2
  have h2' := h2.trans (e3_mono (normSum_nonneg _) hs')
  calc ‖expProd (l ++ l.reverse) - exp l.sum * exp l.sum‖
      = ‖(expProd (l ++ l.reverse) - 1 - [l.sum, l.sum].sum - second [l.sum, l.sum]) -
          (exp l.sum * exp l.sum - 1 - [l.sum, l.sum].sum - second [l.sum, l.sum])‖ := by congr 1; abel
    _ ≤ _ := (norm_sub_le _ _).trans (by linarith)

/-- Any product is correct to first order. -/
theorem norm_product_sub (l : List 𝔸) : ‖expProd l - exp l.sum‖ ≤ normSum l ^ 2 + 2 * e3 (normSum l) := by
  have h1 := norm_expProd_sub l
  have h2 := norm_exp_sub l.sum
  have h3 := norm_second_le l
  have hs := norm_sum_le_normSum l
  have h2' := h2.trans (e3_mono (norm_nonneg _) hs)
  have h4 : ‖(1 / 2 : ℝ) • l.sum ^ 2‖ ≤ normSum l ^ 2 / 2 := by
    rw [norm_smul]
    have := norm_pow_le l.sum 2
    have := pow_le_pow_left₀ (norm_nonneg _) hs 2
    norm_num; linarith
  calc ‖expProd l - exp l.sum‖
      = ‖(expProd l - 1 - l.sum - second l) - (exp l.sum - 1 - l.sum - (1 / 2 : ℝ) • l.sum ^ 2) +
          (second l - (1 / 2 : ℝ) • l.sum ^ 2)‖ := by congr 1; abel
    _ ≤ ‖(expProd l - 1 - l.sum - second l) - (exp l.sum - 1 - l.sum - (1 / 2 : ℝ) • l.sum ^ 2)‖ +
          ‖second l - (1 / 2 : ℝ) • l.sum ^ 2‖ := norm_add_le _ _
    _ ≤ (e3 (normSum l) + e3 (normSum l)) + (normSum l ^ 2 / 2 + normSum l ^ 2 / 2) :=
        add_le_add ((norm_sub_le _ _).trans (add_le_add h1 h2')) ((norm_sub_le _ _).trans (add_le_add h3 h4))
    _ = _ := by ring

omit [NormedAlgebra ℝ 𝔸] [CompleteSpace 𝔸] in
/-- Powers of close elements. -/
theorem norm_pow_sub_pow (p q : 𝔸) (B d : ℝ) (hp : ‖p‖ ≤ B) (hq : ‖q‖ ≤ B) (hB : 1 ≤ B) (hd : ‖p - q‖ ≤ d) (k : ℕ) :
    ‖p ^ k - q ^ k‖ ≤ k * B ^ k * d := by
  have hd0 : 0 ≤ d := (norm_nonneg _).trans hd
  have hB0 : 0 ≤ B := by linarith
  induction k with
  | zero => simp
  | succ k ih =>
    have e : p ^ (k + 1) - q ^ (k + 1) = p ^ k * (p - q) + (p ^ k - q ^ k) * q := by
      rw [pow_succ, pow_succ]; noncomm_ring
    rw [e]
    have h1 : ‖p ^ k * (p - q)‖ ≤ B ^ k * d :=
      (norm_mul_le _ _).trans (mul_le_mul ((norm_pow_le p k).trans (by gcongr)) hd (norm_nonneg _) (by positivity))
    have h2 : ‖(p ^ k - q ^ k) * q‖ ≤ k * B ^ k * d * B :=
      (norm_mul_le _ _).trans (mul_le_mul ih hq (norm_nonneg _) (by positivity))
    have h3 : B ^ k * d ≤ B ^ (k + 1) * d := by gcongr; omega
    calc _ ≤ B ^ k * d + k * B ^ k * d * B := (norm_add_le _ _).trans (add_le_add h1 h2)
      _ ≤ B ^ (k + 1) * d + k * B ^ k * d * B := by gcongr
      _ = _ := by push_cast; ring

/-- The list applied forwards and backwards in turn, last factor first. -/
noncomputable def sweepProd : ℕ → List 𝔸 → 𝔸
  | 0, _ => 1
  | n + 1, l => sweepProd n l.reverse * expProd l.reverse

omit [NormedAlgebra ℝ 𝔸] [CompleteSpace 𝔸] [NormOneClass 𝔸] in
theorem expProd_append (l l' : List 𝔸) : expProd (l ++ l') = expProd l * expProd l' := by
  simp [expProd]

omit [NormedAlgebra ℝ 𝔸] [CompleteSpace 𝔸] [NormOneClass 𝔸] in
theorem sweepProd_two (n : ℕ) (l : List 𝔸) : sweepProd (n + 2) l = sweepProd n l * expProd (l ++ l.reverse) := by
  rw [sweepProd, sweepProd, List.reverse_reverse, expProd_append, mul_assoc]

omit [NormedAlgebra ℝ 𝔸] [CompleteSpace 𝔸] [NormOneClass 𝔸] in
theorem sweepProd_even (k : ℕ) (l : List 𝔸) : sweepProd (2 * k) l = expProd (l ++ l.reverse) ^ k := by
  induction k with
  | zero => simp [sweepProd]
  | succ k ih => rw [show 2 * (k + 1) = 2 * k + 2 by ring, sweepProd_two, ih, pow_succ]

omit [NormedAlgebra ℝ 𝔸] [CompleteSpace 𝔸] [NormOneClass 𝔸] in
theorem sweepProd_odd (k : ℕ) (l : List 𝔸) :
    sweepProd (2 * k + 1) l = expProd l.reverse * expProd (l ++ l.reverse) ^ k := by
  induction k with
  | zero => simp [sweepProd]
  | succ k ih => rw [show 2 * (k + 1) + 1 = 2 * k + 1 + 2 by ring, sweepProd_two, ih, pow_succ, mul_assoc]

/-- `n` sweeps against the exponential of the sum. -/
theorem norm_sweepProd_sub (n : ℕ) (l : List 𝔸) (hn : n ≠ 0) :
    ‖sweepProd n l - exp l.sum ^ n‖ ≤ Real.exp (n * normSum l) *
      (n * e3 (2 * normSum l) + (normSum l ^ 2 + 2 * e3 (normSum l))) := by
  set M := normSum l with hM
  have hM0 : 0 ≤ M := normSum_nonneg l
  have he2 := e3_nonneg (x := 2 * M) (by linarith)
  have he1 := e3_nonneg hM0
  have hX : ‖exp l.sum‖ ≤ Real.exp M :=
    (norm_exp_le _).trans (Real.exp_le_exp.2 (norm_sum_le_normSum l))
  have hP : ‖expProd (l ++ l.reverse)‖ ≤ Real.exp (2 * M) := by
    refine (norm_expProd_le _).trans (le_of_eq ?_)
    congr 1
    simp only [hM, normSum, List.map_append, List.sum_append, List.map_reverse, List.sum_reverse]; ring
  have hY : ‖exp l.sum * exp l.sum‖ ≤ Real.exp (2 * M) := by
    rw [two_mul, Real.exp_add]
    exact (norm_mul_le _ _).trans (mul_le_mul hX hX (norm_nonneg _) (Real.exp_pos _).le)
  have hk : ∀ k : ℕ, ‖expProd (l ++ l.reverse) ^ k - exp l.sum ^ (2 * k)‖ ≤
      k * Real.exp (2 * k * M) * (2 * e3 (2 * M)) := by
    intro k
    have := norm_pow_sub_pow _ _ _ _ hP hY (Real.one_le_exp (by linarith)) (norm_palindrome_sub l) k
    rw [← sq, ← pow_mul, ← Real.exp_nat_mul] at this
    convert this using 4
    ring
  obtain ⟨k, rfl | rfl⟩ := n.even_or_odd'
  · rw [sweepProd_even]
    refine (hk k).trans ?_
    push_cast
    have : 0 < Real.exp (2 * k * M) := Real.exp_pos _
    nlinarith [mul_nonneg this.le (add_nonneg (sq_nonneg M) (mul_nonneg zero_le_two he1))]
  · rw [sweepProd_odd, pow_succ']
    have e : expProd l.reverse * expProd (l ++ l.reverse) ^ k - exp l.sum * exp l.sum ^ (2 * k) =
        (expProd l.reverse - exp l.sum) * expProd (l ++ l.reverse) ^ k +
        exp l.sum * (expProd (l ++ l.reverse) ^ k - exp l.sum ^ (2 * k)) := by noncomm_ring
    have h1 := norm_product_sub l.reverse
    rw [List.sum_reverse, show normSum l.reverse = M by simp [hM, normSum]] at h1
    have hPk : ‖expProd (l ++ l.reverse) ^ k‖ ≤ Real.exp (2 * k * M) := by
      refine (norm_pow_le _ k).trans ((pow_le_pow_left₀ (norm_nonneg _) hP k).trans (le_of_eq ?_))
      rw [← Real.exp_nat_mul]; congr 1; ring
    rw [e]
    refine (norm_add_le _ _).trans ?_
    have h2 : ‖(expProd l.reverse - exp l.sum) * expProd (l ++ l.reverse) ^ k‖ ≤
        (M ^ 2 + 2 * e3 M) * Real.exp (2 * k * M) :=
      (norm_mul_le _ _).trans (mul_le_mul h1 hPk (norm_nonneg _) (by positivity))
    have h3 : ‖exp l.sum * (expProd (l ++ l.reverse) ^ k - exp l.sum ^ (2 * k))‖ ≤
        Real.exp M * (k * Real.exp (2 * k * M) * (2 * e3 (2 * M))) :=
      (norm_mul_le _ _).trans (mul_le_mul hX (hk k) (norm_nonneg _) (Real.exp_pos _).le)
    have hE : Real.exp (((2 * k + 1 : ℕ) : ℝ) * M) = Real.exp M * Real.exp (2 * k * M) := by
      rw [← Real.exp_add]; congr 1; push_cast; ring
    rw [hE]
    have h1M : 1 ≤ Real.exp M := Real.one_le_exp hM0
    have hp : 0 < Real.exp (2 * k * M) := Real.exp_pos _
    have h4 : (M ^ 2 + 2 * e3 M) * Real.exp (2 * k * M) ≤
        Real.exp M * Real.exp (2 * k * M) * (M ^ 2 + 2 * e3 M) := by
      have : 0 ≤ (M ^ 2 + 2 * e3 M) * Real.exp (2 * k * M) := by positivity
      nlinarith
    have h5 : 0 ≤ Real.exp M * Real.exp (2 * k * M) * e3 (2 * M) := by positivity
    push_cast
    nlinarith

/-- The constant of the error bound, for total time `T` and sum of norms `μ`. -/
noncomputable def bound (T μ : ℝ) : ℝ :=
  Real.exp (T * μ) * (8 * T * μ ^ 3 * Real.exp (2 * (T * μ)) + μ ^ 2 + 2 * (T * μ ^ 3 * Real.exp (T * μ)))

omit [CompleteSpace 𝔸] [NormOneClass 𝔸] in
theorem normSum_smul (τ : ℝ) (hτ : 0 ≤ τ) (hs : List 𝔸) :
    normSum (hs.map fun h => (-τ) • h) = τ * normSum hs := by
  induction hs with
  | nil => simp [normSum]
  | cons h hs ih =>
    simp only [normSum, List.map_cons, List.sum_cons] at ih ⊢
    rw [ih, norm_smul, norm_neg, Real.norm_of_nonneg hτ, mul_add]

omit [CompleteSpace 𝔸] [NormOneClass 𝔸] in
theorem sum_smul' (τ : ℝ) (hs : List 𝔸) : (hs.map fun h => (-τ) • h).sum = (-τ) • hs.sum := by
  induction hs with
  | nil => simp
  | cons h hs ih => simp only [List.map_cons, List.sum_cons, ih, smul_add]

omit [NormOneClass 𝔸] in
theorem exp_pow (n : ℕ) (a : 𝔸) : exp a ^ n = exp ((n : ℝ) • a) := by
  let _ : NormedAlgebra ℚ 𝔸 := NormedAlgebra.restrictScalars ℚ ℝ 𝔸
  rw [← exp_nsmul, Nat.cast_smul_eq_nsmul]

/-- Sweeps back and forth are correct to second order in the time step. -/
theorem norm_sweepProd_smul_sub (T : ℝ) (hs : List 𝔸) (n : ℕ) (τ : ℝ) (hτ : 0 ≤ τ) (hT : n * τ ≤ T) :
    ‖sweepProd n (hs.map fun h => (-τ) • h) - exp ((-(n * τ)) • hs.sum)‖ ≤ bound T (normSum hs) * τ ^ 2 := by
  set μ := normSum hs with hμ
  have hμ0 : 0 ≤ μ := normSum_nonneg hs
  have hT0 : 0 ≤ T := le_trans (by positivity) hT
  rcases Nat.eq_zero_or_pos n with rfl | hn
  · simp only [sweepProd, Nat.cast_zero, zero_mul, neg_zero, zero_smul, exp_zero, sub_self, norm_zero]
    unfold bound; positivity
  have h := norm_sweepProd_sub n (hs.map fun h => (-τ) • h) hn.ne'
  rw [normSum_smul τ hτ, sum_smul', exp_pow, smul_smul, ← hμ] at h
  have e : (n : ℝ) * -τ = -(n * τ) := by ring
  rw [e] at h
  refine h.trans ?_
  have hτT : τ ≤ T := by
    have : (1 : ℝ) ≤ n := by exact_mod_cast hn
    nlinarith
  have hm : τ * μ ≤ T * μ := by gcongr
  have hm0 : 0 ≤ τ * μ := by positivity
  have h1 : Real.exp (n * (τ * μ)) ≤ Real.exp (T * μ) := by
    apply Real.exp_le_exp.2; rw [← mul_assoc]; gcongr
  have h2 : n * e3 (2 * (τ * μ)) ≤ 8 * T * μ ^ 3 * Real.exp (2 * (T * μ)) * τ ^ 2 := by
    calc n * e3 (2 * (τ * μ)) ≤ n * ((2 * (τ * μ)) ^ 3 * Real.exp (2 * (τ * μ))) := by
          gcongr; exact e3_le (by positivity)
      _ = (n * τ) * (8 * μ ^ 3 * τ ^ 2) * Real.exp (2 * (τ * μ)) := by ring
      _ ≤ T * (8 * μ ^ 3 * τ ^ 2) * Real.exp (2 * (T * μ)) := by gcongr
      _ = _ := by ring
  have h3 : e3 (τ * μ) ≤ T * μ ^ 3 * Real.exp (T * μ) * τ ^ 2 := by
    calc e3 (τ * μ) ≤ (τ * μ) ^ 3 * Real.exp (τ * μ) := e3_le hm0
      _ = τ * (μ ^ 3 * τ ^ 2) * Real.exp (τ * μ) := by ring
      _ ≤ T * (μ ^ 3 * τ ^ 2) * Real.exp (T * μ) := by gcongr
      _ = _ := by ring
  have hnn : 0 ≤ n * e3 (2 * (τ * μ)) + ((τ * μ) ^ 2 + 2 * e3 (τ * μ)) := by
    have := e3_nonneg hm0
    have := e3_nonneg (x := 2 * (τ * μ)) (by positivity)
    positivity
  calc _ ≤ Real.exp (T * μ) * (n * e3 (2 * (τ * μ)) + ((τ * μ) ^ 2 + 2 * e3 (τ * μ))) := by gcongr
    _ ≤ Real.exp (T * μ) * (8 * T * μ ^ 3 * Real.exp (2 * (T * μ)) * τ ^ 2 + ((τ * μ) ^ 2 +
          2 * (T * μ ^ 3 * Real.exp (T * μ) * τ ^ 2))) := by gcongr
    _ = _ := by unfold bound; ring

omit [NormOneClass 𝔸] in
/-- Exponentials of commuting elements. -/
theorem exp_sum_of_pairwise (l : List 𝔸) (h : l.Pairwise Commute) : (l.map exp).prod = exp l.sum := by
  let _ : NormedAlgebra ℚ 𝔸 := NormedAlgebra.restrictScalars ℚ ℝ 𝔸
  induction l with
  | nil => simp
  | cons a l ih =>
    rw [List.pairwise_cons] at h
    rw [List.map_cons, List.prod_cons, List.sum_cons, ih h.2, exp_add_of_commute]
    exact Commute.list_sum_right _ _ h.1

end AceTN.Trot
