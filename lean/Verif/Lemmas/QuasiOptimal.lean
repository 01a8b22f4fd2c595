import Verif.Lemmas.SolveBest
import Verif.Props.CholeskyError
import Verif.Lemmas.PinvError

/-!
What the alternating solver reaches compared with the best pairs of reduced tensors.
-/

set_option autoImplicit false
set_option linter.unusedSectionVars false

namespace AceTN

open Spec Full Matrix

section start

variable {N P : Type} [Fintype N] [Fintype P] [DecidableEq N] [DecidableEq P] {bD : ℕ} [NeZero bD]

theorem col_unit {m : Type} [Fintype m] {r : ℕ} (U : Matrix m (Fin r) ℝ) (hU : Uᴴ * U = 1) (j : Fin r) : ∑ i, U i j ^ 2 = 1 := by
  have h := congrFun (congrFun hU j) j
  rw [mul_apply, one_apply_eq] at h
  rw [← h]
  exact Finset.sum_congr rfl fun i _ => by
    rw [conjTranspose_apply, star_trivial, sq]

theorem row_unit {m : Type} [Fintype m] {r : ℕ} (V : Matrix (Fin r) m ℝ) (hV : V * Vᴴ = 1) (j : Fin r) : ∑ i, V j i ^ 2 = 1 := by
  have h := congrFun (congrFun hV j) j
  rw [mul_apply, one_apply_eq] at h
  rw [← h]
  exact Finset.sum_congr rfl fun i _ => by
    rw [conjTranspose_apply, star_trivial, sq]

/-- With the second tensor the solver starts from, a best pair can be completed; the sizes of the two are bounded. -/
theorem start_completes (la : Lapack ℝ) (hb : bD ≤ min (Fintype.card (N × P)) (Fintype.card (N × P)))
    (g : N → N → P → P → ℝ) (hne : g ≠ 0) :
    ∃ r, (∀ b1 b2 : N → Fin bD → P → ℝ, normSq4 (fun y x p q => pairProd r (initReduced la hb g).2 y x p q - g y x p q) ≤
        normSq4 (fun y x p q => pairProd b1 b2 y x p q - g y x p q)) ∧
      size3 (initReduced la hb g).2 ≤ bD ∧ size3 r ≤ bD * normSq4 g := by
  have hsvd := init_svd la g
  set U := (la.svd (siteMat g)).1 with hU
  set S := (la.svd (siteMat g)).2.1 with hS
  set Vh := (la.svd (siteMat g)).2.2 with hV
  set S0 := S (Fin.castLE hb ⟨0, NeZero.pos bD⟩) with hS0
  have hle : ∀ i, S i ≤ S0 := fun i => hsvd.sorted _ i (Fin.mk_le_of_le_val (Nat.zero_le _))
  have hfr : normSq4 g = ∑ i, S i ^ 2 := by
    rw [← frobSq_siteMat]
    conv_lhs => rw [hsvd.mul]
    exact frobSq_usv U S Vh hsvd.left hsvd.right
  have hpos : 0 < S0 := by
    rcases (hsvd.nonneg (Fin.castLE hb ⟨0, NeZero.pos bD⟩)).lt_or_eq with h | h
    · exact h
    · exfalso
      apply hne
      have hz : frobSq (siteMat g) = 0 := by
        rw [frobSq_siteMat, hfr]
        refine Finset.sum_eq_zero fun i _ => ?_
        rw [le_antisymm ((hle i).trans h.symm.le) (hsvd.nonneg i)]
        norm_num
      have := (frobSq_eq_zero _).1 hz
      funext y x p q
      exact congrFun (congrFun this (y, p)) (x, q)
  have es : ∀ x u q, (initReduced la hb g).2 x u q = Vh (Fin.castLE hb u) (x, q) * Real.sqrt (S (Fin.castLE hb u) / S0) := fun x u q => rfl
  refine ⟨fun y u p => U (y, p) (Fin.castLE hb u) * Real.sqrt (S (Fin.castLE hb u) * S0), fun b1 b2 => ?_, ?_, ?_⟩
  · have h1 := eckart_young _ U S Vh hsvd (of fun (i : N × P) u => b1 i.1 u i.2) (of fun u (j : N × P) => b2 j.1 u j.2)
    rw [← siteMat_pairProd, Fintype.card_fin] at h1
    have e2 : siteMat g - siteMat (pairProd b1 b2) = -siteMat (fun y x p q => pairProd b1 b2 y x p q - g y x p q) := by
      ext i j
      simp [siteMat]
    have e3 : siteMat g - truncSVD U S Vh bD = -siteMat (fun y x p q =>
        pairProd (fun y u p => U (y, p) (Fin.castLE hb u) * Real.sqrt (S (Fin.castLE hb u) * S0)) (initReduced la hb g).2 y x p q -
          g y x p q) := by
      ext ⟨y, p⟩ ⟨x, q⟩
      simp only [siteMat, Matrix.sub_apply, Matrix.neg_apply, of_apply, neg_sub]
      congr 1
      unfold truncSVD pairProd
      rw [mul_apply]
      simp only [mul_diagonal]
      have e4 : ∀ i : Fin (min (Fintype.card (N × P)) (Fintype.card (N × P))),
          (U (y, p) i * if i.val < bD then ((S i : ℝ) : ℝ) else 0) * Vh i (x, q) =
          if i.val < bD then U (y, p) i * S i * Vh i (x, q) else 0 := by
        intro i; split <;> simp
      refine (Finset.sum_congr rfl fun i _ => e4 i).trans ?_
      rw [← sum_castLE hb fun i => U (y, p) i * S i * Vh i (x, q)]
      refine Finset.sum_congr rfl fun u _ => ?_
      rw [es]
      have h5 : Real.sqrt (S (Fin.castLE hb u) * S0) * Real.sqrt (S (Fin.castLE hb u) / S0) = S (Fin.castLE hb u) := by
        rw [← Real.sqrt_mul (mul_nonneg (hsvd.nonneg _) hpos.le)]
        have : S (Fin.castLE hb u) * S0 * (S (Fin.castLE hb u) / S0) = S (Fin.castLE hb u) ^ 2 := by
          field_simp
        rw [this, Real.sqrt_sq (hsvd.nonneg _)]
      calc U (y, p) (Fin.castLE hb u) * S (Fin.castLE hb u) * Vh (Fin.castLE hb u) (x, q) =
          U (y, p) (Fin.castLE hb u) * (Real.sqrt (S (Fin.castLE hb u) * S0) * Real.sqrt (S (Fin.castLE hb u) / S0)) *
            Vh (Fin.castLE hb u) (x, q) := by rw [h5]
        _ = _ := by ring
    have e5 : ∀ A : Matrix (N × P) (N × P) ℝ, frobSq (-A) = frobSq A := fun A => by simp [frobSq]
    rw [e2, e3, e5, e5, frobSq_siteMat, frobSq_siteMat] at h1
    exact h1
  · have e : size3 (initReduced la hb g).2 = ∑ u : Fin bD, S (Fin.castLE hb u) / S0 := by
      unfold size3
      have h1 : ∀ p, ∑ i : N × Fin bD, ‖(initReduced la hb g).2 i.1 i.2 p‖ ^ 2 =
          ∑ u : Fin bD, ∑ x, Vh (Fin.castLE hb u) (x, p) ^ 2 * (S (Fin.castLE hb u) / S0) := by
        intro p
        rw [Fintype.sum_prod_type, Finset.sum_comm]
        refine Finset.sum_congr rfl fun u _ => Finset.sum_congr rfl fun x _ => ?_
        rw [es, Real.norm_eq_abs, sq_abs, mul_pow, Real.sq_sqrt (div_nonneg (hsvd.nonneg _) hpos.le)]
      simp only [h1]
      rw [Finset.sum_comm]
      refine Finset.sum_congr rfl fun u _ => ?_
      have h2 := row_unit Vh hsvd.right (Fin.castLE hb u)
      rw [Fintype.sum_prod_type, Finset.sum_comm] at h2
      simp only [← Finset.sum_mul]
      rw [h2, one_mul]
    rw [e]
    refine (Finset.sum_le_sum fun u _ => (div_le_one hpos).2 (hle _)).trans ?_
    simp
  · have e : size3 (fun (y : N) (u : Fin bD) (p : P) => U (y, p) (Fin.castLE hb u) * Real.sqrt (S (Fin.castLE hb u) * S0)) =
        ∑ u : Fin bD, S (Fin.castLE hb u) * S0 := by
      unfold size3
      have h1 : ∀ p, ∑ i : N × Fin bD, ‖U (i.1, p) (Fin.castLE hb i.2) * Real.sqrt (S (Fin.castLE hb i.2) * S0)‖ ^ 2 =
          ∑ u : Fin bD, ∑ x, U (x, p) (Fin.castLE hb u) ^ 2 * (S (Fin.castLE hb u) * S0) := by
        intro p
        rw [Fintype.sum_prod_type, Finset.sum_comm]
        refine Finset.sum_congr rfl fun u _ => Finset.sum_congr rfl fun x _ => ?_
        rw [Real.norm_eq_abs, sq_abs, mul_pow, Real.sq_sqrt (mul_nonneg (hsvd.nonneg _) hpos.le)]
      simp only [h1]
      rw [Finset.sum_comm]
      refine Finset.sum_congr rfl fun u _ => ?_
      have h2 := col_unit U hsvd.left (Fin.castLE hb u)
      rw [Fintype.sum_prod_type, Finset.sum_comm] at h2
      simp only [← Finset.sum_mul]
      rw [h2, one_mul]
    rw [e]
    have h3 : S0 ^ 2 ≤ normSq4 g := by
      rw [hfr]
      exact Finset.single_le_sum (f := fun i => S i ^ 2) (fun _ _ => by positivity) (Finset.mem_univ _)
    refine (Finset.sum_le_sum (g := fun _ => normSq4 g) fun u _ => ?_).trans (by simp)
    refine le_trans ?_ h3
    rw [sq]
    exact mul_le_mul_of_nonneg_right (hle _) hpos.le

end start

section norms

variable {𝕜 : Type} [RCLike 𝕜] {N P : Type} [Fintype N] [Fintype P] {bD : ℕ}

/-- How far the root of a norm tensor lets a two-site tensor grow. -/
theorem root_le {Z : Type} [Fintype Z] (nz : N → N → Z → 𝕜) (ψ : N → N → P → P → 𝕜) :
    ∑ z, ∑ p, ∑ q, ‖∑ y, ∑ x, nz y x z * ψ y x p q‖ ^ 2 ≤ (∑ z, ∑ i : N × N, ‖nz i.1 i.2 z‖ ^ 2) * normSq4 ψ := by
  rw [Finset.sum_mul]
  refine Finset.sum_le_sum fun z _ => ?_
  have h1 : ∀ p q, ‖∑ y, ∑ x, nz y x z * ψ y x p q‖ ^ 2 ≤ (∑ i : N × N, ‖nz i.1 i.2 z‖ ^ 2) * ∑ i : N × N, ‖ψ i.1 i.2 p q‖ ^ 2 := by
    intro p q
    refine le_trans ?_ (Finset.sum_mul_sq_le_sq_mul_sq Finset.univ (fun i : N × N => ‖nz i.1 i.2 z‖) fun i => ‖ψ i.1 i.2 p q‖)
    refine pow_le_pow_left₀ (norm_nonneg _) ?_ 2
    rw [← Fintype.sum_prod_type (f := fun i : N × N => nz i.1 i.2 z * ψ i.1 i.2 p q)]
    refine (norm_sum_le _ _).trans (le_of_eq (Finset.sum_congr rfl fun i _ => norm_mul _ _))
  refine (Finset.sum_le_sum fun p _ => Finset.sum_le_sum fun q _ => h1 p q).trans (le_of_eq ?_)
  simp only [← Finset.mul_sum]
  congr 1
  unfold normSq4
  simp only [Fintype.sum_prod_type]
  calc _ = ∑ p, ∑ y, ∑ q, ∑ x, ‖ψ y x p q‖ ^ 2 := Finset.sum_congr rfl fun _ _ => Finset.sum_comm
    _ = ∑ y, ∑ p, ∑ q, ∑ x, ‖ψ y x p q‖ ^ 2 := Finset.sum_comm
    _ = ∑ y, ∑ p, ∑ x, ∑ q, ‖ψ y x p q‖ ^ 2 := Finset.sum_congr rfl fun _ _ => Finset.sum_congr rfl fun _ _ => Finset.sum_comm
    _ = _ := Finset.sum_congr rfl fun _ _ => Finset.sum_comm

/-- The least cost: what the cost exceeds it by is at least, and at most, a multiple of the squared distance. -/
theorem cost_between {Z : Type} [Fintype Z] (nz : N → N → Z → 𝕜) (g : N → N → P → P → 𝕜) (b1 b2 : N → Fin bD → P → 𝕜) :
    cost b1 b2 g (squareNorm nz) - -∑ z, ∑ p, ∑ q, ‖∑ y, ∑ x, nz y x z * g y x p q‖ ^ 2 ≤
      (∑ z, ∑ i : N × N, ‖nz i.1 i.2 z‖ ^ 2) * normSq4 (fun y x p q => pairProd b1 b2 y x p q - g y x p q) := by
  rw [C35_cost_is_distance, sub_neg_eq_add, sub_add_cancel]
  exact root_le nz fun y x p q => pairProd b1 b2 y x p q - g y x p q

/-- Transforming the two reduced legs lets a two-site tensor grow by a factor at most. -/
theorem legs_le {W : Type} [Fintype W] (ry rx : W → N → 𝕜) (ψ : N → N → P → P → 𝕜) :
    normSq4 (fun v w p q => ∑ y, ∑ x, ry v y * rx w x * ψ y x p q) ≤
      (∑ v, ∑ w, ∑ i : N × N, ‖ry v i.1 * rx w i.2‖ ^ 2) * normSq4 ψ := by
  have h := root_le (Z := W × W) (fun y x z => ry z.1 y * rx z.2 x) ψ
  simp only [Fintype.sum_prod_type] at h ⊢
  exact h

/-- The squared norm of a two-site tensor that the root of a norm tensor gives. -/
def rootDist {Z : Type} [Fintype Z] (nz : N → N → Z → 𝕜) (ψ : N → N → P → P → 𝕜) : ℝ :=
  ∑ z, ∑ p, ∑ q, ‖∑ y, ∑ x, nz y x z * ψ y x p q‖ ^ 2

theorem rootDist_nonneg {Z : Type} [Fintype Z] (nz : N → N → Z → 𝕜) (ψ : N → N → P → P → 𝕜) : 0 ≤ rootDist nz ψ :=
  Finset.sum_nonneg fun _ _ => Finset.sum_nonneg fun _ _ => Finset.sum_nonneg fun _ _ => by positivity

theorem cost_rootDist {Z : Type} [Fintype Z] (nz : N → N → Z → 𝕜) (g : N → N → P → P → 𝕜) (b1 b2 : N → Fin bD → P → 𝕜) :
    cost b1 b2 g (squareNorm nz) = rootDist nz (fun y x p q => pairProd b1 b2 y x p q - g y x p q) - rootDist nz g :=
  C35_cost_is_distance nz b1 b2 g

/-- The root of a bounded norm tensor bounds two-site tensors. -/
theorem rootDist_ge {Z : Type} [Fintype Z] (nz : N → N → Z → 𝕜) (c : ℝ) (hc : AtLeast (normMat (squareNorm nz)) c)
    (ψ : N → N → P → P → 𝕜) : c * normSq4 ψ ≤ rootDist nz ψ := by
  have h1 : ∀ p q, c * ∑ i : N × N, ‖ψ i.1 i.2 p q‖ ^ 2 ≤ ∑ z, ‖∑ y, ∑ x, nz y x z * ψ y x p q‖ ^ 2 := fun p q =>
    root_key nz c hc fun i => ψ i.1 i.2 p q
  have h2 := Finset.sum_le_sum fun p (_ : p ∈ (Finset.univ : Finset P)) =>
    Finset.sum_le_sum fun q (_ : q ∈ (Finset.univ : Finset P)) => h1 p q
  refine le_trans (le_of_eq ?_) (h2.trans (le_of_eq ?_))
  · simp only [← Finset.mul_sum]
    congr 1
    unfold normSq4
    simp only [Fintype.sum_prod_type]
    calc _ = ∑ y, ∑ p, ∑ x, ∑ q, ‖ψ y x p q‖ ^ 2 := Finset.sum_congr rfl fun _ _ => Finset.sum_comm
      _ = ∑ p, ∑ y, ∑ x, ∑ q, ‖ψ y x p q‖ ^ 2 := Finset.sum_comm
      _ = ∑ p, ∑ y, ∑ q, ∑ x, ‖ψ y x p q‖ ^ 2 :=
        Finset.sum_congr rfl fun _ _ => Finset.sum_congr rfl fun _ _ => Finset.sum_comm
      _ = _ := Finset.sum_congr rfl fun _ _ => Finset.sum_comm
  · unfold rootDist
    calc _ = ∑ p, ∑ z, ∑ q, ‖∑ y, ∑ x, nz y x z * ψ y x p q‖ ^ 2 := Finset.sum_congr rfl fun _ _ => Finset.sum_comm
      _ = _ := Finset.sum_comm

/-- The root in the gauge acts on two-site tensors like the root on the tensors brought back. -/
theorem rootDist_gauged {W Z : Type} [Fintype W] [Fintype Z] (nz : N → N → Z → 𝕜) (tx ty : N → W → 𝕜) (φ : W → W → P → P → 𝕜)
    (ψ : N → N → P → P → 𝕜) (h : ∀ y x p q, ∑ v, ∑ w, ty y v * tx x w * φ v w p q = ψ y x p q) :
    rootDist (gaugedRoot nz tx ty) φ = rootDist nz ψ := by
  unfold rootDist
  refine Finset.sum_congr rfl fun z _ => Finset.sum_congr rfl fun p _ => Finset.sum_congr rfl fun q _ => ?_
  congr 2
  simp only [← h]
  unfold gaugedRoot
  einsum_ring

theorem normSq4_nonneg (ψ : N → N → P → P → 𝕜) : 0 ≤ normSq4 ψ :=
  Finset.sum_nonneg fun _ _ => Finset.sum_nonneg fun _ _ => Finset.sum_nonneg fun _ _ => Finset.sum_nonneg fun _ _ => by positivity

end norms

section solver

variable {N P : Type} [Fintype N] [Fintype P] [DecidableEq N] [DecidableEq P] [Nonempty N] {bD : ℕ} [NeZero bD]

/-- With the second tensor the solver starts from, a pair as good as a multiple of the best one can be completed. -/
theorem start_quasi {Z : Type} [Fintype Z] (la : Lapack ℝ) (hb : bD ≤ min (Fintype.card (N × P)) (Fintype.card (N × P)))
    (nz : N → N → Z → ℝ) (g : N → N → P → P → ℝ) (hne : g ≠ 0) : ∃ r, ∀ b1 b2 : N → Fin bD → P → ℝ,
      rootDist nz (fun y x p q => pairProd r (initReduced la hb g).2 y x p q - g y x p q) ≤
        (∑ z, ∑ i : N × N, ‖nz i.1 i.2 z‖ ^ 2) * normSq4 (fun y x p q => pairProd b1 b2 y x p q - g y x p q) := by
  obtain ⟨r, hr, -, -⟩ := start_completes la hb g hne
  refine ⟨r, fun b1 b2 => (root_le nz _).trans (mul_le_mul_of_nonneg_left (hr b1 b2) ?_)⟩
  exact Finset.sum_nonneg fun _ _ => Finset.sum_nonneg fun _ _ => by positivity

/-- The solver is as good as a multiple of the best pair, up to a multiple of the regularisation; the factor depends on the norm tensor,
the dimensions and the number of iterations. -/
theorem alsSolve_quasi {Z : Type} [Fintype Z] (la : Lapack ℝ) (hb : bD ≤ min (Fintype.card (N × P)) (Fintype.card (N × P)))
    (nz : N → N → Z → ℝ) (hinj : RootInj nz) (m : ℕ) :
    ∃ K, 0 ≤ K ∧ ∀ (g : N → N → P → P → ℝ), g ≠ 0 → ∀ (F : Type) (fo : Als.FloatOps F) (rep : ℝ → F) (cfg : Settings F),
      0 ≤ cfg.als_epsilon → cfg.als_niter = m + 1 →
      ∀ p, alsSolve la fo rep cfg hb (squareNorm nz) g = .ok p → ∀ b1 b2 : N → Fin bD → P → ℝ,
        rootDist nz (fun y x q q' => pairProd p.1 p.2 y x q q' - g y x q q') ≤
          K * (normSq4 (fun y x q q' => pairProd b1 b2 y x q q' - g y x q q') + cfg.als_epsilon * normSq4 g) := by
  obtain ⟨c, hc0, hc⟩ := rootInj_bound nz hinj
  obtain ⟨K0, hK0, hnear⟩ := alsSolve_near la hb _ (squareNorm_herm nz) c hc0 hc m
  set M := ∑ z, ∑ i : N × N, ‖nz i.1 i.2 z‖ ^ 2 with hM
  have hM0 : 0 ≤ M := Finset.sum_nonneg fun _ _ => Finset.sum_nonneg fun _ _ => by positivity
  set C := (Fintype.card P : ℝ) * entrySum (squareNorm nz) with hC
  have hC0 : 0 ≤ C := mul_nonneg (Nat.cast_nonneg _)
    (Finset.sum_nonneg fun _ _ => Finset.sum_nonneg fun _ _ => Finset.sum_nonneg fun _ _ => Finset.sum_nonneg fun _ _ => norm_nonneg _)
  refine ⟨K0 * (M + C * bD * bD), by positivity, fun g hne F fo rep cfg he hni p hp b1 b2 => ?_⟩
  obtain ⟨r, hr, hs1, hs2⟩ := start_completes la hb g hne
  have hb0 := normSq4_nonneg (fun y x q q' => pairProd b1 b2 y x q q' - g y x q q')
  have hg0 := normSq4_nonneg g
  have e1 := cost_rootDist nz g p.1 p.2
  have e2 := cost_rootDist nz g r (initReduced la hb g).2
  have h1 : rootDist nz (fun y x q q' => pairProd r (initReduced la hb g).2 y x q q' - g y x q q') ≤
      M * normSq4 (fun y x q q' => pairProd b1 b2 y x q q' - g y x q q') :=
    (root_le nz _).trans (mul_le_mul_of_nonneg_left (hr b1 b2) hM0)
  set B := normSq4 (fun y x q q' => pairProd b1 b2 y x q q' - g y x q q') with hB
  set T := absMax (asSq (buildR1 (squareNorm nz) (initReduced la hb g).2)) * size3 r with hT
  have hT1 : T ≤ C * bD * bD * normSq4 g := by
    calc T ≤ (C * bD) * (bD * normSq4 g) := mul_le_mul ((absMax_r1_le _ _).trans (mul_le_mul_of_nonneg_left hs1 hC0)) hs2
          (size3_nonneg _) (by positivity)
      _ = _ := by ring
  have hT2 : 0 ≤ T := mul_nonneg (absMax_nonneg _) (size3_nonneg r)
  have main : rootDist nz (fun y x q q' => pairProd p.1 p.2 y x q q' - g y x q q') ≤ K0 * (M * B + cfg.als_epsilon * T) := by
    have h2 := hnear g (-rootDist nz g) (fun b1 b2 => by
      rw [cost_rootDist]
      linarith [rootDist_nonneg nz (fun y x p q => pairProd b1 b2 y x p q - g y x p q)]) r F fo rep cfg he hni p hp
    rw [e1, e2] at h2
    refine le_trans (by linarith) (h2.trans (mul_le_mul_of_nonneg_left ?_ (by linarith)))
    linarith
  refine main.trans ?_
  rw [mul_assoc]
  refine mul_le_mul_of_nonneg_left ?_ (by linarith)
  have h5 : cfg.als_epsilon * T ≤ cfg.als_epsilon * (C * bD * bD * normSq4 g) := mul_le_mul_of_nonneg_left hT1 he
  have h6 : 0 ≤ C * bD * bD := by positivity
  have h7 : 0 ≤ M * (cfg.als_epsilon * normSq4 g) := by positivity
  have h8 : 0 ≤ C * bD * bD * B := by positivity
  linarith

end solver

end AceTN
