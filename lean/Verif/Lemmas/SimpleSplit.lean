import Verif.Model.SimpleUpdate
import Verif.Spec.Weights
import Verif.Spec.Pair
import Verif.Props.TensorUpdate
import Verif.Props.Split

/-! The split of a bond in the simple update. -/

set_option autoImplicit false

namespace AceTN

open Matrix Spec SumTac Simple Full

variable {𝕜 : Type} [RCLike 𝕜] {B P N : Type} [Fintype B] [Fintype P] [Fintype N] [DecidableEq P] [DecidableEq N] {bD : ℕ}

/-- A two-site tensor as a matrix between the two sites. -/
def twoMat (T : B → B → B → B → B → B → P → P → 𝕜) : Matrix ((B × B × B) × P) ((B × B × B) × P) 𝕜 :=
  of fun i j => T i.1.2.2 i.1.1 i.1.2.1 j.1.2.1 j.1.2.2 j.1.1 i.2 j.2

omit [DecidableEq P] in
theorem frobSq_twoMat (T : B → B → B → B → B → B → P → P → 𝕜) : frobSq (twoMat T) = normSq8 T := by
  unfold frobSq normSq8 twoMat
  simp only [Fintype.sum_prod_type, of_apply]

omit [DecidableEq P] [Fintype P] in
theorem twoMat_twoSite (c1 c2 : ATensor B P 𝕜) : twoMat (twoSite c1 c2) =
    (of fun (i : (B × B × B) × P) (b : B) => c1 b i.1.2.2 i.1.1 i.1.2.1 i.2) *
    (of fun (b : B) (j : (B × B × B) × P) => c2 j.1.2.1 j.1.2.2 b j.1.1 j.2) := by
  ext i j
  rw [mul_apply]
  rfl

/-- An outer part, acting as the identity on the physical index. -/
def outer (q : B → B → B → N → 𝕜) : Matrix ((B × B × B) × P) (N × P) 𝕜 :=
  of fun i j => if i.2 = j.2 then q i.1.1 i.1.2.1 i.1.2.2 j.1 else 0

omit [DecidableEq P] [Fintype P] [Fintype B] [DecidableEq N] in
theorem twoMat_assembled [Fintype P] [DecidableEq P] (q1 q2 : B → B → B → N → 𝕜) (g : N → N → P → P → 𝕜) :
    twoMat (assembled q1 q2 g) = outer q1 * siteMat g * (outer q2)ᵀ := by
  ext i j
  rw [mul_apply]
  simp only [mul_apply, transpose_apply, Fintype.sum_prod_type]
  simp only [outer, of_apply, ite_mul, zero_mul, mul_ite, mul_zero, Finset.sum_ite_eq, Finset.mem_univ, if_true]
  unfold twoMat assembled siteMat
  simp only [of_apply]
  rw [Finset.sum_comm]
  refine Finset.sum_congr rfl fun x _ => ?_
  rw [Finset.sum_mul]
  refine Finset.sum_congr rfl fun y _ => ?_
  ring

omit [Fintype N] in
theorem outer_iso (q : B → B → B → N → 𝕜)
    (h : ∀ x y, ∑ r, ∑ d, ∑ u, star (q r d u x) * q r d u y = if x = y then 1 else 0) :
    (outer (P := P) q)ᴴ * outer (P := P) q = 1 := by
  ext ⟨x, p⟩ ⟨y, p'⟩
  rw [mul_apply]
  simp only [conjTranspose_apply, Fintype.sum_prod_type, outer, of_apply]
  simp only [one_apply, Prod.mk.injEq]
  by_cases hp : p = p'
  · subst hp
    have : ∀ a b c, (∑ d : P, star (if d = p then q a b c x else 0) * (if d = p then q a b c y else 0)) =
        star (q a b c x) * q a b c y := by
      intro a b c
      rw [Finset.sum_eq_single p (fun d _ hd => by simp [hd]) (by simp)]
      simp
    simp only [this, h, and_true]
  · have : ∀ a b c, (∑ d : P, star (if d = p then q a b c x else 0) * (if d = p' then q a b c y else 0)) = 0 := by
      intro a b c
      refine Finset.sum_eq_zero fun d _ => ?_
      by_cases hd : d = p
      · subst hd; simp [hp]
      · simp [hd]
    simp only [this, hp, and_false, if_false, Finset.sum_const_zero]

/-- The SVD of an assembled tensor. -/
theorem outer_svd {r : ℕ} (q1 q2 : B → B → B → N → 𝕜)
    (h1 : (outer (P := P) q1)ᴴ * outer (P := P) q1 = 1) (h2 : (outer (P := P) q2)ᴴ * outer (P := P) q2 = 1)
    (G : Matrix (N × P) (N × P) 𝕜) (U : Matrix (N × P) (Fin r) 𝕜) (S : Fin r → ℝ) (Vh : Matrix (Fin r) (N × P) 𝕜)
    (h : IsSVD G U S Vh) : IsSVD (outer q1 * G * (outer q2)ᵀ) (outer q1 * U) S (Vh * (outer q2)ᵀ) where
  mul := by
    rw [h.mul]
    simp only [Matrix.mul_assoc]
  left := by
    rw [conjTranspose_mul, Matrix.mul_assoc, ← Matrix.mul_assoc _ _ U, h1, Matrix.one_mul, h.left]
  right := by
    have h2' : (outer (P := P) q2)ᵀ * ((outer (P := P) q2)ᵀ)ᴴ = 1 := by
      have := congrArg Matrix.transpose h2
      rw [transpose_mul, transpose_one] at this
      rw [← this]
      rfl
    rw [conjTranspose_mul, Matrix.mul_assoc, ← Matrix.mul_assoc _ _ Vhᴴ, h2', Matrix.one_mul, h.right]
  nonneg := h.nonneg
  sorted := h.sorted

/-- What `splitReduced` computes. -/
theorem splitReduced_spec (la : Lapack 𝕜) (hb : bD ≤ min (Fintype.card (N × P)) (Fintype.card (N × P)))
    (hbpos : 0 < bD) (a1r a2r : N → Fin bD → P → 𝕜) (gate : P → P → P → P → 𝕜) (hne : gateReduced a1r a2r gate ≠ 0) :
    let r := splitReduced la hb a1r a2r gate
    Normalised r.2.2 ∧ ∃ (U : Matrix (N × P) _ 𝕜) (S : Fin (min (Fintype.card (N × P)) (Fintype.card (N × P))) → ℝ) (Vh : Matrix _ (N × P) 𝕜)
      (c : ℝ), IsSVD (siteMat (gateReduced a1r a2r gate)) U S Vh ∧ 0 < c ∧
      siteMat (fun y x p q => (c : 𝕜) * pairProd r.1 r.2.1 y x p q) = truncSVD U S Vh bD := by
  intro r
  have hm : siteMat (gateReduced a1r a2r gate) = of fun (i j : N × P) =>
      (einsum% "ypxq,pqrs->yrxs" (einsum% "yup,xuq->ypxq" a1r a2r) gate) i.1 i.2 j.1 j.2 := rfl
  have hsvd := la.svd_ok (siteMat (gateReduced a1r a2r gate))
  set sv := la.svd (siteMat (gateReduced a1r a2r gate)) with hsv
  set S : Fin bD → ℝ := fun a => sv.2.1 (Fin.castLE hb a) with hS
  set c := Real.sqrt (∑ b, S b ^ 2) with hc
  have hr22 : r.2.2 = fun a => Real.sqrt (S a / c) := rfl
  have hr1 : ∀ y a p, r.1 y a p = sv.1 (y, p) (Fin.castLE hb a) * ((Real.sqrt (S a / c) : ℝ) : 𝕜) := fun _ _ _ => rfl
  have hr2 : ∀ x a q, r.2.1 x a q = sv.2.2 (Fin.castLE hb a) (x, q) * ((Real.sqrt (S a / c) : ℝ) : 𝕜) := fun _ _ _ => rfl
  have hS0 : ∀ a, 0 ≤ S a := fun a => hsvd.nonneg _
  have hSs : ∀ a b, a ≤ b → S b ≤ S a := fun a b hab => hsvd.sorted _ _ hab
  have hpos : 0 < S ⟨0, hbpos⟩ := by
    refine lt_of_le_of_ne (hS0 _) fun h0 => hne ?_
    have hz : ∀ i, sv.2.1 i = 0 := fun i => le_antisymm ((hsvd.sorted _ _ (Fin.mk_le_of_le_val (Nat.zero_le _))).trans h0.ge) (hsvd.nonneg _)
    have hA := hsvd.mul
    simp only [hz, RCLike.ofReal_zero, diagonal_zero, Matrix.mul_zero, Matrix.zero_mul] at hA
    funext y x p q
    exact congrFun (congrFun hA (y, p)) (x, q)
  have hsum : 0 < ∑ b, S b ^ 2 :=
    Finset.sum_pos' (fun _ _ => by positivity) ⟨⟨0, hbpos⟩, Finset.mem_univ _, by positivity⟩
  have hcpos : 0 < c := Real.sqrt_pos.2 hsum
  have hle : ∀ a, S a ≤ c := fun a => by
    refine Real.le_sqrt_of_sq_le ?_
    exact Finset.single_le_sum (f := fun b => S b ^ 2) (fun _ _ => by positivity) (Finset.mem_univ a)
  have hsq : ∀ a, Real.sqrt (S a / c) * Real.sqrt (S a / c) = S a / c := fun a =>
    Real.mul_self_sqrt (div_nonneg (hS0 a) hcpos.le)
  refine ⟨⟨?_, ?_, ?_, ?_⟩, sv.1, sv.2.1, sv.2.2, c, hsvd, hcpos, ?_⟩
  · intro a; rw [hr22]; exact Real.sqrt_nonneg _
  · intro a b hab
    rw [hr22]
    exact Real.sqrt_le_sqrt (div_le_div_of_nonneg_right (hSs a b hab) hcpos.le)
  · intro a
    rw [hr22]
    exact Real.sqrt_le_one.2 ((div_le_one hcpos).2 (hle a))
  · rw [hr22]
    have : ∀ a, Real.sqrt (S a / c) ^ 4 = S a ^ 2 / c ^ 2 := fun a => by
      rw [show Real.sqrt (S a / c) ^ 4 = (Real.sqrt (S a / c) * Real.sqrt (S a / c)) ^ 2 by ring, hsq, div_pow]
    simp only [this]
    rw [← Finset.sum_div, hc, Real.sq_sqrt hsum.le, div_self hsum.ne']
  · ext ⟨y, p⟩ ⟨x, q⟩
    simp only [siteMat, of_apply]
    unfold truncSVD pairProd
    rw [mul_apply, Finset.mul_sum]
    simp only [mul_diagonal]
    have e4 : ∀ i : Fin (min (Fintype.card (N × P)) (Fintype.card (N × P))),
        (sv.1 (y, p) i * if i.val < bD then ((sv.2.1 i : ℝ) : 𝕜) else 0) * sv.2.2 i (x, q) =
        if i.val < bD then sv.1 (y, p) i * ((sv.2.1 i : ℝ) : 𝕜) * sv.2.2 i (x, q) else 0 := by
      intro i; split <;> simp
    refine Eq.trans ?_ (Finset.sum_congr rfl fun i _ => e4 i).symm
    rw [← sum_castLE hb fun i => sv.1 (y, p) i * ((sv.2.1 i : ℝ) : 𝕜) * sv.2.2 i (x, q)]
    refine Finset.sum_congr rfl fun a _ => ?_
    rw [hr1, hr2]
    have h1 : ((c : ℝ) : 𝕜) * (((Real.sqrt (S a / c) : ℝ) : 𝕜) * ((Real.sqrt (S a / c) : ℝ) : 𝕜)) = ((S a : ℝ) : 𝕜) := by
      rw [← RCLike.ofReal_mul, hsq, ← RCLike.ofReal_mul, mul_div_cancel₀ _ hcpos.ne']
    have h2 : ((S a : ℝ) : 𝕜) = ((sv.2.1 (Fin.castLE hb a) : ℝ) : 𝕜) := rfl
    rw [← h2, ← h1]
    ring

variable [NeZero bD] [Nonempty P]

/-- The split of a bond is an optimal truncation with normalised weights. -/
theorem splitBond_spec (la : Lapack 𝕜) (gate : P → P → P → P → 𝕜) (a1 a2 : ATensor (Fin bD) P 𝕜)
    (hne : gated gate (twoSite a1 a2) ≠ 0) :
    let s := splitBond la gate a1 a2
    Normalised s.2.2 ∧ ∃ c, BestBond (gated gate (twoSite a1 a2)) (twoSite s.1 s.2.1) c := by
  intro s
  have hg := C30_gate la a1 a2 gate
  have hiso := C30_isometric la a1 a2
  have hs : s = ((recompose (decompose la a1 a2).a1q (splitReduced la bD_le (decompose la a1 a2).a1r (decompose la a1 a2).a2r gate).1
    (decompose la a1 a2).a2q (splitReduced la bD_le (decompose la a1 a2).a1r (decompose la a1 a2).a2r gate).2.1).1,
    (recompose (decompose la a1 a2).a1q (splitReduced la bD_le (decompose la a1 a2).a1r (decompose la a1 a2).a2r gate).1
    (decompose la a1 a2).a2q (splitReduced la bD_le (decompose la a1 a2).a1r (decompose la a1 a2).a2r gate).2.1).2,
    (splitReduced la bD_le (decompose la a1 a2).a1r (decompose la a1 a2).a2r gate).2.2) := rfl
  rw [hs]
  revert hg hiso
  generalize decompose la a1 a2 = d
  intro hg hiso
  dsimp only
  have hgne : gateReduced d.a1r d.a2r gate ≠ 0 := by
    intro h0
    apply hne
    rw [← hg, h0]
    funext u r d l' u' d' p q
    simp [assembled]
  obtain ⟨hw, U, S, Vh, c, hsvd, hc, htr⟩ := splitReduced_spec la bD_le (NeZero.pos bD) d.a1r d.a2r gate hgne
  refine ⟨hw, c, hc, fun c1 c2 => ?_⟩
  set f := splitReduced la bD_le d.a1r d.a2r gate with hf
  have i1 := outer_iso (P := P) d.a1q fun x y => (hiso x y).1
  have i2 := outer_iso (P := P) d.a2q fun x y => (hiso x y).2
  have hsvd' := outer_svd d.a1q d.a2q i1 i2 _ U S Vh hsvd
  have hey := eckart_young _ _ _ _ hsvd'
    (of fun (i : (Fin bD × Fin bD × Fin bD) × P) (b : Fin bD) => c1 b i.1.2.2 i.1.1 i.1.2.1 i.2)
    (of fun (b : Fin bD) (j : (Fin bD × Fin bD × Fin bD) × P) => c2 j.1.2.1 j.1.2.2 b j.1.1 j.2)
  rw [← twoMat_twoSite, ← twoMat_assembled, hg, Fintype.card_fin] at hey
  have e1 : truncSVD (outer d.a1q * U) S (Vh * (outer d.a2q)ᵀ) bD =
      twoMat (fun u r dd l' u' d' p q => (c : 𝕜) * twoSite (recompose d.a1q f.1 d.a2q f.2.1).1
        (recompose d.a1q f.1 d.a2q f.2.1).2 u r dd l' u' d' p q) := by
    have e2 : truncSVD (outer (P := P) d.a1q * U) S (Vh * (outer (P := P) d.a2q)ᵀ) bD =
        outer d.a1q * truncSVD U S Vh bD * (outer d.a2q)ᵀ := by
      unfold truncSVD
      simp only [Matrix.mul_assoc]
    rw [e2, ← htr, ← twoMat_assembled]
    congr 1
    funext u₀ r₀ d₀ l₀ u₁ d₁ p₀ q₀
    have e3 : twoSite (recompose d.a1q f.1 d.a2q f.2.1).1 (recompose d.a1q f.1 d.a2q f.2.1).2 u₀ r₀ d₀ l₀ u₁ d₁ p₀ q₀ =
        assembled d.a1q d.a2q (pairProd f.1 f.2.1) u₀ r₀ d₀ l₀ u₁ d₁ p₀ q₀ := by
      unfold twoSite recompose assembled pairProd
      dsimp only
      einsum_ring
    rw [e3]
    unfold assembled
    rw [Finset.mul_sum]
    refine Finset.sum_congr rfl fun y _ => ?_
    rw [Finset.mul_sum]
    refine Finset.sum_congr rfl fun x _ => ?_
    ring
  rw [e1] at hey
  rw [← frobSq_twoMat, ← frobSq_twoMat]
  exact hey

end AceTN
