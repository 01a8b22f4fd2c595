import Verif.Lemmas.TurnSolve
import Verif.Lemmas.SvdGauge

/-!
The singular value decompositions at the start and at the end of the alternating solver, in other bases.
-/

set_option autoImplicit false
set_option linter.unusedSectionVars false

namespace AceTN

open Matrix Spec SumTac Full

variable {𝕜 : Type} [RCLike 𝕜] {sgn : Bool}

section svd

variable {m n : Type} [Fintype m] [Fintype n] [DecidableEq m] [DecidableEq n] {r : ℕ}

/-- Decompositions of a matrix and of the same matrix in other bases: equal singular values, and the kept singular vectors, weighted
with a function of the singular values, differ by the change of basis and one of the bond. -/
theorem svd_turn {A A' : Matrix m n 𝕜} {U U' : Matrix m (Fin r) 𝕜} {S S' : Fin r → ℝ} {Vh Vh' : Matrix (Fin r) n 𝕜}
    (h : IsSVD A U S Vh) (h' : IsSVD A' U' S' Vh') {L : Matrix m m 𝕜} {R : Matrix n n 𝕜} (hL : Unit2 L) (hR : Unit2 R)
    (hA : A' = L * A * R) (k : ℕ) (hk : k ≤ r) (hc1 : ∀ i j : Fin r, i.val < k → k ≤ j.val → S j = 0 ∨ S j < S i)
    (hc2 : sgn = true → ∀ i j : Fin r, i.val < k → j.val < k → i ≠ j → S i = S j → S i = 0) :
    S' = S ∧ ∀ f : ℝ → 𝕜, f 0 = 0 → ∃ Z : Matrix (Fin k) (Fin k) 𝕜, Allowed sgn Z ∧
      (∀ x a, U' x (Fin.castLE hk a) * f (S (Fin.castLE hk a)) =
        ∑ b, Z a b * ((L * U) x (Fin.castLE hk b) * f (S (Fin.castLE hk b)))) ∧
      ∀ a y, Vh' (Fin.castLE hk a) y * f (S (Fin.castLE hk a)) =
        ∑ b, star (Z a b) * ((Vh * R) (Fin.castLE hk b) y * f (S (Fin.castLE hk b))) := by
  subst hA
  have ht := svd_turned' h hL hR
  obtain rfl := svd_values ht h'
  refine ⟨rfl, fun f hf => ?_⟩
  obtain ⟨W, hW, h1, h2, h3⟩ := svd_weighted' ht h' k hk hc1 f hf
  refine ⟨Wᵀ, ⟨hW.transpose, fun hg i j hij => ?_⟩, h2, h3⟩
  by_contra hne
  obtain ⟨e1, e2⟩ := h1 j i hne
  have hz := hc2 hg (Fin.castLE hk j) (Fin.castLE hk i) j.isLt i.isLt
    (fun e => hij (Fin.castLE_injective hk e).symm) e1
  rcases e2 with e2 | e2
  · exact hij e2.symm
  · exact e2 hz

end svd

section init

variable {N P : Type} [Fintype N] [Fintype P] [DecidableEq N] [DecidableEq P] {bD : ℕ}
  {W V : Matrix N N 𝕜} {U T : Matrix P P 𝕜} {a12g a12g' : N → N → P → P → 𝕜}

theorem gatedMat_turn (h : Turned4 W V U T a12g a12g') :
    gatedMat a12g' = kroneckerMap (· * ·) W U * gatedMat a12g * (kroneckerMap (· * ·) V T)ᵀ := by
  ext ⟨y₀, p₀⟩ ⟨x₀, q₀⟩
  simp only [mul_apply, transpose_apply, kroneckerMap_apply, gatedMat, of_apply, Fintype.sum_prod_type, h _ _ _ _]
  einsum_ring

theorem initReduced_turn (hs : ∀ a : 𝕜, star a = a) [NeZero bD] (la la' : Lapack 𝕜)
    (hb : bD ≤ min (Fintype.card (N × P)) (Fintype.card (N × P))) (hW : Unit2 W) (hV : Unit2 V) (hU : Unit2 U) (hT : Unit2 T)
    (h : Turned4 W V U T a12g a12g') (hc : ClearSvd sgn bD (gatedMat a12g)) :
    ∃ Z : Matrix (Fin bD) (Fin bD) 𝕜, Allowed sgn Z ∧ Turned3 W Z U (initReduced la hb a12g).1 (initReduced la' hb a12g').1 ∧
      Turned3 V Z T (initReduced la hb a12g).2 (initReduced la' hb a12g').2 := by
  obtain ⟨eS, hf⟩ := svd_turn (la.svd_ok (gatedMat a12g)) (la'.svd_ok (gatedMat a12g')) (hW.kron hU) (hV.kron hT).transpose
    (gatedMat_turn h) bD hb (hc.1 _ _ _ _ (la.svd_ok _)) (fun hg => hc.2 hg _ _ _ _ (la.svd_ok _))
  set s₀ := (la.svd (gatedMat a12g)).2.1 (Fin.castLE hb ⟨0, NeZero.pos bD⟩) with hs₀
  obtain ⟨Z, hZ, e1, e2⟩ := hf (fun s => ((Real.sqrt (s / s₀) : ℝ) : 𝕜)) (by simp)
  refine ⟨Z, hZ, ?_, ?_⟩
  · intro y₀ u₀ p₀
    have := e1 (y₀, p₀) u₀
    have lhs : (initReduced la' hb a12g').1 y₀ u₀ p₀ = (la'.svd (gatedMat a12g')).1 (y₀, p₀) (Fin.castLE hb u₀) *
        ((Real.sqrt ((la'.svd (gatedMat a12g')).2.1 (Fin.castLE hb u₀) / (la'.svd (gatedMat a12g')).2.1 (Fin.castLE hb ⟨0, NeZero.pos bD⟩)) : ℝ) : 𝕜) := rfl
    have rhs : ∀ y u p, (initReduced la hb a12g).1 y u p = (la.svd (gatedMat a12g)).1 (y, p) (Fin.castLE hb u) *
        ((Real.sqrt ((la.svd (gatedMat a12g)).2.1 (Fin.castLE hb u) / s₀) : ℝ) : 𝕜) := fun _ _ _ => rfl
    rw [lhs, eS, ← hs₀, this]
    simp only [rhs, mul_apply, kroneckerMap_apply, Fintype.sum_prod_type]
    einsum_ring
  · intro y₀ u₀ p₀
    have := e2 u₀ (y₀, p₀)
    have lhs : (initReduced la' hb a12g').2 y₀ u₀ p₀ = star ((la'.svd (gatedMat a12g')).2.2 (Fin.castLE hb u₀) (y₀, p₀)) *
        ((Real.sqrt ((la'.svd (gatedMat a12g')).2.1 (Fin.castLE hb u₀) / (la'.svd (gatedMat a12g')).2.1 (Fin.castLE hb ⟨0, NeZero.pos bD⟩)) : ℝ) : 𝕜) := rfl
    have rhs : ∀ y u p, (initReduced la hb a12g).2 y u p = star ((la.svd (gatedMat a12g)).2.2 (Fin.castLE hb u) (y, p)) *
        ((Real.sqrt ((la.svd (gatedMat a12g)).2.1 (Fin.castLE hb u) / s₀) : ℝ) : 𝕜) := fun _ _ _ => rfl
    rw [lhs, hs, eS, ← hs₀, this]
    simp only [rhs, hs, mul_apply, transpose_apply, kroneckerMap_apply, Fintype.sum_prod_type]
    einsum_ring

/-- The solver as a whole. -/
theorem alsSolve_turn {F : Type} (hs : ∀ a : 𝕜, star a = a) [NeZero bD] (la la' : Lapack 𝕜) (fo : Als.FloatOps F) (rep : ℝ → F)
    (cfg : Settings F) (hm : EvenSolver sgn cfg.als_method cfg.als_epsilon)
    (hb : bD ≤ min (Fintype.card (N × P)) (Fintype.card (N × P))) (hW : Allowed sgn W) (hV : Allowed sgn V) (hU : Unit2 U) (hT : Unit2 T)
    {n12 n12' : N → N → N → N → 𝕜} (hn : TurnedN W V n12 n12') (h : Turned4 W V U T a12g a12g')
    (hc : ClearSvd sgn bD (gatedMat a12g)) :
    ∃ Z : Matrix (Fin bD) (Fin bD) 𝕜, Allowed sgn Z ∧
      Alike (fun p p' => Turned3 W Z U p.1 p'.1 ∧ Turned3 V Z T p.2 p'.2) (alsSolve la fo rep cfg hb n12 a12g)
        (alsSolve la' fo rep cfg hb n12' a12g') := by
  obtain ⟨Z, hZ, h0⟩ := initReduced_turn hs la la' hb hW.unit hV.unit hU hT h hc
  refine ⟨Z, hZ, ?_⟩
  unfold alsSolve
  refine solveTorch_alike fo _ _ (fun p p' hp => alsPass_turn hs la la' hm hW hV hZ hU hT hn h p p' hp) ?_ h0
  intro p p' hp
  rw [cost_turn hs hW.unit hV.unit hZ.unit hU hT hn h hp.1 hp.2]

/-! ### Finalising -/

theorem finMat_turn {B : ℕ} {Z : Matrix (Fin B) (Fin B) 𝕜} {a a' : N → Fin B → P → 𝕜} (h : Turned3 W Z U a a') :
    finMat a' = kroneckerMap (· * ·) W U * finMat a * Zᵀ := by
  ext ⟨y₀, p₀⟩ u₀
  simp only [finMat, mul_apply, transpose_apply, kroneckerMap_apply, of_apply, Fintype.sum_prod_type, h _ _ _]
  einsum_ring

/-- The matrix decomposed in `finalize_reduced_tensors`. -/
def finCore (la : Lapack 𝕜) (a1r a2r : N → Fin bD → P → 𝕜) : Matrix (Fin (qD N P bD)) (Fin (qD N P bD)) 𝕜 :=
  (la.qr (finMat a1r)).2 * (la.qr (finMat a2r)).2ᵀ

/-- `finalize_reduced_tensors` is a decomposition of the product of the two tensors. -/
theorem finalize_svd (la : Lapack 𝕜) (a1r a2r : N → Fin bD → P → 𝕜) :
    IsSVD (finMat a1r * (finMat a2r)ᵀ)
      ((la.qr (finMat a1r)).1 * (la.svd (finCore la a1r a2r)).1)
      (la.svd (finCore la a1r a2r)).2.1
      ((la.svd (finCore la a1r a2r)).2.2 * (la.qr (finMat a2r)).1ᵀ) := by
  unfold finCore
  have q1 := la.qr_ok (finMat a1r)
  have q2 := la.qr_ok (finMat a2r)
  set Q1 := (la.qr (finMat a1r)).1
  set R1 := (la.qr (finMat a1r)).2
  set Q2 := (la.qr (finMat a2r)).1
  set R2 := (la.qr (finMat a2r)).2
  have hv := la.svd_ok (R1 * R2ᵀ)
  refine ⟨?_, ?_, ?_, hv.nonneg, hv.sorted⟩
  · have e : finMat a1r * (finMat a2r)ᵀ = Q1 * (R1 * R2ᵀ) * Q2ᵀ := by
      conv_lhs => rw [q1.mul, q2.mul, transpose_mul]
      simp only [Matrix.mul_assoc]
    rw [e]
    conv_lhs => rw [hv.mul]
    simp only [Matrix.mul_assoc]
  · rw [conjTranspose_mul, Matrix.mul_assoc, ← Matrix.mul_assoc Q1ᴴ, q1.iso, Matrix.one_mul, hv.left]
  · have ht : Q2ᵀ * Q2ᵀᴴ = 1 := by
      have := congrArg Matrix.transpose q2.iso
      rw [transpose_mul, transpose_one] at this
      exact this
    rw [conjTranspose_mul, Matrix.mul_assoc, ← Matrix.mul_assoc Q2ᵀ, ht, Matrix.one_mul, hv.right]

/-- The weights on the bond. -/
noncomputable def finWeight (la : Lapack 𝕜) (a1r a2r : N → Fin bD → P → 𝕜) (s : ℝ) : 𝕜 :=
  ((Real.sqrt (s / Real.sqrt (∑ j, (la.svd (finCore la a1r a2r)).2.1 j ^ 2)) : ℝ) : 𝕜)

theorem finCore_eq (la : Lapack 𝕜) (a1r a2r : N → Fin bD → P → 𝕜) :
    (Matrix.of fun a b => ∑ u, (la.qr (finMat a1r)).2 a u * (la.qr (finMat a2r)).2 b u) = finCore la a1r a2r := by
  ext i j
  simp only [finCore, of_apply, mul_apply, transpose_apply]

theorem finalizeCore_fst (la : Lapack 𝕜) (hb : bD ≤ min (Fintype.card (Fin (qD N P bD))) (Fintype.card (Fin (qD N P bD))))
    (a1r a2r : N → Fin bD → P → 𝕜) (y : N) (u : Fin bD) (p : P) : (finalizeCore la hb a1r a2r).1 y u p =
      ((la.qr (finMat a1r)).1 * (la.svd (finCore la a1r a2r)).1) (y, p) (Fin.castLE hb u) *
        finWeight la a1r a2r ((la.svd (finCore la a1r a2r)).2.1 (Fin.castLE hb u)) := by
  rw [mul_apply, Finset.sum_mul]
  unfold finalizeCore
  dsimp only
  rw [finCore_eq]
  exact Finset.sum_congr rfl fun b _ => by rw [finWeight]; ring

theorem finalizeCore_snd (la : Lapack 𝕜) (hb : bD ≤ min (Fintype.card (Fin (qD N P bD))) (Fintype.card (Fin (qD N P bD))))
    (a1r a2r : N → Fin bD → P → 𝕜) (y : N) (u : Fin bD) (p : P) : (finalizeCore la hb a1r a2r).2 y u p =
      ((la.svd (finCore la a1r a2r)).2.2 * (la.qr (finMat a2r)).1ᵀ) (Fin.castLE hb u) (y, p) *
        finWeight la a1r a2r ((la.svd (finCore la a1r a2r)).2.1 (Fin.castLE hb u)) := by
  rw [mul_apply, Finset.sum_mul]
  unfold finalizeCore
  dsimp only
  rw [finCore_eq]
  exact Finset.sum_congr rfl fun b _ => by rw [finWeight, transpose_apply]; ring

theorem finDim (hb : bD ≤ min (Fintype.card (Fin (qD N P bD))) (Fintype.card (Fin (qD N P bD)))) :
    min (Fintype.card (Fin (qD N P bD))) (Fintype.card (Fin (qD N P bD))) = bD := by
  refine le_antisymm ?_ hb
  simp only [Fintype.card_fin, qD, min_self]
  exact Nat.min_le_right _ _

/-- If the positive singular values of the returned pair are distinct, those of the pair that is passed are too. -/
theorem finalize_distinct (la : Lapack 𝕜) (hb : bD ≤ min (Fintype.card (Fin (qD N P bD))) (Fintype.card (Fin (qD N P bD))))
    (a1r a2r : N → Fin bD → P → 𝕜)
    (h : Distinct (finMat (finalizeCore la hb a1r a2r).1 * (finMat (finalizeCore la hb a1r a2r).2)ᵀ)) :
    ∀ i j, i ≠ j → (la.svd (finCore la a1r a2r)).2.1 i = (la.svd (finCore la a1r a2r)).2.1 j →
      (la.svd (finCore la a1r a2r)).2.1 i = 0 := by
  have hv := finalize_svd la a1r a2r
  set S := (la.svd (finCore la a1r a2r)).2.1 with hS
  set ν := Real.sqrt (∑ j, S j ^ 2) with hν
  have hw : ∀ i, finWeight la a1r a2r (S i) * finWeight la a1r a2r (S i) = ((S i / ν : ℝ) : 𝕜) := by
    intro i
    unfold finWeight
    rw [← RCLike.ofReal_mul, Real.mul_self_sqrt (div_nonneg (hv.nonneg i) (Real.sqrt_nonneg _))]
  have hprod : finMat (finalizeCore la hb a1r a2r).1 * (finMat (finalizeCore la hb a1r a2r).2)ᵀ =
      ((la.qr (finMat a1r)).1 * (la.svd (finCore la a1r a2r)).1) * diagonal (fun i => ((S i / ν : ℝ) : 𝕜)) *
        ((la.svd (finCore la a1r a2r)).2.2 * (la.qr (finMat a2r)).1ᵀ) := by
    ext ⟨y, p⟩ ⟨x, q⟩
    rw [mul_apply, mul_apply]
    simp only [mul_diagonal, transpose_apply]
    rw [← (finCongr (finDim hb).symm).sum_comp]
    refine Finset.sum_congr rfl fun u _ => ?_
    have e : finCongr (finDim hb).symm u = Fin.castLE hb u := rfl
    rw [e]
    show (finalizeCore la hb a1r a2r).1 y u p * (finalizeCore la hb a1r a2r).2 x u q = _
    rw [finalizeCore_fst, finalizeCore_snd, ← hw]
    ring
  have hv' : IsSVD (finMat (finalizeCore la hb a1r a2r).1 * (finMat (finalizeCore la hb a1r a2r).2)ᵀ) _ (fun i => S i / ν) _ :=
    ⟨hprod, hv.left, hv.right, fun i => div_nonneg (hv.nonneg i) (Real.sqrt_nonneg _),
      fun i j hij => div_le_div_of_nonneg_right (hv.sorted i j hij) (Real.sqrt_nonneg _)⟩
  intro i j hij e
  have := h _ _ _ _ hv' i j hij (by rw [e])
  rcases div_eq_zero_iff.1 this with h0 | h0
  · exact h0
  · have h1 : ∑ j, S j ^ 2 = 0 := (Real.sqrt_eq_zero (Finset.sum_nonneg fun _ _ => sq_nonneg _)).1 h0
    exact pow_eq_zero_iff (two_ne_zero) |>.1 ((Finset.sum_eq_zero_iff_of_nonneg fun _ _ => sq_nonneg _).1 h1 i (Finset.mem_univ _))

theorem finalizeCore_turn (hs : ∀ a : 𝕜, star a = a) (la la' : Lapack 𝕜)
    (hb : bD ≤ min (Fintype.card (Fin (qD N P bD))) (Fintype.card (Fin (qD N P bD)))) (hW : Unit2 W) (hV : Unit2 V) (hU : Unit2 U)
    (hT : Unit2 T) {Z : Matrix (Fin bD) (Fin bD) 𝕜} (hZ : Unit2 Z) {a1r a1r' a2r a2r' : N → Fin bD → P → 𝕜}
    (h1 : Turned3 W Z U a1r a1r') (h2 : Turned3 V Z T a2r a2r') 
    (hc : sgn = true → Distinct (finMat (finalizeCore la hb a1r a2r).1 * (finMat (finalizeCore la hb a1r a2r).2)ᵀ)) :
    ∃ Z' : Matrix (Fin bD) (Fin bD) 𝕜, Allowed sgn Z' ∧
      Turned3 W Z' U (finalizeCore la hb a1r a2r).1 (finalizeCore la' hb a1r' a2r').1 ∧
      Turned3 V Z' T (finalizeCore la hb a1r a2r).2 (finalizeCore la' hb a1r' a2r').2 := by
  have hA : finMat a1r' * (finMat a2r')ᵀ =
      kroneckerMap (· * ·) W U * (finMat a1r * (finMat a2r)ᵀ) * (kroneckerMap (· * ·) V T)ᵀ := by
    rw [finMat_turn h1, finMat_turn h2, transpose_mul, transpose_mul, transpose_transpose]
    have hz : Zᵀ * Z = 1 := by
      have := hZ.left
      have e : Zᴴ = Zᵀ := by ext i j; rw [conjTranspose_apply, hs, transpose_apply]
      rwa [e] at this
    calc kroneckerMap (· * ·) W U * finMat a1r * Zᵀ * (Z * ((finMat a2r)ᵀ * (kroneckerMap (· * ·) V T)ᵀ)) =
          kroneckerMap (· * ·) W U * finMat a1r * (Zᵀ * Z) * ((finMat a2r)ᵀ * (kroneckerMap (· * ·) V T)ᵀ) := by
            simp only [Matrix.mul_assoc]
      _ = _ := by rw [hz, Matrix.mul_one]; simp only [Matrix.mul_assoc]
  obtain ⟨eS, hf⟩ := svd_turn (sgn := sgn) (finalize_svd la a1r a2r) (finalize_svd la' a1r' a2r') (hW.kron hU) (hV.kron hT).transpose hA bD hb
    (fun i j _ hj => absurd hj (by
      have := j.isLt.trans_eq (finDim hb)
      omega))
    (fun hg i j _ _ => finalize_distinct la hb a1r a2r (hc hg) i j)
  obtain ⟨Z', hZ', e1, e2⟩ := hf (finWeight la a1r a2r) (by simp [finWeight])
  have ew : finWeight la' a1r' a2r' = finWeight la a1r a2r := by
    funext s
    unfold finWeight
    rw [eS]
  refine ⟨Z', hZ', ?_, ?_⟩
  · intro y₀ u₀ p₀
    rw [finalizeCore_fst, eS, ew, e1]
    simp only [finalizeCore_fst]
    rw [Finset.sum_congr rfl fun b _ => by rw [mul_apply]]
    simp only [kroneckerMap_apply, Fintype.sum_prod_type]
    generalize (la.qr (finMat a1r)).1 * (la.svd (finCore la a1r a2r)).1 = X
    generalize finWeight la a1r a2r = f
    einsum_ring
  · intro y₀ u₀ p₀
    rw [finalizeCore_snd, eS, ew, e2]
    simp only [finalizeCore_snd, hs]
    rw [Finset.sum_congr rfl fun b _ => by rw [mul_apply]]
    simp only [kroneckerMap_apply, transpose_apply, Fintype.sum_prod_type]
    generalize (la.svd (finCore la a1r a2r)).2.2 * (la.qr (finMat a2r)).1ᵀ = X
    generalize finWeight la a1r a2r = f
    einsum_ring

end init

end AceTN
