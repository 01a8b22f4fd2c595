import Verif.Lemmas.SvdGauge
import Verif.Lemmas.ProjEquiv
import Verif.Lemmas.SumTac
import Verif.Spec.Gauge
import Verif.Model.Gate
import Mathlib.Analysis.Normed.Algebra.MatrixExponential
import Mathlib.LinearAlgebra.Matrix.Kronecker

/-!
The gates of two models that are the same in other bases.
-/

set_option autoImplicit false

namespace AceTN

open Spec Matrix NormedSpace SumTac
open scoped Kronecker Matrix.Norms.Operator

variable {𝕜 : Type} [RCLike 𝕜]

theorem scalarMap_continuous (σ : ScalarMap 𝕜) : Continuous σ.f := by
  refine (AddMonoidHomClass.isometry_of_norm σ.f σ.norm).continuous

/-- The exponential of a matrix in another basis. -/
theorem exp_turn {n : Type} [Fintype n] [DecidableEq n] (σ : ScalarMap 𝕜) {W : Matrix n n 𝕜} (hW : Unit2 W) {H H' : Matrix n n 𝕜}
    (h : H.map σ.f = W * H' * Wᴴ) : (exp H).map σ.f = W * exp H' * Wᴴ := by
  have hc : Continuous (σ.f.mapMatrix : Matrix n n 𝕜 →+* Matrix n n 𝕜) := by
    refine continuous_matrix fun i j => ?_
    exact (scalarMap_continuous σ).comp (continuous_apply_apply i j)
  have h1 := map_exp (σ.f.mapMatrix : Matrix n n 𝕜 →+* Matrix n n 𝕜) hc H
  rw [RingHom.mapMatrix_apply, RingHom.mapMatrix_apply] at h1
  have hi : W⁻¹ = Wᴴ := Matrix.inv_eq_right_inv hW.right
  have hu : IsUnit W := by
    rw [Matrix.isUnit_iff_isUnit_det]
    exact Matrix.isUnit_det_of_left_inverse hW.left
  have h2 := Matrix.exp_conj W H' hu
  rw [hi] at h2
  rw [h] at h1
  exact h1.trans h2

variable {P : Type} [Fintype P] [DecidableEq P]

omit [DecidableEq P] in
theorem turnedOp2_matrix (σ : ScalarMap 𝕜) (U V : Matrix P P 𝕜) (H H' : Matrix (P × P) (P × P) 𝕜) :
    TurnedOp2 σ U V (fun p q r s => H (p, q) (r, s)) (fun p q r s => H' (p, q) (r, s)) ↔
      H.map σ.f = (U ⊗ₖ V)ᵀ * H' * ((U ⊗ₖ V)ᵀ)ᴴ := by
  have e : ∀ p q r s, ((U ⊗ₖ V)ᵀ * H' * ((U ⊗ₖ V)ᵀ)ᴴ) (p, q) (r, s) = ∑ k1', ∑ k2', ∑ b1', ∑ b2',
    U k1' p * V k2' q * H' (k1', k2') (b1', b2') * (star (U b1' r) * star (V b2' s)) := by
    intro p₀ q₀ r₀ s₀
    simp only [Matrix.mul_apply, Fintype.sum_prod_type, transpose_apply, conjTranspose_apply, kroneckerMap_apply, star_mul']
    einsum_ring
  constructor
  · intro h
    ext ⟨p, q⟩ ⟨r, s⟩
    rw [e, map_apply]
    exact h p q r s
  · intro h p q r s
    rw [← e, ← h, map_apply]

omit [DecidableEq P] in
theorem turnedOp_matrix (σ : ScalarMap 𝕜) (U : Matrix P P 𝕜) (H H' : Matrix P P 𝕜) :
    TurnedOp σ U H H' ↔ H.map σ.f = Uᵀ * H' * (Uᵀ)ᴴ := by
  have e : ∀ p r, (Uᵀ * H' * (Uᵀ)ᴴ) p r = ∑ k', ∑ b', U k' p * H' k' b' * star (U b' r) := by
    intro p₀ r₀
    simp only [Matrix.mul_apply, transpose_apply, conjTranspose_apply]
    einsum_ring
  constructor
  · intro h
    ext p r
    rw [e, map_apply]
    exact h p r
  · intro h p r
    rw [← e, ← h, map_apply]

theorem bondHam_turn {σ : ScalarMap 𝕜} {U : Site → Matrix P P 𝕜} (hU : ∀ s, Unit2 (U s)) {nx ny : ℕ} {m m' : ModelTerms P 𝕜}
    (h : TurnedTerms σ U nx ny m m') {b : Bond} (hb : b ∈ buildBondList nx ny) (h1 : InCell nx ny b.s1) (h2 : InCell nx ny b.s2) :
    (bondHam m b).map σ.f = (U b.s1 ⊗ₖ U b.s2)ᵀ * bondHam m' b * ((U b.s1 ⊗ₖ U b.s2)ᵀ)ᴴ := by
  have ht := (turnedOp2_matrix σ _ _ _ _).1 (h.1 b hb)
  unfold bondHam
  rcases h.2 _ h1 with ⟨e1, e1'⟩ | ⟨x, x', e1, e1', hx⟩
  · rw [e1, e1']
    exact ht
  rcases h.2 _ h2 with ⟨e2, e2'⟩ | ⟨y, y', e2, e2', hy⟩
  · rw [e1, e1', e2, e2']
    exact ht
  rw [e1, e1', e2, e2']
  dsimp only
  rw [turnedOp_matrix] at hx hy
  have hs : ∀ s, (U s)ᵀ * ((U s)ᵀ)ᴴ = 1 := fun s => (hU s).transpose.right
  have k1 : (x ⊗ₖ (1 : Matrix P P 𝕜)).map σ.f = (U b.s1 ⊗ₖ U b.s2)ᵀ * (x' ⊗ₖ 1) * ((U b.s1 ⊗ₖ U b.s2)ᵀ)ᴴ := by
    have : (x ⊗ₖ (1 : Matrix P P 𝕜)).map σ.f = x.map σ.f ⊗ₖ (1 : Matrix P P 𝕜).map σ.f := by
      ext i j
      simp only [kroneckerMap_apply, Matrix.map_apply, map_mul]
    rw [this, hx, mapScalar_one, ← kroneckerMap_transpose, conjTranspose_kronecker, ← mul_kronecker_mul, ← mul_kronecker_mul,
      Matrix.mul_one, hs]
  have k2 : ((1 : Matrix P P 𝕜) ⊗ₖ y).map σ.f = (U b.s1 ⊗ₖ U b.s2)ᵀ * (1 ⊗ₖ y') * ((U b.s1 ⊗ₖ U b.s2)ᵀ)ᴴ := by
    have : ((1 : Matrix P P 𝕜) ⊗ₖ y).map σ.f = (1 : Matrix P P 𝕜).map σ.f ⊗ₖ y.map σ.f := by
      ext i j
      simp only [kroneckerMap_apply, Matrix.map_apply, map_mul]
    rw [this, hy, mapScalar_one, ← kroneckerMap_transpose, conjTranspose_kronecker, ← mul_kronecker_mul, ← mul_kronecker_mul,
      Matrix.mul_one, hs]
  have hq : σ.f (0.25 : 𝕜) = 0.25 := by
    have h := σ.real (0.25 : ℝ)
    have e : ((0.25 : ℝ) : 𝕜) = 0.25 := by
      norm_num
      rw [RCLike.algebraMap_eq_ofReal, RCLike.ofReal_ofNat, one_div]
    rwa [e] at h
  rw [Matrix.map_add _ (map_add σ.f), ht, Matrix.mul_add, Matrix.add_mul]
  congr 1
  rw [Matrix.mul_smul, Matrix.smul_mul, Matrix.mul_add, Matrix.add_mul, ← k1, ← k2, ← Matrix.map_add _ (map_add σ.f)]
  ext i j
  rw [Matrix.map_apply, Matrix.smul_apply, Matrix.smul_apply, Matrix.map_apply, smul_eq_mul, smul_eq_mul, map_mul, hq]

/-- The gates of two models that are the same in other bases are the same in these bases. -/
theorem twoSiteGate_turn {σ : ScalarMap 𝕜} {U : Site → Matrix P P 𝕜} (hU : ∀ s, Unit2 (U s)) {nx ny : ℕ} {m m' : ModelTerms P 𝕜}
    (h : TurnedTerms σ U nx ny m m') (dtau : ℝ) {b : Bond} (hb : b ∈ buildBondList nx ny) (h1 : InCell nx ny b.s1)
    (h2 : InCell nx ny b.s2) : TurnedOp2 σ (U b.s1) (U b.s2) (twoSiteGate m dtau b) (twoSiteGate m' dtau b) := by
  refine (turnedOp2_matrix σ _ _ (calculateGate (bondHam m b) dtau) (calculateGate (bondHam m' b) dtau)).2 ?_
  unfold calculateGate
  refine exp_turn σ ((hU _).kron (hU _)).transpose ?_
  rw [Matrix.mul_smul, Matrix.smul_mul]
  have e := bondHam_turn hU h hb h1 h2
  rw [← e]
  ext i j
  rw [Matrix.map_apply, Matrix.smul_apply, Matrix.smul_apply, Matrix.map_apply, smul_eq_mul, smul_eq_mul, map_mul, map_neg, σ.real]

end AceTN
