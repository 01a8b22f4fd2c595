import Verif.Lemmas.RsvdError
import Mathlib.LinearAlgebra.Matrix.PosDef
import Mathlib.Topology.Algebra.Order.LiminfLimsup
import Mathlib.Analysis.SpecificLimits.Basic

/-!
The range of `(A Aᴴ)ᵖ A Ω` for large `p`: it captures as much of `A` as the best `k` directions, also when the singular values do not drop
after the first `k`.
-/

set_option autoImplicit false

namespace AceTN

open Matrix Spec Filter
open scoped ComplexOrder

variable {𝕜 : Type} [RCLike 𝕜] {m n : Type} [Fintype m] [Fintype n] [DecidableEq m] {r k : ℕ}

/-- Projecting on an invariant subspace of `S²` that is the image of an injective matrix. -/
theorem invariant_error (S : Fin r → ℝ) (s : Fin k → ℝ) (M : Matrix (Fin r) (Fin k) 𝕜)
    (hM : diagonal (fun i => ((S i ^ 2 : ℝ) : 𝕜)) * M = M * diagonal (fun j => ((s j ^ 2 : ℝ) : 𝕜)))
    (hK : IsUnit (Mᴴ * M).det) :
    frobSq (diagonal (fun i => (S i : 𝕜)) - M * ((Mᴴ * M)⁻¹ * Mᴴ * diagonal (fun i => (S i : 𝕜)))) = ∑ i, S i ^ 2 - ∑ j, s j ^ 2 := by
  set D : Matrix (Fin r) (Fin r) 𝕜 := diagonal (fun i => (S i : 𝕜)) with hD
  set K := Mᴴ * M with hKd
  set P := M * K⁻¹ * Mᴴ with hP
  have hDh : Dᴴ = D := by
    rw [hD, diagonal_conjTranspose]
    congr 1
    funext i
    simp
  have hKh : Kᴴ = K := by rw [hKd, conjTranspose_mul, conjTranspose_conjTranspose]
  have hPh : Pᴴ = P := by
    rw [hP, conjTranspose_mul, conjTranspose_mul, conjTranspose_conjTranspose, conjTranspose_nonsing_inv, hKh, Matrix.mul_assoc]
  have hPP : P * P = P := by
    calc P * P = M * (K⁻¹ * K) * K⁻¹ * Mᴴ := by rw [hP, hKd]; simp only [Matrix.mul_assoc]
      _ = P := by rw [nonsing_inv_mul _ hK, Matrix.mul_one]
  have hDD : D * D = diagonal (fun i => ((S i ^ 2 : ℝ) : 𝕜)) := by
    rw [hD, diagonal_mul_diagonal]
    simp [pow_two]
  have e1 : D - M * (K⁻¹ * Mᴴ * D) = D - P * D := by rw [hP]; simp only [Matrix.mul_assoc]
  have e2 : (D - P * D)ᴴ * (D - P * D) = D * D - D * P * D := by
    rw [conjTranspose_sub, conjTranspose_mul, hDh, hPh, Matrix.sub_mul, Matrix.mul_sub, Matrix.mul_sub]
    have : D * P * (P * D) = D * P * D := by rw [Matrix.mul_assoc D P, ← Matrix.mul_assoc P P D, hPP, Matrix.mul_assoc D P D]
    rw [this, ← Matrix.mul_assoc D P D, sub_self, sub_zero]
  have e3 : trace (D * P * D) = trace (diagonal (fun j => ((s j ^ 2 : ℝ) : 𝕜))) := by
    calc trace (D * P * D) = trace (P * (D * D)) := by
          rw [Matrix.mul_assoc, trace_mul_comm, Matrix.mul_assoc]
      _ = trace (M * (K⁻¹ * Mᴴ * (D * D))) := by rw [hP]; simp only [Matrix.mul_assoc]
      _ = trace (K⁻¹ * Mᴴ * (D * D) * M) := trace_mul_comm _ _
      _ = trace (K⁻¹ * K * diagonal (fun j => ((s j ^ 2 : ℝ) : 𝕜))) := by
          rw [hDD, Matrix.mul_assoc _ _ M, hM, hKd]; simp only [Matrix.mul_assoc]
      _ = _ := by rw [nonsing_inv_mul _ hK, Matrix.one_mul]
  have e4 : ((frobSq (D - P * D) : ℝ) : 𝕜) = ((∑ i, S i ^ 2 - ∑ j, s j ^ 2 : ℝ) : 𝕜) := by
    rw [frobSq_eq_trace, e2, trace_sub, e3, hDD, trace_diagonal, trace_diagonal]
    push_cast
    rfl
  rw [e1]
  exact_mod_cast e4

theorem frobSq_tendsto {l l' : Type} [Fintype l] [Fintype l'] (F : ℕ → Matrix l l' 𝕜) (E : Matrix l l' 𝕜)
    (h : ∀ i j, Tendsto (fun p => F p i j) atTop (nhds (E i j))) : Tendsto (fun p => frobSq (F p)) atTop (nhds (frobSq E)) := by
  unfold frobSq
  exact tendsto_finsetSum _ fun i _ => tendsto_finsetSum _ fun j _ => ((h i j).norm).pow 2

theorem sum_split (hk : k ≤ r) (f : Fin r → ℝ) : ∑ j, f j = (∑ j : Fin k, f (Fin.castLE hk j)) + ∑ j, if j.val < k then 0 else f j := by
  have e : ∑ j : Fin k, f (Fin.castLE hk j) = ∑ j, if j.val < k then f j else 0 := by
    rw [← Finset.sum_filter]
    refine Finset.sum_bij (fun j _ => Fin.castLE hk j) (fun j _ => by simp) (fun a _ b _ h => Fin.castLE_injective _ h) ?_ (fun _ _ => rfl)
    intro b hb
    exact ⟨⟨b.val, (Finset.mem_filter.1 hb).2⟩, Finset.mem_univ _, rfl⟩
  rw [e, ← Finset.sum_add_distrib]
  refine Finset.sum_congr rfl fun j _ => ?_
  split <;> simp

/-- The error of the projection on the range of `(A Aᴴ)ᵖ A Ω` becomes that of the best approximation of rank `k`. -/
theorem range_error_limit {q : ℕ} {A : Matrix m n 𝕜} {U : Matrix m (Fin r) 𝕜} {S : Fin r → ℝ} {Vh : Matrix (Fin r) n 𝕜}
    (h : IsSVD A U S Vh) (hk : k ≤ r) (hpos : ∀ j : Fin k, 0 < S (Fin.castLE hk j)) (Ω : Matrix n (Fin q) 𝕜) (G : Matrix (Fin q) (Fin k) 𝕜)
    (hG : Vh.submatrix (Fin.castLE hk) id * Ω * G = 1) {ε : ℝ} (hε : 0 < ε) :
    ∃ N, ∀ p ≥ N, ∀ (Q : Matrix m (Fin q) 𝕜) (_ : Qᴴ * Q = 1) (R : Matrix (Fin q) (Fin q) 𝕜), (A * Aᴴ) ^ p * A * Ω = Q * R →
      frobSq (A - Q * (Qᴴ * A)) ≤ (∑ i, if i.val < k then 0 else S i ^ 2) + ε := by
  set c := Fin.castLE hk with hc
  set T := Vh * Ω * G with hT
  have htop : ∀ i j : Fin k, T (c i) j = if i = j then 1 else 0 := by
    intro i j
    rw [← one_apply, ← hG]
    rfl
  set M : Matrix (Fin r) (Fin k) 𝕜 := fun i j => if S i = S (c j) then T i j else 0 with hMd
  have hMtop : (1 : Matrix (Fin r) (Fin r) 𝕜).submatrix c id * M = 1 := by
    ext i j
    rw [mul_apply, Finset.sum_eq_single (c i)]
    · rw [submatrix_apply, id, one_apply_eq, one_mul, hMd, one_apply]
      beta_reduce
      rw [htop]
      by_cases hij : i = j
      · subst hij; simp
      · simp [hij]
    · intro b _ hb
      rw [submatrix_apply, id, one_apply_ne hb.symm, zero_mul]
    · exact fun h => absurd (Finset.mem_univ _) h
  have hK : IsUnit (Mᴴ * M).det := by
    have hinj : Function.Injective M.mulVec := by
      intro x y hxy
      have := congrArg ((1 : Matrix (Fin r) (Fin r) 𝕜).submatrix c id).mulVec hxy
      rwa [mulVec_mulVec, mulVec_mulVec, hMtop, one_mulVec, one_mulVec] at this
    exact (isUnit_iff_isUnit_det _).1 (PosDef.conjTranspose_mul_self M hinj).isUnit
  have hcomm : diagonal (fun i => ((S i ^ 2 : ℝ) : 𝕜)) * M = M * diagonal (fun j => ((S (c j) ^ 2 : ℝ) : 𝕜)) := by
    ext i j
    rw [diagonal_mul, mul_diagonal, hMd]
    beta_reduce
    split_ifs with he
    · rw [he, mul_comm]
    · simp
  set Z : Matrix (Fin k) (Fin r) 𝕜 := (Mᴴ * M)⁻¹ * Mᴴ * diagonal (fun i => (S i : 𝕜)) with hZ
  have hlim := invariant_error S (fun j => S (c j)) M hcomm hK
  rw [← hZ, sum_split hk fun i => S i ^ 2, add_sub_cancel_left] at hlim
  set D1 : ℕ → Matrix (Fin k) (Fin k) 𝕜 := fun p => diagonal fun j => ((S (c j) ^ (2 * p + 1))⁻¹ : ℝ) with hD1
  set F : ℕ → Matrix (Fin r) (Fin k) 𝕜 := fun p => diagonal (fun i => ((S i ^ (2 * p + 1) : ℝ) : 𝕜)) * T * D1 p with hF
  have hFlim : ∀ i j, Tendsto (fun p => F p i j) atTop (nhds (M i j)) := by
    intro i j
    have e : ∀ p, F p i j = (((S i / S (c j)) ^ (2 * p + 1) : ℝ) : 𝕜) * T i j := by
      intro p
      rw [hF]
      beta_reduce
      rw [hD1, mul_diagonal, diagonal_mul, div_pow, div_eq_mul_inv]
      push_cast
      ring
    simp only [e, hMd]
    have hp := hpos j
    by_cases he : S i = S (c j)
    · simp only [he, if_true, div_self hp.ne', one_pow, RCLike.ofReal_one, one_mul]
      exact tendsto_const_nhds
    · simp only [he, if_false]
      by_cases hik : i.val < k
      · obtain ⟨i', rfl⟩ : ∃ i' : Fin k, i = c i' := ⟨⟨i.val, hik⟩, rfl⟩
        have hne : i' ≠ j := fun hh => he (by rw [hh])
        simp only [htop, hne, if_false, mul_zero]
        exact tendsto_const_nhds
      · have hle : S i ≤ S (c j) := h.sorted _ _ (by
          show (c j).val ≤ i.val
          exact (Nat.le_of_lt j.isLt).trans (not_lt.1 hik))
        have hlt : S i / S (c j) < 1 := (div_lt_one hp).2 (lt_of_le_of_ne hle he)
        have h0 : 0 ≤ S i / S (c j) := div_nonneg (h.nonneg i) hp.le
        have h1 : Tendsto (fun p : ℕ => (S i / S (c j)) ^ (2 * p + 1)) atTop (nhds 0) := by
          have := (tendsto_pow_atTop_nhds_zero_of_lt_one h0 hlt).comp (tendsto_atTop_mono (fun p : ℕ => (by omega : p ≤ 2 * p + 1)) tendsto_id)
          exact this
        have h2 := ((RCLike.continuous_ofReal (K := 𝕜)).tendsto 0).comp h1
        have h3 := h2.mul_const (T i j)
        simpa using h3
  have hElim : ∀ i j, Tendsto (fun p => (diagonal (fun i => (S i : 𝕜)) - F p * Z) i j) atTop (nhds ((diagonal (fun i => (S i : 𝕜)) - M * Z) i j)) := by
    intro i j
    simp only [Matrix.sub_apply, mul_apply]
    exact tendsto_const_nhds.sub (tendsto_finsetSum _ fun x _ => (hFlim i x).mul_const _)
  have hfr := frobSq_tendsto _ _ hElim
  rw [hlim] at hfr
  obtain ⟨N, hN⟩ := eventually_atTop.1 (hfr.eventually (gt_mem_nhds (lt_add_of_pos_right _ hε)))
  refine ⟨N, fun p hp Q hQ R hR => ?_⟩
  refine (frobSq_proj_le Q hQ A (R * (G * D1 p * Z * Vh))).trans ((le_of_eq ?_).trans (hN p hp).le)
  have e1 : Q * (R * (G * D1 p * Z * Vh)) = U * (F p * Z) * Vh := by
    rw [← Matrix.mul_assoc, ← hR, svd_power h, hF, hT]
    simp only [Matrix.mul_assoc]
  have e2 : A - U * (F p * Z) * Vh = U * (diagonal (fun i => (S i : 𝕜)) - F p * Z) * Vh := by
    rw [Matrix.mul_sub, Matrix.sub_mul, ← h.mul]
  rw [e1, e2, frobSq_mul_coiso _ h.right, frobSq_iso_mul _ h.left]

/-- The singular values that vanish do not count. -/
theorem drop_zeros (S : Fin r → ℝ) (h0 : ∀ i, 0 ≤ S i) (hs : ∀ i j, i ≤ j → S j ≤ S i) (k : ℕ) :
    ∃ k' ≤ k, ∃ hk : k' ≤ r, (∀ j : Fin k', 0 < S (Fin.castLE hk j)) ∧
      (∑ i, if i.val < k' then 0 else S i ^ 2) = ∑ i, if i.val < k then 0 else S i ^ 2 := by
  induction k with
  | zero => exact ⟨0, le_rfl, Nat.zero_le _, fun j => j.elim0, rfl⟩
  | succ k ih =>
    by_cases hkr : ∃ hkr : k < r, 0 < S ⟨k, hkr⟩
    · obtain ⟨hkr, hp⟩ := hkr
      exact ⟨k + 1, le_rfl, hkr, fun j => hp.trans_le (hs _ _ (Fin.mk_le_mk.2 (Nat.lt_succ_iff.1 j.isLt))), rfl⟩
    · obtain ⟨k', h1, h2, h3, h4⟩ := ih
      refine ⟨k', h1.trans (Nat.le_succ k), h2, h3, h4.trans (Finset.sum_congr rfl fun i _ => ?_)⟩
      by_cases hi : i.val < k
      · rw [if_pos hi, if_pos (by omega)]
      · rw [if_neg hi]
        split_ifs with hi2
        · have hik : i.val = k := by omega
          have : S i = 0 := by
            refine le_antisymm (not_lt.1 fun hp => hkr ⟨hik ▸ i.isLt, ?_⟩) (h0 i)
            have : i = ⟨k, hik ▸ i.isLt⟩ := Fin.ext hik
            rwa [← this]
          rw [this]; norm_num
        · rfl

end AceTN
