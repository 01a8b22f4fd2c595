import Verif.Model.LinAlg
import Mathlib.Analysis.Matrix.Spectrum
import Mathlib.Analysis.Matrix.PosDef
import Mathlib.Analysis.InnerProductSpace.PiL2
import Mathlib.Data.Matrix.Block

/-!
Existence of the decompositions named in `Verif.Model.LinAlg`, and of a library that returns them.
-/

set_option autoImplicit false

namespace AceTN

open Matrix ComplexOrder

variable {𝕜 : Type} [RCLike 𝕜] {m n : Type} [Fintype m] [Fintype n] [DecidableEq m] [DecidableEq n]

/-- Spectral theorem with sorted eigenvalues (descending). -/
theorem exists_eigh_desc (A : Matrix n n 𝕜) (hA : A.IsHermitian) :
    ∃ (w : Fin (Fintype.card n) → ℝ) (z : Matrix n (Fin (Fintype.card n)) 𝕜),
      A = z * diagonal (fun i => (w i : 𝕜)) * zᴴ ∧ zᴴ * z = 1 ∧ z * zᴴ = 1 ∧ Antitone w := by
  let e : Fin (Fintype.card n) ≃ n := Fintype.equivOfCardEq (Fintype.card_fin _)
  let u : Matrix n n 𝕜 := (hA.eigenvectorUnitary : Matrix n n 𝕜)
  have hu1 : uᴴ * u = 1 := Unitary.coe_star_mul_self hA.eigenvectorUnitary
  have hu2 : u * uᴴ = 1 := Unitary.coe_mul_star_self hA.eigenvectorUnitary
  refine ⟨hA.eigenvalues₀, u.submatrix id e, ?_, ?_, ?_, hA.eigenvalues₀_antitone⟩
  · have h := hA.spectral_theorem
    rw [Unitary.conjStarAlgAut_apply] at h
    have hd : diagonal (fun i => ((hA.eigenvalues₀ i : ℝ) : 𝕜)) =
        (diagonal (RCLike.ofReal ∘ hA.eigenvalues : n → 𝕜)).submatrix e e := by
      rw [submatrix_diagonal_equiv]
      congr 1
      funext i
      simp [IsHermitian.eigenvalues, e]
    rw [hd, conjTranspose_submatrix, submatrix_mul_equiv, submatrix_mul_equiv, submatrix_id_id]
    exact h
  · rw [conjTranspose_submatrix]
    ext i j
    have := congrFun (congrFun hu1 (e i)) (e j)
    simp only [mul_apply, submatrix_apply, id] at this ⊢
    rw [this, one_apply, one_apply]
    simp
  · rw [conjTranspose_submatrix, submatrix_mul_equiv, submatrix_id_id, hu2]

theorem exists_eigh (A : Matrix n n 𝕜) (hA : A.IsHermitian) :
    ∃ (w : Fin (Fintype.card n) → ℝ) (z : Matrix n (Fin (Fintype.card n)) 𝕜), IsEigh A w z := by
  obtain ⟨w, z, h1, h2, h3, h4⟩ := exists_eigh_desc A hA
  let e : Fin (Fintype.card n) ≃ Fin (Fintype.card n) := Fin.revPerm
  refine ⟨w ∘ e, z.submatrix id e, ?_, ?_, ?_, fun i j hij => h4 (Fin.rev_le_rev.2 hij)⟩
  · have hd : diagonal (fun i => (((w ∘ e) i : ℝ) : 𝕜)) = (diagonal fun i => ((w i : ℝ) : 𝕜)).submatrix e e := by
      rw [submatrix_diagonal_equiv]; rfl
    rw [hd, conjTranspose_submatrix, submatrix_mul_equiv, submatrix_mul_equiv, submatrix_id_id]
    exact h1
  · rw [conjTranspose_submatrix]
    ext i j
    have := congrFun (congrFun h2 (e i)) (e j)
    simp only [mul_apply, submatrix_apply, id] at this ⊢
    rw [this, one_apply, one_apply]
    simp
  · rw [conjTranspose_submatrix, submatrix_mul_equiv, submatrix_id_id, h3]

omit [DecidableEq m] in
theorem orthonormal_iff_gram {ι : Type} [Fintype ι] [DecidableEq ι] (U : Matrix m ι 𝕜) :
    Orthonormal 𝕜 (fun k => (WithLp.toLp 2 (fun i => U i k) : EuclideanSpace 𝕜 m)) ↔ Uᴴ * U = 1 := by
  rw [orthonormal_iff_ite]
  constructor
  · intro h
    ext i j
    have := h i j
    simp only [EuclideanSpace.inner_eq_star_dotProduct] at this
    rw [mul_apply, one_apply, ← this]
    simp [dotProduct, mul_comm]
  · intro h i j
    have := congrFun (congrFun h i) j
    rw [mul_apply, one_apply] at this
    simp only [EuclideanSpace.inner_eq_star_dotProduct]
    rw [← this]
    simp [dotProduct, mul_comm]

omit [DecidableEq m] in
theorem exists_svd (A : Matrix m n 𝕜) :
    ∃ (U : Matrix m (Fin (min (Fintype.card m) (Fintype.card n))) 𝕜)
      (S : Fin (min (Fintype.card m) (Fintype.card n)) → ℝ)
      (Vh : Matrix (Fin (min (Fintype.card m) (Fintype.card n))) n 𝕜), IsSVD A U S Vh := by
  obtain ⟨w, V, h1, h2, h3, h4⟩ := exists_eigh_desc (Aᴴ * A) (isHermitian_conjTranspose_mul_self A)
  -- the columns of `A V` are orthogonal with squared norms `w`
  have hB : (A * V)ᴴ * (A * V) = diagonal (fun i => (w i : 𝕜)) := by
    rw [conjTranspose_mul, Matrix.mul_assoc, ← Matrix.mul_assoc Aᴴ A V, h1]
    rw [Matrix.mul_assoc, Matrix.mul_assoc, h2, Matrix.mul_one, ← Matrix.mul_assoc, h2, Matrix.one_mul]
  set B := A * V with hBdef
  have hnorm : ∀ k, (∑ i, ‖B i k‖ ^ 2 : ℝ) = w k := by
    intro k
    have := congrFun (congrFun hB k) k
    rw [mul_apply, diagonal_apply_eq] at this
    have h' : (((∑ i, ‖B i k‖ ^ 2 : ℝ) : ℝ) : 𝕜) = (w k : 𝕜) := by
      rw [← this]; push_cast
      refine Finset.sum_congr rfl fun i _ => ?_
      rw [conjTranspose_apply, RCLike.star_def, RCLike.conj_mul]
    exact_mod_cast h'
  have hw : ∀ k, 0 ≤ w k := fun k => by rw [← hnorm]; positivity
  have hzero : ∀ k, w k = 0 → ∀ i, B i k = 0 := by
    intro k hk i
    have h := hnorm k
    rw [hk, Finset.sum_eq_zero_iff_of_nonneg (fun _ _ => by positivity)] at h
    simpa using h i (Finset.mem_univ _)
  -- orthonormal vectors for the positive ones
  let s : Set (Fin (Fintype.card n)) := {k | 0 < w k}
  let v : Fin (Fintype.card n) → EuclideanSpace 𝕜 m :=
    fun k => WithLp.toLp 2 (fun i => ((Real.sqrt (w k))⁻¹ : 𝕜) * B i k)
  have hv : ∀ j k, 0 < w j → 0 < w k → inner 𝕜 (v j) (v k) = if j = k then (1 : 𝕜) else 0 := by
    intro j k hj hk
    have := congrFun (congrFun hB j) k
    rw [mul_apply] at this
    have e : inner 𝕜 (v j) (v k) =
        ((Real.sqrt (w j))⁻¹ : 𝕜) * ((Real.sqrt (w k))⁻¹ : 𝕜) * ∑ i, Bᴴ j i * B i k := by
      simp only [v, EuclideanSpace.inner_eq_star_dotProduct, dotProduct, Finset.mul_sum]
      refine Finset.sum_congr rfl fun i _ => ?_
      simp only [Pi.star_apply, star_mul', RCLike.star_def, conjTranspose_apply, map_inv₀, RCLike.conj_ofReal]
      ring
    rw [e, this]
    by_cases hjk : j = k
    · subst hjk
      rw [diagonal_apply_eq, if_pos rfl]
      have : Real.sqrt (w j) * Real.sqrt (w j) = w j := Real.mul_self_sqrt hj.le
      have hs : (Real.sqrt (w j) : 𝕜) ≠ 0 := by
        exact_mod_cast (Real.sqrt_pos.2 hj).ne'
      have h2 : (w j : 𝕜) = (Real.sqrt (w j) : 𝕜) * (Real.sqrt (w j) : 𝕜) := by
        rw [← RCLike.ofReal_mul, this]
      rw [h2]
      field_simp
    · rw [diagonal_apply_ne _ hjk, if_neg hjk, mul_zero]
  -- positive entries come first and number at most `card m`
  have hlt : ∀ k, 0 < w k → k.val < Fintype.card m := by
    intro k hk
    have hpos : ∀ i : Fin (k.val + 1), 0 < w ⟨i.val, by omega⟩ := fun i =>
      lt_of_lt_of_le hk (h4 (by rw [Fin.le_def]; simp only; omega))
    have ho : Orthonormal 𝕜 (fun i : Fin (k.val + 1) => v ⟨i.val, by omega⟩) := by
      rw [orthonormal_iff_ite]
      intro i j
      rw [hv _ _ (hpos i) (hpos j)]
      simp [Fin.ext_iff]
    have := ho.linearIndependent.fintype_card_le_finrank
    rw [finrank_euclideanSpace, Fintype.card_fin] at this
    omega
  -- complete them to a basis
  let v' : Fin (Fintype.card m) → EuclideanSpace 𝕜 m :=
    fun i => if h : i.val < Fintype.card n then v ⟨i.val, h⟩ else 0
  let s' : Set (Fin (Fintype.card m)) := {i | ∃ h : i.val < Fintype.card n, 0 < w ⟨i.val, h⟩}
  have ho : Orthonormal 𝕜 (s'.domRestrict v') := by
    rw [orthonormal_iff_ite]
    rintro ⟨i, hi, hi'⟩ ⟨j, hj, hj'⟩
    simp only [Set.domRestrict_apply, v', hi, hj, dif_pos]
    rw [hv _ _ hi' hj']
    simp [Fin.ext_iff]
  obtain ⟨b, hb⟩ := ho.exists_orthonormalBasis_extension_of_card_eq
    (by rw [finrank_euclideanSpace, Fintype.card_fin])
  let cm := Fin.castLE (Nat.min_le_left (Fintype.card m) (Fintype.card n))
  let cn := Fin.castLE (Nat.min_le_right (Fintype.card m) (Fintype.card n))
  refine ⟨of fun i k => (b (cm k)) i, fun k => Real.sqrt (w (cn k)), of fun k j => Vᴴ (cn k) j, ?_, ?_, ?_,
    fun _ => Real.sqrt_nonneg _, fun i j hij => Real.sqrt_le_sqrt (h4 (by simpa [cn] using hij))⟩
  · have hcol : ∀ k i, B i (cn k) = (b (cm k)) i * (Real.sqrt (w (cn k)) : 𝕜) := by
      intro k i
      rcases (hw (cn k)).lt_or_eq with hp | hz
      · have hmem : cm k ∈ s' := ⟨(cn k).isLt, hp⟩
        rw [hb _ hmem]
        have hx : v' (cm k) = v (cn k) := dif_pos (cn k).isLt
        rw [hx]
        have hs : (Real.sqrt (w (cn k)) : 𝕜) ≠ 0 := by
          exact_mod_cast (Real.sqrt_pos.2 hp).ne'
        simp only [v]
        field_simp
      · rw [hzero _ hz.symm, ← hz]; simp
    have hA : A = B * Vᴴ := by rw [hBdef, Matrix.mul_assoc, h3, Matrix.mul_one]
    conv_lhs => rw [hA]
    ext i j
    rw [mul_apply, mul_apply]
    -- only the first min(m,n) columns of `B` are nonzero
    have hB0 : ∀ k : Fin (Fintype.card n), ¬ k.val < min (Fintype.card m) (Fintype.card n) → B i k = 0 := by
      intro k hk
      refine hzero k ?_ i
      by_contra hne
      have := hlt k (lt_of_le_of_ne (hw k) (Ne.symm hne))
      have := k.isLt
      omega
    have : ∀ f : Fin (Fintype.card n) → 𝕜,
        (∀ k : Fin (Fintype.card n), ¬ k.val < min (Fintype.card m) (Fintype.card n) → f k = 0) →
        ∑ k, f k = ∑ k, f (cn k) := by
      intro f hf
      symm
      refine Finset.sum_of_injOn cn (fun a _ b _ h => Fin.castLE_injective _ h) (fun _ _ => Finset.mem_coe.2 (Finset.mem_univ _)) ?_ (fun _ _ => rfl)
      intro k _ hk
      refine hf k fun hk' => hk ⟨⟨k.val, hk'⟩, Finset.mem_coe.2 (Finset.mem_univ _), Fin.ext rfl⟩
    rw [this (fun k => B i k * Vᴴ k j) (fun k hk => by simp only [hB0 k hk, zero_mul])]
    refine Finset.sum_congr rfl fun k _ => ?_
    rw [hcol, mul_diagonal]
    rfl
  · rw [← orthonormal_iff_gram]
    exact b.orthonormal.comp cm (Fin.castLE_injective _)
  · ext i j
    have := congrFun (congrFun h2 (cn i)) (cn j)
    rw [mul_apply, one_apply] at this
    rw [mul_apply, one_apply]
    simp only [conjTranspose_apply, star_star, of_apply] at this ⊢
    rw [this]
    simp [cn]

omit [DecidableEq m] in
theorem exists_qr (A : Matrix m n 𝕜) :
    ∃ (Q : Matrix m (Fin (min (Fintype.card m) (Fintype.card n))) 𝕜)
      (R : Matrix (Fin (min (Fintype.card m) (Fintype.card n))) n 𝕜), IsQR A Q R := by
  obtain ⟨U, S, Vh, h⟩ := exists_svd A
  exact ⟨U, diagonal (fun i => (S i : 𝕜)) * Vh, by rw [← Matrix.mul_assoc]; exact h.mul, h.left⟩

omit [Fintype n] [DecidableEq n] in
theorem herm_avg (A : Matrix n n 𝕜) : ((2⁻¹ : 𝕜) • (A + Aᴴ)).IsHermitian := by
  unfold IsHermitian
  rw [conjTranspose_smul, conjTranspose_add, conjTranspose_conjTranspose, add_comm]
  simp

/-- The contracts are satisfiable. -/
theorem nonempty_lapack : Nonempty (Lapack 𝕜) := by
  classical
  exact
  ⟨{ qr := fun A => ((exists_qr A).choose, (exists_qr A).choose_spec.choose)
     qr_ok := fun A => (exists_qr A).choose_spec.choose_spec
     svd := fun A => ((exists_svd A).choose, (exists_svd A).choose_spec.choose,
       (exists_svd A).choose_spec.choose_spec.choose)
     svd_ok := fun A => (exists_svd A).choose_spec.choose_spec.choose_spec
     herm := fun A => (2⁻¹ : 𝕜) • (A + Aᴴ)
     herm_herm := fun A => herm_avg A
     herm_of := fun A hA => by
       rw [hA.eq, ← two_smul 𝕜 A, smul_smul]; simp
     herm_add := fun A t => by
       rw [conjTranspose_add, conjTranspose_smul, conjTranspose_one, RCLike.star_def, RCLike.conj_ofReal,
         show A + (t : 𝕜) • (1 : Matrix _ _ 𝕜) + (Aᴴ + (t : 𝕜) • 1) = (A + Aᴴ) + (2 : 𝕜) • ((t : 𝕜) • 1) by
           rw [two_smul]; abel, smul_add, smul_smul]
       simp
     eigh := fun A => ((exists_eigh _ (herm_avg A)).choose, (exists_eigh _ (herm_avg A)).choose_spec.choose)
     eigh_ok := fun A => (exists_eigh _ (herm_avg A)).choose_spec.choose_spec
     pinv := fun atol A => (exists_svd A).choose_spec.choose_spec.chooseᴴ *
       diagonal (fun i => if atol < (exists_svd A).choose_spec.choose i
         then (((exists_svd A).choose_spec.choose i : ℝ) : 𝕜)⁻¹ else 0) * (exists_svd A).chooseᴴ
     pinv_ok := fun atol A => ⟨_, _, _, (exists_svd A).choose_spec.choose_spec.choose_spec, rfl⟩
     pinvH := fun rcond A => (exists_eigh _ (herm_avg A)).choose_spec.choose *
       diagonal (fun i => if ∀ j, rcond * |(exists_eigh _ (herm_avg A)).choose j| <
         |(exists_eigh _ (herm_avg A)).choose i| then (((exists_eigh _ (herm_avg A)).choose i : ℝ) : 𝕜)⁻¹ else 0) *
       (exists_eigh _ (herm_avg A)).choose_spec.chooseᴴ
     pinvH_ok := fun rcond A => ⟨_, _, (exists_eigh _ (herm_avg A)).choose_spec.choose_spec, rfl⟩
     cholSolve := fun R S => if R.PosDef then some (R⁻¹ * S) else none
     cholSolve_ok := fun R S X _ h => by
       split at h
       · next hR =>
         rw [← Option.some.inj h, ← Matrix.mul_assoc, mul_nonsing_inv _ ((isUnit_iff_isUnit_det _).1 hR.isUnit),
           Matrix.one_mul]
       · cases h
     cholSolve_some := fun R S hR => by simp [hR]
     cholSolve_posDef := fun R S X _ h => by
      by_contra hn
      simp [hn] at h
     linSolve := fun R S => if IsUnit R.det then some (R⁻¹ * S) else none
     linSolve_ok := fun R S X h => by
       split at h
       · next hR => rw [← Option.some.inj h, ← Matrix.mul_assoc, mul_nonsing_inv _ hR, Matrix.one_mul]
       · cases h
     linSolve_some := fun R S => by split <;> simp_all }⟩

end AceTN
