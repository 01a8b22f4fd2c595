import Verif.Lemmas.FieldMap
import Verif.Lemmas.Svd

/-!
For every library there is one of the other dtype that follows it.
-/

set_option autoImplicit false
set_option linter.unusedSectionVars false

namespace AceTN

open Spec Matrix ComplexOrder

variable {𝕜 𝕜' : Type} [RCLike 𝕜] [RCLike 𝕜'] (φ : 𝕜 →⋆ₐ[ℝ] 𝕜')

section contracts

variable {m n k : Type} [Fintype m] [Fintype n]

theorem hom_isHermitian (A : Matrix n n 𝕜) : (A.map φ).IsHermitian ↔ A.IsHermitian := by
  unfold IsHermitian
  rw [← hom_conjTranspose]
  exact ⟨hom_matrix_inj φ, fun h => by rw [h]⟩

theorem hom_isQR [Fintype k] [DecidableEq k] {A : Matrix m n 𝕜} {Q : Matrix m k 𝕜} {R : Matrix k n 𝕜} (h : IsQR A Q R) :
    IsQR (A.map φ) (Q.map φ) (R.map φ) :=
  ⟨by rw [h.mul, hom_mul], by rw [← hom_conjTranspose, ← hom_mul, h.iso, hom_one]⟩

theorem hom_diag_real {r : ℕ} (S : Fin r → ℝ) : (diagonal fun i => (S i : 𝕜)).map φ = diagonal fun i => (S i : 𝕜') := by
  rw [hom_diagonal]
  simp only [hom_real]

theorem hom_isSVD {r : ℕ} {A : Matrix m n 𝕜} {U : Matrix m (Fin r) 𝕜} {S : Fin r → ℝ} {Vh : Matrix (Fin r) n 𝕜} (h : IsSVD A U S Vh) :
    IsSVD (A.map φ) (U.map φ) S (Vh.map φ) :=
  ⟨by rw [h.mul, hom_mul, hom_mul, hom_diag_real], by rw [← hom_conjTranspose, ← hom_mul, h.left, hom_one],
    by rw [← hom_conjTranspose, ← hom_mul, h.right, hom_one], h.nonneg, h.sorted⟩

theorem hom_isEigh [DecidableEq n] {r : ℕ} {A : Matrix n n 𝕜} {w : Fin r → ℝ} {z : Matrix n (Fin r) 𝕜} (h : IsEigh A w z) :
    IsEigh (A.map φ) w (z.map φ) :=
  ⟨by rw [h.mul, hom_mul, hom_mul, hom_diag_real, hom_conjTranspose], by rw [← hom_conjTranspose, ← hom_mul, h.left, hom_one],
    by rw [← hom_conjTranspose, ← hom_mul, h.right, hom_one], h.sorted⟩

theorem posDef_iff_eigh [DecidableEq n] {r : ℕ} {A : Matrix n n 𝕜} {w : Fin r → ℝ} {z : Matrix n (Fin r) 𝕜} (h : IsEigh A w z) :
    A.PosDef ↔ ∀ i, 0 < w i := by
  have e : diagonal (fun i => (w i : 𝕜)) = zᴴ * A * z := by
    rw [h.mul, show zᴴ * (z * diagonal (fun i => (w i : 𝕜)) * zᴴ) * z = (zᴴ * z) * diagonal (fun i => (w i : 𝕜)) * (zᴴ * z) by
      simp only [Matrix.mul_assoc], h.left, Matrix.one_mul, Matrix.mul_one]
  constructor
  · intro hA i
    have hi : Function.Injective z.mulVec := by
      intro x y hxy
      have := congrArg (zᴴ.mulVec) hxy
      simpa only [mulVec_mulVec, h.left, one_mulVec] using this
    have hd := hA.conjTranspose_mul_mul_same hi
    rw [← e, posDef_diagonal_iff] at hd
    exact RCLike.ofReal_pos.1 (hd i)
  · intro hw
    have hd : (diagonal fun i => (w i : 𝕜)).PosDef := posDef_diagonal_iff.2 fun i => RCLike.ofReal_pos.2 (hw i)
    have hi : Function.Injective z.vecMul := by
      intro x y hxy
      have := congrArg (fun v => v ᵥ* zᴴ) hxy
      simpa only [vecMul_vecMul, h.right, vecMul_one] using this
    rw [h.mul]
    exact hd.mul_mul_conjTranspose_same hi

theorem hom_posDef [DecidableEq n] (A : Matrix n n 𝕜) : (A.map φ).PosDef ↔ A.PosDef := by
  by_cases h : A.IsHermitian
  · obtain ⟨w, z, hz⟩ := exists_eigh A h
    rw [posDef_iff_eigh hz, posDef_iff_eigh (hom_isEigh φ hz)]
  · exact ⟨fun h' => absurd ((hom_isHermitian φ A).1 h'.1) h, fun h' => absurd h'.1 h⟩

theorem hom_isUnit_det [DecidableEq n] (A : Matrix n n 𝕜) : IsUnit (A.map φ).det ↔ IsUnit A.det := by
  have e : (A.map φ).det = φ A.det := (RingHom.map_det (φ : 𝕜 →+* 𝕜') A).symm
  rw [e, isUnit_iff_ne_zero, isUnit_iff_ne_zero]
  exact map_ne_zero_iff φ fun _ _ h => hom_inj φ h

end contracts

/-- The matrices a conversion yields. -/
def Converted {m n : Type} (A : Matrix m n 𝕜') : Prop := ∃ A0 : Matrix m n 𝕜, A0.map φ = A

open Classical in
/-- A value for converted matrices, and another one for the others. -/
noncomputable def overConverted {m n : Type} {α : Sort*} (A : Matrix m n 𝕜') (f : Matrix m n 𝕜 → α) (other : α) : α :=
  if h : Converted φ A then f h.choose else other

theorem overConverted_map {m n : Type} [Fintype n] {α : Sort*} (A : Matrix m n 𝕜) (f : Matrix m n 𝕜 → α) (other : α) :
    overConverted φ (A.map φ) f other = f A := by
  have h : Converted φ (A.map φ) := ⟨A, rfl⟩
  unfold overConverted
  rw [dif_pos h, hom_matrix_inj φ h.choose_spec]

theorem overConverted_not {m n : Type} {α : Sort*} {A : Matrix m n 𝕜'} (h : ¬ Converted φ A) (f : Matrix m n 𝕜 → α) (other : α) :
    overConverted φ A f other = other := dif_neg h

theorem converted_cases {m n : Type} (A : Matrix m n 𝕜') : (∃ A0 : Matrix m n 𝕜, A = A0.map φ) ∨ ¬ Converted φ A := by
  by_cases h : Converted φ A
  · obtain ⟨A0, h⟩ := h
    exact .inl ⟨A0, h.symm⟩
  · exact .inr h

theorem converted_add {n : Type} [DecidableEq n] [Fintype n] (A : Matrix n n 𝕜') (t : ℝ) (h : Converted φ (A + (t : 𝕜') • (1 : Matrix n n 𝕜'))) :
    Converted φ A := by
  obtain ⟨A0, h⟩ := h
  refine ⟨A0 + ((-t : ℝ) : 𝕜) • 1, ?_⟩
  rw [hom_add, hom_smul_real, hom_one, h]
  push_cast
  rw [neg_smul]
  exact add_neg_cancel_right _ _

theorem exists_follows (la : Lapack 𝕜) : ∃ la' : Lapack 𝕜', LibraryFollows φ la la' := by
  obtain ⟨b⟩ := nonempty_lapack (𝕜 := 𝕜')
  refine ⟨{
    qr := fun A => overConverted φ A (fun A0 => ((la.qr A0).1.map φ, (la.qr A0).2.map φ)) (b.qr A)
    qr_ok := fun A => ?_
    svd := fun A => overConverted φ A (fun A0 => ((la.svd A0).1.map φ, (la.svd A0).2.1, (la.svd A0).2.2.map φ)) (b.svd A)
    svd_ok := fun A => ?_
    herm := fun A => overConverted φ A (fun A0 => (la.herm A0).map φ) (b.herm A)
    herm_herm := fun A => ?_
    herm_of := fun A hA => ?_
    herm_add := fun A t => ?_
    eigh := fun A => overConverted φ A (fun A0 => ((la.eigh A0).1, (la.eigh A0).2.map φ)) (b.eigh A)
    eigh_ok := fun A => ?_
    pinv := fun atol A => overConverted φ A (fun A0 => (la.pinv atol A0).map φ) (b.pinv atol A)
    pinv_ok := fun atol A => ?_
    pinvH := fun rcond A => overConverted φ A (fun A0 => (la.pinvH rcond A0).map φ) (b.pinvH rcond A)
    pinvH_ok := fun rcond A => ?_
    cholSolve := fun R S => overConverted φ R (fun R0 => overConverted φ S (fun S0 => (la.cholSolve R0 S0).map fun X => X.map φ) (b.cholSolve R S))
      (b.cholSolve R S)
    cholSolve_ok := fun R S X hR h => ?_
    cholSolve_some := fun R S hR => ?_
    cholSolve_posDef := fun R S X hR h => ?_
    linSolve := fun R S => overConverted φ R (fun R0 => overConverted φ S (fun S0 => (la.linSolve R0 S0).map fun X => X.map φ) (b.linSolve R S))
      (b.linSolve R S)
    linSolve_ok := fun R S X h => ?_
    linSolve_some := fun R S => ?_ }, ?_⟩
  · rcases converted_cases φ A with ⟨A0, rfl⟩ | hn
    · rw [overConverted_map]
      exact hom_isQR φ (la.qr_ok A0)
    · rw [overConverted_not φ hn]
      exact b.qr_ok A
  · rcases converted_cases φ A with ⟨A0, rfl⟩ | hn
    · rw [overConverted_map]
      exact hom_isSVD φ (la.svd_ok A0)
    · rw [overConverted_not φ hn]
      exact b.svd_ok A
  · rcases converted_cases φ A with ⟨A0, rfl⟩ | hn
    · rw [overConverted_map]
      exact (hom_isHermitian φ _).2 (la.herm_herm A0)
    · rw [overConverted_not φ hn]
      exact b.herm_herm A
  · rcases converted_cases φ A with ⟨A0, rfl⟩ | hn
    · rw [overConverted_map, la.herm_of A0 ((hom_isHermitian φ _).1 hA)]
    · rw [overConverted_not φ hn]
      exact b.herm_of A hA
  · rcases converted_cases φ A with ⟨A0, rfl⟩ | hn
    · rw [overConverted_map, show A0.map φ + (t : 𝕜') • (1 : Matrix _ _ 𝕜') = (A0 + (t : 𝕜) • (1 : Matrix _ _ 𝕜)).map φ by
        rw [hom_add, hom_smul_real, hom_one], overConverted_map, la.herm_add, hom_add, hom_smul_real, hom_one]
    · rw [overConverted_not φ hn, overConverted_not φ fun h => hn (converted_add φ A t h)]
      exact b.herm_add A t
  · rcases converted_cases φ A with ⟨A0, rfl⟩ | hn
    · rw [overConverted_map, overConverted_map]
      exact hom_isEigh φ (la.eigh_ok A0)
    · rw [overConverted_not φ hn, overConverted_not φ hn]
      exact b.eigh_ok A
  · rcases converted_cases φ A with ⟨A0, rfl⟩ | hn
    · rw [overConverted_map]
      obtain ⟨U, S, Vh, h1, h2⟩ := la.pinv_ok atol A0
      refine ⟨U.map φ, S, Vh.map φ, hom_isSVD φ h1, ?_⟩
      rw [h2, hom_mul, hom_mul, hom_conjTranspose, hom_conjTranspose, hom_diagonal]
      congr 3
      funext i
      split
      · rw [map_inv₀, hom_real]
      · exact map_zero φ
    · rw [overConverted_not φ hn]
      exact b.pinv_ok atol A
  · rcases converted_cases φ A with ⟨A0, rfl⟩ | hn
    · rw [overConverted_map, overConverted_map]
      obtain ⟨w, z, h1, h2⟩ := la.pinvH_ok rcond A0
      refine ⟨w, z.map φ, hom_isEigh φ h1, ?_⟩
      rw [h2, hom_mul, hom_mul, hom_conjTranspose, hom_diagonal]
      congr 3
      funext i
      split
      · rw [map_inv₀, hom_real]
      · exact map_zero φ
    · rw [overConverted_not φ hn, overConverted_not φ hn]
      exact b.pinvH_ok rcond A
  · rcases converted_cases φ R with ⟨R0, rfl⟩ | hn
    · rw [overConverted_map] at h
      rcases converted_cases φ S with ⟨S0, rfl⟩ | hn
      · rw [overConverted_map, Option.map_eq_some_iff] at h
        obtain ⟨X0, h, rfl⟩ := h
        rw [← hom_mul, la.cholSolve_ok R0 S0 X0 ((hom_isHermitian φ _).1 hR) h]
      · rw [overConverted_not φ hn] at h
        exact b.cholSolve_ok _ S X hR h
    · rw [overConverted_not φ hn] at h
      exact b.cholSolve_ok R S X hR h
  · rcases converted_cases φ R with ⟨R0, rfl⟩ | hn
    · rw [overConverted_map]
      rcases converted_cases φ S with ⟨S0, rfl⟩ | hn
      · rw [overConverted_map, Option.isSome_map]
        exact la.cholSolve_some R0 S0 ((hom_posDef φ R0).1 hR)
      · rw [overConverted_not φ hn]
        exact b.cholSolve_some _ S hR
    · rw [overConverted_not φ hn]
      exact b.cholSolve_some R S hR
  · rcases converted_cases φ R with ⟨R0, rfl⟩ | hn
    · rw [overConverted_map] at h
      rcases converted_cases φ S with ⟨S0, rfl⟩ | hn
      · rw [overConverted_map, Option.map_eq_some_iff] at h
        obtain ⟨X0, h, rfl⟩ := h
        exact (hom_posDef φ R0).2 (la.cholSolve_posDef R0 S0 X0 ((hom_isHermitian φ _).1 hR) h)
      · rw [overConverted_not φ hn] at h
        exact b.cholSolve_posDef _ S X hR h
    · rw [overConverted_not φ hn] at h
      exact b.cholSolve_posDef R S X hR h
  · rcases converted_cases φ R with ⟨R0, rfl⟩ | hn
    · rw [overConverted_map] at h
      rcases converted_cases φ S with ⟨S0, rfl⟩ | hn
      · rw [overConverted_map, Option.map_eq_some_iff] at h
        obtain ⟨X0, h, rfl⟩ := h
        rw [← hom_mul, la.linSolve_ok R0 S0 X0 h]
      · rw [overConverted_not φ hn] at h
        exact b.linSolve_ok _ S X h
    · rw [overConverted_not φ hn] at h
      exact b.linSolve_ok R S X h
  · rcases converted_cases φ R with ⟨R0, rfl⟩ | hn
    · rw [overConverted_map]
      rcases converted_cases φ S with ⟨S0, rfl⟩ | hn
      · rw [overConverted_map, Option.isSome_map, la.linSolve_some, hom_isUnit_det]
      · rw [overConverted_not φ hn]
        exact b.linSolve_some _ S
    · rw [overConverted_not φ hn]
      exact b.linSolve_some R S
  · constructor
    all_goals
      intros
      dsimp only
      simp only [overConverted_map]

end AceTN
