import Verif.Spec.Turned
import Verif.Lemmas.Svd
import Mathlib.Analysis.InnerProductSpace.GramSchmidtOrtho

/-!
Libraries whose QR decompositions have triangular factors exist (Gram-Schmidt).
-/

set_option autoImplicit false

namespace AceTN

open Matrix Spec

variable {𝕜 : Type} [RCLike 𝕜]

theorem exists_triangular_qr (m n : Type) [Fintype m] [Fintype n] [DecidableEq m] [DecidableEq n] (o : n ≃ Fin (Fintype.card n))
    (A : Matrix m n 𝕜) : ∃ (Q : Matrix m (Fin (min (Fintype.card m) (Fintype.card n))) 𝕜)
      (R : Matrix (Fin (min (Fintype.card m) (Fintype.card n))) n 𝕜), IsQR A Q R ∧ ∀ i j, (o j).val < i.val → R i j = 0 := by
  let col : n → EuclideanSpace 𝕜 m := fun j => WithLp.toLp 2 fun i => A i j
  let f : Fin (Fintype.card m) → EuclideanSpace 𝕜 m := fun i =>
    if h : i.val < Fintype.card n then col (o.symm ⟨i.val, h⟩) else 0
  have hfin : Module.finrank 𝕜 (EuclideanSpace 𝕜 m) = Fintype.card (Fin (Fintype.card m)) := by simp
  let b := InnerProductSpace.gramSchmidtOrthonormalBasis hfin f
  have htri : ∀ (i : Fin (Fintype.card m)) (j : n), (o j).val < i.val → inner 𝕜 (b i) (col j) = 0 := by
    intro i j hij
    have hlt : (o j).val < Fintype.card m := lt_trans hij i.isLt
    have := InnerProductSpace.gramSchmidtOrthonormalBasis_inv_triangular hfin f (i := ⟨(o j).val, hlt⟩) (j := i) hij
    have e : f ⟨(o j).val, hlt⟩ = col j := by
      show (if h : (o j).val < Fintype.card n then col (o.symm ⟨(o j).val, h⟩) else 0) = _
      rw [dif_pos (o j).isLt]
      congr 1
      exact o.symm_apply_apply j
    rw [e] at this
    exact this
  let c : Fin (min (Fintype.card m) (Fintype.card n)) → Fin (Fintype.card m) := Fin.castLE (Nat.min_le_left _ _)
  refine ⟨Matrix.of fun x i => b (c i) x, Matrix.of fun i j => inner 𝕜 (b (c i)) (col j), ⟨?_, ?_⟩, fun i j h => htri (c i) j h⟩
  · ext x j
    have h1 : A x j = ∑ i, inner 𝕜 (b i) (col j) * b i x := by
      have := congrArg (fun v : EuclideanSpace 𝕜 m => v x) (b.sum_repr' (col j))
      simp only [WithLp.ofLp_sum, Finset.sum_apply, WithLp.ofLp_smul, Pi.smul_apply, smul_eq_mul] at this
      exact this.symm
    rw [h1, mul_apply]
    have hinj : Function.Injective c := Fin.castLE_injective _
    rw [← Finset.sum_subset (Finset.subset_univ (Finset.univ.image c)), Finset.sum_image fun _ _ _ _ h => hinj h]
    · exact Finset.sum_congr rfl fun i _ => mul_comm _ _
    · intro i _ hi
      have hn : Fintype.card n ≤ i.val := by
        by_contra hlt
        refine hi (Finset.mem_image.2 ⟨⟨i.val, lt_min i.isLt (by omega)⟩, Finset.mem_univ _, Fin.ext rfl⟩)
      rw [htri i j (lt_of_lt_of_le (o j).isLt hn), zero_mul]
  · ext i j
    have h := orthonormal_iff_ite.1 b.orthonormal (c i) (c j)
    rw [mul_apply, one_apply]
    have e : (c i = c j) = (i = j) := by
      simp only [c, Fin.ext_iff, Fin.val_castLE]
    simp only [e] at h
    rw [← h]
    simp only [conjTranspose_apply, of_apply, PiLp.inner_apply, RCLike.inner_apply, RCLike.star_def]
    exact Finset.sum_congr rfl fun x _ => mul_comm _ _

/-- A library with triangular factors. -/
theorem exists_triangular (ord : ∀ (n : Type) [Fintype n], n ≃ Fin (Fintype.card n)) : ∃ la : Lapack 𝕜, Triangular ord la := by
  obtain ⟨la⟩ := nonempty_lapack (𝕜 := 𝕜)
  choose Q R h using fun (m n : Type) (a : Fintype m) (b : Fintype n) (c : DecidableEq m) (d : DecidableEq n) (A : Matrix m n 𝕜) =>
    exists_triangular_qr m n (ord n) A
  refine ⟨{ la with
    qr := fun {m n} a b c d A => (Q m n a b c d A, R m n a b c d A)
    qr_ok := fun {m n} a b c d A => (h m n a b c d A).1 }, fun m n a b c d A i j hij => (h m n a b c d A).2 i j hij⟩

end AceTN
