import Mathlib.Algebra.MvPolynomial.Equiv
import Mathlib.Algebra.MvPolynomial.Funext
import Mathlib.Algebra.Polynomial.Roots
import Mathlib.Analysis.RCLike.Lemmas
import Mathlib.LinearAlgebra.Matrix.Determinant.Basic
import Mathlib.LinearAlgebra.Matrix.NonsingularInverse
import Mathlib.MeasureTheory.Constructions.Pi
import Mathlib.MeasureTheory.Constructions.BorelSpace.Basic
import Mathlib.Topology.Algebra.MvPolynomial
import Mathlib.Topology.MetricSpace.ProperSpace.Lemmas

/-!
A polynomial that is not zero does not vanish at a random point with independent coordinates.
-/

set_option autoImplicit false

namespace AceTN

open MeasureTheory MvPolynomial

variable {𝕜 : Type} [RCLike 𝕜] [MeasurableSpace 𝕜] [BorelSpace 𝕜]

theorem poly_ae_fin : ∀ (n : ℕ) (μ : Fin n → Measure 𝕜) [∀ i, SigmaFinite (μ i)] [∀ i, NullSingletonClass (μ i)]
    (p : MvPolynomial (Fin n) 𝕜), p ≠ 0 → ∀ᵐ x ∂Measure.pi μ, eval x p ≠ 0
  | 0, μ, _, _, p, hp => by
    refine Filter.Eventually.of_forall fun x h => hp ?_
    obtain ⟨c, rfl⟩ := C_surjective (Fin 0) p
    rw [eval_C] at h
    rw [h, C_0]
  | n + 1, μ, _, _, p, hp => by
    set f := finSuccEquiv 𝕜 n p with hf
    have hf0 : f ≠ 0 := by simpa [hf] using hp
    have hl : f.leadingCoeff ≠ 0 := by simpa using hf0
    have ih := poly_ae_fin n (fun j => μ j.succ) f.leadingCoeff hl
    have mp := measurePreserving_piFinSuccAbove μ 0
    have hq : ∀ᵐ z ∂(μ 0).prod (Measure.pi fun j => μ (Fin.succAbove 0 j)), eval (Fin.cons z.1 z.2 : Fin (n + 1) → 𝕜) p ≠ 0 := by
      have hm : MeasurableSet {z : 𝕜 × (Fin n → 𝕜) | eval (Fin.cons z.1 z.2 : Fin (n + 1) → 𝕜) p ≠ 0} := by
        refine (isOpen_ne.preimage ?_).measurableSet
        refine (MvPolynomial.continuous_eval p).comp (continuous_pi fun i => ?_)
        refine Fin.cases ?_ (fun j => ?_) i
        · exact continuous_fst
        · exact (continuous_apply j).comp continuous_snd
      rw [Measure.ae_prod_iff_ae_ae hm, Measure.ae_ae_comm hm]
      refine ih.mono fun y hy => ?_
      have hne : Polynomial.map (eval y) f ≠ 0 := by
        intro h
        apply hy
        have := congrArg (fun g => Polynomial.coeff g f.natDegree) h
        simpa using this
      rw [ae_iff]
      refine measure_mono_null (t := ((Polynomial.map (eval y) f).roots.toFinset : Set 𝕜)) ?_ ((Finset.finite_toSet _).measure_zero _)
      intro a ha
      simp only [Set.mem_ofPred_eq, ne_eq, not_not, eval_eq_eval_mv_eval'] at ha
      simpa [hne] using ha
    have := mp.quasiMeasurePreserving.ae hq
    refine this.mono fun x hx => ?_
    convert! hx
    refine funext fun i => Fin.cases ?_ (fun j => ?_) i
    · rfl
    · rfl

/-- The same for any finite index type. -/
theorem poly_ae {ι : Type} [Fintype ι] (μ : ι → Measure 𝕜) [∀ i, SigmaFinite (μ i)] [∀ i, NullSingletonClass (μ i)]
    (p : MvPolynomial ι 𝕜) (hp : p ≠ 0) : ∀ᵐ x ∂Measure.pi μ, eval x p ≠ 0 := by
  let e := Fintype.equivFin ι
  have h := poly_ae_fin _ (fun i => μ (e.symm i)) (rename e p) (by simpa using (rename_injective e e.injective).ne hp)
  have mp := measurePreserving_piCongrLeft (α := fun _ : ι => 𝕜) μ e.symm
  have := (mp.symm (MeasurableEquiv.piCongrLeft (fun _ : ι => 𝕜) e.symm)).quasiMeasurePreserving.ae h
  refine this.mono fun x hx => ?_
  rw [eval_rename] at hx
  convert! hx
  refine funext fun i => ?_
  simp [MeasurableEquiv.piCongrLeft, Equiv.piCongrLeft]

end AceTN
