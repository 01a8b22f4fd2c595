import Verif.Model.Gate
import Mathlib.Analysis.Matrix.Normed
import Mathlib.Analysis.Matrix.PosDef
import Mathlib.LinearAlgebra.Matrix.PosDef
import Mathlib.Analysis.SpecialFunctions.Exponential

/-!
C27: gates are the exponentials they should be.
-/

set_option autoImplicit false

namespace AceTN

open scoped Kronecker ComplexOrder

variable {P : Type*} [Fintype P] [DecidableEq P] {𝕜 : Type*} [RCLike 𝕜]
variable {n : Type*} [Fintype n] [DecidableEq n]

/-- The terms a model supplies are Hermitian. -/
def ModelTerms.Hermitian (m : ModelTerms P 𝕜) : Prop :=
  (∀ b, (m.two b).IsHermitian) ∧ ∀ s h, m.one s = some h → h.IsHermitian

omit [Fintype n] [DecidableEq n] in
theorem isHermitian_real_smul {A : Matrix n n 𝕜} (hA : A.IsHermitian) (t : ℝ) :
    ((t : 𝕜) • A).IsHermitian := by
  unfold Matrix.IsHermitian
  rw [Matrix.conjTranspose_smul, hA.eq]
  simp

theorem calculateGate_isHermitian {H : Matrix n n 𝕜} (hH : H.IsHermitian) (dtau : ℝ) :
    (calculateGate H dtau).IsHermitian := by
  unfold calculateGate
  have := isHermitian_real_smul hH (-dtau)
  rw [RCLike.ofReal_neg] at this
  exact this.exp

theorem calculateGate_add (H : Matrix n n 𝕜) (s t : ℝ) :
    calculateGate H s * calculateGate H t = calculateGate H (s + t) := by
  unfold calculateGate
  rw [← Matrix.exp_add_of_commute]
  · congr 1
    rw [← add_smul]; congr 1; push_cast; ring
  · exact (Commute.refl H).smul_left _ |>.smul_right _

theorem calculateGate_zero (H : Matrix n n 𝕜) : calculateGate H 0 = 1 := by
  simp [calculateGate]

theorem calculateGate_posDef {H : Matrix n n 𝕜} (hH : H.IsHermitian) (dtau : ℝ) :
    (calculateGate H dtau).PosDef := by
  have h : calculateGate H dtau = (calculateGate H (dtau / 2)).conjTranspose * calculateGate H (dtau / 2) := by
    rw [(calculateGate_isHermitian hH _).eq, calculateGate_add]; congr 1; ring
  rw [h]
  refine Matrix.PosDef.conjTranspose_mul_self _ ?_
  exact Matrix.mulVec_injective_of_isUnit (Matrix.isUnit_exp _)

section deriv

attribute [local instance] Matrix.linftyOpNormedRing Matrix.linftyOpNormedAlgebra

theorem calculateGate_hasDerivAt (H : Matrix n n 𝕜) (t : ℝ) (i j : n) :
    HasDerivAt (fun s : ℝ => calculateGate H s i j) (-(H * calculateGate H t) i j) t := by
  have h := hasDerivAt_exp_smul_const' (𝕂 := ℝ) (-H) t
  have he : ∀ s : ℝ, calculateGate H s = NormedSpace.exp (s • (-H)) := by
    intro s
    unfold calculateGate
    congr 1
    ext a b
    simp [RCLike.real_smul_eq_coe_mul]
  let φ : Matrix n n 𝕜 →ₗ[ℝ] 𝕜 := Matrix.entryLinearMap ℝ 𝕜 i j
  have h2 := φ.toContinuousLinearMap.hasFDerivAt.comp_hasDerivAt t h
  have e1 : (fun s : ℝ => calculateGate H s i j) = φ.toContinuousLinearMap ∘ fun s : ℝ => NormedSpace.exp (s • (-H)) := by
    funext s; rw [he]; rfl
  rw [e1, he]
  have e2 : -(H * NormedSpace.exp (t • (-H))) i j =
      φ.toContinuousLinearMap ((-H) * NormedSpace.exp (t • (-H))) := by
    rw [Matrix.neg_mul]; rfl
  rw [e2]
  exact h2

end deriv

omit [Fintype P] in
theorem bondHam_isHermitian (m : ModelTerms P 𝕜) (hm : m.Hermitian) (b : Bond) : (bondHam m b).IsHermitian := by
  unfold bondHam
  rcases e1 : m.one b.s1 with _ | h1
  · exact hm.1 b
  rcases e2 : m.one b.s2 with _ | h2
  · exact hm.1 b
  have k1 : (h1 ⊗ₖ (1 : Matrix P P 𝕜)).IsHermitian := by
    unfold Matrix.IsHermitian
    rw [Matrix.conjTranspose_kronecker, (hm.2 _ _ e1).eq, Matrix.conjTranspose_one]
  have k2 : ((1 : Matrix P P 𝕜) ⊗ₖ h2).IsHermitian := by
    unfold Matrix.IsHermitian
    rw [Matrix.conjTranspose_kronecker, (hm.2 _ _ e2).eq, Matrix.conjTranspose_one]
  refine (hm.1 b).add ?_
  have := isHermitian_real_smul (k1.add k2) (0.25 : ℝ)
  convert this using 2
  rw [show (0.25 : ℝ) = 1 / 4 by norm_num, RCLike.ofReal_div, RCLike.ofReal_one, RCLike.ofReal_ofNat]
  norm_num

/-- The hypothesis is met by a model with a site term and a bond term. -/
example : ModelTerms.Hermitian (P := Fin 2) (𝕜 := ℂ)
    ⟨fun _ => Matrix.diagonal fun a => if a.1 = a.2 then 1 else -1, fun _ => some !![0, 1; 1, 0]⟩ := by
  refine ⟨fun b => ?_, fun s h hh => ?_⟩
  · refine Matrix.isHermitian_diagonal_of_self_adjoint _ ?_
    ext a; simp only [Pi.star_apply]; split_ifs <;> simp
  · obtain rfl := Option.some.inj hh
    ext i j; fin_cases i <;> fin_cases j <;> simp

/-- The gate tensor `g[p,q,r,s]` of a bond read as a matrix from `(r,s)` to `(p,q)`. -/
def gateMatrix (g : P → P → P → P → 𝕜) : Matrix (P × P) (P × P) 𝕜 := fun a b => g a.1 a.2 b.1 b.2

/-- **C27** (bond gates).  For Hermitian terms and every time step the gate of a bond is Hermitian and positive
definite. -/
theorem C27_bond_gate_posDef (m : ModelTerms P 𝕜) (hm : m.Hermitian) (dtau : ℝ) (b : Bond) :
    (gateMatrix (twoSiteGate m dtau b)).IsHermitian ∧ (gateMatrix (twoSiteGate m dtau b)).PosDef :=
  ⟨calculateGate_isHermitian (bondHam_isHermitian m hm b) dtau,
   calculateGate_posDef (bondHam_isHermitian m hm b) dtau⟩

/-- **C27** (bond gates).  A gate is invertible, and the gate for `-dtau` is its inverse. -/
theorem C27_bond_gate_inverse (m : ModelTerms P 𝕜) (dtau : ℝ) (b : Bond) :
    gateMatrix (twoSiteGate m dtau b) * gateMatrix (twoSiteGate m (-dtau) b) = 1 := by
  have := calculateGate_add (bondHam m b) dtau (-dtau)
  rw [add_neg_cancel, calculateGate_zero] at this
  exact this

/-- **C27** (bond gates).  No time step: the identity. -/
theorem C27_bond_gate_zero (m : ModelTerms P 𝕜) (b : Bond) :
    gateMatrix (twoSiteGate m 0 b) = 1 :=
  calculateGate_zero (bondHam m b)

/-- **C27** (bond gates).  Gates compose. -/
theorem C27_bond_gate_add (m : ModelTerms P 𝕜) (s t : ℝ) (b : Bond) :
    gateMatrix (twoSiteGate m s b) * gateMatrix (twoSiteGate m t b) = gateMatrix (twoSiteGate m (s + t) b) :=
  calculateGate_add (bondHam m b) s t

/-- **C27** (bond gates).  The gate is generated by minus the bond Hamiltonian: its derivative in the time step at
any time is `-H` times the gate. -/
theorem C27_bond_gate_generator (m : ModelTerms P 𝕜) (b : Bond) (t : ℝ) (i j : P × P) :
    HasDerivAt (fun s : ℝ => gateMatrix (twoSiteGate m s b) i j)
      (-(bondHam m b * gateMatrix (twoSiteGate m t b)) i j) t :=
  calculateGate_hasDerivAt (bondHam m b) t i j

/-- **C27** (site gates). -/
theorem C27_site_gate (m : ModelTerms P 𝕜) (hm : m.Hermitian) (s : Site) (h : Matrix P P 𝕜)
    (hs : m.one s = some h) :
    ∃ g : ℝ → Matrix P P 𝕜, (∀ dtau, oneSiteGate m dtau s = some (g dtau)) ∧
      (∀ dtau, (g dtau).IsHermitian ∧ (g dtau).PosDef) ∧ g 0 = 1 ∧
      ∀ s t, g s * g t = g (s + t) :=
  ⟨calculateGate h, fun dtau => by simp [oneSiteGate, hs],
   fun dtau => ⟨calculateGate_isHermitian (hm.2 s h hs) dtau, calculateGate_posDef (hm.2 s h hs) dtau⟩,
   calculateGate_zero h, calculateGate_add h⟩

end AceTN
