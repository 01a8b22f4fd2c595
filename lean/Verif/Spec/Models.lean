import Verif.Spec.Pauli

/-!
The documented Hamiltonians (docs/source/input_settings.rst and the class docstrings), as complex matrices.
-/

set_option autoImplicit false

namespace AceTN.Pauli.Spec

/-- Spin operators. -/
noncomputable def Sx : Mat ℂ 1 := (1 / 2 : ℂ) • σx
noncomputable def Sy : Mat ℂ 1 := (1 / 2 : ℂ) • σy
noncomputable def Sz : Mat ℂ 1 := (1 / 2 : ℂ) • σz

/-- The Ising site term. -/
noncomputable def isingSite (hx : ℝ) : Mat ℂ 1 := -((hx : ℂ) • σx)

/-- The Ising bond term. -/
noncomputable def isingBond (jz : ℝ) : Mat ℂ 2 := -((jz : ℂ) • tensor σz σz)

/-- The Heisenberg bond term. -/
noncomputable def heisenbergBond (J : ℝ) : Mat ℂ 2 :=
  (J : ℂ) • (tensor Sx Sx + tensor Sy Sy + tensor Sz Sz)

/-- Exchange of two spins. -/
def swap : Mat ℂ 2 := fun i j => if i 0 = j 1 ∧ i 1 = j 0 then 1 else 0

/-- An omitted Heisenberg coupling takes the documented default `J = 1.0`, docs/source/input_settings.rst 76. -/
def DefaultJ : Prop :=
  ∀ params : PyDict String ℝ, params.get? "J" = none →
    ∃ H : PM ℝ 2, heisenbergTwoSite false params = .ok H ∧ toComplex H.mat = heisenbergBond 1

/-- Two one-spin states are opposite basis states. -/
def Opposite (u v : Fin 2 → ℝ) : Prop := (u = ![1, 0] ∧ v = ![0, 1]) ∨ (u = ![0, 1] ∧ v = ![1, 0])

end AceTN.Pauli.Spec
