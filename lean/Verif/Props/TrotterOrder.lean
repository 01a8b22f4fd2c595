import Verif.Lemmas.TrotterOrder
import Verif.Lemmas.PlaceTwo
import Verif.Spec.LatticeState
import Verif.Props.Trotter
import Verif.Props.EvolveSchedule
import Verif.Props.GateExp
import Mathlib.Analysis.CStarAlgebra.Matrix

/-!
C70: with exact bond updates an evolution is a second-order splitting of the imaginary-time evolution.
-/

set_option autoImplicit false

namespace AceTN
open Spec Trot NormedSpace
open scoped Kronecker

variable {P : Type*} [Fintype P] [DecidableEq P] {𝕜 : Type*} [RCLike 𝕜]
variable {𝔸 : Type} [NormedRing 𝔸] [NormedAlgebra 𝕜 𝔸]

/-- Operators on a finite lattice made of `N` copies of the unit cell.  `on c b A` is the two-site operator `A` acting
on the two ends of the bond `b` of copy `c` (a homomorphism of algebras); copies of one bond have no site in common, so
that operators on them commute; `site s h` is the sum over the copies of `h` acting at `s`. -/
structure LatticeOps (nx ny N : ℕ) (P 𝕜 𝔸 : Type*) [Fintype P] [DecidableEq P] [RCLike 𝕜] [NormedRing 𝔸]
    [NormedAlgebra 𝕜 𝔸] where
  on : Fin N → Bond → Matrix (P × P) (P × P) 𝕜 →ₐ[𝕜] 𝔸
  site : Site → Matrix P P 𝕜 →ₗ[𝕜] 𝔸
  commute : ∀ b ∈ buildBondList nx ny, ∀ c c', c ≠ c' → ∀ A B, Commute (on c b A) (on c' b B)
  left : ∀ b ∈ buildBondList nx ny, ∀ h, ∑ c, on c b (h ⊗ₖ (1 : Matrix P P 𝕜)) = site b.s1 h
  right : ∀ b ∈ buildBondList nx ny, ∀ h, ∑ c, on c b ((1 : Matrix P P 𝕜) ⊗ₖ h) = site b.s2 h

namespace LatticeOps
variable {nx ny N : ℕ} (L : LatticeOps nx ny N P 𝕜 𝔸)

/-- Local terms summed over the copies of the cell. -/
noncomputable def placement : Placement nx ny P 𝕜 𝔸 where
  site := L.site
  pair b := ∑ c, (L.on c b).toLinearMap
  pair_left b hb h := by rw [LinearMap.sum_apply]; exact L.left b hb h
  pair_right b hb h := by rw [LinearMap.sum_apply]; exact L.right b hb h

/-- A two-site operator applied to all copies of a bond. -/
noncomputable def everywhere (b : Bond) (A : Matrix (P × P) (P × P) 𝕜) : 𝔸 := (List.ofFn fun c => L.on c b A).prod

end LatticeOps

/-- A bond update without any approximation: the gate of the bond, contracted with the physical legs as the two updaters
do (`a12g = einsum("yxpq,pqrs->yxrs", a12g, gate)`, full_update.py 90, simple_update.py 48), that is the matrix of the
gate transposed, acts on every copy of the bond; `U` is the operator accumulated so far. -/
noncomputable def Spec.exactUpdate {nx ny N : ℕ} (L : LatticeOps nx ny N P 𝕜 𝔸) (m : ModelTerms P 𝕜) (dtau : ℝ) :
    𝔸 → Bond → 𝔸 × Option PyErr :=
  fun U b => (L.everywhere b (gateMatrix (twoSiteGate m dtau b)).transpose * U, none)

/-- The model with transposed matrices; the same model when the matrices are symmetric, as for a real dtype. -/
def ModelTerms.transposed (m : ModelTerms P 𝕜) : ModelTerms P 𝕜 :=
  ⟨fun b => (m.two b).transpose, fun s => (m.one s).map Matrix.transpose⟩

omit [Fintype P] in
theorem bondHam_transposed (m : ModelTerms P 𝕜) (b : Bond) : bondHam m.transposed b = (bondHam m b).transpose := by
  unfold bondHam ModelTerms.transposed
  dsimp only
  cases m.one b.s1 with
  | none => cases m.one b.s2 <;> rfl
  | some h1 =>
    cases m.one b.s2 with
    | none => rfl
    | some h2 =>
      simp only [Option.map_some]
      ext ⟨i, j⟩ ⟨k, l⟩
      simp only [Matrix.add_apply, Matrix.smul_apply, Matrix.transpose_apply, Matrix.kroneckerMap_apply]
      rw [Matrix.one_apply, Matrix.one_apply, Matrix.one_apply, Matrix.one_apply]
      simp only [eq_comm]

section
attribute [local instance] Matrix.linftyOpNormedRing Matrix.linftyOpNormedAlgebra

/-- Homomorphisms out of a matrix algebra are continuous and respect exponentials. -/
theorem algHom_exp {n : Type*} [Fintype n] [DecidableEq n] (f : Matrix n n 𝕜 →ₐ[𝕜] 𝔸) (A : Matrix n n 𝕜) :
    f (exp A) = exp (f A) := by
  let _ : NormedAlgebra ℚ (Matrix n n 𝕜) := NormedAlgebra.restrictScalars ℚ 𝕜 _
  let _ : NormedAlgebra ℚ 𝔸 := NormedAlgebra.restrictScalars ℚ 𝕜 _
  exact map_exp f (LinearMap.continuous_of_finiteDimensional f.toLinearMap) A

end

section
variable [CompleteSpace 𝔸] {nx ny N : ℕ} (L : LatticeOps nx ny N P 𝕜 𝔸)

theorem everywhere_gate (m : ModelTerms P 𝕜) (dtau : ℝ) (b : Bond) (hb : b ∈ buildBondList nx ny) :
    L.everywhere b (gateMatrix (twoSiteGate m dtau b)).transpose =
      exp ((-(dtau : 𝕜)) • L.placement.pair b (bondHam m.transposed b)) := by
  let _ : NormedAlgebra ℝ 𝔸 := NormedAlgebra.restrictScalars ℝ 𝕜 𝔸
  have hg : (gateMatrix (twoSiteGate m dtau b)).transpose = exp ((-(dtau : 𝕜)) • bondHam m.transposed b) := by
    rw [bondHam_transposed, ← Matrix.transpose_smul, Matrix.exp_transpose]
    rfl
  have hl : (List.ofFn fun c => L.on c b ((-(dtau : 𝕜)) • bondHam m.transposed b)).Pairwise Commute := by
    rw [List.pairwise_ofFn]
    exact fun c c' h => L.commute b hb c c' h.ne _ _
  have hsum : (List.ofFn fun c => L.on c b ((-(dtau : 𝕜)) • bondHam m.transposed b)).sum =
      (-(dtau : 𝕜)) • L.placement.pair b (bondHam m.transposed b) := by
    rw [List.sum_ofFn]
    simp only [LatticeOps.placement, LinearMap.sum_apply, Finset.smul_sum, map_smul, AlgHom.toLinearMap_apply]
  unfold LatticeOps.everywhere
  rw [hg, ← hsum, ← exp_sum_of_pairwise _ hl, List.map_ofFn]
  congr 2
  funext c
  exact algHom_exp _ _

/-- The accumulated operator is the product of the exponentials, last bond first. -/
theorem foldl_exactUpdate (m : ModelTerms P 𝕜) (dtau : ℝ) (l : List Bond) (hl : ∀ b ∈ l, b ∈ buildBondList nx ny)
    (U : 𝔸) :
    l.foldl (fun U b => (exactUpdate L m dtau U b).1) U =
      expProd (l.map fun b => (-(dtau : 𝕜)) • L.placement.pair b (bondHam m.transposed b)).reverse * U := by
  induction l generalizing U with
  | nil => simp [expProd]
  | cons b l ih =>
    rw [List.foldl_cons, ih (fun b' h => hl b' (List.mem_cons_of_mem _ h))]
    simp only [exactUpdate, List.map_cons, List.reverse_cons]
    rw [expProd_append, everywhere_gate L m dtau b (hl b List.mem_cons_self), ← mul_assoc]
    simp [expProd]

theorem mem_schedule {n : ℕ} {bl : List Bond} {b : Bond} (h : b ∈ schedule n bl) : b ∈ bl := by
  simp only [schedule, List.mem_flatMap] at h
  obtain ⟨i, -, h⟩ := h
  split_ifs at h
  · exact h
  · exact List.mem_reverse.1 h

omit [CompleteSpace 𝔸] in
theorem expProd_schedule (f : Bond → 𝔸) (n : ℕ) (bl : List Bond) :
    expProd ((schedule n bl).map f).reverse = sweepProd n (bl.map f) := by
  induction n generalizing bl with
  | zero => simp [schedule, expProd, sweepProd]
  | succ n ih =>
    rw [schedule_succ, List.map_append, List.reverse_append, expProd_append, ih, sweepProd, List.map_reverse]

variable [NormOneClass 𝔸]

/-- **C70.**  For every model, cell and total time there is a constant such that, for every number of steps and every time
step that stay within that time, starting with the bond list of the cell or its reverse, an evolution with exact bond
updates applies the imaginary-time evolution of the sum of all generators up to an error of second order in the time
step, and does not raise. -/
theorem C70_second_order (m : ModelTerms P 𝕜) (T : ℝ) :
    ∃ K : ℝ, ∀ (bl : List Bond), bl = buildBondList nx ny ∨ bl = (buildBondList nx ny).reverse →
      ∀ (n : ℕ) (dtau : ℝ), 0 ≤ dtau → n * dtau ≤ T → ∀ U₀ : 𝔸,
        ‖(evolveLoop (exactUpdate L m dtau) n bl U₀).2.1 -
            exp ((-((n * dtau : ℝ) : 𝕜)) • evolvedHamiltonian nx ny L.placement m.transposed) * U₀‖
          ≤ K * dtau ^ 2 * ‖U₀‖ ∧
        (evolveLoop (exactUpdate L m dtau) n bl U₀).2.2 = none := by
  let _ : NormedAlgebra ℝ 𝔸 := NormedAlgebra.restrictScalars ℝ 𝕜 𝔸
  let f : Bond → 𝔸 := fun b => L.placement.pair b (bondHam m.transposed b)
  refine ⟨bound T (normSum ((buildBondList nx ny).map f)), fun bl hbl n dtau hd hT U₀ => ?_⟩
  have hsch := C05_schedule (exactUpdate L m dtau) (fun _ _ => rfl) n bl U₀
  have hmem : ∀ b ∈ schedule n bl, b ∈ buildBondList nx ny := by
    intro b hb
    have := mem_schedule hb
    rcases hbl with rfl | rfl
    · exact this
    · exact List.mem_reverse.1 this
  have hreal : ∀ (t : ℝ) (x : 𝔸), (-(t : 𝕜)) • x = (-t) • x := by
    intro t x
    rw [← RCLike.ofReal_neg]
    rfl
  rw [hsch]
  refine ⟨?_, rfl⟩
  dsimp only
  rw [foldl_exactUpdate L m dtau _ hmem, expProd_schedule, ← sub_mul]
  refine (norm_mul_le _ _).trans ?_
  refine mul_le_mul_of_nonneg_right ?_ (norm_nonneg _)
  have hs : (bl.map f).sum = evolvedHamiltonian nx ny L.placement m.transposed := by
    rcases hbl with rfl | rfl
    · rfl
    · rw [List.map_reverse, List.sum_reverse]; rfl
  have hn : normSum (bl.map f) = normSum ((buildBondList nx ny).map f) := by
    rcases hbl with rfl | rfl
    · rfl
    · simp only [normSum, List.map_reverse, List.sum_reverse]
  have key := norm_sweepProd_smul_sub T (bl.map f) n dtau hd hT
  rw [hn, hs, List.map_map] at key
  rw [hreal]
  simp only [hreal]
  exact key

omit [CompleteSpace 𝔸] [NormOneClass 𝔸] in
/-- **C70** (the Hamiltonian).  If the model gives a one-site term everywhere or nowhere, the operator in the exponent is
the Hamiltonian of the lattice, the one `measure` adds up (C04). -/
theorem C70_hamiltonian (m : ModelTerms P 𝕜)
    (h : (∀ s, InCell nx ny s → (m.one s).isSome) ∨ (∀ s, InCell nx ny s → m.one s = none)) :
    evolvedHamiltonian nx ny L.placement m.transposed = cellHamiltonian nx ny L.placement m.transposed := by
  refine C04_evolved_eq_measured_partial nx ny _ _ ?_
  rcases h with h | h
  · exact .inl fun s hs => by simpa [ModelTerms.transposed] using h s hs
  · exact .inr fun s hs => by simp [ModelTerms.transposed, h s hs]

end

/-! ### Finite lattices covering the cell -/

section
open scoped Matrix.Norms.L2Operator

variable {P : Type} [Fintype P] [DecidableEq P] {𝕜 : Type} [RCLike 𝕜] {nx ny N : ℕ}

/-- The place of a site of the cell. -/
def Spec.place (hx : 2 ≤ nx) (hy : 2 ≤ ny) (s : Site) : Fin nx × Fin ny :=
  (⟨s.1 % nx, Nat.mod_lt _ (by omega)⟩, ⟨s.2 % ny, Nat.mod_lt _ (by omega)⟩)

theorem place_ne (hx : 2 ≤ nx) (hy : 2 ≤ ny) (b : Bond) (hb : b ∈ buildBondList nx ny) :
    place hx hy b.s1 ≠ place hx hy b.s2 := by
  rw [mem_buildBondList] at hb
  obtain ⟨⟨h1, h2⟩, ⟨_, hs⟩ | ⟨_, hs⟩⟩ := hb <;> rw [hs] <;> intro e
  · have e := congrArg (fun x => (x.1 : ℕ)) e
    simp only [place, Nat.mod_mod] at e
    rw [Nat.mod_eq_of_lt h1] at e
    rcases Nat.lt_or_ge (b.s1.1 + 1) nx with h | h
    · rw [Nat.mod_eq_of_lt h] at e; omega
    · rw [show b.s1.1 + 1 = nx by omega, Nat.mod_self] at e; omega
  · have e := congrArg (fun x => (x.2 : ℕ)) e
    simp only [place, Nat.mod_mod] at e
    rw [Nat.mod_eq_of_lt h2] at e
    rcases Nat.lt_or_ge (b.s1.2 + 1) ny with h | h
    · rw [Nat.mod_eq_of_lt h] at e; omega
    · rw [show b.s1.2 + 1 = ny by omega, Nat.mod_self] at e; omega

/-- The operators of a lattice that covers the cell `N` times: the bond `b` leads from its first end in copy `c` to its
second end in copy `σ b c`.  (A torus of `Lx` by `Ly` cells is such a lattice: `σ b` is the identity for bonds inside the
cell and a translation for bonds that leave it.) -/
noncomputable def coveringOps (hx : 2 ≤ nx) (hy : 2 ≤ ny) (σ : Bond → Equiv.Perm (Fin N)) :
    LatticeOps nx ny N P 𝕜 (Matrix (BigSite nx ny N → P) (BigSite nx ny N → P) 𝕜) where
  on c b :=
    if h : place hx hy b.s1 ≠ place hx hy b.s2 then
      placeTwo (c, place hx hy b.s1) (σ b c, place hx hy b.s2) (fun e => h (congrArg Prod.snd e))
    else placeTwo (c, place hx hy (0, 0)) (c, place hx hy (1, 0)) (by
      intro e
      have := congrArg (fun x => (x.2.1 : ℕ)) e
      simp [place, Nat.mod_eq_of_lt (show 1 < nx by omega)] at this)
  site s := ∑ c, placeOne (c, place hx hy s)
  commute b hb c c' hc A B := by
    have h := place_ne hx hy b hb
    simp only [dif_pos h]
    refine placeTwo_commute _ _ _ _ _ _ ?_ ?_ ?_ ?_ A B
    · exact fun e => hc (congrArg Prod.fst e)
    · exact fun e => h (congrArg Prod.snd e)
    · exact fun e => h (congrArg Prod.snd e).symm
    · exact fun e => hc ((σ b).injective (congrArg Prod.fst e))
  left b hb h := by
    have h' := place_ne hx hy b hb
    simp only [dif_pos h', placeTwo_left, LinearMap.sum_apply]
  right b hb h := by
    have h' := place_ne hx hy b hb
    simp only [dif_pos h', placeTwo_right, LinearMap.sum_apply]
    exact Equiv.sum_comp (σ b) fun c => placeOne (c, place hx hy b.s2) h

/-- **C70** (finite lattices).  The statement for the operators on any finite lattice covering the cell, in the operator
norm. -/
theorem C70_covering [Nonempty P] (hx : 2 ≤ nx) (hy : 2 ≤ ny) (σ : Bond → Equiv.Perm (Fin N)) (m : ModelTerms P 𝕜)
    (h : (∀ s, InCell nx ny s → (m.one s).isSome) ∨ (∀ s, InCell nx ny s → m.one s = none)) (T : ℝ) :
    ∃ K : ℝ, ∀ (n : ℕ) (dtau : ℝ), 0 ≤ dtau → n * dtau ≤ T →
      ‖(evolveLoop (exactUpdate (coveringOps hx hy σ) m dtau) n (buildBondList nx ny) 1).2.1 -
          exp ((-((n * dtau : ℝ) : 𝕜)) • cellHamiltonian nx ny (coveringOps hx hy σ).placement m.transposed)‖
        ≤ K * dtau ^ 2 := by
  obtain ⟨K, hK⟩ := C70_second_order (coveringOps (P := P) (𝕜 := 𝕜) hx hy σ) m T
  refine ⟨K, fun n dtau hd hT => ?_⟩
  have := (hK _ (.inl rfl) n dtau hd hT 1).1
  rwa [mul_one, C70_hamiltonian _ m h, norm_one, mul_one] at this

/-- Non-vacuity: the transverse-field Ising model on a torus of `3 × 1` cells of `2 × 2` sites, that is a `6 × 2` lattice;
bonds that leave the cell to the right lead to the next copy.  The terms do not commute. -/
example : (∃ K : ℝ, ∀ (n : ℕ) (dtau : ℝ), 0 ≤ dtau → n * dtau ≤ 10 →
      ‖(evolveLoop (exactUpdate (coveringOps (P := Fin 2) (𝕜 := ℂ) (le_refl 2) (le_refl 2)
            fun b => if b.k = 2 ∧ b.s1.1 = 1 then finRotate 3 else 1)
          ⟨fun _ => Matrix.diagonal fun a => if a.1 = a.2 then 1 else -1, fun _ => some !![0, 1; 1, 0]⟩ dtau)
            n (buildBondList 2 2) 1).2.1 -
          exp ((-((n * dtau : ℝ) : ℂ)) • cellHamiltonian 2 2 (coveringOps (P := Fin 2) (𝕜 := ℂ) (le_refl 2) (le_refl 2)
            fun b => if b.k = 2 ∧ b.s1.1 = 1 then finRotate 3 else 1).placement (ModelTerms.transposed
          ⟨fun _ => Matrix.diagonal fun a => if a.1 = a.2 then 1 else -1, fun _ => some !![0, 1; 1, 0]⟩))‖
        ≤ K * dtau ^ 2) ∧
    ¬ Commute (Matrix.diagonal fun a : Fin 2 × Fin 2 => if a.1 = a.2 then (1 : ℂ) else -1)
      (!![0, 1; 1, 0] ⊗ₖ (1 : Matrix (Fin 2) (Fin 2) ℂ)) := by
  refine ⟨C70_covering (le_refl 2) (le_refl 2) _ _ (.inl fun _ _ => rfl) 10, fun h => ?_⟩
  have := congrFun (congrFun h (0, 0)) (1, 0)
  simp [Matrix.diagonal_mul, Matrix.mul_diagonal] at this
  norm_num at this

end
end AceTN
