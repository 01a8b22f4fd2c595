import Verif.Props.FullRun
import Verif.Props.Reversal
import Verif.Props.GateExp

/-! C113: models without interactions are evolved exactly, whatever the time step is. -/

set_option autoImplicit false

namespace AceTN
open Matrix Spec Trot NormedSpace Full
open scoped Matrix.Norms.L2Operator Kronecker

variable {𝕜 : Type} [RCLike 𝕜] {P : Type} [Fintype P] [DecidableEq P] {nx ny N : ℕ}

/-- The sites of the cell do not interact: the two-site terms vanish and the one-site term of site `s` is `h s`. -/
def Spec.Independent (nx ny : ℕ) (m : ModelTerms P 𝕜) (h : Site → Matrix P P 𝕜) : Prop :=
  (∀ b ∈ buildBondList nx ny, m.two b = 0) ∧ ∀ s, InCell nx ny s → m.one s = some (h s)

theorem bond_cell {b : Bond} (hb : b ∈ buildBondList nx ny) : InCell nx ny b.s1 ∧ InCell nx ny b.s2 := by
  obtain ⟨h1, -, h2⟩ := ((C02_bond_list nx ny).2.2 b).1 hb
  exact ⟨h1, h2 ▸ neighbour_inCell h1 b.k⟩

/-! ### The gates -/

/-- A matrix on the first of two sites. -/
def kronLeft : Matrix P P 𝕜 →ₐ[𝕜] Matrix (P × P) (P × P) 𝕜 :=
  AlgHom.ofLinearMap
    { toFun := fun A => A ⊗ₖ (1 : Matrix P P 𝕜)
      map_add' := fun A B => Matrix.add_kronecker A B 1
      map_smul' := fun c A => Matrix.smul_kronecker c A 1 }
    (Matrix.one_kronecker_one) (fun A B => by
      show (A * B) ⊗ₖ (1 : Matrix P P 𝕜) = (A ⊗ₖ 1) * (B ⊗ₖ 1)
      rw [← Matrix.mul_kronecker_mul, one_mul])

/-- A matrix on the second of two sites. -/
def kronRight : Matrix P P 𝕜 →ₐ[𝕜] Matrix (P × P) (P × P) 𝕜 :=
  AlgHom.ofLinearMap
    { toFun := fun A => (1 : Matrix P P 𝕜) ⊗ₖ A
      map_add' := fun A B => Matrix.kronecker_add 1 A B
      map_smul' := fun c A => Matrix.kronecker_smul c 1 A }
    (Matrix.one_kronecker_one) (fun A B => by
      show (1 : Matrix P P 𝕜) ⊗ₖ (A * B) = (1 ⊗ₖ A) * (1 ⊗ₖ B)
      rw [← Matrix.mul_kronecker_mul, one_mul])

theorem kron_commute (A B : Matrix P P 𝕜) : Commute (A ⊗ₖ (1 : Matrix P P 𝕜)) ((1 : Matrix P P 𝕜) ⊗ₖ B) := by
  unfold Commute SemiconjBy
  rw [← Matrix.mul_kronecker_mul, ← Matrix.mul_kronecker_mul, one_mul, mul_one, one_mul, mul_one]

theorem exp_kron (A B : Matrix P P 𝕜) :
    exp (A ⊗ₖ (1 : Matrix P P 𝕜) + (1 : Matrix P P 𝕜) ⊗ₖ B) = exp A ⊗ₖ exp B := by
  have h1 : exp (A ⊗ₖ (1 : Matrix P P 𝕜)) = exp A ⊗ₖ (1 : Matrix P P 𝕜) := (algHom_exp kronLeft A).symm
  have h2 : exp ((1 : Matrix P P 𝕜) ⊗ₖ B) = (1 : Matrix P P 𝕜) ⊗ₖ exp B := (algHom_exp kronRight B).symm
  rw [Matrix.exp_add_of_commute _ _ (kron_commute A B), h1, h2, ← Matrix.mul_kronecker_mul, one_mul, mul_one]

omit [Fintype P] in
theorem Spec.Independent.bondHam {m : ModelTerms P 𝕜} {h : Site → Matrix P P 𝕜} (hi : Independent nx ny m h) {b : Bond}
    (hb : b ∈ buildBondList nx ny) :
    AceTN.bondHam m b = ((0.25 : 𝕜) • h b.s1) ⊗ₖ (1 : Matrix P P 𝕜) + (1 : Matrix P P 𝕜) ⊗ₖ ((0.25 : 𝕜) • h b.s2) := by
  unfold AceTN.bondHam
  have hc := bond_cell hb
  rw [hi.1 b hb, hi.2 _ hc.1, hi.2 _ hc.2]
  dsimp only
  rw [zero_add, smul_add, Matrix.smul_kronecker, Matrix.kronecker_smul]

/-- **C113 (gates).** The gate of a bond is the product of the exponentials of a quarter of the terms of its two sites. -/
theorem C113_gate (m : ModelTerms P 𝕜) (h : Site → Matrix P P 𝕜) (hi : Independent nx ny m h) (dtau : ℝ) (b : Bond)
    (hb : b ∈ buildBondList nx ny) (p q r s : P) :
    twoSiteGate m dtau b p q r s =
      (exp (-((dtau / 4 : ℝ) : 𝕜) • h b.s1) : Matrix P P 𝕜) p r * (exp (-((dtau / 4 : ℝ) : 𝕜) • h b.s2) : Matrix P P 𝕜) q s := by
  unfold twoSiteGate calculateGate
  have e : ∀ X : Matrix P P 𝕜, (-(dtau : 𝕜)) • ((0.25 : 𝕜) • X) = -((dtau / 4 : ℝ) : 𝕜) • X := fun X => by
    rw [smul_smul]
    congr 1
    push_cast
    norm_num
    ring
  rw [hi.bondHam hb, smul_add, ← Matrix.smul_kronecker, ← Matrix.kronecker_smul, e, e, exp_kron, Matrix.kroneckerMap_apply]

/-! ### Commuting bond terms -/

/-- The bond terms of the model commute on the lattice. -/
def Spec.CommutingBonds (hx : 2 ≤ nx) (hy : 2 ≤ ny) (σ : Bond → Equiv.Perm (Fin N)) (m : ModelTerms P 𝕜) : Prop :=
  ∀ b ∈ buildBondList nx ny, ∀ b' ∈ buildBondList nx ny,
    Commute ((coveringOps (P := P) (𝕜 := 𝕜) hx hy σ).placement.pair b (AceTN.bondHam m.transposed b))
      ((coveringOps (P := P) (𝕜 := 𝕜) hx hy σ).placement.pair b' (AceTN.bondHam m.transposed b'))

section run

variable {B S : Type} [Fintype B]

/-- **C113 (commuting).** If the bond terms commute, one-site terms everywhere or nowhere, there is no error of the time step: a run whose
bond updates are exact up to positive factors ends, up to a positive factor, in `exp(-n dtau H)` applied to the state at the start. -/
theorem C113_commuting (hx : 2 ≤ nx) (hy : 2 ≤ ny) (σ : Bond → Equiv.Perm (Fin N)) (m : ModelTerms P 𝕜)
    (hd : CommutingBonds hx hy σ m)
    (hm : (∀ s, InCell nx ny s → (m.one s).isSome) ∨ (∀ s, InCell nx ny s → m.one s = none)) (dtau : ℝ)
    (A : S → Site → B → B → B → B → P → 𝕜) (upd : S → Bond → S × Option PyErr) (n : ℕ) (bl : List Bond)
    (hbl : bl = buildBondList nx ny ∨ bl = (buildBondList nx ny).reverse) (s : S)
    (h : ExactRun (twoSiteGate m dtau) A upd (schedule n bl) s) :
    SameRay (latticeState σ (A (evolveLoop upd n bl s).2.1))
      ((exp ((-((n * dtau : ℝ) : 𝕜)) • cellHamiltonian nx ny (coveringOps hx hy σ).placement m.transposed)).mulVec
        (latticeState σ (A s))) := by
  have hmem := bonds_of_list hbl
  obtain ⟨-, κ, hκ, e⟩ := C76_run hx hy σ m dtau A upd n bl hmem s h
  refine ⟨κ, hκ, ?_⟩
  rw [e, exactRun_op hx hy σ m dtau n bl hmem]
  congr 2
  let _ : NormedAlgebra ℝ (Matrix (BigSite nx ny N → P) (BigSite nx ny N → P) 𝕜) := NormedAlgebra.restrictScalars ℝ 𝕜 _
  let _ : NormedAlgebra ℚ (Matrix (BigSite nx ny N → P) (BigSite nx ny N → P) 𝕜) := NormedAlgebra.restrictScalars ℚ 𝕜 _
  have hpw : (((schedule n bl).map fun b => (-(dtau : 𝕜)) •
      (coveringOps (P := P) (𝕜 := 𝕜) hx hy σ).placement.pair b (AceTN.bondHam m.transposed b)).reverse).Pairwise Commute := by
    refine List.pairwise_of_forall_mem_list fun a ha b hb => ?_
    simp only [List.mem_reverse, List.mem_map] at ha hb
    obtain ⟨x, hx', rfl⟩ := ha
    obtain ⟨y, hy', rfl⟩ := hb
    exact ((hd x (hmem x (mem_schedule hx')) y (hmem y (mem_schedule hy'))).smul_left _).smul_right _
  unfold expProd
  rw [exp_sum_of_pairwise _ hpw, List.sum_reverse, schedule_list_sum]
  congr 1
  rw [← C70_hamiltonian _ m hm]
  have hs : (bl.map fun b => (-(dtau : 𝕜)) • (coveringOps (P := P) (𝕜 := 𝕜) hx hy σ).placement.pair b (AceTN.bondHam m.transposed b)).sum =
      (-(dtau : 𝕜)) • evolvedHamiltonian nx ny (coveringOps hx hy σ).placement m.transposed := by
    unfold evolvedHamiltonian
    rw [List.smul_sum]
    rcases hbl with rfl | rfl
    · rw [List.map_map]; rfl
    · rw [List.map_reverse, List.sum_reverse, List.map_map]; rfl
  rw [hs, ← Nat.cast_smul_eq_nsmul 𝕜, smul_smul]
  congr 1
  push_cast
  ring

end run

/-! ### Independent sites commute -/

theorem placeOne_commute {ι : Type} [Fintype ι] [DecidableEq ι] {i j : ι} (hij : i ≠ j) (A B : Matrix P P 𝕜) :
    Commute (placeOne i A) (placeOne j B) := by
  rw [← placeTwo_left i j hij, ← placeTwo_right i j hij]
  exact (kron_commute A B).map (placeTwo i j hij)

omit [Fintype P] [DecidableEq P] in
theorem Spec.Independent.transposed {m : ModelTerms P 𝕜} {h : Site → Matrix P P 𝕜} (hi : Independent nx ny m h) :
    Independent nx ny m.transposed fun s => (h s).transpose := by
  refine ⟨fun b hb => ?_, fun s hs => ?_⟩
  · show (m.two b).transpose = 0
    rw [hi.1 b hb, Matrix.transpose_zero]
  · show (m.one s).map Matrix.transpose = _
    rw [hi.2 s hs]
    rfl

theorem place_inj (hx : 2 ≤ nx) (hy : 2 ≤ ny) {s s' : Site} (hs : InCell nx ny s) (hs' : InCell nx ny s') (h : place hx hy s = place hx hy s') :
    s = s' := by
  have h1 := congrArg (fun x => (x.1 : ℕ)) h
  have h2 := congrArg (fun x => (x.2 : ℕ)) h
  simp only [place, Nat.mod_eq_of_lt hs.1, Nat.mod_eq_of_lt hs'.1, Nat.mod_eq_of_lt hs.2, Nat.mod_eq_of_lt hs'.2] at h1 h2
  exact Prod.ext h1 h2

theorem site_commute (hx : 2 ≤ nx) (hy : 2 ≤ ny) (σ : Bond → Equiv.Perm (Fin N)) (h : Site → Matrix P P 𝕜) {s s' : Site}
    (hs : InCell nx ny s) (hs' : InCell nx ny s') :
    Commute ((coveringOps (P := P) (𝕜 := 𝕜) hx hy σ).site s (h s)) ((coveringOps (P := P) (𝕜 := 𝕜) hx hy σ).site s' (h s')) := by
  have e : ∀ s, (coveringOps (P := P) (𝕜 := 𝕜) hx hy σ).site s (h s) = ∑ c, placeOne (c, place hx hy s) (h s) := fun s =>
    LinearMap.sum_apply _ _ _
  rw [e, e]
  refine Commute.sum_left _ _ _ fun c _ => Commute.sum_right _ _ _ fun c' _ => ?_
  by_cases hp : (c, place hx hy s) = (c', place hx hy s')
  · obtain rfl := congrArg Prod.fst hp
    obtain rfl := place_inj hx hy hs hs' (congrArg Prod.snd hp)
    exact Commute.refl _
  · exact placeOne_commute hp _ _

/-- The bond terms of independent sites commute. -/
theorem Spec.Independent.commuting (hx : 2 ≤ nx) (hy : 2 ≤ ny) (σ : Bond → Equiv.Perm (Fin N)) {m : ModelTerms P 𝕜} {h : Site → Matrix P P 𝕜}
    (hi : Independent nx ny m h) : CommutingBonds hx hy σ m := by
  have e : ∀ b ∈ buildBondList nx ny, (coveringOps (P := P) (𝕜 := 𝕜) hx hy σ).placement.pair b (AceTN.bondHam m.transposed b) =
      (0.25 : 𝕜) • (coveringOps (P := P) (𝕜 := 𝕜) hx hy σ).site b.s1 (h b.s1).transpose +
        (0.25 : 𝕜) • (coveringOps (P := P) (𝕜 := 𝕜) hx hy σ).site b.s2 (h b.s2).transpose := by
    intro b hb
    rw [hi.transposed.bondHam hb, map_add, Placement.pair_left _ b hb, Placement.pair_right _ b hb, map_smul, map_smul]
    rfl
  intro b hb b' hb'
  have hc := bond_cell hb
  have hc' := bond_cell hb'
  have hcom := fun s s' (h1 : InCell nx ny s) (h2 : InCell nx ny s') =>
    (((site_commute hx hy σ (fun s => (h s).transpose) h1 h2).smul_left (0.25 : 𝕜)).smul_right (0.25 : 𝕜))
  rw [e b hb, e b' hb']
  exact ((hcom _ _ hc.1 hc'.1).add_right (hcom _ _ hc.1 hc'.2)).add_left ((hcom _ _ hc.2 hc'.1).add_right (hcom _ _ hc.2 hc'.2))

/-! ### The full update -/

section full

variable {F : Type} {bD pD : ℕ} [NeZero bD] [NeZero pD]

/-- Without interactions nothing is ever truncated. -/
theorem Spec.Independent.runFits (st : ProjSettings ℝ) (pk : ProjKind) (ω : ℕ → Draws (Fin bD) ℝ) (la : Lapack ℝ) (fo : Als.FloatOps F)
    (rep : ℝ → F) (cfg : Settings F) (hc : cfg.als_method = .pinv) {m : ModelTerms (Fin pD) ℝ} {h : Site → Matrix (Fin pD) (Fin pD) ℝ}
    (hi : Independent nx ny m h) (dtau : ℝ) (l : List Bond) (hl : ∀ b ∈ l, b ∈ buildBondList nx ny)
    (s : Net (Ten (Fin bD) (Fin pD) ℝ) × ℕ) :
    Along (RunFits st pk ω la fo rep cfg m dtau) (fullBondStep st pk ω la fo rep cfg none (twoSiteGate m dtau)) l s := by
  induction l generalizing s with
  | nil => trivial
  | cons b l ih =>
    exact ⟨⟨fits_product _ _ _ _ _ (C113_gate m h hi dtau b (hl b List.mem_cons_self)), fun h => absurd hc h⟩,
      ih (fun b' h' => hl b' (List.mem_cons_of_mem _ h')) _⟩

/-- **C113 (full update).** Real dtypes, solver by pseudoinverse without regularisation: for a model of independent sites a program that builds
the network from site tensors, sweeps and evolves it never raises in the evolution and leaves site tensors whose state on any finite lattice
covering the cell is, up to a positive factor, `exp(-n dtau H)` applied to the state at the start.  The bond dimension, the boundary
dimension, the projectors, the draws, the time step and the number of steps are arbitrary. -/
theorem C113_full [NeZero N] (hx : 2 ≤ nx) (hy : 2 ≤ ny) (σ : Bond → Equiv.Perm (Fin N)) (m : ModelTerms (Fin pD) ℝ)
    (h : Site → Matrix (Fin pD) (Fin pD) ℝ) (hi : Independent nx ny m h)
    (st : ProjSettings ℝ) (pk : ProjKind) (ω : ℕ → Draws (Fin bD) ℝ) (la : Lapack ℝ) (fo : Als.FloatOps F) (rep : ℝ → F) (cfg : Settings F)
    (hc : cfg.als_method = .pinv) (he : cfg.als_epsilon = 0) (hcut : 0 < cfg.positive_approx_cutoff)
    (hatol : cfg.gauge_fix_atol < Real.sqrt cfg.positive_approx_cutoff) (bl : List Bond)
    (hbl : bl = buildBondList nx ny ∨ bl = (buildBondList nx ny).reverse) (n : ℕ) (dtau : ℝ) (chi : ℕ)
    (A : Site → ATensor (Fin bD) (Fin pD) ℝ) (hA : latticeState (nx := nx) (ny := ny) σ A ≠ 0) (k t t' : ℕ) :
    ∃ net, ctmrgDrawn st pk ω t k (freshNet nx ny chi A) = .ok net ∧
      let r := fullEvolve st pk ω la fo rep cfg none (twoSiteGate m dtau) n (bl, net, t')
      r.2.2 = none ∧ SameRay (latticeState (nx := nx) (ny := ny) σ (siteTensors (bare r.2.1.1)))
        ((exp (-(n * dtau) • cellHamiltonian nx ny (coveringOps hx hy σ).placement m.transposed)).mulVec (latticeState σ A)) := by
  have hx0 : 0 < nx := by omega
  have hy0 : 0 < ny := by omega
  have hmem := bonds_of_list hbl
  obtain ⟨net, e, hf, hnA⟩ := (fitNet_fresh hx0 hy0 chi A).sweeps hx0 hy0 st pk ω t k
  refine ⟨net, e, ?_⟩
  intro r
  have hbare : siteTensors (bare net) = A := by
    funext s
    exact bare_A ((congrFun hnA s).trans rfl)
  have hl : ∀ b ∈ schedule n bl, b ∈ buildBondList nx ny := fun b hb => hmem b (mem_schedule hb)
  have hrun := runFits_exact hx hy σ st pk ω la fo rep cfg he hcut hatol m dtau (schedule n bl) hl (net, t') hf
    (by rw [hbare]; exact hA) (hi.runFits st pk ω la fo rep cfg hc dtau _ hl _)
  refine ⟨congrArg (fun x => x.2.2) (evolveLoop_exact _ _ _ n bl _ hrun), ?_⟩
  have := C113_commuting hx hy σ m (hi.commuting hx hy σ) (.inl fun s hs => by rw [hi.2 s hs]; rfl) dtau _ _ n bl hbl (net, t') hrun
  rw [hbare] at this
  exact this

/-- **C113 (ground state).** If the terms are Hermitian and the start is not orthogonal to the ground states, such programs come as close to a ground
state of the lattice as one likes when the total time is large, with every time step. -/
theorem C113_ground [NeZero N] (hx : 2 ≤ nx) (hy : 2 ≤ ny) (σ : Bond → Equiv.Perm (Fin N)) (m : ModelTerms (Fin pD) ℝ)
    (h : Site → Matrix (Fin pD) (Fin pD) ℝ) (hi : Independent nx ny m h) (hh : m.Hermitian) (E : ℝ) (chi : ℕ)
    (A : Site → ATensor (Fin bD) (Fin pD) ℝ) (ho : OverlapsGround hx hy σ m E (bare (freshNet nx ny chi A))) :
    ∃ g, GroundState hx hy σ m E g ∧ ∀ η : ℝ, 0 < η → ∃ T₀ : ℝ, ∀ (n : ℕ) (dtau : ℝ), 0 ≤ dtau → T₀ ≤ n * dtau →
      ∀ (F : Type) (st : ProjSettings ℝ) (pk : ProjKind) (ω : ℕ → Draws (Fin bD) ℝ) (la : Lapack ℝ) (fo : Als.FloatOps F) (rep : ℝ → F)
      (cfg : Settings F), cfg.als_method = .pinv → cfg.als_epsilon = 0 → 0 < cfg.positive_approx_cutoff →
      cfg.gauge_fix_atol < Real.sqrt cfg.positive_approx_cutoff →
      ∀ (bl : List Bond), bl = buildBondList nx ny ∨ bl = (buildBondList nx ny).reverse → ∀ k t t' : ℕ,
      ∃ net, ctmrgDrawn st pk ω t k (freshNet nx ny chi A) = .ok net ∧
        let r := fullEvolve st pk ω la fo rep cfg none (twoSiteGate m dtau) n (bl, net, t')
        r.2.2 = none ∧ NearGround hx hy σ m g E η (bare r.2.1.1) := by
  obtain ⟨g, hg, hrun⟩ := nearGround_of hx hy σ m hh E (bare (freshNet nx ny chi A)) ho fun _ => 0
  refine ⟨g, hg, fun η hη => ?_⟩
  obtain ⟨T₀, hT₀⟩ := hrun η hη
  refine ⟨T₀, fun n dtau hd hT F st pk ω la fo rep cfg hc he hcut hatol bl hbl k t t' => ?_⟩
  have hs : latticeState (nx := nx) (ny := ny) σ A ≠ 0 := state_ne_zero_of_overlap hx hy σ m E _ ho
  obtain ⟨net, e, h1, κ, hκ, h2⟩ := C113_full hx hy σ m h hi st pk ω la fo rep cfg hc he hcut hatol bl hbl n dtau chi A hs k t t'
  refine ⟨net, e, h1, ?_⟩
  obtain ⟨δ, hδ, hnear⟩ := hT₀ _ hT
  obtain ⟨n', hn'⟩ := exists_nat_gt (n * dtau / δ)
  have h0 : 0 ≤ n * dtau := mul_nonneg (Nat.cast_nonneg _) hd
  have hpos : (0 : ℝ) < n' := lt_of_le_of_lt (div_nonneg h0 hδ.le) hn'
  have hmul : (n' : ℝ) * (n * dtau / n') = n * dtau := mul_div_cancel₀ _ hpos.ne'
  refine hnear n' (n * dtau / n') (div_nonneg h0 hpos.le) ?_ hmul _ ⟨κ⁻¹, inv_pos.2 hκ, ?_⟩
  · rw [div_le_iff₀ hpos]
    rw [div_lt_iff₀ hδ] at hn'
    linarith
  · rw [hmul, h2]
    simp only [zero_mul]
    refine le_of_eq ?_
    have hz : ((κ⁻¹ : ℝ) : ℝ) • (((κ : ℝ) : ℝ) •
        (exp (-(n * dtau) • cellHamiltonian nx ny (coveringOps hx hy σ).placement m.transposed)).mulVec (latticeState σ A)) -
        (exp (-(n * dtau) • cellHamiltonian nx ny (coveringOps hx hy σ).placement m.transposed)).mulVec (latticeState σ A) = 0 := by
      rw [smul_smul, inv_mul_cancel₀ hκ.ne', one_smul, sub_self]
    exact (congrArg stateNorm hz).trans (by simp [stateNorm])

end full

/-! ### The hypotheses are met -/

/-- Non-vacuity: sites in a field across the axis of quantisation, and a staggered one, are independent. -/
example (f : Site → ℝ) : Independent nx ny (⟨fun _ => 0, fun s => some (f s • !![0, 1; 1, 0])⟩ : ModelTerms (Fin 2) ℝ) fun s => f s • !![0, 1; 1, 0] :=
  ⟨fun _ _ => rfl, fun _ _ => rfl⟩

/-- Non-vacuity: a start in a field along the axis of quantisation that is not orthogonal to the ground state. -/
example [NeZero N] (hx : 2 ≤ nx) (hy : 2 ≤ ny) (σ : Bond → Equiv.Perm (Fin N)) (chi : ℕ) :
    Independent nx ny fieldTerms (fun _ => Matrix.diagonal fun p => if p = 0 then 1 else -1) ∧ fieldTerms.Hermitian ∧
      OverlapsGround hx hy σ fieldTerms (fieldGround nx ny N) (bare (freshNet nx ny chi fun s => (ghzNet s).A)) :=
  ⟨⟨fun _ _ => rfl, fun _ _ => rfl⟩, fieldTerms_hermitian, field_overlaps hx hy σ _ (ghzNet_ones σ)⟩

end AceTN
