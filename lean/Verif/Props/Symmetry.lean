import Verif.Props.SimpleGauge
import Verif.Props.FullGauge

/-! C99: a symmetry of the start and of the model stays one. -/

set_option autoImplicit false

namespace AceTN

open Spec Matrix Simple Full

variable {𝕜 : Type} [RCLike 𝕜]

namespace Spec

/-- What is measured has a symmetry: an operator and the turned operator have the same value on every site and bond, and an operator
that the symmetry turns into its negative has the value zero. -/
def SymmetricValues {B : Type} [Fintype B] {pD : ℕ} (σ : ScalarMap 𝕜) (U : Site → Matrix (Fin pD) (Fin pD) 𝕜) (net : Net (Ten B (Fin pD) 𝕜)) :
    Prop :=
  ∀ s, InCell net.nx net.ny s →
    (∃ ρ, numSiteRdm net s = .ok ρ ∧
      (∀ op op', TurnedOp σ (U s) op op' → measureOneSite ρ op' / siteNorm ρ = measureOneSite ρ op / siteNorm ρ) ∧
      ∀ op, TurnedOp σ (U s) op (fun k b => -op k b) → measureOneSite ρ op / siteNorm ρ = 0) ∧
    ∀ (k : Fin 4) init, ∃ ρ, numBondRdm init net ⟨s, neighbour net.nx net.ny s k.val, k.val⟩ = .ok ρ ∧
      (∀ op op', TurnedOp2 σ (U s) (U (neighbour net.nx net.ny s k.val)) op op' →
        measureTwoSite ρ op' / bondNorm ρ = measureTwoSite ρ op / bondNorm ρ) ∧
      ∀ op, TurnedOp2 σ (U s) (U (neighbour net.nx net.ny s k.val)) op (fun k1 k2 b1 b2 => -op k1 k2 b1 b2) →
        measureTwoSite ρ op / bondNorm ρ = 0

end Spec

theorem symmetricValues_of {B : Type} [Fintype B] {pD : ℕ} (σ : ScalarMap 𝕜) (U : Site → Matrix (Fin pD) (Fin pD) 𝕜) (hU : ∀ s, Unit2 (U s))
    (net : Net (Ten B (Fin pD) 𝕜)) (h : TurnedRdms σ U net net) : SymmetricValues σ U net := by
  intro s hs
  obtain ⟨⟨ρ, ρ', e, e', h1⟩, h2⟩ := C75_values σ U hU net net h s hs
  obtain rfl := Except.ok.inj (e.symm.trans e')
  refine ⟨⟨ρ, e, h1, fun op ho => ?_⟩, fun k init => ?_⟩
  · have h3 := h1 op _ ho
    have h4 : measureOneSite ρ (fun k b => -op k b) = -measureOneSite ρ op := by
      simp [measureOneSite]
    rw [h4, neg_div] at h3
    linarith
  · obtain ⟨τ, τ', q, q', h5⟩ := h2 k init init
    obtain rfl := Except.ok.inj (q.symm.trans q')
    refine ⟨τ, q, h5, fun op ho => ?_⟩
    have h3 := h5 op _ ho
    have h4 : measureTwoSite τ (fun k1 k2 b1 b2 => -op k1 k2 b1 b2) = -measureTwoSite τ op := by
      simp [measureTwoSite]
    rw [h4, neg_div] at h3
    linarith

/-! ### States of the lattice -/

section states

variable {V P : Type} [Fintype V] [DecidableEq V] [Fintype P] [DecidableEq P]

theorem unit_prod {U : V → Matrix P P 𝕜} (hU : ∀ v, Unit2 (U v)) (q q' : V → P) :
    ∑ p : V → P, (∏ v, star (U v (p v) (q v))) * ∏ v, U v (p v) (q' v) = if q = q' then 1 else 0 := by
  simp only [← Finset.prod_mul_distrib]
  rw [← Fintype.piFinset_univ, ← Finset.prod_univ_sum (fun _ => Finset.univ) fun v x => star (U v x (q v)) * U v x (q' v)]
  simp only [unit_entry (hU _)]
  split_ifs with h
  · simp [h]
  · obtain ⟨v, hv⟩ := Function.ne_iff.1 h
    exact Finset.prod_eq_zero (Finset.mem_univ v) (if_neg hv)

/-- A change of the bases of the sites keeps overlaps. -/
theorem overlap_turned (σ : ScalarMap 𝕜) {U : V → Matrix P P 𝕜} (hU : ∀ v, Unit2 (U v)) (φ ψ : (V → P) → 𝕜) :
    overlap (turnedState σ U φ) (turnedState σ U ψ) = σ.f (overlap φ ψ) := by
  have h : ∀ p, star (turnedState σ U φ p) * turnedState σ U ψ p =
      ∑ q, ∑ q', star (σ.f (φ q)) * σ.f (ψ q') * ((∏ v, star (U v (p v) (q v))) * ∏ v, U v (p v) (q' v)) := by
    intro p
    unfold turnedState
    rw [star_sum, Finset.sum_mul_sum]
    refine Finset.sum_congr rfl fun q _ => Finset.sum_congr rfl fun q' _ => ?_
    rw [star_mul', star_prod]
    ring
  unfold overlap
  rw [Finset.sum_congr rfl fun p _ => h p, Finset.sum_comm, map_sum]
  refine Finset.sum_congr rfl fun q _ => ?_
  rw [Finset.sum_comm]
  simp only [← Finset.mul_sum, unit_prod hU]
  rw [Finset.sum_eq_single q (fun q' _ h => by rw [if_neg h.symm, mul_zero]) (fun h => absurd (Finset.mem_univ q) h), if_pos rfl, mul_one, map_mul, σ.star]

/-- The operator `O'` acts on the states in the other bases as `O` acts on states. -/
def Spec.ActsAs (σ : ScalarMap 𝕜) (U : V → Matrix P P 𝕜) (O O' : Matrix (V → P) (V → P) 𝕜) : Prop :=
  ∀ ψ, O'.mulVec (turnedState σ U ψ) = turnedState σ U (O.mulVec ψ)

/-- A state is symmetric. -/
structure Spec.SymmetricState (σ : ScalarMap 𝕜) (U : V → Matrix P P 𝕜) (ψ : (V → P) → 𝕜) : Prop where
  /-- The symmetry maps it to itself. -/
  fixed : turnedState σ U ψ = ψ
  /-- Turned operators have the same expectation value. -/
  values : ∀ O O', ActsAs σ U O O' → expectation O' ψ = σ.f (expectation O ψ)
  /-- Hermitian operators that the symmetry turns into their negative have none. -/
  odd : ∀ O, Oᴴ = O → ActsAs σ U O (-O) → expectation O ψ = 0

theorem symmetricState_of (σ : ScalarMap 𝕜) {U : V → Matrix P P 𝕜} (hU : ∀ v, Unit2 (U v)) (ψ : (V → P) → 𝕜) (c : ℝ) (hc : 0 < c)
    (h : ψ = (c : 𝕜) • turnedState σ U ψ) : SymmetricState σ U ψ := by
  have hfix : turnedState σ U ψ = ψ := by
    by_cases h0 : ψ = 0
    · funext p
      simp [turnedState, h0]
    · have h1 := overlap_turned σ hU ψ ψ
      rw [overlap_self, overlap_self, σ.real] at h1
      have h1 : stateNorm (turnedState σ U ψ) ^ 2 = stateNorm ψ ^ 2 := by exact_mod_cast h1
      have h2 : overlap ψ ψ = ((c ^ 2 : ℝ) : 𝕜) * overlap (turnedState σ U ψ) (turnedState σ U ψ) := by
        conv_lhs => rw [h]
        rw [overlap_smul_left, overlap_smul_right, ← mul_assoc]
        push_cast
        ring
      rw [overlap_self, overlap_self, h1] at h2
      have h2 : stateNorm ψ ^ 2 = c ^ 2 * stateNorm ψ ^ 2 := by exact_mod_cast h2
      have h3 : stateNorm ψ ^ 2 ≠ 0 := pow_ne_zero 2 (stateNorm_pos h0).ne'
      have h4 : c ^ 2 = 1 := by
        have : (c ^ 2 - 1) * stateNorm ψ ^ 2 = 0 := by linarith
        rcases mul_eq_zero.1 this with h5 | h5
        · linarith
        · exact absurd h5 h3
      have h5 : c = 1 := (pow_eq_one_iff_of_nonneg hc.le (by norm_num)).1 h4
      rw [h5] at h
      simpa using h.symm
  have hval : ∀ O O', ActsAs σ U O O' → expectation O' ψ = σ.f (expectation O ψ) := by
    intro O O' ho
    unfold expectation
    have h1 := overlap_turned σ hU ψ (O.mulVec ψ)
    rw [← ho, hfix] at h1
    have h2 := overlap_turned σ hU ψ ψ
    rw [hfix] at h2
    rw [map_div₀, ← h1, ← h2]
  refine ⟨hfix, hval, fun O hO ho => ?_⟩
  have h1 := hval O _ ho
  have h2 : expectation (-O) ψ = -expectation O ψ := by
    simp [expectation, overlap, Matrix.neg_mulVec, neg_div]
  have h3 : star (expectation O ψ) = expectation O ψ := by
    have : ∀ φ χ : (V → P) → 𝕜, star (overlap φ χ) = overlap χ φ := by
      intro φ χ
      simp [overlap, mul_comm]
    unfold expectation
    rw [star_div₀, this, this, overlap_mulVec O hO]
  obtain ⟨r, hr⟩ := RCLike.conj_eq_iff_real.1 h3
  rw [h2, hr, σ.real] at h1
  have : (2 : 𝕜) * r = 0 := by linear_combination -h1
  rw [hr]
  simpa using this

/-- A one-site operator on a site of the lattice. -/
def Spec.siteOp (v : V) (h : Matrix P P 𝕜) : Matrix (V → P) (V → P) 𝕜 :=
  of fun p q => if ∀ w, w ≠ v → q w = p w then h (p v) (q v) else 0

theorem siteOp_mulVec (v : V) (h : Matrix P P 𝕜) (ψ : (V → P) → 𝕜) (p : V → P) :
    (siteOp v h).mulVec ψ p = ∑ x, h (p v) x * ψ (Function.update p v x) := by
  unfold siteOp Matrix.mulVec dotProduct
  simp only [of_apply, ite_mul, zero_mul]
  rw [← Finset.sum_filter]
  symm
  refine Finset.sum_bij' (fun x _ => Function.update p v x) (fun q _ => q v) ?_ ?_ ?_ ?_ ?_
  · intro x _
    rw [Finset.mem_filter]
    exact ⟨Finset.mem_univ _, fun w hw => Function.update_of_ne hw _ _⟩
  · intro q _
    exact Finset.mem_univ _
  · intro x _
    exact Function.update_self _ _ _
  · intro q hq
    rw [Finset.mem_filter] at hq
    funext w
    by_cases hw : w = v
    · rw [hw, Function.update_self]
    · rw [Function.update_of_ne hw, hq.2 w hw]
  · intro x _
    rw [Function.update_self]

/-- **C99 (operators).** The turned form of a one-site operator on a site of the lattice. -/
theorem C99_site_operator (σ : ScalarMap 𝕜) (U : V → Matrix P P 𝕜) (v : V) (h h' : Matrix P P 𝕜) (hh : h' * U v = U v * h.map σ.f) :
    ActsAs σ U (siteOp v h) (siteOp v h') := by
  intro ψ
  funext p
  have hprod : ∀ (f : V → 𝕜), ∏ w, f w = f v * ∏ w ∈ Finset.univ.erase v, f w := fun f =>
    (Finset.mul_prod_erase Finset.univ f (Finset.mem_univ v)).symm
  have hl : (siteOp v h').mulVec (turnedState σ U ψ) p =
      ∑ q : V → P, (h' * U v) (p v) (q v) * ((∏ w ∈ Finset.univ.erase v, U w (p w) (q w)) * σ.f (ψ q)) := by
    rw [siteOp_mulVec]
    unfold turnedState
    simp only [Finset.mul_sum]
    rw [Finset.sum_comm]
    refine Finset.sum_congr rfl fun q _ => ?_
    rw [Matrix.mul_apply, Finset.sum_mul]
    refine Finset.sum_congr rfl fun x _ => ?_
    rw [hprod, Function.update_self, Finset.prod_congr rfl fun w hw => by rw [Function.update_of_ne (Finset.ne_of_mem_erase hw)]]
    ring
  have hr : turnedState σ U ((siteOp v h).mulVec ψ) p =
      ∑ qx : (V → P) × P, (U v (p v) (qx.1 v) * σ.f (h (qx.1 v) qx.2)) *
        ((∏ w ∈ Finset.univ.erase v, U w (p w) (qx.1 w)) * σ.f (ψ (Function.update qx.1 v qx.2))) := by
    unfold turnedState
    rw [Fintype.sum_prod_type]
    refine Finset.sum_congr rfl fun q _ => ?_
    rw [siteOp_mulVec, map_sum, Finset.mul_sum]
    refine Finset.sum_congr rfl fun x _ => ?_
    rw [map_mul, hprod]
    ring
  let e : (V → P) × P ≃ (V → P) × P :=
    { toFun := fun qx => (Function.update qx.1 v qx.2, qx.1 v)
      invFun := fun qx => (Function.update qx.1 v qx.2, qx.1 v)
      left_inv := fun qx => by simp
      right_inv := fun qx => by simp }
  rw [hl, hr, hh, ← e.sum_comp, Fintype.sum_prod_type]
  refine Finset.sum_congr rfl fun q _ => ?_
  rw [Matrix.mul_apply, Finset.sum_mul]
  refine Finset.sum_congr rfl fun x _ => ?_
  show _ = U v (p v) (Function.update q v x v) * σ.f (h (Function.update q v x v) (q v)) *
    ((∏ w ∈ Finset.univ.erase v, U w (p w) (Function.update q v x w)) * σ.f (ψ (Function.update (Function.update q v x) v (q v))))
  have hp : ∏ w ∈ Finset.univ.erase v, U w (p w) (Function.update q v x w) = ∏ w ∈ Finset.univ.erase v, U w (p w) (q w) :=
    Finset.prod_congr rfl fun w hw => by rw [Function.update_of_ne (Finset.ne_of_mem_erase hw)]
  rw [Function.update_self, Function.update_idem, Function.update_eq_self, hp, Matrix.map_apply]

end states

/-! ### Runs -/

section simple

variable {P X : Type} [Fintype P] [DecidableEq P] [Nonempty P] {bD nx ny N : ℕ} [NeZero bD]

/-- **C99 (simple update).** If a change of the physical bases, possibly together with complex conjugation, maps the model to itself and
the site tensors to the same tensors in other bases of the bonds, and if along the run the gates do not annihilate the two-site tensors and
cutting off singular values is unambiguous, then on every finite lattice that covers the cell the evolved state is symmetric: the
symmetry maps it to itself, turned operators have the same expectation values, odd ones have none. -/
theorem C99_simple (hx : 2 ≤ nx) (hy : 2 ≤ ny) (la : Lapack 𝕜) (cx : Bool) (σ : ScalarMap 𝕜) (g : Gauge (Fin bD) P 𝕜)
    (hj : g.Joined nx ny) (m : ModelTerms P 𝕜) (hm : TurnedTerms σ g.U nx ny m m) (dtau : ℝ) (n : ℕ) (bl : List Bond)
    (hbl : bl.Perm (buildBondList nx ny)) (net : NetT (Fin bD) P X 𝕜) (hnet : g.Equiv σ nx ny (siteTensors net) (siteTensors net))
    (hcut : Along (ClearCut (twoSiteGate m dtau)) (Simple.bondStep la (fun _ => none) (twoSiteGate m dtau)) (schedule n bl)
      (net, LambdaTensors.init bl (ones bD cx))) (ρ : Bond → Equiv.Perm (Fin N)) :
    SymmetricState σ (fun v : BigSite nx ny N => g.U (v.2.1, v.2.2))
      (latticeState ρ (siteTensors (Simple.evolve la cx (fun _ => none) (twoSiteGate m dtau) n (bl, net)).2.1)) := by
  obtain ⟨c, hc, h⟩ := C84_evolved_state hx hy la la cx σ g hj m m hm dtau n bl hbl net net hnet hcut ρ
  exact symmetricState_of σ (fun v => g.unitU _) _ c hc h

end simple

section full

variable {F : Type} {sgn : Bool} {ord : ∀ (n : Type) [Fintype n], n ≃ Fin (Fintype.card n)} {bD pD nx ny : ℕ}

/-- **C99 (renormalization).** Symmetric tensors have symmetric measured values after any number of sweeps. -/
theorem C99_sweeps (g : BasisChange bD pD 𝕜) (σ : ScalarMap 𝕜) (chi : ℕ) (hx : 0 < nx) (hy : 0 < ny)
    (A : Site → ATensor (Fin bD) (Fin pD) 𝕜) (hA : g.Equiv σ nx ny A A) (st : ProjSettings 𝕜) (pk : ProjKind) (h0 : 0 ≤ st.cutoff)
    (ω : ℕ → Draws (Fin bD) 𝕜) (n t : ℕ)
    (hd : DropRun st pk ω t (List.replicate n (sweepMoves nx ny)).flatten (freshNet nx ny chi A))
    (hf : SvdRun st pk ω t (List.replicate n (sweepMoves nx ny)).flatten (freshNet nx ny chi A)) :
    ∃ net, ctmrgDrawn st pk ω t n (freshNet nx ny chi A) = .ok net ∧ net.nx = nx ∧ net.ny = ny ∧ SymmetricValues σ g.U net := by
  obtain ⟨net, net', e, e', h1, h2, h⟩ := C75_equivalent g σ nx ny chi hx hy A A hA st st pk rfl h0 ω ω n t t hd hf hf
  obtain rfl := Except.ok.inj (e.symm.trans e')
  exact ⟨net, e, h1, h2, symmetricValues_of σ g.U g.unitU net h⟩

variable [NeZero bD] [NeZero pD]

/-- **C99 (full update).** Programs on real tensors with fresh boundary tensors, sweeps, full updates and further sweeps: if a change of the
physical bases maps the gates to themselves and the site tensors to the same tensors in other bases of the bonds, and if along
the run cutting off singular values is unambiguous, then all values that are measured after the evolution, and after further sweeps,
are symmetric. -/
theorem C99_full (hs : ∀ a : 𝕜, star a = a) (hx : 2 ≤ nx) (hy : 2 ≤ ny) (st : ProjSettings 𝕜) (pk : ProjKind)
    (h0 : 0 ≤ st.cutoff) (ω : ℕ → Draws (Fin bD) 𝕜) (la : Lapack 𝕜)
    (hla : sgn = true → Triangular ord la) (fo : Als.FloatOps F) (rep : ℝ → F) (cfg : Settings F)
    (hm : EvenSolver sgn cfg.als_method cfg.als_epsilon) (hcut : 0 < cfg.positive_approx_cutoff)
    (chi : ℕ) (g : BasisChange bD pD 𝕜) (hg : g.Plain sgn) (m : ModelTerms (Fin pD) 𝕜)
    (hT : TurnedTerms (ScalarMap.id 𝕜) g.U nx ny m m) (dtau : ℝ)
    (A : Site → ATensor (Fin bD) (Fin pD) 𝕜) (hA : g.Equiv (ScalarMap.id 𝕜) nx ny A A) (n steps t t1 : ℕ) (bl : List Bond)
    (hbl : bl.Perm (buildBondList nx ny))
    (hd : DropRun st pk ω t (List.replicate n (sweepMoves nx ny)).flatten (freshNet nx ny chi A))
    (hf : SvdRun st pk ω t (List.replicate n (sweepMoves nx ny)).flatten (freshNet nx ny chi A))
    (hc : ∀ net, ctmrgDrawn st pk ω t n (freshNet nx ny chi A) = .ok net →
      ClearRun ord sgn st pk ω la fo rep cfg none (twoSiteGate m dtau) steps bl (net, t1) ∧
      DrawsRun st pk ω la fo rep cfg none (twoSiteGate m dtau) steps bl (net, t1)) :
    ∃ net, ctmrgDrawn st pk ω t n (freshNet nx ny chi A) = .ok net ∧
      let r := fullEvolve st pk ω la fo rep cfg none (twoSiteGate m dtau) steps (bl, net, t1)
      r.2.1.1.nx = nx ∧ r.2.1.1.ny = ny ∧ SymmetricValues (ScalarMap.id 𝕜) g.U r.2.1.1 ∧
      ∀ k t2, DropRun st pk ω t2 (List.replicate k (sweepMoves nx ny)).flatten r.2.1.1 →
        SvdRun st pk ω t2 (List.replicate k (sweepMoves nx ny)).flatten r.2.1.1 →
        ∃ fin, ctmrgDrawn st pk ω t2 k r.2.1.1 = .ok fin ∧ fin.nx = nx ∧ fin.ny = ny ∧ SymmetricValues (ScalarMap.id 𝕜) g.U fin := by
  obtain ⟨net, net', e, e', -, -, h1, h2, h3, -, h4⟩ := C85_run hs hx hy st st pk rfl h0 ω ω la la (fun h => ⟨hla h, hla h⟩) fo rep cfg hm hcut
    none none (twoSiteGate m dtau) (twoSiteGate m dtau) chi g hg trivial (fun b hb => C85_gates g.unitU hT dtau b hb) A A hA n steps t t t1 t1 bl
    hbl hd hf hf hc (fun net e => (hc net e).2)
  obtain rfl := Except.ok.inj (e.symm.trans e')
  refine ⟨net, e, h1, h2, symmetricValues_of _ g.U g.unitU _ h3, fun k t2 k1 k2 => ?_⟩
  obtain ⟨f, f', q, q', f1, f2, f3⟩ := h4 k t2 t2 k1 k2 k2
  obtain rfl := Except.ok.inj (q.symm.trans q')
  exact ⟨f, q, f1, f2, symmetricValues_of _ g.U g.unitU _ f3⟩

end full

/-! ### The hypotheses are met -/

section ising

variable {nx ny N : ℕ}

/-- Ising couplings. -/
noncomputable def zzTerms (j : ℝ) : ModelTerms (Fin 2) ℝ :=
  ⟨fun _ => Matrix.diagonal fun x => if x.1 = x.2 then -j else j, fun _ => none⟩

theorem zzTerms_gate (j dtau : ℝ) (b : Bond) (p q r s : Fin 2) :
    twoSiteGate (zzTerms j) dtau b p q r s = if p = r ∧ q = s then (if p = q then Real.exp (dtau * j) else Real.exp (-(dtau * j))) else 0 := by
  have hE : calculateGate (bondHam (zzTerms j) b) dtau =
      Matrix.diagonal fun x : Fin 2 × Fin 2 => Real.exp (-dtau * if x.1 = x.2 then -j else j) := by
    unfold calculateGate
    have hH : (-((dtau : ℝ) : ℝ)) • bondHam (zzTerms j) b = Matrix.diagonal fun x : Fin 2 × Fin 2 => -dtau * if x.1 = x.2 then -j else j := by
      simp only [bondHam, zzTerms]
      rw [← Matrix.diagonal_smul]
      rfl
    refine (congrArg NormedSpace.exp hH).trans ?_
    rw [Matrix.exp_diagonal]
    congr 1
    funext x
    rw [Real.exp_eq_exp_ℝ]
    exact Pi.coe_exp _ _
  show calculateGate (bondHam (zzTerms j) b) dtau (p, q) (r, s) = _
  rw [hE, Matrix.diagonal_apply]
  simp only [Prod.mk.injEq]
  by_cases h : p = r ∧ q = s
  · rw [if_pos h, if_pos h]
    split_ifs <;> simp
  · rw [if_neg h, if_neg h]

theorem best_aux (A B u v m n : ℝ) (hA : 0 < A) (hAB : B ^ 2 < A ^ 2)
    (h : A ^ 2 - (A * (u * m) + B * (v * n)) + (u ^ 2 + v ^ 2) * (m ^ 2 + n ^ 2) / 4 ≤ 0) : v = 0 ∧ m ≠ 0 := by
  have hA2 : 0 < A ^ 2 := by positivity
  have hXY : 0 ≤ (u ^ 2 + v ^ 2) * (m ^ 2 + n ^ 2) / 4 := by positivity
  have hP : 0 < A * (u * m) + B * (v * n) := by linarith
  have h1 : (A ^ 2 + (u ^ 2 + v ^ 2) * (m ^ 2 + n ^ 2) / 4) ^ 2 ≤ (A * (u * m) + B * (v * n)) ^ 2 :=
    pow_le_pow_left₀ (by positivity) (by linarith) 2
  have h2 : A ^ 2 * ((u ^ 2 + v ^ 2) * (m ^ 2 + n ^ 2)) ≤ (A ^ 2 + (u ^ 2 + v ^ 2) * (m ^ 2 + n ^ 2) / 4) ^ 2 := by
    nlinarith [sq_nonneg (A ^ 2 - (u ^ 2 + v ^ 2) * (m ^ 2 + n ^ 2) / 4)]
  have h3 : (A * (u * m) + B * (v * n)) ^ 2 ≤ (A ^ 2 * u ^ 2 + B ^ 2 * v ^ 2) * (m ^ 2 + n ^ 2) := by
    nlinarith [sq_nonneg (A * u * n - B * v * m)]
  have h4 : (A ^ 2 - B ^ 2) * (v ^ 2 * (m ^ 2 + n ^ 2)) ≤ 0 := by nlinarith
  have h5 : v ^ 2 * (m ^ 2 + n ^ 2) = 0 := by
    have h6 : 0 ≤ v ^ 2 * (m ^ 2 + n ^ 2) := by positivity
    have h7 : v ^ 2 * (m ^ 2 + n ^ 2) ≤ 0 := nonpos_of_mul_nonpos_right h4 (by linarith)
    linarith
  have hv : v = 0 := by
    rcases mul_eq_zero.1 h5 with h6 | h6
    · simpa using h6
    · have hm : m = 0 := by nlinarith [sq_nonneg m, sq_nonneg n]
      have hn : n = 0 := by nlinarith [sq_nonneg m, sq_nonneg n]
      rw [hm, hn] at hP
      simp at hP
  refine ⟨hv, fun hm => ?_⟩
  rw [hv, hm] at hP
  simp at hP

/-- The best approximation of rank one of a matrix with equal diagonal entries and equal off-diagonal entries. -/
theorem best_rank_one (a b c : ℝ) (ha : 0 < a) (hb : 0 < b) (x y : Fin 2 → ℝ)
    (h : ∑ p, ∑ q, ((if p = q then a else b) - c * (x p * y q)) ^ 2 ≤ (a - b) ^ 2) : x 0 = x 1 ∧ y 0 = y 1 ∧ x 0 ≠ 0 ∧ y 0 ≠ 0 := by
  rw [Fin.sum_univ_two, Fin.sum_univ_two, Fin.sum_univ_two, if_pos rfl, if_neg (by decide), if_neg (by decide), if_pos rfl] at h
  have hAB : (a - b) ^ 2 < (a + b) ^ 2 := by nlinarith [mul_pos ha hb]
  have e : (a + b) ^ 2 - ((a + b) * ((c * (x 0 + x 1)) * (y 0 + y 1)) + (a - b) * ((c * (x 0 - x 1)) * (y 0 - y 1))) +
      ((c * (x 0 + x 1)) ^ 2 + (c * (x 0 - x 1)) ^ 2) * ((y 0 + y 1) ^ 2 + (y 0 - y 1) ^ 2) / 4 ≤ 0 := by nlinarith
  obtain ⟨h1, h2⟩ := best_aux (a + b) (a - b) (c * (x 0 + x 1)) (c * (x 0 - x 1)) (y 0 + y 1) (y 0 - y 1) (by linarith) hAB e
  obtain ⟨h3, h4⟩ := best_aux (a + b) (a - b) (y 0 + y 1) (y 0 - y 1) (c * (x 0 + x 1)) (c * (x 0 - x 1)) (by linarith) hAB (by nlinarith)
  have hc : c ≠ 0 := fun h => h4 (by rw [h, zero_mul])
  have hx := (mul_eq_zero.1 h1).resolve_left hc
  have hx' : x 0 + x 1 ≠ 0 := fun h => h4 (by rw [h, mul_zero])
  refine ⟨by linarith, by linarith, fun h => hx' (by linarith), fun h => h2 (by linarith)⟩

/-- Site tensors with bond dimension one of spins along the first axis. -/
def AllPlus (nx ny : ℕ) (net : NetT (Fin 1) (Fin 2) (Fin 1) ℝ) : Prop :=
  ∀ s, InCell nx ny s → ∃ c : ℝ, c ≠ 0 ∧ ∀ l u r d p, (net s).A l u r d p = c

/-- Runs of the simple update of the Ising model with bond dimension one from spins along the first axis are unambiguous, although
every update truncates. -/
theorem zz_clear (la : Lapack ℝ) (j dtau : ℝ) (bl : List Bond) (hbl : bl.Perm (buildBondList nx ny))
    (l : List Bond) (hl : ∀ b ∈ l, b ∈ buildBondList nx ny) (st : NetT (Fin 1) (Fin 2) (Fin 1) ℝ × LambdaTensors (Weight 1))
    (ht : UnitTable bl st.2) (hp : AllPlus nx ny st.1) :
    Along (ClearCut (twoSiteGate (zzTerms j) dtau)) (Simple.bondStep la (fun _ => none) (twoSiteGate (zzTerms j) dtau)) l st := by
  induction l generalizing st with
  | nil => trivial
  | cons b l ih =>
    have hb := hl b List.mem_cons_self
    obtain ⟨c1, c2⟩ := C02_bond_ends_in_cell nx ny b hb
    rw [mem_buildSiteList] at c1 c2
    have hk12 : (b.k : ℤ) = 2 ∨ (b.k : ℤ) = 1 := by
      have := ((C02_bond_list nx ny).2.2 b).1 hb
      omega
    have hW1 := ht.weights hbl b.s1 c1
    have hW2 := ht.weights hbl b.s2 c2
    have hS : ∀ ex, Strippable (fun _ => Simple.ones 1 false) ex := fun ex d _ _ => ⟨rfl, fun _ => by norm_num [Simple.ones]⟩
    obtain ⟨x1, hx1, e1⟩ := hp _ c1
    obtain ⟨x2, hx2, e2⟩ := hp _ c2
    have hw : ∀ (W : ℕ → Weight 1) (hW : ∀ d, d < 4 → (W d).v = fun _ => 1) (ex : ℕ) (a : ATensor (Fin 1) (Fin 2) ℝ),
        weighted (fun d => (W d).v) ex a = a := by
      intro W hW ex a
      funext x u r d p
      simp [weighted, legWeight, hW 0 (by omega), hW 1 (by omega), hW 2 (by omega), hW 3 (by omega)]
    have hbs : ∀ (W1 W2 : ℕ → Weight 1) (_ : ∀ d, d < 4 → (W1 d).v = fun _ => 1) (_ : ∀ d, d < 4 → (W2 d).v = fun _ => 1)
        (a1 a2 : ATensor (Fin 1) (Fin 2) ℝ) u r d l' u' d' p q,
        bondState W1 W2 b.k a1 a2 u r d l' u' d' p q = a1 0 0 0 0 p * a2 0 0 0 0 q := by
      intro W1 W2 h1 h2 a1 a2 u r d l' u' d' p q
      unfold bondState
      rw [hw W1 h1, hw W2 h2]
      have hperm : ∀ (a : ATensor (Fin 1) (Fin 2) ℝ) l u r d p, bondPermute b.k a l u r d p = a 0 0 0 0 p := by
        intro a l u r d p
        rw [Subsingleton.elim l 0, Subsingleton.elim u 0, Subsingleton.elim r 0, Subsingleton.elim d 0]
        rcases hk12 with hk | hk <;> rw [hk] <;> rfl
      simp only [twoSite, hperm, Fin.sum_univ_one]
    have hgs : ∀ (W1 W2 : ℕ → Weight 1) (_ : ∀ d, d < 4 → (W1 d).v = fun _ => 1) (_ : ∀ d, d < 4 → (W2 d).v = fun _ => 1)
        u r d l' u' d' p q, gated (twoSiteGate (zzTerms j) dtau b) (bondState W1 W2 b.k (st.1 b.s1).A (st.1 b.s2).A) u r d l' u' d' p q =
        x1 * x2 * if p = q then Real.exp (dtau * j) else Real.exp (-(dtau * j)) := by
      intro W1 W2 h1 h2 u r d l' u' d' p q
      unfold gated
      simp only [hbs W1 W2 h1 h2, e1, e2, zzTerms_gate]
      fin_cases p <;> fin_cases q <;> simp
    set α := Real.exp (dtau * j)
    set β := Real.exp (-(dtau * j))
    have hα : 0 < α := Real.exp_pos _
    have hβ : 0 < β := Real.exp_pos _
    have h12 : x1 * x2 ≠ 0 := mul_ne_zero hx1 hx2
    have hne : ∀ (W1 W2 : ℕ → Weight 1) (_ : ∀ d, d < 4 → (W1 d).v = fun _ => 1) (_ : ∀ d, d < 4 → (W2 d).v = fun _ => 1),
        gated (twoSiteGate (zzTerms j) dtau b) (bondState W1 W2 b.k (st.1 b.s1).A (st.1 b.s2).A) ≠ 0 := by
      intro W1 W2 h1 h2 h
      have h3 := hgs W1 W2 h1 h2 0 0 0 0 0 0 0 0
      rw [h, if_pos rfl] at h3
      exact mul_ne_zero h12 hα.ne' h3.symm
    refine ⟨fun W1 W2 h1 h2 => ?_, ?_⟩
    · have u1 : ∀ d, d < 4 → (W1 d).v = fun _ => 1 := fun d hd => by
        rw [← Except.ok.inj ((hW1 d hd).symm.trans (h1 d hd))]
        rfl
      have u2 : ∀ d, d < 4 → (W2 d).v = fun _ => 1 := fun d hd => by
        rw [← Except.ok.inj ((hW2 d hd).symm.trans (h2 d hd))]
        rfl
      refine ⟨hne W1 W2 u1 u2, noTie_one _ (Matrix.of fun _ _ => 1) (Matrix.of fun _ _ => x1 * x2 * ((α + β) / 2)) ?_⟩
      have e : twoMat (gated (twoSiteGate (zzTerms j) dtau b) (bondState W1 W2 b.k (st.1 b.s1).A (st.1 b.s2).A)) =
          Matrix.of fun i j => x1 * x2 * if i.2 = j.2 then α else β := by
        ext i j
        exact hgs W1 W2 u1 u2 _ _ _ _ _ _ _ _
      rw [e]
      unfold frobSq
      simp only [Fintype.sum_prod_type, Fin.sum_univ_two, Fin.sum_univ_one, Matrix.sub_apply, Matrix.mul_apply, Matrix.of_apply, Real.norm_eq_abs, sq_abs]
      norm_num
      have := mul_pos (sq_pos_of_ne_zero h12) (mul_pos hα hβ)
      nlinarith
    · obtain ⟨b1, b2, lambda, hr, hn, c, hc, hbest⟩ := C40_partial la st.2 (twoSiteGate (zzTerms j) dtau b) b (st.1 b.s1).A (st.1 b.s2).A _ _
        hW1 hW2 (hS _) (hS _) (hne _ _ (fun _ _ => rfl) (fun _ _ => rfl))
      have hbb := hbest (fun _ _ _ _ _ => 1) (fun _ _ _ _ _ => x1 * x2 * ((α + β) / 2))
      have hrank : ∑ p : Fin 2, ∑ q : Fin 2, ((if p = q then α else β) - c / (x1 * x2) * (b1 0 0 0 0 p * b2 0 0 0 0 q)) ^ 2 ≤ (α - β) ^ 2 := by
        simp only [normSq8, hgs (fun _ => Simple.ones 1 false) (fun _ => Simple.ones 1 false) (fun _ _ => rfl) (fun _ _ => rfl),
          hbs (fun _ => Simple.ones 1 false) (fun _ => Simple.ones 1 false) (fun _ _ => rfl) (fun _ _ => rfl), twoSite, Fin.sum_univ_one,
          Real.norm_eq_abs, sq_abs] at hbb
        have hs : 0 < (x1 * x2) ^ 2 := sq_pos_of_ne_zero h12
        have e : ∀ p q : Fin 2, (x1 * x2 * (if p = q then α else β) - c * (b1 0 0 0 0 p * b2 0 0 0 0 q)) ^ 2 =
            (x1 * x2) ^ 2 * ((if p = q then α else β) - c / (x1 * x2) * (b1 0 0 0 0 p * b2 0 0 0 0 q)) ^ 2 := by
          intro p q
          generalize (if p = q then α else β) = z
          field_simp
        have e' : ∑ p : Fin 2, ∑ q : Fin 2, (x1 * x2 * (if p = q then α else β) - 1 * (x1 * x2 * ((α + β) / 2))) ^ 2 = (x1 * x2) ^ 2 * (α - β) ^ 2 := by
          rw [Fin.sum_univ_two, Fin.sum_univ_two, Fin.sum_univ_two, if_pos rfl, if_neg (by decide), if_neg (by decide), if_pos rfl]
          ring
        rw [e'] at hbb
        have hbb' : ∑ p : Fin 2, ∑ q : Fin 2, (x1 * x2 * (if p = q then α else β) - c * (b1 0 0 0 0 p * b2 0 0 0 0 q)) ^ 2 ≤
            (x1 * x2) ^ 2 * (α - β) ^ 2 := hbb
        simp only [e, ← Finset.mul_sum] at hbb'
        exact le_of_mul_le_mul_left hbb' hs
      obtain ⟨y1, y2, y3, y4⟩ := best_rank_one α β _ hα hβ _ _ hrank
      have hstep : (Simple.bondStep la (fun _ => none) (twoSiteGate (zzTerms j) dtau) st b).1 =
          (storePair st.1 b.s1 b.s2 b1 b2, st.2.setItem b ⟨false, lambda⟩) := by
        unfold Simple.bondStep Simple.bondUpdate
        dsimp only
        rw [hr]
        rfl
      rw [hstep]
      refine ih (fun b' h' => hl b' (List.mem_cons_of_mem _ h')) _ ?_ ?_
      · obtain ⟨ws, hws, he⟩ := ht
        refine ⟨ws ++ [(b, ⟨false, lambda⟩)], fun p hp => ?_, ?_⟩
        · rcases List.mem_append.1 hp with h | h
          · exact hws p h
          · rw [List.mem_singleton.1 h, normalised_one lambda hn]
            rfl
        · rw [List.foldl_append, ← he]
          rfl
      · intro s hs
        show ∃ c : ℝ, c ≠ 0 ∧ ∀ l u r d p, (storePair st.1 b.s1 b.s2 b1 b2 s).A l u r d p = c
        have hconst : ∀ (a : ATensor (Fin 1) (Fin 2) ℝ), a 0 0 0 0 0 = a 0 0 0 0 1 → a 0 0 0 0 0 ≠ 0 →
            ∃ c : ℝ, c ≠ 0 ∧ ∀ l u r d p, a l u r d p = c := by
          intro a h1 h2
          refine ⟨_, h2, fun l u r d p => ?_⟩
          rw [Subsingleton.elim l 0, Subsingleton.elim u 0, Subsingleton.elim r 0, Subsingleton.elim d 0]
          fin_cases p
          · rfl
          · exact h1.symm
        unfold storePair setA
        by_cases h2 : s = b.s2
        · simpa [h2] using hconst b2 y2 y4
        · by_cases h1 : s = b.s1
          · subst h1
            simpa [h2] using hconst b1 y1 y3
          · simpa [h2, h1] using hp s hs

/-- The flip of a spin. -/
def flipX : Matrix (Fin 2) (Fin 2) ℝ := !![0, 1; 1, 0]

/-- The spin along the axis of quantisation. -/
def spinZ : Matrix (Fin 2) (Fin 2) ℝ := !![1, 0; 0, -1]

theorem flipX_unit : Unit2 flipX := by
  constructor <;>
  · ext i j
    fin_cases i <;> fin_cases j <;> simp [flipX, Matrix.mul_apply]

theorem spinZ_unit : Unit2 spinZ := by
  constructor <;>
  · ext i j
    fin_cases i <;> fin_cases j <;> simp [spinZ, Matrix.mul_apply]

/-- The flip of all spins. -/
def flipAll : Gauge (Fin 1) (Fin 2) ℝ where
  G _ _ := 1
  U _ := flipX
  t _ := 1
  unitG _ _ := Unit2.one
  unitU _ := flipX_unit
  pos _ := one_pos

/-- Non-vacuity of `C99_simple`, with truncation in every update: the Ising model with bond dimension one, started with spins along the
first axis, for any coupling, time step, number of steps and library.  The spins along the axis of quantisation have expectation
value zero on every lattice: the simple update does not break the symmetry. -/
example (hx : 2 ≤ nx) (hy : 2 ≤ ny) (la : Lapack ℝ) (j dtau : ℝ) (n : ℕ) (ρ : Bond → Equiv.Perm (Fin N)) (v : BigSite nx ny N) :
    expectation (siteOp v spinZ) (latticeState ρ (siteTensors
      (Simple.evolve la false (fun _ => none) (twoSiteGate (zzTerms j) dtau) n (buildBondList nx ny, plusNet)).2.1)) = 0 := by
  refine (C99_simple hx hy la false (ScalarMap.id ℝ) flipAll ?_ (zzTerms j) ?_ dtau n _ (List.Perm.refl _) plusNet ?_
    (zz_clear la j dtau _ (List.Perm.refl _) _ (fun _ hb => mem_schedule hb) _ ⟨[], by simp, rfl⟩
      fun s _ => ⟨1, one_ne_zero, fun _ _ _ _ _ => rfl⟩) ρ).odd _ ?_ ?_
  · intro s _ k
    ext x y
    simp [flipAll]
  · refine ⟨fun b _ k1 k2 b1 b2 => ?_, fun s _ => Or.inl ⟨rfl, rfl⟩⟩
    fin_cases k1 <;> fin_cases k2 <;> fin_cases b1 <;> fin_cases b2 <;> simp [ScalarMap.id, zzTerms, flipAll, flipX, Fin.sum_univ_two, Matrix.diagonal_apply]
  · intro s _ l u r d p
    rw [Subsingleton.elim l 0, Subsingleton.elim u 0, Subsingleton.elim r 0, Subsingleton.elim d 0]
    fin_cases p <;> simp [ScalarMap.id, siteTensors, plusNet, flipAll, flipX, Fin.sum_univ_two]
  · ext p q
    unfold siteOp
    rw [Matrix.conjTranspose_apply, of_apply, of_apply]
    have hz : ∀ a b : Fin 2, spinZ a b = spinZ b a := by
      intro a b
      fin_cases a <;> fin_cases b <;> simp [spinZ]
    by_cases h : ∀ w, w ≠ v → q w = p w
    · rw [if_pos h, if_pos fun w hw => (h w hw).symm, hz]
      simp
    · rw [if_neg h, if_neg fun h' => h fun w hw => (h' w hw).symm]
      simp
  · have h : -siteOp v spinZ = siteOp v (-spinZ) := by
      ext p q
      unfold siteOp
      simp only [Matrix.neg_apply, of_apply]
      split_ifs <;> simp
    rw [h]
    refine C99_site_operator _ _ _ _ _ ?_
    ext a b
    fin_cases a <;> fin_cases b <;> simp [flipAll, flipX, spinZ, ScalarMap.id, Matrix.mul_apply, Fin.sum_univ_two]

/-- Turning all spins about the axis of quantisation. -/
def turnZ : BasisChange 1 2 ℝ where
  X := 1
  Y := 1
  U _ := spinZ
  t _ := 1
  unitX := Unit2.one
  unitY := Unit2.one
  unitU _ := spinZ_unit
  pos _ := one_pos

/-- Spins along the axis of quantisation. -/
def upTensors : Site → ATensor (Fin 1) (Fin 2) ℝ := fun _ _ _ _ _ p => if p = 0 then 1 else 0

/-- Non-vacuity of `C99_full` and `C99_sweeps`: spins along the axis of quantisation in a field along it, for any numbers of sweeps and
steps.  The operator `X` measures zero on every site. -/
example {F : Type} (hx : 2 ≤ nx) (hy : 2 ≤ ny) (st : ProjSettings ℝ) (hf : st.fullRank = true) (pk : ProjKind)
    (h0 : 0 ≤ st.cutoff) (ω : ℕ → Draws (Fin 1) ℝ) (la : Lapack ℝ) (fo : Als.FloatOps F)
    (rep : ℝ → F) (cfg : Settings F) (hm : cfg.als_method = .pinv) (hcut : 0 < cfg.positive_approx_cutoff) (chi n steps : ℕ) (dtau : ℝ) :
    ∃ net, ctmrgDrawn st pk ω 0 n (freshNet nx ny chi upTensors) = .ok net ∧
      let r := fullEvolve st pk ω la fo rep cfg none (twoSiteGate fieldTerms dtau) steps (buildBondList nx ny, net, 0)
      ∀ s, InCell nx ny s → ∃ ρ, numSiteRdm r.2.1.1 s = .ok ρ ∧ measureOneSite ρ flipX / siteNorm ρ = 0 := by
  have hF := factored_fresh nx ny chi upTensors fun s => tenProd_one (upTensors s)
  obtain ⟨net, e, h1, h2, h3, -⟩ := C99_full (sgn := false) (ord := fun n => Fintype.equivFin n) (fun a => rfl) hx hy st pk
    h0 ω la (fun h => absurd h (by simp)) fo rep cfg (Or.inr (Or.inl hm)) hcut chi turnZ
    ⟨Allowed.one, Allowed.one, fun _ => ⟨spinZ_unit, fun h => absurd h (by simp)⟩, fun _ => rfl⟩ fieldTerms (by
      refine ⟨fun b _ k1 k2 b1 b2 => ?_, fun s _ => Or.inr ⟨_, _, rfl, rfl, fun k b => ?_⟩⟩
      · simp [ScalarMap.id, fieldTerms]
      · fin_cases k <;> fin_cases b <;> simp [ScalarMap.id, turnZ, spinZ, Fin.sum_univ_two]) dtau
    upTensors (by
      intro s _ l u r d p
      rw [Subsingleton.elim l 0, Subsingleton.elim u 0, Subsingleton.elim r 0, Subsingleton.elim d 0]
      fin_cases p <;> simp [ScalarMap.id, turnZ, spinZ, upTensors]) n steps 0 0
    (buildBondList nx ny) (List.Perm.refl _) (hF.dropRun st h0 pk ω _ 0) (svdRun_full hf pk ω _ 0 _)
    (fun net e => ⟨clearRun_one st h0 pk ω la fo rep cfg none _ (fun b => by
      obtain ⟨g, hg⟩ := fieldTerms_gate dtau b
      exact ⟨g, g, hg⟩) steps _ _ (by
      rw [ctmrgDrawn_eq] at e
      exact factored_run st pk ω _ _ hF e), drawsRun_full st hf pk ω la fo rep cfg none _ steps _ _⟩)
  refine ⟨net, e, fun s hs => ?_⟩
  obtain ⟨⟨ρ, q, -, h4⟩, -⟩ := h3 s (by rw [h1, h2]; exact hs)
  refine ⟨ρ, q, h4 flipX ?_⟩
  intro k b
  fin_cases k <;> fin_cases b <;> simp [ScalarMap.id, turnZ, spinZ, flipX, Fin.sum_univ_two]

end ising

end AceTN
