import Verif.Props.FreeSession
import Verif.Lemmas.EnergyDescent

/-! C116: models without interactions are cooled, the energy never rises from one time to a later one, with every time step. -/

set_option autoImplicit false
set_option linter.unusedSectionVars false

namespace AceTN
open Matrix Spec NormedSpace Full Session
open scoped Matrix.Norms.L2Operator ComplexOrder

variable {ι : Type} [Fintype ι] [DecidableEq ι] {nx ny N : ℕ}

/-! ### Cooling a state -/

theorem energyOf_dot (H : Matrix ι ι ℝ) (v : ι → ℝ) : energyOf H v = (v ⬝ᵥ H *ᵥ v) / (v ⬝ᵥ v) := by
  unfold energyOf overlap stateNorm
  rw [Real.sq_sqrt (Finset.sum_nonneg fun _ _ => sq_nonneg _), RCLike.re_to_real]
  congr 1
  simp only [dotProduct, Real.norm_eq_abs, sq, abs_mul_abs_self]

theorem energyOf_ratio (H : Matrix ι ι ℝ) (v : ι → ℝ) : energyOf H v = qform H v / normSq v := by
  rw [energyOf_dot]
  unfold qform normSq
  congr 1
  · simp only [dotProduct, Matrix.mulVec, Finset.mul_sum, star_trivial, mul_assoc]
  · simp only [dotProduct, Real.norm_eq_abs, sq, abs_mul_abs_self]

theorem trace_state (X : Matrix ι ι ℝ) (v : ι → ℝ) : trace (vecMulVec v (star v) * X) = v ⬝ᵥ X *ᵥ v := by
  rw [Matrix.vecMulVec_mul, Matrix.trace_vecMulVec, star_trivial, dotProduct_comm, Matrix.dotProduct_mulVec, dotProduct_comm]

/-- A state is not an eigenvector. -/
def Spec.Varies (H : Matrix ι ι ℝ) (v : ι → ℝ) : Prop := ∀ c : ℝ, H *ᵥ v ≠ c • v

theorem energyOf_cool (H : Matrix ι ι ℝ) (hH : H.IsHermitian) {t : ℝ} (ht : 0 ≤ t) {v : ι → ℝ} (hv : v ≠ 0) :
    energyOf H (calculateGate H t *ᵥ v) ≤ energyOf H v ∧ (0 < t → Varies H v → energyOf H (calculateGate H t *ᵥ v) < energyOf H v) := by
  have hpos : 0 < v ⬝ᵥ v := by
    have := Matrix.dotProduct_star_self_pos_iff.2 hv
    rwa [star_trivial] at this
  have htr : trace (vecMulVec v (star v)) = v ⬝ᵥ v := by rw [Matrix.trace_vecMulVec, star_trivial]
  have hG := (calculateGate_isHermitian hH t)
  have hsym : ∀ (K : Matrix ι ι ℝ), K.IsHermitian → ∀ x y : ι → ℝ, (K *ᵥ x) ⬝ᵥ y = x ⬝ᵥ K *ᵥ y := fun K hK x y => by
    have hK' : Kᵀ = K := by rw [← conjTranspose_eq_transpose_of_trivial]; exact hK
    rw [Matrix.dotProduct_mulVec, ← Matrix.mulVec_transpose, hK']
  have h := energy_descent (vecMulVec v (star v)) H (Matrix.posSemidef_vecMulVec_self_star v) hH t ht (by rw [htr]; exact hpos)
  dsimp only at h
  simp only [trace_state, htr, RCLike.re_to_real] at h
  obtain ⟨-, h1, h2⟩ := h
  have e : energyOf H (calculateGate H t *ᵥ v) = (v ⬝ᵥ (calculateGate H t * H * calculateGate H t) *ᵥ v) / (v ⬝ᵥ (calculateGate H t * calculateGate H t) *ᵥ v) := by
    rw [energyOf_dot, hsym _ hG, hsym _ hG]
    simp only [Matrix.mulVec_mulVec, Matrix.mul_assoc]
  rw [e, energyOf_dot]
  refine ⟨h1, fun ht0 hvar => h2 ht0 fun heq => hvar ((v ⬝ᵥ H *ᵥ v) / (v ⬝ᵥ v)) ?_⟩
  set c := (v ⬝ᵥ H *ᵥ v) / (v ⬝ᵥ v) with hc
  have h3 : v ⬝ᵥ (H * H) *ᵥ v = (H *ᵥ v) ⬝ᵥ (H *ᵥ v) := by rw [hsym H hH, Matrix.mulVec_mulVec]
  have hcm : c * (v ⬝ᵥ v) = v ⬝ᵥ H *ᵥ v := div_mul_cancel₀ _ hpos.ne'
  have h0 : (H *ᵥ v - c • v) ⬝ᵥ (H *ᵥ v - c • v) = 0 := by
    rw [sub_dotProduct, dotProduct_sub, dotProduct_sub, smul_dotProduct, dotProduct_smul, smul_dotProduct, dotProduct_smul, ← h3,
      dotProduct_comm (H *ᵥ v) v]
    simp only [smul_eq_mul]
    have h4 : v ⬝ᵥ (H * H) *ᵥ v = c * (v ⬝ᵥ H *ᵥ v) := by
      refine mul_right_cancel₀ hpos.ne' ?_
      rw [← heq, mul_assoc, mul_comm _ (v ⬝ᵥ v), ← mul_assoc, hcm, sq]
    rw [h4, ← hcm]
    ring
  have h5 := (dotProduct_self_eq_zero).1 h0
  exact sub_eq_zero.1 h5

theorem gate_ne_zero (H : Matrix ι ι ℝ) (t : ℝ) {v : ι → ℝ} (hv : v ≠ 0) : calculateGate H t *ᵥ v ≠ 0 := by
  intro h0
  apply hv
  have e : calculateGate H (-t) * calculateGate H t = 1 := by rw [calculateGate_add, neg_add_cancel, calculateGate_zero]
  rw [← Matrix.one_mulVec v, ← e, ← Matrix.mulVec_mulVec, h0, Matrix.mulVec_zero]

theorem Spec.Varies.gate {H : Matrix ι ι ℝ} {v : ι → ℝ} (h : Varies H v) (t : ℝ) : Varies H (calculateGate H t *ᵥ v) := by
  intro c hc
  apply h c
  have e : calculateGate H (-t) * calculateGate H t = 1 := by rw [calculateGate_add, neg_add_cancel, calculateGate_zero]
  have hcom : H * calculateGate H (-t) = calculateGate H (-t) * H := by
    unfold calculateGate
    exact (((Commute.refl H).smul_right _).exp_right).eq
  have e1 : H *ᵥ v = calculateGate H (-t) *ᵥ H *ᵥ calculateGate H t *ᵥ v := by
    rw [Matrix.mulVec_mulVec, Matrix.mulVec_mulVec, ← hcom, Matrix.mul_assoc, e, Matrix.mul_one]
  rw [e1, hc, Matrix.mulVec_smul, Matrix.mulVec_mulVec, e, Matrix.one_mulVec]

/-- The energy never rises with time, and falls unless the state at the start is an eigenvector. -/
theorem energyOf_later (H : Matrix ι ι ℝ) (hH : H.IsHermitian) {t t' : ℝ} (ht : t ≤ t') {v : ι → ℝ} (hv : v ≠ 0) :
    energyOf H (calculateGate H t' *ᵥ v) ≤ energyOf H (calculateGate H t *ᵥ v) ∧
      (t < t' → Varies H v → energyOf H (calculateGate H t' *ᵥ v) < energyOf H (calculateGate H t *ᵥ v)) := by
  have e : calculateGate H t' *ᵥ v = calculateGate H (t' - t) *ᵥ calculateGate H t *ᵥ v := by
    rw [Matrix.mulVec_mulVec, calculateGate_add, sub_add_cancel]
  rw [e]
  have h := energyOf_cool H hH (sub_nonneg.2 ht) (gate_ne_zero H t hv)
  exact ⟨h.1, fun hlt hvar => h.2 (sub_pos.2 hlt) (hvar.gate t)⟩

/-! ### The full update -/

section full

variable {F : Type} {bD pD : ℕ} [NeZero bD] [NeZero pD]

/-- **C116 (full update).** Real dtypes, solver by pseudoinverse without regularisation, any bond dimension: of two programs that start from the same
site tensors and evolve with a Hermitian model of independent sites, with any time steps, settings, projectors and draws, the one that evolves to the
later time has not the higher energy, on any finite lattice covering the cell; it has the lower one unless the state at the start is an eigenvector. -/
theorem C116_full [NeZero N] (hx : 2 ≤ nx) (hy : 2 ≤ ny) (σ : Bond → Equiv.Perm (Fin N)) (m : ModelTerms (Fin pD) ℝ)
    (h : Site → Matrix (Fin pD) (Fin pD) ℝ) (hi : Independent nx ny m h) (hh : m.Hermitian)
    (A : Site → ATensor (Fin bD) (Fin pD) ℝ) (hA : latticeState (nx := nx) (ny := ny) σ A ≠ 0)
    (st st' : ProjSettings ℝ) (pk pk' : ProjKind) (ω ω' : ℕ → Draws (Fin bD) ℝ) (la la' : Lapack ℝ) (fo fo' : Als.FloatOps F) (rep rep' : ℝ → F)
    (cfg cfg' : Settings F) (hc : cfg.als_method = .pinv) (hc' : cfg'.als_method = .pinv) (he : cfg.als_epsilon = 0) (he' : cfg'.als_epsilon = 0)
    (hcut : 0 < cfg.positive_approx_cutoff) (hcut' : 0 < cfg'.positive_approx_cutoff)
    (hatol : cfg.gauge_fix_atol < Real.sqrt cfg.positive_approx_cutoff) (hatol' : cfg'.gauge_fix_atol < Real.sqrt cfg'.positive_approx_cutoff)
    (bl bl' : List Bond) (hbl : bl = buildBondList nx ny ∨ bl = (buildBondList nx ny).reverse)
    (hbl' : bl' = buildBondList nx ny ∨ bl' = (buildBondList nx ny).reverse) (n n' : ℕ) (dtau dtau' : ℝ) (ht : n * dtau ≤ n' * dtau')
    (chi chi' k k' t t' u u' : ℕ) :
    ∃ net net', ctmrgDrawn st pk ω t k (freshNet nx ny chi A) = .ok net ∧ ctmrgDrawn st' pk' ω' t' k' (freshNet nx ny chi' A) = .ok net' ∧
      let r := fullEvolve st pk ω la fo rep cfg none (twoSiteGate m dtau) n (bl, net, u)
      let r' := fullEvolve st' pk' ω' la' fo' rep' cfg' none (twoSiteGate m dtau') n' (bl', net', u')
      let E := fun x : Net (Ten (Fin bD) (Fin pD) ℝ) => energyOf (latticeHamiltonian hx hy σ m) (latticeState (nx := nx) (ny := ny) σ (siteTensors (bare x)))
      r.2.2 = none ∧ r'.2.2 = none ∧ E r'.2.1.1 ≤ E r.2.1.1 ∧
        (n * dtau < n' * dtau' → Varies (latticeHamiltonian hx hy σ m) (latticeState (nx := nx) (ny := ny) σ A) → E r'.2.1.1 < E r.2.1.1) := by
  obtain ⟨net, e, h1, κ, hκ, h2⟩ := C113_full hx hy σ m h hi st pk ω la fo rep cfg hc he hcut hatol bl hbl n dtau chi A hA k t u
  obtain ⟨net', e', h1', κ', hκ', h2'⟩ := C113_full hx hy σ m h hi st' pk' ω' la' fo' rep' cfg' hc' he' hcut' hatol' bl' hbl' n' dtau' chi' A hA k' t' u'
  refine ⟨net, net', e, e', ?_⟩
  intro r r' E
  have hH := latticeHamiltonian_isHermitian hx hy σ m hh
  have key := energyOf_later _ hH ht hA
  have hE : E r.2.1.1 = energyOf (latticeHamiltonian hx hy σ m) (calculateGate (latticeHamiltonian hx hy σ m) (n * dtau) *ᵥ latticeState (nx := nx) (ny := ny) σ A) := by
    show energyOf _ (latticeState (nx := nx) (ny := ny) σ (siteTensors (bare r.2.1.1))) = _
    rw [show latticeState (nx := nx) (ny := ny) σ (siteTensors (bare r.2.1.1)) = _ from h2]
    exact energyOf_smul _ _ hκ
  have hE' : E r'.2.1.1 = energyOf (latticeHamiltonian hx hy σ m) (calculateGate (latticeHamiltonian hx hy σ m) (n' * dtau') *ᵥ latticeState (nx := nx) (ny := ny) σ A) := by
    show energyOf _ (latticeState (nx := nx) (ny := ny) σ (siteTensors (bare r'.2.1.1))) = _
    rw [show latticeState (nx := nx) (ny := ny) σ (siteTensors (bare r'.2.1.1)) = _ from h2']
    exact energyOf_smul _ _ hκ'
  rw [hE, hE']
  exact ⟨h1, h1', key.1, key.2⟩

end full

/-! ### Sessions at bond dimension one -/

section sessions

variable {F F' : Type} {pD : ℕ} [NeZero pD]

/-- The imaginary time the calls of `evolve` add up to. -/
noncomputable def Spec.totalTime (es : List (Evolution 1 pD ℝ)) : ℝ := (es.map fun e => (e.steps : ℝ) * e.dtau).sum

theorem siteEvolution_const (h : Site → Matrix (Fin pD) (Fin pD) ℝ) (es : List (Evolution 1 pD ℝ)) (s : Site) :
    siteEvolution (fun _ => h) es s = calculateGate (h s) (totalTime es) := by
  induction es with
  | nil => simp [siteEvolution, totalTime, calculateGate_zero]
  | cons e es ih =>
    have e1 : siteEvolution (fun _ => h) (e :: es) s = calculateGate (h s) (e.steps * e.dtau) * siteEvolution (fun _ => h) es s := rfl
    rw [e1, ih, calculateGate_add]
    rfl

theorem site_hermitian {m : ModelTerms (Fin pD) ℝ} {h : Site → Matrix (Fin pD) (Fin pD) ℝ} (hi : Independent nx ny m h) (hh : m.Hermitian) {s : Site}
    (hs : InCell nx ny s) : (h s).IsHermitian := hh.2 s _ (hi.2 s hs)

/-- The energy `measure` returns after a script, for independent sites. -/
theorem free_energy (hx : 2 ≤ nx) (hy : 2 ≤ ny) (M : Machine F 1 ℝ) (hM : M.cx = false) (hω : DrawsNonzero M.ω) {chi : ℕ} (hchi : 0 < chi)
    (A : Site → ATensor (Fin 1) (Fin pD) ℝ) (hA : ∀ s, InCell nx ny s → A s ≠ 0) (cs : List (Call F 1 pD ℝ))
    (hcs : ∀ c ∈ cs, Sensible nx ny c ∧ KnownNames c) (h : Site → Matrix (Fin pD) (Fin pD) ℝ) (m : ModelTerms (Fin pD) ℝ)
    (him : Independent nx ny m h) (hh : m.Hermitian) (hi : ∀ e ∈ evolutions cs, Independent nx ny e.model h)
    (model : MeasModel (Fin pD → Fin pD → ℝ) (Fin pD → Fin pD → Fin pD → Fin pD → ℝ)) (hmm : Measures m model)
    (hcl : Meas.Clean model (buildSiteList nx ny) (buildBondList nx ny)) (init : Fin pD → Fin pD → Fin pD → Fin pD → ℝ) :
    (∀ s, InCell nx ny s → startVec A (evolutions cs) s ≠ 0) ∧ ∃ d, Session.measure init model (runCatching M cs (new nx ny chi A)) = .ok d ∧
      d.get? "Energy" = some (((buildSiteList nx ny).map fun s =>
        energyOf (h s) (calculateGate (h s) (totalTime (evolutions cs)) *ᵥ startVec A (evolutions cs) s)).sum / (nx * ny : ℕ)) := by
  have h0 := startVec_ne A hA cs fun c hc => (hcs c hc).1
  refine ⟨h0, ?_⟩
  obtain ⟨-, d, hd, hE⟩ := C110_energy (N := 1) hx hy (fun _ => 1) M hM hω hchi A hA cs (fun c hc => (hcs c hc).1) m model hmm hcl init
  refine ⟨d, hd, hE.trans ?_⟩
  have hf := free_meanField hx hy (fun _ => h) _ hi _ (.inl rfl) _ _ h0 (C111_refines hx hy M hM hω hchi A hA cs hcs)
  have hv : ∀ x, InCell nx ny x → siteVec (siteTensors (bare (runCatching M cs (new nx ny chi A)).net)) x ≠ 0 := fun x hx' =>
    (C110_values hx hy M hM hω hchi A hA cs (fun c hc => (hcs c hc).1) x hx').1
  rw [latticeState_one, energy_product hx hy _ m _ hv]
  have hz : ((buildBondList nx ny).map fun b => qform (m.two b)ᵀ (fun p : Fin pD × Fin pD =>
      siteVec (siteTensors (bare (runCatching M cs (new nx ny chi A)).net)) b.s1 p.1 *
        siteVec (siteTensors (bare (runCatching M cs (new nx ny chi A)).net)) b.s2 p.2) / normSq fun p : Fin pD × Fin pD =>
      siteVec (siteTensors (bare (runCatching M cs (new nx ny chi A)).net)) b.s1 p.1 *
        siteVec (siteTensors (bare (runCatching M cs (new nx ny chi A)).net)) b.s2 p.2).sum = 0 := by
    refine List.sum_eq_zero fun x hx' => ?_
    obtain ⟨b, hb, rfl⟩ := List.mem_map.1 hx'
    rw [him.1 b hb]
    simp [qform]
  rw [hz, zero_add]
  simp only [Nat.cast_one, one_mul]
  congr 3
  refine List.map_congr_left fun s hs => ?_
  have hs' := mem_buildSiteList.1 hs
  have hsym : (h s)ᵀ = h s := by
    rw [← conjTranspose_eq_transpose_of_trivial]
    exact site_hermitian him hh hs'
  obtain ⟨c, hc, e⟩ := hf s hs'
  dsimp only at e
  rw [him.2 s hs', Option.map_some, Option.getD_some, hsym, e, ratio_smul _ _ hc, siteEvolution_const, energyOf_ratio]
  have hg : (calculateGate (h s) (totalTime (evolutions cs)))ᵀ = calculateGate (h s) (totalTime (evolutions cs)) := by
    rw [← conjTranspose_eq_transpose_of_trivial]
    exact calculateGate_isHermitian (site_hermitian him hh hs') _
  rw [← Matrix.mulVec_transpose, hg]

/-- **C116 (sessions).** Real dtype, bond dimension one, cells from 2 × 2: two scripts that begin with the same vectors and whose calls of `evolve` use
models with the same Hermitian fields, with any time steps, updates, settings, libraries and draws.  The energy measured after the longer total time is
not the higher one, and it is the lower one if some site does not begin with an eigenvector of its term. -/
theorem C116_session (hx : 2 ≤ nx) (hy : 2 ≤ ny) (M : Machine F 1 ℝ) (M' : Machine F' 1 ℝ) (hM : M.cx = false) (hM' : M'.cx = false)
    (hω : DrawsNonzero M.ω) (hω' : DrawsNonzero M'.ω) {chi chi' : ℕ} (hchi : 0 < chi) (hchi' : 0 < chi')
    (A A' : Site → ATensor (Fin 1) (Fin pD) ℝ) (hA : ∀ s, InCell nx ny s → A s ≠ 0) (hA' : ∀ s, InCell nx ny s → A' s ≠ 0)
    (cs : List (Call F 1 pD ℝ)) (cs' : List (Call F' 1 pD ℝ)) (hcs : ∀ c ∈ cs, Sensible nx ny c ∧ KnownNames c)
    (hcs' : ∀ c ∈ cs', Sensible nx ny c ∧ KnownNames c) (h : Site → Matrix (Fin pD) (Fin pD) ℝ) (m : ModelTerms (Fin pD) ℝ)
    (him : Independent nx ny m h) (hh : m.Hermitian) (hi : ∀ e ∈ evolutions cs, Independent nx ny e.model h)
    (hi' : ∀ e ∈ evolutions cs', Independent nx ny e.model h)
    (hs : ∀ s, InCell nx ny s → startVec A' (evolutions cs') s = startVec A (evolutions cs) s)
    (ht : totalTime (evolutions cs) ≤ totalTime (evolutions cs'))
    (model : MeasModel (Fin pD → Fin pD → ℝ) (Fin pD → Fin pD → Fin pD → Fin pD → ℝ)) (hmm : Measures m model)
    (hcl : Meas.Clean model (buildSiteList nx ny) (buildBondList nx ny)) (init init' : Fin pD → Fin pD → Fin pD → Fin pD → ℝ) :
    ∃ d d' E E', Session.measure init model (runCatching M cs (new nx ny chi A)) = .ok d ∧ d.get? "Energy" = some E ∧
      Session.measure init' model (runCatching M' cs' (new nx ny chi' A')) = .ok d' ∧ d'.get? "Energy" = some E' ∧ E' ≤ E ∧
      (totalTime (evolutions cs) < totalTime (evolutions cs') → (∃ s, InCell nx ny s ∧ Varies (h s) (startVec A (evolutions cs) s)) → E' < E) := by
  obtain ⟨h0, d, hd, hE⟩ := free_energy hx hy M hM hω hchi A hA cs hcs h m him hh hi model hmm hcl init
  obtain ⟨-, d', hd', hE'⟩ := free_energy hx hy M' hM' hω' hchi' A' hA' cs' hcs' h m him hh hi' model hmm hcl init'
  refine ⟨d, d', _, _, hd, hE, hd', hE', ?_⟩
  have hpos : (0 : ℝ) < (nx * ny : ℕ) := Nat.cast_pos.2 (Nat.mul_pos (by omega) (by omega))
  have hle : ∀ s ∈ buildSiteList nx ny, energyOf (h s) (calculateGate (h s) (totalTime (evolutions cs')) *ᵥ startVec A' (evolutions cs') s) ≤
      energyOf (h s) (calculateGate (h s) (totalTime (evolutions cs)) *ᵥ startVec A (evolutions cs) s) := fun s hsl => by
    have hs' := mem_buildSiteList.1 hsl
    rw [hs s hs']
    exact (energyOf_later _ (site_hermitian him hh hs') ht (h0 s hs')).1
  refine ⟨div_le_div_of_nonneg_right (List.sum_le_sum hle) hpos.le, fun hlt ⟨s, hsc, hvar⟩ => div_lt_div_of_pos_right (List.sum_lt_sum _ _ hle ?_) hpos⟩
  refine ⟨s, mem_buildSiteList.2 hsc, ?_⟩
  rw [hs s hsc]
  exact (energyOf_later _ (site_hermitian him hh hsc) ht (h0 s hsc)).2 hlt hvar

/-- **C116 (sessions reach the ground state).** If no site begins orthogonal to the ground states of its term, the energy measured is as close to
the lowest one as one likes when the total time is large, whatever the time steps are, and never below it. -/
theorem C116_reaches (hx : 2 ≤ nx) (hy : 2 ≤ ny) (h : Site → Matrix (Fin pD) (Fin pD) ℝ) (m : ModelTerms (Fin pD) ℝ) (him : Independent nx ny m h)
    (hh : m.Hermitian) (v g : Site → Fin pD → ℝ) (ε : Site → ℝ) (hε : ∀ s, InCell nx ny s → IsGroundEnergy (h s) (ε s))
    (hg : ∀ s, InCell nx ny s → h s *ᵥ g s = ε s • g s) (ho : ∀ s, InCell nx ny s → overlap (g s) (v s) ≠ 0)
    (model : MeasModel (Fin pD → Fin pD → ℝ) (Fin pD → Fin pD → Fin pD → Fin pD → ℝ)) (hmm : Measures m model)
    (hcl : Meas.Clean model (buildSiteList nx ny) (buildBondList nx ny)) :
    ∀ η : ℝ, 0 < η → ∃ T₀ : ℝ, ∀ (F : Type) (M : Machine F 1 ℝ), M.cx = false → DrawsNonzero M.ω → ∀ chi : ℕ, 0 < chi →
      ∀ (A : Site → ATensor (Fin 1) (Fin pD) ℝ), (∀ s, InCell nx ny s → A s ≠ 0) → ∀ cs : List (Call F 1 pD ℝ),
      (∀ c ∈ cs, Sensible nx ny c ∧ KnownNames c) → (∀ e ∈ evolutions cs, Independent nx ny e.model h) →
      (∀ s, InCell nx ny s → startVec A (evolutions cs) s = v s) → T₀ ≤ totalTime (evolutions cs) → ∀ init,
      ∃ d E, Session.measure init model (runCatching M cs (new nx ny chi A)) = .ok d ∧ d.get? "Energy" = some E ∧
        ((buildSiteList nx ny).map ε).sum / (nx * ny : ℕ) ≤ E ∧ E ≤ ((buildSiteList nx ny).map ε).sum / (nx * ny : ℕ) + η := by
  intro η hη
  have hsite : ∀ s, ∃ T : ℝ, InCell nx ny s → ∀ T', T ≤ T' → energyOf (h s) (calculateGate (h s) T' *ᵥ v s) ≤ ε s + η := by
    intro s
    by_cases hs : InCell nx ny s
    · obtain ⟨_, -, -, hr⟩ := ground_reached (h s) (site_hermitian him hh hs) (ε s) (hε s hs) (v s) (g s) (hg s hs) (ho s hs)
      obtain ⟨T, hT⟩ := hr η hη
      refine ⟨T, fun _ T' hT' => ?_⟩
      obtain ⟨δ, hδ, hn⟩ := hT T' hT'
      refine (hn (calculateGate (h s) T' *ᵥ v s) 1 one_pos ?_).2.2
      have : ((1 : ℝ) : ℝ) • calculateGate (h s) T' *ᵥ v s - calculateGate (h s) T' *ᵥ v s = 0 := by rw [one_smul, sub_self]
      refine le_trans (le_of_eq ((congrArg stateNorm this).trans (by simp [stateNorm]))) (mul_nonneg hδ.le (stateNorm_nonneg _))
    · exact ⟨0, fun h => absurd h hs⟩
  choose T hT using hsite
  refine ⟨((buildSiteList nx ny).map fun s => |T s|).sum, fun F M hM hω chi hchi A hA cs hcs hi hv hT0 init => ?_⟩
  obtain ⟨h0, d, hd, hE⟩ := free_energy hx hy M hM hω hchi A hA cs hcs h m him hh hi model hmm hcl init
  refine ⟨d, _, hd, hE, ?_, ?_⟩
  · refine div_le_div_of_nonneg_right (List.sum_le_sum fun s hs => ?_) (Nat.cast_nonneg _)
    have hs' := mem_buildSiteList.1 hs
    exact hε s hs' _ (gate_ne_zero _ _ (h0 s hs'))
  · have hpos : (0 : ℝ) < (nx * ny : ℕ) := Nat.cast_pos.2 (Nat.mul_pos (by omega) (by omega))
    rw [div_le_iff₀ hpos, add_mul, div_mul_cancel₀ _ hpos.ne']
    have hlen : (buildSiteList nx ny).length = nx * ny := (C01_site_list nx ny).2.1
    have e : ((buildSiteList nx ny).map ε).sum + η * (nx * ny : ℕ) = ((buildSiteList nx ny).map fun s => ε s + η).sum := by
      rw [List.sum_map_add, List.map_const', List.sum_replicate, hlen, nsmul_eq_mul, mul_comm η]
    rw [e]
    refine List.sum_le_sum fun s hs => ?_
    have hs' := mem_buildSiteList.1 hs
    rw [hv s hs']
    refine hT s hs' _ (le_trans (le_trans (le_abs_self _) ?_) hT0)
    exact List.single_le_sum (fun x hx' => by obtain ⟨y, -, rfl⟩ := List.mem_map.1 hx'; exact abs_nonneg _) _ (List.mem_map_of_mem hs)

end sessions

/-! ### The hypotheses are met -/

theorem field_varies (s : Site) : Varies (Matrix.diagonal fun p : Fin 2 => if p = 0 then (1 : ℝ) else -1) (siteVec (fun s => (plusNet s).A) s) := by
  intro c h
  have h0 := congrFun h 0
  have h1 := congrFun h 1
  simp only [Matrix.mulVec_diagonal, Pi.smul_apply, smul_eq_mul, if_true, one_ne_zero, if_false, siteVec, plusNet, mul_one] at h0 h1
  linarith

/-- A model that measures the energy of the field and nothing else. -/
noncomputable def fieldMeas : MeasModel (Fin 2 → Fin 2 → ℝ) (Fin 2 → Fin 2 → Fin 2 → Fin 2 → ℝ) where
  one_site_observables := fun _ => []
  two_site_observables := fun _ => []
  one_site_hamiltonian := fun s => (fieldTerms.one s).map fun h i j => h i j
  two_site_hamiltonian := fun b k1 k2 b1 b2 => fieldTerms.two b (k1, k2) (b1, b2)

theorem fieldMeas_clean (sites : List Site) (bonds : List Bond) : Meas.Clean fieldMeas sites bonds :=
  ⟨fun _ => by simp [PyDict.keys, fieldMeas], fun _ => by simp [PyDict.keys, fieldMeas], fun _ _ _ => Iff.rfl, fun _ _ _ _ _ => Iff.rfl,
    by simp [PyDict.keys, fieldMeas], fun _ _ => by simp [PyDict.keys, fieldMeas], fun _ _ k hk => by simp [PyDict.keys, fieldMeas] at hk⟩

theorem exampleScript_field {svd : String} {method : Als.Solver} {chi n : ℕ} {dtau : ℝ} :
    ∀ e ∈ evolutions (exampleScript svd method chi n dtau fieldTerms fieldTerms),
      Independent nx ny e.model fun _ => Matrix.diagonal fun p => if p = 0 then 1 else -1 := by
  intro e he
  simp only [exampleScript, evolutions, List.mem_cons, List.not_mem_nil, or_false] at he
  rcases he with rfl | rfl
  · exact ⟨fun _ _ => rfl, fun _ _ => rfl⟩
  · exact ⟨fun _ _ => rfl, fun _ _ => rfl⟩

theorem exampleScript_time (svd : String) (method : Als.Solver) (chi n : ℕ) (dtau : ℝ) :
    totalTime (evolutions (exampleScript svd method chi n dtau fieldTerms fieldTerms)) = 2 * (n * dtau) := by
  simp only [exampleScript, evolutions, totalTime, List.map_cons, List.map_nil, List.sum_cons, List.sum_nil]
  ring

/-- Non-vacuity: spins across a field, evolved with the full and then with the simple update, with two different solvers, boundary dimensions, time steps
and numbers of steps: the longer evolution has the lower energy. -/
example (hx : 2 ≤ nx) (hy : 2 ≤ ny) (la : Lapack ℝ) (fo : Als.FloatOps ℝ) (svd svd' : String) (n n' : ℕ) (dtau dtau' : ℝ)
    (ht : n * dtau < n' * dtau') (init : Fin 2 → Fin 2 → Fin 2 → Fin 2 → ℝ) :
    let M : Machine ℝ 1 ℝ := ⟨la, fo, id, fun _ _ _ _ _ _ _ => 1, false⟩
    ∃ d d' E E', Session.measure init fieldMeas (runCatching M (exampleScript svd .pinv 4 n dtau fieldTerms fieldTerms)
        (new nx ny 3 fun s => (plusNet s).A)) = .ok d ∧ d.get? "Energy" = some E ∧
      Session.measure init fieldMeas (runCatching M (exampleScript svd' .cholesky 2 n' dtau' fieldTerms fieldTerms)
        (new nx ny 5 fun s => (plusNet s).A)) = .ok d' ∧ d'.get? "Energy" = some E' ∧ E' < E := by
  intro M
  have ht2 : (2 : ℝ) * (n * dtau) < 2 * (n' * dtau') := by linarith
  obtain ⟨d, d', E, E', h1, h2, h3, h4, -, h6⟩ := C116_session hx hy M M rfl rfl ones_drawn ones_drawn (Nat.succ_pos 2) (Nat.succ_pos 4)
    (fun s => (plusNet s).A) (fun s => (plusNet s).A) (fun s _ => plusNet_ne s) (fun s _ => plusNet_ne s)
    (exampleScript svd .pinv 4 n dtau fieldTerms fieldTerms) (exampleScript svd' .cholesky 2 n' dtau' fieldTerms fieldTerms)
    (exampleScript_ok _ _ _ _ _ _ _) (exampleScript_ok _ _ _ _ _ _ _) (fun _ => Matrix.diagonal fun p => if p = 0 then 1 else -1) fieldTerms
    ⟨fun _ _ => rfl, fun _ _ => rfl⟩ fieldTerms_hermitian exampleScript_field exampleScript_field (fun s _ => rfl)
    (by rw [exampleScript_time, exampleScript_time]; exact ht2.le) fieldMeas ⟨fun _ => rfl, fun _ => rfl⟩ (fieldMeas_clean _ _) init init
  refine ⟨d, d', E, E', h1, h2, h3, h4, h6 ?_ ⟨(0, 0), ⟨by omega, by omega⟩, field_varies (0, 0)⟩⟩
  rw [exampleScript_time, exampleScript_time]
  exact ht2

/-- Non-vacuity: such spins do not begin orthogonal to the ground state of the field, whose energy is `-1`. -/
example (s : Site) : let h := Matrix.diagonal fun p : Fin 2 => if p = 0 then (1 : ℝ) else -1
    IsGroundEnergy h (-1) ∧ h *ᵥ ![0, 1] = (-1 : ℝ) • ![0, 1] ∧ overlap ![0, 1] (siteVec (fun s => (plusNet s).A) s) ≠ 0 := by
  refine ⟨fun ψ hψ => ?_, ?_, ?_⟩
  · rw [energyOf_dot]
    have hpos : 0 < ψ ⬝ᵥ ψ := by
      have := Matrix.dotProduct_star_self_pos_iff.2 hψ
      rwa [star_trivial] at this
    rw [le_div_iff₀ hpos]
    simp only [dotProduct, Matrix.mulVec_diagonal, Fin.sum_univ_two, if_true, one_ne_zero, if_false]
    nlinarith [mul_self_nonneg (ψ 0)]
  · funext i
    fin_cases i <;> simp [Matrix.mulVec_diagonal]
  · simp [overlap, siteVec, plusNet, Fin.sum_univ_two]

/-- Non-vacuity: a state with bond dimension two in a field that differs from site to site, for the full update. -/
example [NeZero N] (σ : Bond → Equiv.Perm (Fin N)) (f : Site → ℝ) :
    let m : ModelTerms (Fin 2) ℝ := ⟨fun _ => 0, fun s => some (f s • !![0, 1; 1, 0])⟩
    Independent nx ny m (fun s => f s • !![0, 1; 1, 0]) ∧ m.Hermitian ∧ latticeState (nx := nx) (ny := ny) σ (fun s => (ghzNet s).A) ≠ 0 := by
  refine ⟨⟨fun _ _ => rfl, fun _ _ => rfl⟩, ⟨fun b => isHermitian_zero, fun s h hs => ?_⟩, ghzNet_state σ⟩
  cases hs
  ext i j
  fin_cases i <;> fin_cases j <;> simp

end AceTN
