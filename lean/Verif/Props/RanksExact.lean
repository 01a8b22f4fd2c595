import Verif.Props.RanksTheory
import Verif.Props.Cooling

/-!
C118: what is known exactly at bond dimension one is measured by every team of processes.
-/

set_option autoImplicit false
set_option linter.unusedSectionVars false

namespace AceTN

open Matrix Spec Full Session Pauli

variable {F F' : Type} {pD nx ny N : ℕ} [NeZero pD]

/-- Mean-field theory determines the final state, up to factors. -/
def Spec.Determined (nx ny : ℕ) (es : List (Evolution 1 pD ℝ)) (v : Site → Fin pD → ℝ) : Prop :=
  ∀ w w', MeanField nx ny es (buildBondList nx ny) v w → MeanField nx ny es (buildBondList nx ny) v w' → UpToFactors nx ny w w'

theorem upToFactors_common {u w w' : Site → Fin pD → ℝ} (h : UpToFactors nx ny u w) (h' : UpToFactors nx ny u w') : UpToFactors nx ny w w' := by
  intro s hs
  obtain ⟨c, hc, e⟩ := h s hs
  obtain ⟨c', hc', e'⟩ := h' s hs
  refine ⟨c' / c, div_ne_zero hc' hc, ?_⟩
  rw [e, e', smul_smul, div_mul_cancel₀ _ hc]

/-- Independent sites leave no choice, for every time step. -/
theorem determined_free (hx : 2 ≤ nx) (hy : 2 ≤ ny) (h : Evolution 1 pD ℝ → Site → Matrix (Fin pD) (Fin pD) ℝ) (es : List (Evolution 1 pD ℝ))
    (hi : ∀ e ∈ es, Independent nx ny e.model (h e)) {v : Site → Fin pD → ℝ} (hv : ∀ s, InCell nx ny s → v s ≠ 0) : Determined nx ny es v :=
  fun w w' hw hw' => upToFactors_common (free_meanField hx hy h es hi _ (.inl rfl) v w hv hw) (free_meanField hx hy h es hi _ (.inl rfl) v w' hv hw')

/-- Neither does the Néel state with the Heisenberg model. -/
theorem determined_neel (es : List (Evolution 1 2 ℝ)) (hm : ∀ e ∈ es, ∃ params, Pauli.heisenbergTerms params = .ok e.model) {v : Site → Fin 2 → ℝ}
    (hv : ∀ s, InCell nx ny s → v s = neel s) : Determined nx ny es v := by
  have hes : ∀ e ∈ es, ∃ J, (∀ b, e.model.two b = heisenbergMatrix J) ∧ ∀ s, e.model.one s = none := fun e he => by
    obtain ⟨p, hp⟩ := hm e he
    exact heisenberg_ok hp
  have hu : UpToFactors nx ny (fun s => spinVec (if (s.1 + s.2) % 2 = 0 then 0 else 1)) v :=
    fun s hsc => ⟨1, one_ne_zero, by rw [one_smul, hv s hsc, neel_spin]⟩
  exact fun w w' hw hw' => upToFactors_common (spins_field _ es hes (.inl rfl) hu hw) (spins_field _ es hes (.inl rfl) hu hw')

section teams

variable (hx : 2 ≤ nx) (hy : 2 ≤ ny) (D : Team F 1 pD ℝ) (hD : D.Works nx ny) (hcx : D.cx = false) (hω : ∀ r < D.ws, DrawsNonzero (D.ω r))

include hx hy hD hcx hω

/-- **C118 (processes).** Real dtype, bond dimension one, cells from 2 × 2, both kinds of projectors: where mean-field theory determines the state, every
rank of every team measures what a single process measures that makes the same calls of `evolve`, with any other settings on its side. -/
theorem C118_processes (M : Machine F' 1 ℝ) (hM : M.cx = false) (hωM : DrawsNonzero M.ω) {chi chi' : ℕ} (hchi : 0 < chi) (hchi' : 0 < chi')
    (A : Site → ATensor (Fin 1) (Fin pD) ℝ) (hA : ∀ s, InCell nx ny s → A s ≠ 0) (cs : List (Call F 1 pD ℝ)) (cs' : List (Call F' 1 pD ℝ))
    (hcs : ∀ c ∈ cs, Sensible nx ny c ∧ KnownNames c) (hcs' : ∀ c ∈ cs', Sensible nx ny c ∧ KnownNames c)
    (he : evolutions cs' = evolutions cs) (hT : Determined nx ny (evolutions cs) (startVec A (evolutions cs))) :
    (distRun D cs (distNew D nx ny chi A)).2 = none ∧ ∀ k < D.ws, ∀ init init' model,
      Session.measure init model ((distRun D cs (distNew D nx ny chi A)).1.view k) =
        Session.measure init' model (runCatching M cs' (new nx ny chi' A)) := by
  obtain ⟨h1, h2, h3, h4⟩ := team_run hx hy D hD hcx hω hchi A hA cs hcs
  refine ⟨h2, fun k hk init init' model => ?_⟩
  have n0 := mean_new (pD := pD) (show 0 < nx by omega) (show 0 < ny by omega) hchi' A hA
  obtain ⟨f2, b2⟩ := run_meanField_new hx hy M hM hωM cs' hcs' A _ n0 rfl rfl (netVec_fresh nx ny chi' A)
  rw [he] at f2 b2
  have hs := mean_run hx hy M hM hωM cs' (fun c hc => (hcs' c hc).1) _ n0
  have hv : (distRun D cs (distNew D nx ny chi A)).1.view k = (distRun D cs (distNew D nx ny chi A)).1.view 0 := by
    unfold Ranks.view
    rw [h1.1 k hk]
  rw [hv]
  exact measure_same hx hy hs h1.2 (h4.trans b2.symm) (hT _ _ f2 h3) init' init model

/-- The process every rank agrees with in what follows. -/
theorem team_serial {chi : ℕ} (hchi : 0 < chi) (A : Site → ATensor (Fin 1) (Fin pD) ℝ) (hA : ∀ s, InCell nx ny s → A s ≠ 0)
    (cs : List (Call F 1 pD ℝ)) (hcs : ∀ c ∈ cs, Sensible nx ny c ∧ KnownNames c)
    (hT : Determined nx ny (evolutions cs) (startVec A (evolutions cs))) :
    ∃ M : Machine F 1 ℝ, M.cx = false ∧ DrawsNonzero M.ω ∧ ∀ k < D.ws, ∀ init model,
      Session.measure init model ((distRun D cs (distNew D nx ny chi A)).1.view k) = Session.measure init model (runCatching M cs (new nx ny chi A)) := by
  have h0 : 0 < D.ws := by have := hD.1; omega
  exact ⟨⟨D.la, D.fo, D.rep, D.ω 0, D.cx⟩, hcx, hω 0 h0, fun k hk init model =>
    (C118_processes hx hy D hD hcx hω ⟨D.la, D.fo, D.rep, D.ω 0, D.cx⟩ hcx (hω 0 h0) hchi hchi A hA cs cs hcs hcs rfl hT).2 k hk init init model⟩

/-- **C118 (independent sites).** Without interactions every value measured on a rank is that of the initial vectors evolved by the exponentials of their
own terms, for every time step. -/
theorem C118_free {chi : ℕ} (hchi : 0 < chi) (A : Site → ATensor (Fin 1) (Fin pD) ℝ) (hA : ∀ s, InCell nx ny s → A s ≠ 0)
    (cs : List (Call F 1 pD ℝ)) (hcs : ∀ c ∈ cs, Sensible nx ny c ∧ KnownNames c) (h : Evolution 1 pD ℝ → Site → Matrix (Fin pD) (Fin pD) ℝ)
    (hi : ∀ e ∈ evolutions cs, Independent nx ny e.model (h e)) :
    let r := distRun D cs (distNew D nx ny chi A)
    let v := fun x => startVec A (evolutions cs) x ᵥ* siteEvolution h (evolutions cs) x
    ∀ j < D.ws, ∀ x, InCell nx ny x → v x ≠ 0 ∧
      (∀ O : Matrix (Fin pD) (Fin pD) ℝ, siteVal (r.1.nets j) x O = .ok (qform Oᵀ (v x) / normSq (v x))) ∧
      ∀ (k : Fin 4) (init : Fin pD → Fin pD → Fin pD → Fin pD → ℝ) (O : Matrix (Fin pD × Fin pD) (Fin pD × Fin pD) ℝ),
        bondVal init (r.1.nets j) ⟨x, neighbour nx ny x k.val, k.val⟩ (fun k1 k2 b1 b2 => O (k1, k2) (b1, b2)) =
          .ok (qform Oᵀ (fun p => v x p.1 * v (neighbour nx ny x k.val) p.2) /
            normSq fun p : Fin pD × Fin pD => v x p.1 * v (neighbour nx ny x k.val) p.2) := by
  intro r v j hj x hxc
  have hv := startVec_ne A hA cs fun c hc => (hcs c hc).1
  have hf := free_meanField hx hy h _ hi _ (.inl rfl) _ _ hv ((C117_refines hx hy D hD hcx hω hchi A hA cs hcs).2 j hj).2
  obtain ⟨h0, h1, h2⟩ := C117_values hx hy D hD hcx hω hchi A hA cs hcs j hj x hxc
  obtain ⟨c, hc, ec⟩ := hf x hxc
  refine ⟨fun hz => h0 (ec.trans ((congrArg (c • ·) hz).trans (smul_zero c))), fun O => (h1 O).trans ?_, fun k init O => (h2 k init O).trans ?_⟩
  · rw [show siteVec (siteTensors (bare (r.1.nets j))) x = c • v x from ec, ratio_smul _ _ hc]
  · obtain ⟨d, hd, ed⟩ := hf _ (neighbour_inCell hxc k.val)
    have e1 : (fun p : Fin pD × Fin pD => siteVec (siteTensors (bare (r.1.nets j))) x p.1 *
        siteVec (siteTensors (bare (r.1.nets j))) (neighbour nx ny x k.val) p.2) =
        (c * d) • fun p : Fin pD × Fin pD => v x p.1 * v (neighbour nx ny x k.val) p.2 := by
      funext p
      rw [show siteVec (siteTensors (bare (r.1.nets j))) x = c • v x from ec,
        show siteVec (siteTensors (bare (r.1.nets j))) (neighbour nx ny x k.val) = d • v (neighbour nx ny x k.val) from ed]
      simp only [Pi.smul_apply, smul_eq_mul]
      ring
    rw [e1, ratio_smul _ _ (mul_ne_zero hc hd)]

end teams

/-- **C118 (cooling).** Two teams, of different numbers of ranks and with different settings, that begin with the same vectors and use the same Hermitian
fields: the one with the longer total time measures the lower energy, on every rank. -/
theorem C118_cooling (hx : 2 ≤ nx) (hy : 2 ≤ ny) (D : Team F 1 pD ℝ) (D' : Team F' 1 pD ℝ) (hD : D.Works nx ny) (hD' : D'.Works nx ny)
    (hcx : D.cx = false) (hcx' : D'.cx = false) (hω : ∀ r < D.ws, DrawsNonzero (D.ω r)) (hω' : ∀ r < D'.ws, DrawsNonzero (D'.ω r))
    {chi chi' : ℕ} (hchi : 0 < chi) (hchi' : 0 < chi')
    (A A' : Site → ATensor (Fin 1) (Fin pD) ℝ) (hA : ∀ s, InCell nx ny s → A s ≠ 0) (hA' : ∀ s, InCell nx ny s → A' s ≠ 0)
    (cs : List (Call F 1 pD ℝ)) (cs' : List (Call F' 1 pD ℝ)) (hcs : ∀ c ∈ cs, Sensible nx ny c ∧ KnownNames c)
    (hcs' : ∀ c ∈ cs', Sensible nx ny c ∧ KnownNames c) (h : Site → Matrix (Fin pD) (Fin pD) ℝ) (m : ModelTerms (Fin pD) ℝ)
    (him : Independent nx ny m h) (hh : m.Hermitian) (hi : ∀ e ∈ evolutions cs, Independent nx ny e.model h)
    (hi' : ∀ e ∈ evolutions cs', Independent nx ny e.model h)
    (hs : ∀ s, InCell nx ny s → startVec A' (evolutions cs') s = startVec A (evolutions cs) s)
    (ht : totalTime (evolutions cs) ≤ totalTime (evolutions cs'))
    (model : MeasModel (Fin pD → Fin pD → ℝ) (Fin pD → Fin pD → Fin pD → Fin pD → ℝ)) (hmm : Measures m model)
    (hcl : Meas.Clean model (buildSiteList nx ny) (buildBondList nx ny)) (init init' : Fin pD → Fin pD → Fin pD → Fin pD → ℝ) :
    ∃ d d' E E', (∀ k < D.ws, Session.measure init model ((distRun D cs (distNew D nx ny chi A)).1.view k) = .ok d) ∧ d.get? "Energy" = some E ∧
      (∀ k < D'.ws, Session.measure init' model ((distRun D' cs' (distNew D' nx ny chi' A')).1.view k) = .ok d') ∧ d'.get? "Energy" = some E' ∧ E' ≤ E ∧
      (totalTime (evolutions cs) < totalTime (evolutions cs') → (∃ s, InCell nx ny s ∧ Varies (h s) (startVec A (evolutions cs) s)) → E' < E) := by
  obtain ⟨M, a1, a2, a3⟩ := team_serial hx hy D hD hcx hω hchi A hA cs hcs
    (determined_free hx hy (fun _ => h) _ hi (startVec_ne A hA cs fun c hc => (hcs c hc).1))
  obtain ⟨M', b1, b2, b3⟩ := team_serial hx hy D' hD' hcx' hω' hchi' A' hA' cs' hcs'
    (determined_free hx hy (fun _ => h) _ hi' (startVec_ne A' hA' cs' fun c hc => (hcs' c hc).1))
  obtain ⟨d, d', E, E', e1, e2, e3, e4, e5⟩ := C116_session hx hy M M' a1 b1 a2 b2 hchi hchi' A A' hA hA' cs cs' hcs hcs' h m him hh hi hi' hs ht model
    hmm hcl init init'
  exact ⟨d, d', E, E', fun k hk => (a3 k hk init model).trans e1, e2, fun k hk => (b3 k hk init' model).trans e3, e4, e5⟩

/-- **C118 (the ground state is reached).** If no site begins orthogonal to the ground states of its term, the energy measured on every rank of every team
is as close to the lowest one as one likes when the total time is large, and never below it. -/
theorem C118_reaches (hx : 2 ≤ nx) (hy : 2 ≤ ny) (h : Site → Matrix (Fin pD) (Fin pD) ℝ) (m : ModelTerms (Fin pD) ℝ) (him : Independent nx ny m h)
    (hh : m.Hermitian) (v g : Site → Fin pD → ℝ) (ε : Site → ℝ) (hε : ∀ s, InCell nx ny s → IsGroundEnergy (h s) (ε s))
    (hg : ∀ s, InCell nx ny s → h s *ᵥ g s = ε s • g s) (ho : ∀ s, InCell nx ny s → overlap (g s) (v s) ≠ 0)
    (model : MeasModel (Fin pD → Fin pD → ℝ) (Fin pD → Fin pD → Fin pD → Fin pD → ℝ)) (hmm : Measures m model)
    (hcl : Meas.Clean model (buildSiteList nx ny) (buildBondList nx ny)) :
    ∀ η : ℝ, 0 < η → ∃ T₀ : ℝ, ∀ (F : Type) (D : Team F 1 pD ℝ), D.Works nx ny → D.cx = false → (∀ r < D.ws, DrawsNonzero (D.ω r)) → ∀ chi : ℕ, 0 < chi →
      ∀ (A : Site → ATensor (Fin 1) (Fin pD) ℝ), (∀ s, InCell nx ny s → A s ≠ 0) → ∀ cs : List (Call F 1 pD ℝ),
      (∀ c ∈ cs, Sensible nx ny c ∧ KnownNames c) → (∀ e ∈ evolutions cs, Independent nx ny e.model h) →
      (∀ s, InCell nx ny s → startVec A (evolutions cs) s = v s) → T₀ ≤ totalTime (evolutions cs) → ∀ init,
      ∃ d E, (∀ k < D.ws, Session.measure init model ((distRun D cs (distNew D nx ny chi A)).1.view k) = .ok d) ∧ d.get? "Energy" = some E ∧
        ((buildSiteList nx ny).map ε).sum / (nx * ny : ℕ) ≤ E ∧ E ≤ ((buildSiteList nx ny).map ε).sum / (nx * ny : ℕ) + η := by
  intro η hη
  obtain ⟨T₀, hT⟩ := C116_reaches hx hy h m him hh v g ε hε hg ho model hmm hcl η hη
  refine ⟨T₀, fun F D hD hcx hω chi hchi A hA cs hcs hi hv ht init => ?_⟩
  obtain ⟨M, a1, a2, a3⟩ := team_serial hx hy D hD hcx hω hchi A hA cs hcs
    (determined_free hx hy (fun _ => h) _ hi (startVec_ne A hA cs fun c hc => (hcs c hc).1))
  obtain ⟨d, E, e1, e2⟩ := hT F M a1 a2 chi hchi A hA cs hcs hi hv ht init
  exact ⟨d, E, fun k hk => (a3 k hk init model).trans e1, e2⟩

section builtIn

variable (hx : 2 ≤ nx) (hy : 2 ≤ ny) (D : Team F 1 2 ℝ) (hD : D.Works nx ny) (hcx : D.cx = false) (hω : ∀ r < D.ws, DrawsNonzero (D.ω r))

include hx hy hD hcx hω

/-- **C118 (bounds of the built-in models).** After any script, with whatever models it evolves, every rank measures for the built-in Ising model an
energy at least the lowest one of product states, for the built-in Heisenberg model one between `-|J|/2` and `|J|/2`, and averages in the unit disc. -/
theorem C118_bounds {chi : ℕ} (hchi : 0 < chi) (A : Site → ATensor (Fin 1) (Fin 2) ℝ) (hA : ∀ s, InCell nx ny s → A s ≠ 0)
    (cs : List (Call F 1 2 ℝ)) (hcs : ∀ c ∈ cs, Sensible nx ny c ∧ KnownNames c) (init : Fin 2 → Fin 2 → Fin 2 → Fin 2 → ℝ) :
    let r := distRun D cs (distNew D nx ny chi A)
    (∀ (params : PyDict String ℝ) (jz h : ℝ), params.get? "jz" = some jz → params.get? "hx" = some h →
      ∃ model d E mx mz, Pauli.isingMeas params = .ok model ∧ (∀ k < D.ws, Session.measure init model (r.1.view k) = .ok d) ∧
        d.get? "Energy" = some E ∧ d.get? "sx" = some mx ∧ d.get? "sz" = some mz ∧ isingMeanField jz h ≤ E ∧ mx ^ 2 + mz ^ 2 ≤ 1) ∧
      ∀ (params : PyDict String ℝ) (J : ℝ), params.get? "J" = some J →
        ∃ model d E mx mz, Pauli.heisenbergMeas params = .ok model ∧ (∀ k < D.ws, Session.measure init model (r.1.view k) = .ok d) ∧
          d.get? "Energy" = some E ∧ d.get? "sx" = some mx ∧ d.get? "sz" = some mz ∧ |E| ≤ |J| / 2 ∧ mx ^ 2 + mz ^ 2 ≤ 1 := by
  intro r
  have h1 := (team_run hx hy D hD hcx hω hchi A hA cs hcs).1
  have hv : ∀ k < D.ws, r.1.view k = r.1.view 0 := fun k hk => by
    unfold Ranks.view
    rw [show r.1.nets k = r.1.nets 0 from h1.1 k hk]
  constructor
  · intro params jz h hj hh
    obtain ⟨model, d, E, mx, mz, e1, e2, e3⟩ := ising_bound_of hx hy h1.2 params hj hh init
    exact ⟨model, d, E, mx, mz, e1, fun k hk => by rw [hv k hk]; exact e2, e3⟩
  · intro params J hJ
    obtain ⟨model, d, E, mx, mz, e1, e2, e3⟩ := heisenberg_bound_of hx hy h1.2 params hJ init
    exact ⟨model, d, E, mx, mz, e1, fun k hk => by rw [hv k hk]; exact e2, e3⟩

/-- **C118 (paramagnet).** The Ising model without coupling, from spins up, on every rank. -/
theorem C118_paramagnet {chi : ℕ} (hchi : 0 < chi)
    (A : Site → ATensor (Fin 1) (Fin 2) ℝ) (hA : ∀ s, InCell nx ny s → A s 0 0 0 0 = ![1, 0]) (cs : List (Call F 1 2 ℝ))
    (hcs : ∀ c ∈ cs, Sensible nx ny c ∧ KnownNames c) (params : PyDict String ℝ) {h : ℝ} (hj : params.get? "jz" = some 0)
    (hh : params.get? "hx" = some h) (hm : ∀ e ∈ evolutions cs, Pauli.isingTerms params = .ok e.model)
    (hs : ∀ e ∈ evolutions cs, ∀ s, InCell nx ny s → e.start s 0 0 0 0 = ![1, 0]) (init : Fin 2 → Fin 2 → Fin 2 → Fin 2 → ℝ) :
    let T := ((evolutions cs).map fun e => (e.steps : ℝ) * e.dtau).sum
    ∃ model d, Pauli.isingMeas params = .ok model ∧
      (∀ k < D.ws, Session.measure init model ((distRun D cs (distNew D nx ny chi A)).1.view k) = .ok d) ∧
      d.get? "Energy" = some (-h * Real.tanh (2 * h * T)) ∧ d.get? "sx" = some (Real.tanh (2 * h * T)) ∧
      d.get? "sz" = some (1 / Real.cosh (2 * h * T)) := by
  intro T
  have hA0 : ∀ s, InCell nx ny s → A s ≠ 0 := fun s hsc => tensor_ne (hA s hsc) fun h0 => one_ne_zero (congrFun h0 0)
  have hi : ∀ e ∈ evolutions cs, Independent nx ny e.model fun _ => (-h) • sigmaX := fun e he => by
    have := hm e he
    rw [(C114_ising_terms hj hh).1] at this
    rw [← Except.ok.inj this]
    exact ⟨fun _ _ => by simp, fun _ _ => rfl⟩
  obtain ⟨M, a1, a2, a3⟩ := team_serial hx hy D hD hcx hω hchi A hA0 cs hcs
    (determined_free hx hy (fun _ _ => (-h) • sigmaX) _ hi (startVec_ne A hA0 cs fun c hc => (hcs c hc).1))
  obtain ⟨model, d, e1, e2, e3⟩ := C114_paramagnet hx hy M a1 a2 hchi A hA cs hcs params hj hh hm hs init
  exact ⟨model, d, e1, fun k hk => (a3 k hk init model).trans e2, e3⟩

/-- **C118 (Néel state).** The Heisenberg model from its own initial state on every rank, now with both kinds of projectors. -/
theorem C118_neel {chi : ℕ} (hchi : 0 < chi) (A : Site → ATensor (Fin 1) (Fin 2) ℝ) (hA : ∀ s, InCell nx ny s → A s 0 0 0 0 = neel s)
    (cs : List (Call F 1 2 ℝ)) (hcs : ∀ c ∈ cs, Sensible nx ny c ∧ KnownNames c)
    (hm : ∀ e ∈ evolutions cs, ∃ params, Pauli.heisenbergTerms params = .ok e.model)
    (hs : ∀ e ∈ evolutions cs, ∀ s, InCell nx ny s → e.start s 0 0 0 0 = neel s) (params : PyDict String ℝ) {J : ℝ}
    (hJ : params.get? "J" = some J) (init : Fin 2 → Fin 2 → Fin 2 → Fin 2 → ℝ) :
    ∃ model d, Pauli.heisenbergMeas params = .ok model ∧
      (∀ k < D.ws, Session.measure init model ((distRun D cs (distNew D nx ny chi A)).1.view k) = .ok d) ∧
      d.get? "Energy" = some (J / 4 * ((buildBondList nx ny).map bondSign).sum / (nx * ny)) ∧ d.get? "sx" = some 0 ∧ d.get? "sz" = some 1 := by
  have hA0 : ∀ s, InCell nx ny s → A s ≠ 0 := fun s hsc => tensor_ne (hA s hsc) (by rw [neel_spin]; exact spinVec_ne _)
  obtain ⟨M, a1, a2, a3⟩ := team_serial hx hy D hD hcx hω hchi A hA0 cs hcs (determined_neel _ hm (startVec_of A _ neel hA hs))
  obtain ⟨model, d, e1, e2, e3⟩ := C114_neel hx hy M a1 a2 hchi A hA cs hcs hm hs params hJ init
  exact ⟨model, d, e1, fun k hk => (a3 k hk init model).trans e2, e3⟩

end builtIn

/-! ### The hypotheses are met -/

/-- Non-vacuity: two teams with different solvers, libraries, boundary dimensions, time steps and numbers of steps, spins across a field: the longer evolution has the lower energy. -/
example (hx : 2 ≤ nx) (hy : 2 ≤ ny) (la la' : Lapack ℝ) (fo : Als.FloatOps ℝ) (svd svd' : String) (n n' : ℕ) (dtau dtau' : ℝ)
    (ht : n * dtau < n' * dtau') (init : Fin 2 → Fin 2 → Fin 2 → Fin 2 → ℝ) :
    let D : Team ℝ 1 2 ℝ := ⟨2, la, fo, id, fun _ _ _ _ _ _ _ _ => 1, false, fun _ A => A⟩
    let D' : Team ℝ 1 2 ℝ := ⟨2, la', fo, id, fun _ _ _ _ _ _ _ _ => 1, false, fun _ A => A⟩
    ∃ d d' E E', (∀ k < 2, Session.measure init fieldMeas ((distRun D (exampleScript svd .pinv 4 n dtau fieldTerms fieldTerms)
        (distNew D nx ny 3 fun s => (plusNet s).A)).1.view k) = .ok d) ∧ d.get? "Energy" = some E ∧
      (∀ k < 2, Session.measure init fieldMeas ((distRun D' (exampleScript svd' .cholesky 2 n' dtau' fieldTerms fieldTerms)
        (distNew D' nx ny 5 fun s => (plusNet s).A)).1.view k) = .ok d') ∧ d'.get? "Energy" = some E' ∧ E' < E := by
  intro D D'
  have ht2 : (2 : ℝ) * (n * dtau) < 2 * (n' * dtau') := by linarith
  have w : D.Works nx ny := ⟨le_rfl, Or.inl rfl, Or.inl rfl, fun _ _ _ => rfl⟩
  have w' : D'.Works nx ny := ⟨le_rfl, Or.inl rfl, Or.inl rfl, fun _ _ _ => rfl⟩
  obtain ⟨d, d', E, E', h1, h2, h3, h4, -, h6⟩ := C118_cooling hx hy D D' w w' rfl rfl (fun _ _ => ones_drawn) (fun _ _ => ones_drawn)
    (Nat.succ_pos 2) (Nat.succ_pos 4)
    (fun s => (plusNet s).A) (fun s => (plusNet s).A) (fun s _ => plusNet_ne s) (fun s _ => plusNet_ne s)
    (exampleScript svd .pinv 4 n dtau fieldTerms fieldTerms) (exampleScript svd' .cholesky 2 n' dtau' fieldTerms fieldTerms)
    (exampleScript_ok _ _ _ _ _ _ _) (exampleScript_ok _ _ _ _ _ _ _) (fun _ => Matrix.diagonal fun p => if p = 0 then 1 else -1) fieldTerms
    ⟨fun _ _ => rfl, fun _ _ => rfl⟩ fieldTerms_hermitian exampleScript_field exampleScript_field (fun s _ => rfl)
    (by rw [exampleScript_time, exampleScript_time]; exact ht2.le) fieldMeas ⟨fun _ => rfl, fun _ => rfl⟩ (fieldMeas_clean _ _) init init
  refine ⟨d, d', E, E', h1, h2, h3, h4, h6 ?_ ⟨(0, 0), ⟨by omega, by omega⟩, field_varies (0, 0)⟩⟩
  rw [exampleScript_time, exampleScript_time]
  exact ht2

/-- Non-vacuity: two ranks with the Heisenberg model and the default projectors, on every cell. -/
example (hx : 2 ≤ nx) (hy : 2 ≤ ny) (la : Lapack ℝ) (fo : Als.FloatOps ℝ) (svd : String) (method : Als.Solver) (n : ℕ) (dtau J : ℝ)
    (init : Fin 2 → Fin 2 → Fin 2 → Fin 2 → ℝ) :
    let D : Team ℝ 1 2 ℝ := ⟨2, la, fo, id, fun _ _ _ _ _ _ _ _ => 1, false, fun _ A => A⟩
    ∃ m model d, Pauli.heisenbergTerms [("J", J)] = .ok m ∧ Pauli.heisenbergMeas [("J", J)] = .ok model ∧
      (∀ k < 2, Session.measure init model ((distRun D (startScript svd method n dtau (fun s _ _ _ _ => neel s) m)
        (distNew D nx ny 3 fun s _ _ _ _ => neel s)).1.view k) = .ok d) ∧ d.get? "sz" = some 1 := by
  intro D
  have hJ : PyDict.get? [("J", J)] "J" = some J := by simp [PyDict.get?]
  obtain ⟨model, d, h1, h2, -, -, h3⟩ := C118_neel (nx := nx) (ny := ny) hx hy D ⟨le_rfl, Or.inl rfl, Or.inl rfl, fun _ _ _ => rfl⟩ rfl (fun _ _ => ones_drawn)
    (Nat.succ_pos 2) (fun s _ _ _ _ => neel s) (fun _ _ => rfl) (startScript svd method n dtau (fun s _ _ _ _ => neel s) _)
    (startScript_ok _ _ _ _ _ neel_tensor_ne _) (fun e he => by
      simp only [startScript, evolutions, List.mem_cons, List.not_mem_nil, or_false] at he
      rcases he with rfl | rfl
      · exact ⟨_, (C114_heisenberg_terms hJ).1⟩
      · exact ⟨_, (C114_heisenberg_terms hJ).1⟩) (fun e he => by
      simp only [startScript, evolutions, List.mem_cons, List.not_mem_nil, or_false] at he
      rcases he with rfl | rfl
      · exact fun _ _ => rfl
      · exact fun _ _ => rfl) [("J", J)] hJ init
  exact ⟨_, model, d, (C114_heisenberg_terms hJ).1, h1, h2, h3⟩

end AceTN
