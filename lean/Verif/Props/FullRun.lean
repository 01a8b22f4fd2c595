import Verif.Lemmas.FullWired
import Verif.Props.GroundState
import Verif.Props.Patch

/-!
# C86: whole runs of the full update evolve the state of the lattice

Programs that initialise the boundary tensors, sweep the renormalization, evolve with the full update, where every bond update is followed
by the moves that absorb the bond, sweep again and measure.
-/

set_option autoImplicit false

namespace AceTN

open Spec Full

section inv

variable {S : Type} {upd : S → Bond → S × Option PyErr} (I : S → Prop) (M : Bond → Prop)

theorem bondPass_inv (hI : ∀ s b, M b → I s → I (upd s b).1) (l : List Bond) (hl : ∀ b ∈ l, M b) (s : S) (h : I s) : I (bondPass upd l s).1 := by
  induction l generalizing s with
  | nil => exact h
  | cons b l ih =>
    have h1 := hI s b (hl b List.mem_cons_self) h
    unfold bondPass
    cases hu : upd s b with
    | mk s' e =>
      rw [hu] at h1
      cases e with
      | some e => exact h1
      | none => exact ih (fun b' h' => hl b' (List.mem_cons_of_mem _ h')) s' h1

theorem evolveLoop_inv (hI : ∀ s b, M b → I s → I (upd s b).1) (n : ℕ) (bl : List Bond) (hl : ∀ b ∈ bl, M b) (s : S) (h : I s) :
    I (evolveLoop upd n bl s).2.1 := by
  induction n generalizing bl s with
  | zero => exact h
  | succ n ih =>
    have h1 := bondPass_inv I M hI bl hl s h
    unfold evolveLoop
    cases hu : bondPass upd bl s with
    | mk s' e =>
      rw [hu] at h1
      cases e with
      | some e => exact h1
      | none => exact ih bl.reverse (fun b hb => hl b (List.mem_reverse.1 hb)) s' h1

theorem bondPass_noraise (hI : ∀ s b, M b → I s → I (upd s b).1 ∧ (upd s b).2 = none) (l : List Bond) (hl : ∀ b ∈ l, M b) (s : S)
    (h : I s) : (bondPass upd l s).2 = none := by
  induction l generalizing s with
  | nil => rfl
  | cons b l ih =>
    obtain ⟨h1, h2⟩ := hI s b (hl b List.mem_cons_self) h
    unfold bondPass
    cases hu : upd s b with
    | mk s' e =>
      rw [hu] at h1 h2
      cases h2
      exact ih (fun b' h' => hl b' (List.mem_cons_of_mem _ h')) s' h1

theorem evolveLoop_noraise (hI : ∀ s b, M b → I s → I (upd s b).1 ∧ (upd s b).2 = none) (n : ℕ) (bl : List Bond) (hl : ∀ b ∈ bl, M b) (s : S)
    (h : I s) : (evolveLoop upd n bl s).2.2 = none := by
  induction n generalizing bl s with
  | zero => rfl
  | succ n ih =>
    have h1 := bondPass_inv I M (fun s b hb h => (hI s b hb h).1) bl hl s h
    have h2 := bondPass_noraise I M hI bl hl s h
    unfold evolveLoop
    cases hu : bondPass upd bl s with
    | mk s' e =>
      rw [hu] at h1 h2
      cases h2
      exact ih bl.reverse (fun b hb => hl b (List.mem_reverse.1 hb)) s' h1

end inv

variable {𝕜 F : Type} [RCLike 𝕜] {bD pD nx ny N : ℕ}

/-- All density matrices of a network can be built. -/
def Spec.Readable (nx ny : ℕ) (net : Net (Ten (Fin bD) (Fin pD) 𝕜)) : Prop :=
  (∀ s, InCell nx ny s → ∃ ρ, numSiteRdm net s = .ok ρ) ∧
    ∀ b ∈ buildBondList nx ny, ∀ init, ∃ ρ, numBondRdm init net b = .ok ρ

/-- A network of a cell whose tensors fit together. -/
def FitNet (nx ny : ℕ) (net : Net (Ten (Fin bD) (Fin pD) 𝕜)) : Prop := net.nx = nx ∧ net.ny = ny ∧ ∃ f, Wired net f

theorem FitNet.readable {net : Net (Ten (Fin bD) (Fin pD) 𝕜)} (h : FitNet nx ny net) (hx : 0 < nx) (hy : 0 < ny) : Readable nx ny net := by
  obtain ⟨rfl, rfl, f, hw⟩ := h
  refine ⟨fun s hs => ?_, fun b hb init => ?_⟩
  · have e := numSiteRdm_eq hw hx hy (atLattice s)
    rw [show cellSite _ _ (atLattice s) = s from cellSite_self _ _ s hs] at e
    exact ⟨_, e⟩
  · obtain ⟨p, K, rfl⟩ := bond_cellSite hx hy hb
    exact ⟨_, numBondRdm_eq hw hx hy init p K⟩

theorem FitNet.sweeps {net : Net (Ten (Fin bD) (Fin pD) 𝕜)} (h : FitNet nx ny net) (hx : 0 < nx) (hy : 0 < ny) (st : ProjSettings 𝕜)
    (pk : ProjKind) (ω : ℕ → Draws (Fin bD) 𝕜) (t k : ℕ) :
    ∃ n, ctmrgDrawn st pk ω t k net = .ok n ∧ FitNet nx ny n ∧ n.A = net.A := by
  obtain ⟨rfl, rfl, f, hw⟩ := h
  obtain ⟨n, f', e, h1, h2, h3, h4⟩ := wired_run st pk ω (AceTN.sweeps net.nx net.ny k) t net f hw hx hy
    (fun m hm => valid_of_range m (sweeps_range hx hy k m hm))
  exact ⟨n, (ctmrgDrawn_eq st pk ω k t net).trans e, ⟨h2, h3, f', h1⟩, h4⟩

theorem fitNet_fresh (hx : 0 < nx) (hy : 0 < ny) (chi : ℕ) (A : Site → ATensor (Fin bD) (Fin pD) 𝕜) : FitNet nx ny (freshNet nx ny chi A) :=
  ⟨rfl, rfl, _, fresh_wired A hx hy⟩

section returns

variable [NeZero bD] [NeZero pD]

theorem FitNet.step {s : Net (Ten (Fin bD) (Fin pD) 𝕜) × ℕ} (h : FitNet nx ny s.1) (hx : 0 < nx) (hy : 0 < ny) (st : ProjSettings 𝕜)
    (pk : ProjKind) (ω : ℕ → Draws (Fin bD) 𝕜) (la : Lapack 𝕜) (fo : Als.FloatOps F) (rep : ℝ → F) (cfg : Settings F)
    (oneSite : Option (Site → Fin pD → Fin pD → 𝕜)) (gates : Bond → Fin pD → Fin pD → Fin pD → Fin pD → 𝕜) {b : Bond}
    (hb : b ∈ buildBondList nx ny) :
    FitNet nx ny (fullBondStep st pk ω la fo rep cfg oneSite gates s b).1.1 ∧
      (cfg.als_method = .pinv → (fullBondStep st pk ω la fo rep cfg oneSite gates s b).2 = none) := by
  obtain ⟨rfl, rfl, f, hw⟩ := h
  obtain ⟨h1, h2, h3, h4⟩ := fullBondStep_wired st pk ω la fo rep cfg oneSite gates s hw hx hy hb
  refine ⟨⟨h2, h3, h1⟩, fun hm => ?_⟩
  obtain ⟨q, hq⟩ := numUpdate_returns hw hx hy hb la fo rep cfg hm oneSite gates
  rw [hq] at h4
  exact h4.1

/-- **C86 (programs return).** Every cell, all tensors of real or complex numbers, every model and time step, every library, all settings: a
program that initialises the boundary tensors, sweeps, evolves with the full update, sweeps again and measures can read all density
matrices, also if the evolution has stopped with an exception; with the pseudo-inverse as solver it does not stop with one. -/
theorem C86_returns (hx : 0 < nx) (hy : 0 < ny) (st : ProjSettings 𝕜) (pk : ProjKind) (ω : ℕ → Draws (Fin bD) 𝕜) (la : Lapack 𝕜)
    (fo : Als.FloatOps F) (rep : ℝ → F) (cfg : Settings F) (oneSite : Option (Site → Fin pD → Fin pD → 𝕜))
    (gates : Bond → Fin pD → Fin pD → Fin pD → Fin pD → 𝕜) (bl : List Bond) (hbl : bl.Perm (buildBondList nx ny)) (chi : ℕ)
    (A : Site → ATensor (Fin bD) (Fin pD) 𝕜) (k n k' t t' t'' : ℕ) :
    ∃ net net', ctmrgDrawn st pk ω t k (freshNet nx ny chi A) = .ok net ∧
      ctmrgDrawn st pk ω t'' k' (fullEvolve st pk ω la fo rep cfg oneSite gates n (bl, net, t')).2.1.1 = .ok net' ∧
      Readable nx ny net' ∧
      (cfg.als_method = .pinv → (fullEvolve st pk ω la fo rep cfg oneSite gates n (bl, net, t')).2.2 = none) := by
  obtain ⟨net, e, h, -⟩ := (fitNet_fresh hx hy chi A).sweeps hx hy st pk ω t k
  have hl : ∀ b ∈ bl, b ∈ buildBondList nx ny := fun b hb => hbl.mem_iff.1 hb
  have h' : FitNet nx ny (fullEvolve st pk ω la fo rep cfg oneSite gates n (bl, net, t')).2.1.1 :=
    evolveLoop_inv (fun s : Net (Ten (Fin bD) (Fin pD) 𝕜) × ℕ => FitNet nx ny s.1) (· ∈ buildBondList nx ny)
      (fun s b hb hs => (hs.step hx hy st pk ω la fo rep cfg oneSite gates hb).1) n bl hl (net, t') h
  obtain ⟨net', e', h'', -⟩ := h'.sweeps hx hy st pk ω t'' k'
  refine ⟨net, net', e, e', h''.readable hx hy, fun hm => ?_⟩
  exact evolveLoop_noraise (fun s : Net (Ten (Fin bD) (Fin pD) 𝕜) × ℕ => FitNet nx ny s.1) (· ∈ buildBondList nx ny)
    (fun s b hb hs => ⟨(hs.step hx hy st pk ω la fo rep cfg oneSite gates hb).1, (hs.step hx hy st pk ω la fo rep cfg oneSite gates hb).2 hm⟩)
    n bl hl (net, t') h

end returns

section bare

variable {B P : Type}

/-- The site tensors of a network with boundary tensors of any dimensions. -/
def Spec.bare (net : Net (Ten B P 𝕜)) : NetT B P Unit 𝕜 := fun s =>
  { A := match net.A s with
      | .site a => a
      | _ => fun _ _ _ _ _ => 0
    C := fun _ _ _ => 0
    E := fun _ _ _ _ _ => 0 }

theorem bare_A {net : Net (Ten B P 𝕜)} {s : Site} {a : ATensor B P 𝕜} (h : net.A s = .site a) : (bare net s).A = a := by
  show (match net.A s with | .site a => a | _ => fun _ _ _ _ _ => 0) = a
  rw [h]

theorem bare_congr {net net' : Net (Ten B P 𝕜)} {s : Site} (h : net.A s = net'.A s) : (bare net s).A = (bare net' s).A := by
  show (match net.A s with | .site a => a | _ => fun _ _ _ _ _ => 0) = (match net'.A s with | .site a => a | _ => fun _ _ _ _ _ => 0)
  rw [h]

end bare

section exact

variable [NeZero bD] [NeZero pD]

/-- What a bond update of a run needs to be exact: the gate-applied two-site tensor fits in the bond dimension, and the solver does not raise
unless it is the pseudo-inverse (which never does). -/
def Spec.RunFits (st : ProjSettings ℝ) (pk : ProjKind) (ω : ℕ → Draws (Fin bD) ℝ) (la : Lapack ℝ) (fo : Als.FloatOps F) (rep : ℝ → F)
    (cfg : Settings F) (m : ModelTerms (Fin pD) ℝ) (dtau : ℝ) (s : Net (Ten (Fin bD) (Fin pD) ℝ) × ℕ) (b : Bond) : Prop :=
  Fits (gated (twoSiteGate m dtau b) (bondTensor (bare s.1) b)) ∧
    (cfg.als_method ≠ .pinv → (fullBondStep st pk ω la fo rep cfg none (twoSiteGate m dtau) s b).2 = none)

/-- One bond with its absorbing moves. -/
theorem fullBondStep_exact (hx : 2 ≤ nx) (hy : 2 ≤ ny) (st : ProjSettings ℝ) (pk : ProjKind) (ω : ℕ → Draws (Fin bD) ℝ) (la : Lapack ℝ)
    (fo : Als.FloatOps F) (rep : ℝ → F) (cfg : Settings F) (he : cfg.als_epsilon = 0) (hcut : 0 < cfg.positive_approx_cutoff)
    (hatol : cfg.gauge_fix_atol < Real.sqrt cfg.positive_approx_cutoff) (m : ModelTerms (Fin pD) ℝ) (dtau : ℝ)
    (s : Net (Ten (Fin bD) (Fin pD) ℝ) × ℕ) (h : FitNet nx ny s.1) {b : Bond} (hb : b ∈ buildBondList nx ny)
    (h0 : bondTensor (bare s.1) b ≠ 0) (hfit : RunFits st pk ω la fo rep cfg m dtau s b) :
    ExactStep (twoSiteGate m dtau) (fun s => siteTensors (bare s.1)) (fullBondStep st pk ω la fo rep cfg none (twoSiteGate m dtau)) s b := by
  have hne := bond_ends_distinct nx ny hx hy b hb
  have hok : (fullBondStep st pk ω la fo rep cfg none (twoSiteGate m dtau) s b).2 = none := by
    by_cases hm : cfg.als_method = .pinv
    · exact (h.step (by omega) (by omega) st pk ω la fo rep cfg none _ hb).2 hm
    · exact hfit.2 hm
  refine ⟨hok, ?_⟩
  obtain ⟨rfl, rfl, f, hw⟩ := h
  have hx0 : 0 < s.1.nx := by omega
  have hy0 : 0 < s.1.ny := by omega
  obtain ⟨c1, c2⟩ := C02_bond_ends_in_cell _ _ b hb
  rw [mem_buildSiteList] at c1 c2
  obtain ⟨a1, h1⟩ := hw.site _ c1
  obtain ⟨a2, h2⟩ := hw.site _ c2
  have h4 := (fullBondStep_wired st pk ω la fo rep cfg none (twoSiteGate m dtau) s hw hx0 hy0 hb).2.2.2
  obtain ⟨n12, hn⟩ := numTensorUpdate_wired hw hx0 hy0 hb la fo rep cfg (twoSiteGate m dtau b) (bondPermute b.k a1) (bondPermute b.k a2)
  have hu : numUpdate la fo rep cfg none (twoSiteGate m dtau) s.1 b =
      (numTensorUpdate la fo rep cfg s.1 b (twoSiteGate m dtau b) (bondPermute b.k a1) (bondPermute b.k a2)).map fun r => do
        let (a1, a2) ← r
        return (bondPermute (4 - (b.k : ℤ)) a1, bondPermute (4 - (b.k : ℤ)) a2) := by
    unfold numUpdate
    rw [h1, h2]
  have hT : bondTensor (bare s.1) b = twoSite (bondPermute b.k a1) (bondPermute b.k a2) := by
    unfold bondTensor
    rw [bare_A h1, bare_A h2]
  rw [hn] at hu
  cases hr : (updateReduced la fo rep cfg bD_le (decompose la (bondPermute b.k a1) (bondPermute b.k a2)).a1r
      (decompose la (bondPermute b.k a1) (bondPermute b.k a2)).a2r n12 (twoSiteGate m dtau b)) with
  | none =>
    rw [hr] at hu
    rw [show numUpdate la fo rep cfg none (twoSiteGate m dtau) s.1 b = none from hu] at h4
    exact absurd hok h4.1
  | some r =>
  cases r with
  | error e =>
    rw [hr] at hu
    rw [show numUpdate la fo rep cfg none (twoSiteGate m dtau) s.1 b = some (.error e) from hu] at h4
    exact absurd hok h4.1
  | ok p =>
  obtain ⟨x1, x2, hx1, hx2⟩ : ∃ x1 x2, ((some (Except.ok p)).map fun r : Except PyErr _ => do
      let p ← r
      let (a1, a2) := recompose (decompose la (bondPermute b.k a1) (bondPermute b.k a2)).a1q p.1
        (decompose la (bondPermute b.k a1) (bondPermute b.k a2)).a2q p.2
      return (normalise a1, normalise a2)) = some (Except.ok (x1, x2)) ∧
      numUpdate la fo rep cfg none (twoSiteGate m dtau) s.1 b =
        some (.ok (bondPermute (4 - (b.k : ℤ)) x1, bondPermute (4 - (b.k : ℤ)) x2)) := by
    refine ⟨_, _, rfl, ?_⟩
    rw [hu, hr]
    rfl
  obtain ⟨κ, hκ, hx⟩ := recomposed_exact la fo rep cfg n12 (twoSiteGate m dtau b) (bondPermute b.k a1) (bondPermute b.k a2) x1 x2 he hcut hatol
    (hT ▸ hfit.1) (gated_ne_zero_of m dtau b _ (hT ▸ h0)) (by rw [hr]; exact hx1)
  rw [hx2] at h4
  have hA := h4.2
  dsimp only at hA
  have hA' : ∀ s' : Site, (fullBondStep st pk ω la fo rep cfg none (twoSiteGate m dtau) s b).1.1.A s' =
      if s' = b.s2 then .site (bondPermute (4 - (b.k : ℤ)) x2) else if s' = b.s1 then .site (bondPermute (4 - (b.k : ℤ)) x1) else s.1.A s' :=
    fun s' => congrFun hA s'
  have hback : ∀ c : ATensor (Fin bD) (Fin pD) ℝ, bondPermute b.k (bondPermute (4 - b.k) c) = c := fun c => by
    rw [bondPermute_add, bondPermute_mod _ 0 (by omega), bondPermute_zero]
  refine ⟨κ, hκ, exactBond_of_bondTensor _ _ _ b _ (fun s' h1 h2 => ?_) fun u r d l' u' d' p q => ?_⟩
  · refine bare_congr ?_
    rw [hA' s', if_neg h2, if_neg h1]
  · have e1 := bare_A ((hA' b.s1).trans ((if_neg hne).trans (if_pos rfl)))
    have e2 := bare_A ((hA' b.s2).trans (if_pos rfl))
    rw [hT, show (((κ : ℝ) : ℝ)) = κ from rfl] at *
    unfold bondTensor
    rw [e1, e2, hback, hback]
    exact hx u r d l' u' d' p q

theorem runFits_exact [NeZero N] (hx : 2 ≤ nx) (hy : 2 ≤ ny) (σ : Bond → Equiv.Perm (Fin N)) (st : ProjSettings ℝ) (pk : ProjKind)
    (ω : ℕ → Draws (Fin bD) ℝ) (la : Lapack ℝ)
    (fo : Als.FloatOps F) (rep : ℝ → F) (cfg : Settings F) (he : cfg.als_epsilon = 0) (hcut : 0 < cfg.positive_approx_cutoff)
    (hatol : cfg.gauge_fix_atol < Real.sqrt cfg.positive_approx_cutoff) (m : ModelTerms (Fin pD) ℝ) (dtau : ℝ)
    (l : List Bond) (hl : ∀ b ∈ l, b ∈ buildBondList nx ny)
    (s : Net (Ten (Fin bD) (Fin pD) ℝ) × ℕ) (h : FitNet nx ny s.1)
    (hs : latticeState (nx := nx) (ny := ny) σ (siteTensors (bare s.1)) ≠ 0)
    (hf : Along (RunFits st pk ω la fo rep cfg m dtau) (fullBondStep st pk ω la fo rep cfg none (twoSiteGate m dtau)) l s) :
    ExactRun (twoSiteGate m dtau) (fun s => siteTensors (bare s.1)) (fullBondStep st pk ω la fo rep cfg none (twoSiteGate m dtau)) l s := by
  refine exactRun_of hx hy σ m dtau (fun s : Net (Ten (Fin bD) (Fin pD) ℝ) × ℕ => bare s.1) _
    (fun s b => FitNet nx ny s.1 ∧ RunFits st pk ω la fo rep cfg m dtau s b)
    (fun s b hb hQ h0 => fullBondStep_exact hx hy st pk ω la fo rep cfg he hcut hatol m dtau s hQ.1 hb h0 hQ.2) l hl s hs ?_
  clear hs
  induction l generalizing s with
  | nil => trivial
  | cons b l ih =>
    exact ⟨⟨h, hf.1⟩, ih (fun b' h' => hl b' (List.mem_cons_of_mem _ h')) _
      (h.step (by omega) (by omega) st pk ω la fo rep cfg none _ (hl b List.mem_cons_self)).1 hf.2⟩

/-- **C86 (evolution).** Real dtypes, solver without regularisation: on every finite lattice covering the cell, for every model with one-site
terms everywhere or nowhere and every total time there is a constant such that every program as above, whatever its boundary tensors,
projectors and random draws are, in which the gate-applied two-site tensors fit in the bond dimension, does not raise and leaves site tensors
whose state is the initial one evolved in imaginary time, up to a positive factor and an error of second order in the time step.  The
sweeps and measurements that follow do not raise and do not touch the site tensors. -/
theorem C86_evolution [NeZero N] (hx : 2 ≤ nx) (hy : 2 ≤ ny) (σ : Bond → Equiv.Perm (Fin N)) (m : ModelTerms (Fin pD) ℝ)
    (hm : (∀ s, InCell nx ny s → (m.one s).isSome) ∨ (∀ s, InCell nx ny s → m.one s = none)) (T : ℝ) :
    ∃ K : ℝ, ∀ (F : Type) (st : ProjSettings ℝ) (pk : ProjKind) (ω : ℕ → Draws (Fin bD) ℝ) (la : Lapack ℝ) (fo : Als.FloatOps F) (rep : ℝ → F)
      (cfg : Settings F), cfg.als_epsilon = 0 → 0 < cfg.positive_approx_cutoff →
      cfg.gauge_fix_atol < Real.sqrt cfg.positive_approx_cutoff →
      ∀ (bl : List Bond), bl = buildBondList nx ny ∨ bl = (buildBondList nx ny).reverse →
      ∀ (n : ℕ) (dtau : ℝ), 0 ≤ dtau → n * dtau ≤ T → ∀ (chi : ℕ) (A : Site → ATensor (Fin bD) (Fin pD) ℝ),
      latticeState (nx := nx) (ny := ny) σ A ≠ 0 → ∀ k k' t t' t'' : ℕ,
      ∃ net, ctmrgDrawn st pk ω t k (freshNet nx ny chi A) = .ok net ∧
      (Along (RunFits st pk ω la fo rep cfg m dtau) (fullBondStep st pk ω la fo rep cfg none (twoSiteGate m dtau)) (schedule n bl) (net, t') →
      let r := fullEvolve st pk ω la fo rep cfg none (twoSiteGate m dtau) n (bl, net, t')
      r.2.2 = none ∧ ∃ net', ctmrgDrawn st pk ω t'' k' r.2.1.1 = .ok net' ∧ Readable nx ny net' ∧
        EvolvedTo hx hy σ m (bare (freshNet nx ny chi A)) (bare net') (n * dtau) (K * dtau ^ 2)) := by
  obtain ⟨K, hK⟩ := C76_imaginary_time (B := Fin bD) hx hy σ m hm T
  refine ⟨K, fun F st pk ω la fo rep cfg he hcut hatol bl hbl n dtau hd hT chi A hA k k' t t' t'' => ?_⟩
  have hmem : ∀ b ∈ bl, b ∈ buildBondList nx ny := by
    rcases hbl with rfl | rfl
    · exact fun _ h => h
    · exact fun _ h => List.mem_reverse.1 h
  have hx0 : 0 < nx := by omega
  have hy0 : 0 < ny := by omega
  obtain ⟨net, e, h, hnA⟩ := (fitNet_fresh hx0 hy0 chi A).sweeps hx0 hy0 st pk ω t k
  refine ⟨net, e, fun hfit => ?_⟩
  intro r
  have hbare : siteTensors (bare net) = A := by
    funext s
    exact bare_A ((congrFun hnA s).trans rfl)
  have hrun := runFits_exact hx hy σ st pk ω la fo rep cfg he hcut hatol m dtau (schedule n bl) (fun b hb => hmem b (mem_schedule hb)) (net, t') h
    (by rw [hbare]; exact hA) hfit
  obtain ⟨h1, κ, hκ, h2⟩ := hK _ _ _ bl hbl n dtau hd hT (net, t') hrun
  have h' : FitNet nx ny r.2.1.1 :=
    evolveLoop_inv (fun s : Net (Ten (Fin bD) (Fin pD) ℝ) × ℕ => FitNet nx ny s.1) (· ∈ buildBondList nx ny)
      (fun s b hb hs => (hs.step hx0 hy0 st pk ω la fo rep cfg none _ hb).1) n bl hmem (net, t') h
  obtain ⟨net', e', h'', hA'⟩ := h'.sweeps hx0 hy0 st pk ω t'' k'
  refine ⟨h1, net', e', h''.readable hx0 hy0, κ, hκ, ?_⟩
  have hb' : siteTensors (bare net') = siteTensors (bare r.2.1.1) := by
    funext s
    exact bare_congr (congrFun hA' s)
  have hb0 : siteTensors (bare (freshNet nx ny chi A)) = siteTensors (bare net) := hbare.symm
  rw [hb', hb0]
  refine le_trans (le_of_eq ?_) h2
  refine congrArg stateNorm ?_
  refine congrArg₂ _ ?_ ?_
  · rfl
  · with_reducible rfl

/-- **C86 (ground state).** Such programs end, for a Hermitian model and a start that is not orthogonal to the ground states, as close to a
ground state of the lattice as one likes if the total time is large and the time step small enough. -/
theorem C86_ground [NeZero N] (hx : 2 ≤ nx) (hy : 2 ≤ ny) (σ : Bond → Equiv.Perm (Fin N)) (m : ModelTerms (Fin pD) ℝ)
    (hh : m.Hermitian) (hm : (∀ s, InCell nx ny s → (m.one s).isSome) ∨ (∀ s, InCell nx ny s → m.one s = none)) (E : ℝ) (chi : ℕ)
    (A : Site → ATensor (Fin bD) (Fin pD) ℝ) (ho : OverlapsGround hx hy σ m E (bare (freshNet nx ny chi A))) :
    ∃ g, GroundState hx hy σ m E g ∧ ∀ η : ℝ, 0 < η → ∃ T₀ : ℝ, ∀ T, T₀ ≤ T → ∃ δ : ℝ, 0 < δ ∧
      ∀ (n : ℕ) (dtau : ℝ), 0 ≤ dtau → dtau ≤ δ → n * dtau = T →
      ∀ (F : Type) (st : ProjSettings ℝ) (pk : ProjKind) (ω : ℕ → Draws (Fin bD) ℝ) (la : Lapack ℝ) (fo : Als.FloatOps F) (rep : ℝ → F)
      (cfg : Settings F), cfg.als_epsilon = 0 → 0 < cfg.positive_approx_cutoff →
      cfg.gauge_fix_atol < Real.sqrt cfg.positive_approx_cutoff →
      ∀ (bl : List Bond), bl = buildBondList nx ny ∨ bl = (buildBondList nx ny).reverse → ∀ k k' t t' t'' : ℕ,
      ∃ net, ctmrgDrawn st pk ω t k (freshNet nx ny chi A) = .ok net ∧
      (Along (RunFits st pk ω la fo rep cfg m dtau) (fullBondStep st pk ω la fo rep cfg none (twoSiteGate m dtau)) (schedule n bl) (net, t') →
      let r := fullEvolve st pk ω la fo rep cfg none (twoSiteGate m dtau) n (bl, net, t')
      r.2.2 = none ∧ ∃ net', ctmrgDrawn st pk ω t'' k' r.2.1.1 = .ok net' ∧ Readable nx ny net' ∧ NearGround hx hy σ m g E η (bare net')) := by
  choose K hK using C86_evolution (bD := bD) hx hy σ m hm
  obtain ⟨g, hg, hrun⟩ := nearGround_of hx hy σ m hh E (bare (freshNet nx ny chi A)) ho K
  refine ⟨g, hg, fun η hη => ?_⟩
  obtain ⟨T₀, hT₀⟩ := hrun η hη
  refine ⟨T₀, fun T hT => ?_⟩
  obtain ⟨δ, hδ, hd⟩ := hT₀ T hT
  refine ⟨δ, hδ, fun n dtau h0 h1 hn F st pk ω la fo rep cfg he hcut hatol bl hbl k k' t t' t'' => ?_⟩
  have hs := state_ne_zero_of_overlap hx hy σ m E _ ho
  obtain ⟨net, e, himp⟩ := hK T F st pk ω la fo rep cfg he hcut hatol bl hbl n dtau h0 hn.le chi A hs k k' t t' t''
  refine ⟨net, e, fun hfit => ?_⟩
  obtain ⟨h2, net', e', h3, h4⟩ := himp hfit
  exact ⟨h2, net', e', h3, hd n dtau h0 h1 hn _ h4⟩

/-! ### The hypotheses are met -/

/-- In a field every run fits. -/
theorem field_runFits (st : ProjSettings ℝ) (pk : ProjKind) (ω : ℕ → Draws (Fin bD) ℝ) (la : Lapack ℝ) (fo : Als.FloatOps F) (rep : ℝ → F)
    (cfg : Settings F) (hc : cfg.als_method = .pinv) (dtau : ℝ) (l : List Bond) (s : Net (Ten (Fin bD) (Fin 2) ℝ) × ℕ) :
    Along (RunFits st pk ω la fo rep cfg fieldTerms dtau) (fullBondStep st pk ω la fo rep cfg none (twoSiteGate fieldTerms dtau)) l s := by
  induction l generalizing s with
  | nil => trivial
  | cons b l ih =>
    obtain ⟨g, hg⟩ := fieldTerms_gate dtau b
    exact ⟨⟨fits_product _ _ g g _ hg, fun h => absurd hc h⟩, ih _⟩

/-- Non-vacuity: from the state `|00…0⟩ + |11…1⟩` in a field every program reaches the ground state. -/
example [NeZero N] (hx : 2 ≤ nx) (hy : 2 ≤ ny) (σ : Bond → Equiv.Perm (Fin N)) (chi : ℕ) :
    ∃ g, GroundState hx hy σ fieldTerms (fieldGround nx ny N) g ∧ ∀ η : ℝ, 0 < η → ∃ T₀ : ℝ, ∀ T, T₀ ≤ T → ∃ δ : ℝ, 0 < δ ∧
      ∀ (n : ℕ) (dtau : ℝ), 0 ≤ dtau → dtau ≤ δ → n * dtau = T →
      ∀ (st : ProjSettings ℝ) (pk : ProjKind) (ω : ℕ → Draws (Fin 2) ℝ) (la : Lapack ℝ) (fo : Als.FloatOps ℝ) (cfg : Settings ℝ),
      cfg.als_method = .pinv → cfg.als_epsilon = 0 → 0 < cfg.positive_approx_cutoff →
      cfg.gauge_fix_atol < Real.sqrt cfg.positive_approx_cutoff → ∀ k k' : ℕ,
      ∃ net net', ctmrgDrawn st pk ω 0 k (freshNet nx ny chi fun s => (ghzNet s).A) = .ok net ∧
        ctmrgDrawn st pk ω 0 k' (fullEvolve st pk ω la fo id cfg none (twoSiteGate fieldTerms dtau) n (buildBondList nx ny, net, 0)).2.1.1 = .ok net' ∧
        NearGround hx hy σ fieldTerms g (fieldGround nx ny N) η (bare net') := by
  obtain ⟨g, hg, h⟩ := C86_ground (bD := 2) hx hy σ fieldTerms fieldTerms_hermitian (Or.inl fun _ _ => rfl) (fieldGround nx ny N) chi
    (fun s => (ghzNet s).A) (field_overlaps hx hy σ _ (ghzNet_ones σ))
  refine ⟨g, hg, fun η hη => ?_⟩
  obtain ⟨T₀, h⟩ := h η hη
  refine ⟨T₀, fun T hT => ?_⟩
  obtain ⟨δ, hδ, h⟩ := h T hT
  refine ⟨δ, hδ, fun n dtau h0 h1 hn st pk ω la fo cfg hc he hcut hatol k k' => ?_⟩
  obtain ⟨net, e, h⟩ := h n dtau h0 h1 hn ℝ st pk ω la fo id cfg he hcut hatol _ (Or.inl rfl) k k' 0 0 0
  obtain ⟨-, net', e', -, h⟩ := h (field_runFits st pk ω la fo id cfg hc dtau _ _)
  exact ⟨net, net', e, e', h⟩

end exact

end AceTN
