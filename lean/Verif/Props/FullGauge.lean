import Verif.Lemmas.FullStep
import Verif.Lemmas.GaugeGate
import Verif.Lemmas.Triangular
import Verif.Props.SimpleGauge

/-!
# C85: the full update does not depend on bases or on the decompositions of the library

Runs on tensors of real numbers: fresh boundary tensors, sweeps of the renormalization, steps of the evolution with the full update
(each bond with the moves that absorb it), more sweeps, measurements.
-/

set_option autoImplicit false

namespace AceTN

open Spec Matrix Full

namespace Spec

variable {𝕜 F : Type} [RCLike 𝕜] {bD pD : ℕ} [NeZero bD] [NeZero pD]

/-- A run of the full update leaves no choice to the library but that of bases. -/
def ClearRun (ord : ∀ (n : Type) [Fintype n], n ≃ Fin (Fintype.card n)) (sgn : Bool) (st : ProjSettings 𝕜) (pk : ProjKind)
    (ω : ℕ → Draws (Fin bD) 𝕜) (la : Lapack 𝕜) (fo : Als.FloatOps F) (rep : ℝ → F) (cfg : Settings F)
    (oneSite : Option (Site → Fin pD → Fin pD → 𝕜)) (gates : Bond → Fin pD → Fin pD → Fin pD → Fin pD → 𝕜) (steps : ℕ) (bl : List Bond)
    (s : Net (Ten (Fin bD) (Fin pD) 𝕜) × ℕ) : Prop :=
  Along (ClearStep ord sgn st pk ω la fo rep cfg oneSite gates) (fullBondStep st pk ω la fo rep cfg oneSite gates) (schedule steps bl) s

/-- The random draws of all moves of a run of the full update capture the environments. -/
def DrawsRun (st : ProjSettings 𝕜) (pk : ProjKind)
    (ω : ℕ → Draws (Fin bD) 𝕜) (la : Lapack 𝕜) (fo : Als.FloatOps F) (rep : ℝ → F) (cfg : Settings F)
    (oneSite : Option (Site → Fin pD → Fin pD → 𝕜)) (gates : Bond → Fin pD → Fin pD → Fin pD → Fin pD → 𝕜) (steps : ℕ) (bl : List Bond)
    (s : Net (Ten (Fin bD) (Fin pD) 𝕜) × ℕ) : Prop :=
  Along (ExactDraws st pk ω la fo rep cfg oneSite gates) (fullBondStep st pk ω la fo rep cfg oneSite gates) (schedule steps bl) s

/-- The changes of basis are allowed ones, without factors. -/
structure BasisChange.Plain (sgn : Bool) (g : BasisChange bD pD 𝕜) : Prop where
  X : Allowed sgn g.X
  Y : Allowed sgn g.Y
  U : ∀ s, Allowed sgn (g.U s)
  t : ∀ s, g.t s = 1

end Spec

variable {𝕜 F : Type} [RCLike 𝕜] {sgn : Bool} {ord : ∀ (n : Type) [Fintype n], n ≃ Fin (Fintype.card n)} {bD pD nx ny : ℕ}

section same

variable {U : Site → Matrix (Fin pD) (Fin pD) 𝕜} {net net' : Net (Ten (Fin bD) (Fin pD) 𝕜)} {g : Gauge (Fin bD) (Fin pD) 𝕜}

theorem turnedRdms_related {Γ : ℤ × ℤ → Fin 4 → Matrix (Fin bD × Fin bD) (Fin bD × Fin bD) 𝕜} {ℓ : ℤ × ℤ → Fin 4 → Link 𝕜} {σ : ScalarMap 𝕜}
    (hx : 0 < net.nx) (hy : 0 < net.ny) (h : Related σ (fun p => braKet (U (cellSite net.nx net.ny p))) Γ ℓ net net') :
    TurnedRdms σ U net net' := by
  refine ⟨fun s hs => ?_, fun s hs k init init' => ?_⟩
  · obtain ⟨ρ, ρ', h1, h2, c, hc, e⟩ := site_read h (atLattice s)
    have es : cellSite net.nx net.ny (atLattice s) = s := cellSite_self _ _ s hs
    rw [es] at h1 h2
    refine ⟨ρ, ρ', h1, h2, c, hc, fun bra ket => ?_⟩
    rw [e, es, Fintype.sum_prod_type]
    rfl
  · obtain ⟨ρ, ρ', h1, h2, c, hc, e⟩ := bond_read h init init' (atLattice s) k
    have es : cellSite net.nx net.ny (atLattice s) = s := cellSite_self _ _ s hs
    have en : cellSite net.nx net.ny (atLattice s + dir k) = neighbour net.nx net.ny s k.val := by
      rw [← neighbour_cellSite _ _ hx hy, es]
    rw [en, es] at h1 h2
    refine ⟨ρ, ρ', h1, h2, c, hc, fun b1 b2 k1 k2 => ?_⟩
    rw [e, es, en]
    congr 1
    simp only [Fintype.sum_prod_type, braKet, of_apply]
    refine Finset.sum_congr rfl fun c1 _ => ?_
    rw [Finset.sum_comm]
    refine Finset.sum_congr rfl fun c2 _ => Finset.sum_congr rfl fun j1 _ => Finset.sum_congr rfl fun j2 _ => ?_
    ring

theorem Spec.SameNet.rdms (h : SameNet sgn U nx ny net net' g) (hx : 0 < nx) (hy : 0 < ny) : TurnedRdms (ScalarMap.id 𝕜) U net net' := by
  obtain ⟨ℓ, hR⟩ := h.bonds
  rw [h.unit, ← h.width, ← h.height] at hR
  exact turnedRdms_related (h.width ▸ hx) (h.height ▸ hy) hR

theorem normalNet_run (st : ProjSettings 𝕜) (pk : ProjKind) (ω : ℕ → Draws (Fin bD) 𝕜) (ms : List Move) (t : ℕ)
    (net n : Net (Ten (Fin bD) (Fin pD) 𝕜)) (h : NormalNet net) (e : runDrawn st pk ω t ms net = .ok n) : NormalNet n ∧ n.A = net.A := by
  induction ms generalizing t net with
  | nil =>
    cases e
    exact ⟨h, rfl⟩
  | cons m ms ih =>
    simp only [runDrawn, Move.run_eq, bind, Except.bind] at e
    obtain ⟨h1, h2⟩ := ih (t + 1) _ (NormalNet_after h st (ω t) pk m) e
    exact ⟨h1, h2.trans (funext fun s => congrFun (m.after_consts (numOps st (ω t)) pk net).2.2.2 s)⟩

/-- Sweeps keep two networks the same. -/
theorem Spec.SameNet.sweeps (h : SameNet sgn U nx ny net net' g) (hx : 0 < nx) (hy : 0 < ny) (st st' : ProjSettings 𝕜) (pk : ProjKind)
    (hcut : st'.cutoff = st.cutoff) (h0 : 0 ≤ st.cutoff) (ω ω' : ℕ → Draws (Fin bD) 𝕜) (n t t' : ℕ)
    (hd : DropRun st pk ω t (List.replicate n (sweepMoves nx ny)).flatten net)
    (hf : SvdRun st pk ω t (List.replicate n (sweepMoves nx ny)).flatten net)
    (hf' : SvdRun st' pk ω' t' (List.replicate n (sweepMoves nx ny)).flatten net') :
    ∃ m m', ctmrgDrawn st pk ω t n net = .ok m ∧ ctmrgDrawn st' pk ω' t' n net' = .ok m' ∧ SameNet sgn U nx ny m m' g := by
  obtain ⟨ℓ, hR⟩ := h.bonds
  have hr := sweeps_range hx hy n
  rw [← h.width, ← h.height] at hr
  obtain ⟨m, m', ℓ', e, e', ex, ey, hR'⟩ := related_run st st' pk hcut h0 ω ω' (AceTN.sweeps nx ny n) t t' _ _ ℓ hR (h.width ▸ hx) (h.height ▸ hy)
    (fun m hm => hr m (by rw [h.width, h.height]; exact hm)) hd hf hf'
  obtain ⟨ℓm, hRm⟩ := h.mirror
  obtain ⟨k, k', ℓk, f, f', -, -, hk⟩ := related_run st st pk rfl h0 ω ω (AceTN.sweeps nx ny n) t t _ _ ℓm hRm (h.width ▸ hx) (h.height ▸ hy)
    (fun m hm => hr m (by rw [h.width, h.height]; exact hm)) hd hf hf
  have e1 := e
  rw [e] at f f'
  obtain rfl := Except.ok.inj f
  obtain rfl := Except.ok.inj f'
  obtain ⟨n1, a1⟩ := normalNet_run st pk ω _ t _ _ h.normal e
  obtain ⟨n2, a2⟩ := normalNet_run st' pk ω' _ t' _ _ h.normal' e'
  refine ⟨m, m', ?_, ?_, ex.trans h.width, ey.trans h.height, h.unit, h.one, h.joined, h.allowed, fun s hs => ?_, ⟨ℓ', hR'⟩, n1, n2, ⟨ℓk, hk⟩⟩
  · rw [ctmrgDrawn_eq, h.width, h.height]
    exact e
  · rw [ctmrgDrawn_eq, hR.nx, hR.ny, h.width, h.height]
    exact e'
  · rw [a1, a2]
    exact h.sites s hs

end same

/-- The bases at the start of a run. -/
def Spec.BasisChange.gauge (g : BasisChange bD pD 𝕜) : Gauge (Fin bD) (Fin pD) 𝕜 where
  G _ := fun
    | 0 => g.X
    | 1 => g.Y
    | 2 => g.X.map star
    | 3 => g.Y.map star
  U := g.U
  t := g.t
  unitG _ k := match k with
    | 0 => g.unitX
    | 1 => g.unitY
    | 2 => map_star_unit g.unitX
    | 3 => map_star_unit g.unitY
  unitU := g.unitU
  pos := g.pos

theorem gauge_legs (g : BasisChange bD pD 𝕜) : (fun (_ : ℤ × ℤ) => legs g.X g.Y) = fun p k => ketBra (g.gauge.G (cellSite nx ny p) k) := by
  funext p k
  match k with
  | 0 => rfl
  | 1 => rfl
  | 2 => rfl
  | 3 => rfl

theorem gauge_joined (g : BasisChange bD pD 𝕜) : g.gauge.Joined nx ny := by
  intro s _ k
  match k with
  | 0 => rfl
  | 1 => rfl
  | 2 => exact (star_star_map _).symm
  | 3 => exact (star_star_map _).symm

section run

variable [NeZero bD] [NeZero pD]

omit [NeZero bD] [NeZero pD] in
theorem sameNet_fresh (hx : 0 < nx) (hy : 0 < ny) (chi : ℕ) (g : BasisChange bD pD 𝕜) (hg : g.Plain sgn)
    (A A' : Site → ATensor (Fin bD) (Fin pD) 𝕜) (h : g.Equiv (ScalarMap.id 𝕜) nx ny A A') :
    SameNet sgn g.U nx ny (freshNet nx ny chi A) (freshNet nx ny chi A') g.gauge where
  width := rfl
  height := rfl
  unit := rfl
  one := hg.t
  joined := gauge_joined g
  allowed s k := match k with
    | 0 => hg.X
    | 1 => hg.Y
    | 2 => allowed_star hg.X
    | 3 => allowed_star hg.Y
  sites s hs := ⟨_, _, rfl, rfl, fun l u r d p => by
    have := h s hs l u r d p
    rw [hg.t s] at this
    exact this⟩
  bonds := by
    rw [← gauge_legs]
    exact related_equiv g _ nx ny chi hx hy A A' h
  normal := NormalNet_fresh _ _ _ _
  normal' := NormalNet_fresh _ _ _ _
  mirror := related_swap nx ny chi A

variable (hs : ∀ a : 𝕜, star a = a) (hx : 2 ≤ nx) (hy : 2 ≤ ny) (st st' : ProjSettings 𝕜) (pk : ProjKind)
  (hst : st'.cutoff = st.cutoff) (h0 : 0 ≤ st.cutoff) (ω ω' : ℕ → Draws (Fin bD) 𝕜) (la la' : Lapack 𝕜)
  (hla : sgn = true → Triangular ord la ∧ Triangular ord la') (fo : Als.FloatOps F) (rep : ℝ → F) (cfg : Settings F)
  (hm : EvenSolver sgn cfg.als_method cfg.als_epsilon) (hcut : 0 < cfg.positive_approx_cutoff)
  (one one' : Option (Site → Fin pD → Fin pD → 𝕜)) (gates gates' : Bond → Fin pD → Fin pD → Fin pD → Fin pD → 𝕜)

include hs hx hy hst h0 hla hm hcut

/-- Evolution keeps two networks the same. -/
theorem fullEvolve_turn {U : Site → Matrix (Fin pD) (Fin pD) 𝕜} (hU : ∀ s, Allowed sgn (U s)) (hone : TurnedOne (ScalarMap.id 𝕜) U nx ny one one')
    (hgates : ∀ b ∈ buildBondList nx ny, TurnedOp2 (ScalarMap.id 𝕜) (U b.s1) (U b.s2) (gates b) (gates' b)) (steps : ℕ) (bl : List Bond)
    (hbl : ∀ b ∈ bl, b ∈ buildBondList nx ny) (s s' : Net (Ten (Fin bD) (Fin pD) 𝕜) × ℕ) (g : Gauge (Fin bD) (Fin pD) 𝕜)
    (h : SameNet sgn U nx ny s.1 s'.1 g)
    (hc : ClearRun ord sgn st pk ω la fo rep cfg one gates steps bl s) (hf : DrawsRun st pk ω la fo rep cfg one gates steps bl s)
    (hf' : DrawsRun st' pk ω' la' fo rep cfg one' gates' steps bl s') :
    let r := fullEvolve st pk ω la fo rep cfg one gates steps (bl, s)
    let r' := fullEvolve st' pk ω' la' fo rep cfg one' gates' steps (bl, s')
    r'.1 = r.1 ∧ r'.2.2 = r.2.2 ∧ ∃ g', SameNet sgn U nx ny r.2.1.1 r'.2.1.1 g' := by
  have hb : Along (fun s b => ClearStep ord sgn st pk ω la fo rep cfg one gates s b ∧ ExactDraws st pk ω la fo rep cfg one gates s b)
      (fullBondStep st pk ω la fo rep cfg one gates) (schedule steps bl) s := by
    unfold ClearRun at hc
    unfold DrawsRun at hf
    generalize schedule steps bl = l at hc hf ⊢
    clear h hf'
    induction l generalizing s with
    | nil => trivial
    | cons b l ih => exact ⟨⟨hc.1, hf.1⟩, ih _ hc.2 hf.2⟩
  exact evolveLoop_rel2 (fullBondStep st pk ω la fo rep cfg one gates) (fullBondStep st' pk ω' la' fo rep cfg one' gates')
    (fun s s' => ∃ g', SameNet sgn U nx ny s.1 s'.1 g')
    (fun s b => ClearStep ord sgn st pk ω la fo rep cfg one gates s b ∧ ExactDraws st pk ω la fo rep cfg one gates s b)
    (ExactDraws st' pk ω' la' fo rep cfg one' gates') (fun b => b ∈ buildBondList nx ny)
    (fun s s' b ⟨g', h⟩ hb hQ hQ' => fullBondStep_turn hs hx hy st st' pk hst h0 ω ω' la la' hla fo rep cfg hm hcut hU hone h hb
      (hgates b hb) hQ.1 hQ.2 hQ') steps bl hbl s s' ⟨g, h⟩ hb hf'

/-- **C85.** Two runs on tensors of real numbers, the second one on the same state in other bases, with gates in the bases of the sites,
other routines for the decompositions and other random numbers: if along the first run cutting off singular values is unambiguous
(and with `sgn` the triangular factors are unique up to signs), both raise the same exception or none, leave the same bond list, and
leave networks with the same site tensors and the same density matrices in other bases, also after further sweeps. -/
theorem C85_run (chi : ℕ) (g : BasisChange bD pD 𝕜) (hg : g.Plain sgn)
    (hone : TurnedOne (ScalarMap.id 𝕜) g.U nx ny one one')
    (hgates : ∀ b ∈ buildBondList nx ny, TurnedOp2 (ScalarMap.id 𝕜) (g.U b.s1) (g.U b.s2) (gates b) (gates' b))
    (A A' : Site → ATensor (Fin bD) (Fin pD) 𝕜) (hA : g.Equiv (ScalarMap.id 𝕜) nx ny A A') (n steps t t' t1 t1' : ℕ) (bl : List Bond)
    (hbl : bl.Perm (buildBondList nx ny))
    (hd : DropRun st pk ω t (List.replicate n (sweepMoves nx ny)).flatten (freshNet nx ny chi A))
    (hf : SvdRun st pk ω t (List.replicate n (sweepMoves nx ny)).flatten (freshNet nx ny chi A))
    (hf' : SvdRun st' pk ω' t' (List.replicate n (sweepMoves nx ny)).flatten (freshNet nx ny chi A'))
    (hc : ∀ net, ctmrgDrawn st pk ω t n (freshNet nx ny chi A) = .ok net →
      ClearRun ord sgn st pk ω la fo rep cfg one gates steps bl (net, t1) ∧ DrawsRun st pk ω la fo rep cfg one gates steps bl (net, t1))
    (hc' : ∀ net, ctmrgDrawn st' pk ω' t' n (freshNet nx ny chi A') = .ok net →
      DrawsRun st' pk ω' la' fo rep cfg one' gates' steps bl (net, t1')) :
    ∃ net net', ctmrgDrawn st pk ω t n (freshNet nx ny chi A) = .ok net ∧ ctmrgDrawn st' pk ω' t' n (freshNet nx ny chi A') = .ok net' ∧
      let r := fullEvolve st pk ω la fo rep cfg one gates steps (bl, net, t1)
      let r' := fullEvolve st' pk ω' la' fo rep cfg one' gates' steps (bl, net', t1')
      r'.1 = r.1 ∧ r'.2.2 = r.2.2 ∧ r.2.1.1.nx = nx ∧ r.2.1.1.ny = ny ∧ TurnedRdms (ScalarMap.id 𝕜) g.U r.2.1.1 r'.2.1.1 ∧
      (∃ g' : Gauge (Fin bD) (Fin pD) 𝕜, g'.U = g.U ∧ g'.Joined nx ny ∧ ∀ s, InCell nx ny s → ∃ a a',
        r.2.1.1.A s = .site a ∧ r'.2.1.1.A s = .site a' ∧
        TenRel (ScalarMap.id 𝕜) 1 (g'.G s 0) (g'.G s 1) (g'.G s 2) (g'.G s 3) (g'.U s) a a') ∧
      ∀ m t2 t2', DropRun st pk ω t2 (List.replicate m (sweepMoves nx ny)).flatten r.2.1.1 →
        SvdRun st pk ω t2 (List.replicate m (sweepMoves nx ny)).flatten r.2.1.1 →
        SvdRun st' pk ω' t2' (List.replicate m (sweepMoves nx ny)).flatten r'.2.1.1 →
        ∃ fin fin', ctmrgDrawn st pk ω t2 m r.2.1.1 = .ok fin ∧ ctmrgDrawn st' pk ω' t2' m r'.2.1.1 = .ok fin' ∧
          fin.nx = nx ∧ fin.ny = ny ∧ TurnedRdms (ScalarMap.id 𝕜) g.U fin fin' := by
  have hx0 : 0 < nx := by omega
  have hy0 : 0 < ny := by omega
  obtain ⟨net, net', e, e', h⟩ := (sameNet_fresh hx0 hy0 chi g hg A A' hA).sweeps hx0 hy0 st st' pk hst h0 ω ω' n t t' hd hf hf'
  refine ⟨net, net', e, e', ?_⟩
  obtain ⟨h1, h2, g', h3⟩ := fullEvolve_turn hs hx hy st st' pk hst h0 ω ω' la la' hla fo rep cfg hm hcut one one' gates gates' hg.U hone
    hgates steps bl (fun b hb => hbl.subset hb) (net, t1) (net', t1') g.gauge h (hc net e).1 (hc net e).2 (hc' net' e')
  refine ⟨h1, h2, h3.width, h3.height, h3.rdms hx0 hy0, ⟨g', h3.unit, h3.joined, h3.sites⟩, fun m t2 t2' k1 k2 k3 => ?_⟩
  obtain ⟨f, f', q, q', h4⟩ := h3.sweeps hx0 hy0 st st' pk hst h0 ω ω' m t2 t2' k1 k2 k3
  exact ⟨f, f', q, q', h4.width, h4.height, h4.rdms hx0 hy0⟩

omit hx hy hs hst h0 hla hm hcut in
/-- No change of basis. -/
def Spec.BasisChange.id (bD pD : ℕ) (𝕜 : Type) [RCLike 𝕜] : BasisChange bD pD 𝕜 where
  X := 1
  Y := 1
  U _ := 1
  t _ := 1
  unitX := Unit2.one
  unitY := Unit2.one
  unitU _ := Unit2.one
  pos _ := one_pos

/-- **C85 (decompositions).** Two runs with the full update from the same tensors that differ only in the decompositions the library
returns and in the random numbers: they raise the same exception or none, and measure the same values. -/
theorem C85_decompositions (chi : ℕ) (A : Site → ATensor (Fin bD) (Fin pD) 𝕜) (n steps t t' t1 t1' : ℕ) (bl : List Bond)
    (hbl : bl.Perm (buildBondList nx ny))
    (hd : DropRun st pk ω t (List.replicate n (sweepMoves nx ny)).flatten (freshNet nx ny chi A))
    (hf : SvdRun st pk ω t (List.replicate n (sweepMoves nx ny)).flatten (freshNet nx ny chi A))
    (hf' : SvdRun st' pk ω' t' (List.replicate n (sweepMoves nx ny)).flatten (freshNet nx ny chi A))
    (hc : ∀ net, ctmrgDrawn st pk ω t n (freshNet nx ny chi A) = .ok net →
      ClearRun ord sgn st pk ω la fo rep cfg one gates steps bl (net, t1) ∧ DrawsRun st pk ω la fo rep cfg one gates steps bl (net, t1))
    (hc' : ∀ net, ctmrgDrawn st' pk ω' t' n (freshNet nx ny chi A) = .ok net →
      DrawsRun st' pk ω' la' fo rep cfg one gates steps bl (net, t1')) :
    ∃ net net', ctmrgDrawn st pk ω t n (freshNet nx ny chi A) = .ok net ∧ ctmrgDrawn st' pk ω' t' n (freshNet nx ny chi A) = .ok net' ∧
      let r := fullEvolve st pk ω la fo rep cfg one gates steps (bl, net, t1)
      let r' := fullEvolve st' pk ω' la' fo rep cfg one gates steps (bl, net', t1')
      r'.1 = r.1 ∧ r'.2.2 = r.2.2 ∧ r.2.1.1.nx = nx ∧ r.2.1.1.ny = ny ∧ SameRdms r.2.1.1 r'.2.1.1 ∧
      ∀ m t2 t2', DropRun st pk ω t2 (List.replicate m (sweepMoves nx ny)).flatten r.2.1.1 →
        SvdRun st pk ω t2 (List.replicate m (sweepMoves nx ny)).flatten r.2.1.1 →
        SvdRun st' pk ω' t2' (List.replicate m (sweepMoves nx ny)).flatten r'.2.1.1 →
        ∃ fin fin', ctmrgDrawn st pk ω t2 m r.2.1.1 = .ok fin ∧ ctmrgDrawn st' pk ω' t2' m r'.2.1.1 = .ok fin' ∧
          fin.nx = nx ∧ fin.ny = ny ∧ SameRdms fin fin' := by
  have hsame : ∀ net net' : Net (Ten (Fin bD) (Fin pD) 𝕜), TurnedRdms (ScalarMap.id 𝕜) (fun _ => 1) net net' → SameRdms net net' := by
    intro net net' h
    refine ⟨fun s hs => ?_, fun s hs k init init' => ?_⟩
    · obtain ⟨ρ, ρ', h1, h2, c, hc, e⟩ := h.1 s hs
      refine ⟨ρ, ρ', h1, h2, c, hc, fun bra ket => ?_⟩
      rw [e]
      simp [Matrix.one_apply, ScalarMap.id, apply_ite (starRingEnd 𝕜)]
    · obtain ⟨ρ, ρ', h1, h2, c, hc, e⟩ := h.2 s hs k init init'
      refine ⟨ρ, ρ', h1, h2, c, hc, fun b1 b2 k1 k2 => ?_⟩
      rw [e]
      simp [Matrix.one_apply, ScalarMap.id, apply_ite (starRingEnd 𝕜)]
  obtain ⟨net, net', e, e', h1, h2, h3, h4, h5, -, h6⟩ := C85_run hs hx hy st st' pk hst h0 ω ω' la la' hla fo rep cfg hm hcut one one gates gates chi
    (BasisChange.id bD pD 𝕜) ⟨Allowed.one, Allowed.one, fun _ => Allowed.one, fun _ => rfl⟩ (by
      cases one with
      | none => trivial
      | some o =>
        intro s _ k b
        simp [BasisChange.id, Matrix.one_apply, ScalarMap.id]) (by
      intro b _ k1 k2 b1 b2
      simp [BasisChange.id, Matrix.one_apply, ScalarMap.id]) A A (by
      intro s _ l u r d p
      simp [BasisChange.id, Matrix.one_apply, ScalarMap.id, apply_ite (starRingEnd 𝕜)]) n steps t t' t1 t1' bl hbl hd hf hf' hc hc'
  refine ⟨net, net', e, e', h1, h2, h3, h4, hsame _ _ h5, fun m t2 t2' k1 k2 k3 => ?_⟩
  obtain ⟨f, f', q1, q2, q3, q4, q5⟩ := h6 m t2 t2' k1 k2 k3
  exact ⟨f, f', q1, q2, q3, q4, hsame _ _ q5⟩

end run

/-- The gates of two models that are the same in other bases are the same in other bases. -/
theorem C85_gates {U : Site → Matrix (Fin pD) (Fin pD) 𝕜} (hU : ∀ s, Unit2 (U s)) {m m' : ModelTerms (Fin pD) 𝕜}
    (hm : TurnedTerms (ScalarMap.id 𝕜) U nx ny m m') (dtau : ℝ) (b : Bond) (hb : b ∈ buildBondList nx ny) :
    TurnedOp2 (ScalarMap.id 𝕜) (U b.s1) (U b.s2) (twoSiteGate m dtau b) (twoSiteGate m' dtau b) := by
  obtain ⟨h1, h2⟩ := C02_bond_ends_in_cell nx ny b hb
  rw [mem_buildSiteList] at h1 h2
  exact twoSiteGate_turn hU hm dtau hb h1 h2

/-! ### The hypotheses are met -/

section one

variable [NeZero pD]

/-- Gates that do not entangle two sites. -/
def Spec.ProductGate {P : Type} (gate : P → P → P → P → 𝕜) : Prop := ∃ g1 g2 : P → P → 𝕜, ∀ p q r s, gate p q r s = g1 p r * g2 q s

theorem gate_factor {N P : Type} [Fintype N] [Fintype P] {gate : P → P → P → P → 𝕜} (hg : ProductGate gate) (a1r a2r : N → Fin 1 → P → 𝕜) :
    ∃ Y Z : N → P → 𝕜, ∀ y x r s, gateReduced a1r a2r gate y x r s = Y y r * Z x s := by
  obtain ⟨g1, g2, h⟩ := hg
  refine ⟨fun y r => ∑ p, a1r y 0 p * g1 p r, fun x s => ∑ q, a2r x 0 q * g2 q s, fun y x r s => ?_⟩
  unfold gateReduced
  simp only [Fin.sum_univ_one, h, Finset.sum_mul, Finset.mul_sum]
  rw [Finset.sum_comm]
  refine Finset.sum_congr rfl fun _ _ => Finset.sum_congr rfl fun _ _ => ?_
  ring

theorem noTie_gatedMat {N P : Type} [Fintype N] [Fintype P] [DecidableEq N] [DecidableEq P] {M : N → N → P → P → 𝕜} {Y Z : N → P → 𝕜}
    (h : ∀ y x r s, M y x r s = Y y r * Z x s) : NoTie 1 (gatedMat M) := by
  have := noTie_of_factor (l := Fin 1) (gatedMat M) (Matrix.of fun i _ => Y i.1 i.2) (Matrix.of fun _ j => Z j.1 j.2) (by
    ext i j
    simp [gatedMat, h, Matrix.mul_apply])
  rwa [Fintype.card_fin] at this

theorem clearSvd_one {m n : Type} [Fintype m] [Fintype n] {M : Matrix m n 𝕜} (h : NoTie 1 M) : ClearSvd sgn 1 M :=
  ⟨h, fun _ r U S Vh _ i j hi hj hij => absurd (Fin.ext (by omega)) hij⟩

/-- With bond dimension one and gates that do not entangle, the tensors of every bond are unambiguous. -/
theorem clearUpdate_one {N P : Type} [Fintype N] [Fintype P] [DecidableEq N] [DecidableEq P] [Nonempty N] (la : Lapack 𝕜) (fo : Als.FloatOps F)
    (rep : ℝ → F) (cfg : Settings F) (hb : 1 ≤ Fintype.card (N × P)) (a1r a2r : N → Fin 1 → P → 𝕜) (n12 : N → N → N → N → 𝕜)
    {gate : P → P → P → P → 𝕜} (hg : ProductGate gate) : ClearUpdate sgn la fo rep cfg hb a1r a2r n12 gate where
  start nz _ := by
    obtain ⟨Y, Z, h⟩ := gate_factor hg a1r a2r
    split_ifs
    · refine clearSvd_one (noTie_gatedMat (Y := fun w r => ∑ y, nzyrOf la nz w y * Y y r) (Z := fun z s => ∑ x, nzxrOf la nz z x * Z x s) ?_)
      intro w z r s
      show ∑ y, nzyrOf la nz w y * ∑ x, nzxrOf la nz z x * gateReduced a1r a2r gate y x r s = _
      simp only [h, Finset.sum_mul, Finset.mul_sum]
      rw [Finset.sum_comm]
      refine Finset.sum_congr rfl fun _ _ => Finset.sum_congr rfl fun _ _ => ?_
      ring
    · exact clearSvd_one (noTie_gatedMat h)
  result _ p _ r U S Vh hs i j hij hS := by
    have h := fun j hj => svd_tail_zero (l := Fin 1) _ _ _ rfl hs j hj
    rw [Fintype.card_fin] at h
    by_cases hi : 1 ≤ i.val
    · exact h i hi
    · rw [hS]
      exact h j (Nat.one_le_iff_ne_zero.2 fun hj => hij (Fin.ext (by omega)))

omit [NeZero pD] in
theorem factored_run (st : ProjSettings 𝕜) (pk : ProjKind) (ω : ℕ → Draws (Fin bD) 𝕜) (ms : List Move) (t : ℕ)
    {net n : Net (Ten (Fin bD) (Fin pD) 𝕜)} (h : Factored net) (e : runDrawn st pk ω t ms net = .ok n) : Factored n := by
  induction ms generalizing t net with
  | nil =>
    cases e
    exact h
  | cons m ms ih =>
    simp only [runDrawn, Move.run_eq, bind, Except.bind] at e
    exact ih (t + 1) (h.after st (ω t) pk m) e

omit [NeZero pD] in
theorem tenProd_one (a : ATensor (Fin 1) (Fin pD) 𝕜) : TenProd (Ten.site a) := by
  refine ⟨fun _ => layer a none (0, 0) (0, 0) (0, 0) (0, 0), fun _ => 1, fun _ => 1, fun _ => 1, fun l u r d => ?_⟩
  rw [Subsingleton.elim l (0, 0), Subsingleton.elim u (0, 0), Subsingleton.elim r (0, 0), Subsingleton.elim d (0, 0)]
  ring

omit [NeZero pD] in
theorem factored_write {net : Net (Ten (Fin 1) (Fin pD) 𝕜)} (h : Factored net) (s : Site) (a : ATensor (Fin 1) (Fin pD) 𝕜) :
    Factored (writeSite net s a) := by
  refine ⟨fun s' => ?_, h.2⟩
  show TenProd (if s' = s then .site a else net.A s')
  split_ifs
  · exact tenProd_one a
  · exact h.1 s'

/-- With bond dimension one and gates that do not entangle, all runs are unambiguous. -/
theorem clearRun_one (st : ProjSettings 𝕜) (h0 : 0 ≤ st.cutoff) (pk : ProjKind) (ω : ℕ → Draws (Fin 1) 𝕜) (la : Lapack 𝕜) (fo : Als.FloatOps F)
    (rep : ℝ → F) (cfg : Settings F) (one : Option (Site → Fin pD → Fin pD → 𝕜)) (gates : Bond → Fin pD → Fin pD → Fin pD → Fin pD → 𝕜)
    (hg : ∀ b, ProductGate (gates b)) (steps : ℕ) (bl : List Bond) (s : Net (Ten (Fin 1) (Fin pD) 𝕜) × ℕ) (h : Factored s.1) :
    ClearRun ord false st pk ω la fo rep cfg one gates steps bl s := by
  unfold ClearRun
  generalize schedule steps bl = l
  induction l generalizing s with
  | nil => trivial
  | cons b l ih =>
    refine ⟨⟨fun a1 a2 _ _ => ⟨Or.inl ?_, Or.inl ?_, fun n _ => clearUpdate_one la fo rep cfg _ _ _ _ (hg b)⟩, fun a1 a2 _ =>
      ((factored_write (factored_write h _ _) _ _)).dropRun st h0 pk ω _ _⟩, ih _ ?_⟩
    · have := NeZero.pos pD
      simp
      omega
    · have := NeZero.pos pD
      simp
      omega
    · unfold fullBondStep
      split
      · exact h
      · exact h
      · dsimp only
        split
        · exact factored_write (factored_write h _ _) _ _
        · rename_i e
          exact factored_run st pk ω _ _ (factored_write (factored_write h _ _) _ _) e

theorem drawsRun_full (st : ProjSettings 𝕜) (hf : st.fullRank = true) (pk : ProjKind) (ω : ℕ → Draws (Fin bD) 𝕜) [NeZero bD] (la : Lapack 𝕜)
    (fo : Als.FloatOps F) (rep : ℝ → F) (cfg : Settings F) (one : Option (Site → Fin pD → Fin pD → 𝕜))
    (gates : Bond → Fin pD → Fin pD → Fin pD → Fin pD → 𝕜) (steps : ℕ) (bl : List Bond) (s : Net (Ten (Fin bD) (Fin pD) 𝕜) × ℕ) :
    DrawsRun st pk ω la fo rep cfg one gates steps bl s := by
  unfold DrawsRun
  generalize schedule steps bl = l
  induction l generalizing s with
  | nil => trivial
  | cons b l ih => exact ⟨fun _ _ _ => svdRun_full hf pk ω _ _ _, ih _⟩

/-- Non-vacuity: any tensors with bond dimension one, gates that do not entangle, and two libraries, for any numbers of sweeps and steps. -/
example (hx : 2 ≤ nx) (hy : 2 ≤ ny) (st st' : ProjSettings ℝ) (hf : st.fullRank = true) (hf' : st'.fullRank = true) (pk : ProjKind)
    (hst : st'.cutoff = st.cutoff) (h0 : 0 ≤ st.cutoff) (ω ω' : ℕ → Draws (Fin 1) ℝ) (la la' : Lapack ℝ) (fo : Als.FloatOps F)
    (rep : ℝ → F) (cfg : Settings F) (hm : cfg.als_method = .pinv) (hcut : 0 < cfg.positive_approx_cutoff)
    (one : Option (Site → Fin pD → Fin pD → ℝ)) (gates : Bond → Fin pD → Fin pD → Fin pD → Fin pD → ℝ) (hg : ∀ b, ProductGate (gates b))
    (A : Site → ATensor (Fin 1) (Fin pD) ℝ) (chi n steps : ℕ) :
    ∃ net net', ctmrgDrawn st pk ω 0 n (freshNet nx ny chi A) = .ok net ∧ ctmrgDrawn st' pk ω' 0 n (freshNet nx ny chi A) = .ok net' ∧
      SameRdms (fullEvolve st pk ω la fo rep cfg one gates steps (buildBondList nx ny, net, 0)).2.1.1
        (fullEvolve st' pk ω' la' fo rep cfg one gates steps (buildBondList nx ny, net', 0)).2.1.1 := by
  have hF := factored_fresh nx ny chi A fun s => tenProd_one (A s)
  obtain ⟨net, net', e, e', -, -, -, -, h, -⟩ := C85_decompositions (sgn := false) (ord := fun n => Fintype.equivFin n) (fun a => rfl) hx hy st st' pk
    hst h0 ω ω' la la' (fun h => absurd h (by simp)) fo rep cfg (Or.inr (Or.inl hm)) hcut one gates chi A n steps 0 0 0 0
    (buildBondList nx ny) (List.Perm.refl _) (hF.dropRun st h0 pk ω _ 0) (svdRun_full hf pk ω _ 0 _) (svdRun_full hf' pk ω' _ 0 _)
    (fun net e => ⟨clearRun_one st h0 pk ω la fo rep cfg one gates hg steps _ _ (by
      rw [ctmrgDrawn_eq] at e
      exact factored_run st pk ω _ _ hF e), drawsRun_full st hf pk ω la fo rep cfg one gates steps _ _⟩)
    (fun net e => drawsRun_full st' hf' pk ω' la' fo rep cfg one gates steps _ _)
  exact ⟨net, net', e, e', h⟩

/-- Non-vacuity with signs, where the solver may be any one: bonds with bond dimension one between tensors whose first component does
not vanish. -/
example (la : Lapack 𝕜) (fo : Als.FloatOps F) (rep : ℝ → F) (cfg : Settings F) (gate : Fin pD → Fin pD → Fin pD → Fin pD → 𝕜) (hg : ProductGate gate)
    (net : Net (Ten (Fin 1) (Fin pD) 𝕜)) (b : Bond) (a1 a2 : ATensor (Fin 1) (Fin pD) 𝕜)
    (h1 : ∀ p, a1 0 0 0 0 p ≠ 0) (h2 : ∀ p, a2 0 0 0 0 p ≠ 0) :
    ClearBond ord true la fo rep cfg gate net b a1 a2 ∧ ∃ la' : Lapack 𝕜, Triangular ord la' := by
  have hu : ∀ M : Matrix (Fin 1 × Fin 1 × Fin 1) (Fin 1 × Fin pD) 𝕜, (∀ i j, M i j ≠ 0) → QrUnique ord true M := by
    intro M hM
    have hsub : Subsingleton (Fin (min (Fintype.card (Fin 1 × Fin 1 × Fin 1)) (Fintype.card (Fin 1 × Fin pD)))) := by
      rw [Fin.subsingleton_iff_le_one]
      simp
    refine ⟨Matrix.of fun i _ => (M (0, 0, 0) (lead ord _ _ i))⁻¹, ?_⟩
    ext i j
    obtain rfl := Subsingleton.elim i j
    rw [Matrix.mul_apply, Fintype.sum_subsingleton _ (0, 0, 0), Matrix.one_apply_eq]
    exact inv_mul_cancel₀ (hM _ _)
  refine ⟨⟨hu _ fun i j => ?_, hu _ fun i j => ?_, fun n _ => clearUpdate_one la fo rep cfg _ _ _ _ hg⟩, exists_triangular ord⟩
  · show a1 j.1 i.2.2 i.1 i.2.1 j.2 ≠ 0
    rw [Subsingleton.elim j.1 0, Subsingleton.elim i.2.2 0, Subsingleton.elim i.1 0, Subsingleton.elim i.2.1 0]
    exact h1 _
  · show a2 i.2.1 i.2.2 j.1 i.1 j.2 ≠ 0
    rw [Subsingleton.elim j.1 0, Subsingleton.elim i.2.2 0, Subsingleton.elim i.1 0, Subsingleton.elim i.2.1 0]
    exact h2 _

end one

/-! ### Why signs -/

/-- A rotation. -/
noncomputable def rot : Matrix (Fin 2) (Fin 2) ℝ := !![3 / 5, 4 / 5; -4 / 5, 3 / 5]

theorem rot_unit : Unit2 rot := by
  constructor <;>
  · ext i j
    fin_cases i <;> fin_cases j <;> norm_num [rot, Matrix.mul_apply, Fin.sum_univ_two, Matrix.conjTranspose_apply]

/-- A linear system of the solver. -/
def regMat : Fin 2 → Fin 1 → Fin 2 → Fin 1 → ℝ := fun y _ x _ => if y = 0 ∧ x = 0 then 1 else 0

/-- The same system in another basis. -/
noncomputable def regMat' : Fin 2 → Fin 1 → Fin 2 → Fin 1 → ℝ := fun y _ x _ => rot y 0 * rot x 0

/-- Its right-hand side. -/
def regRhs : Fin 2 → Fin 1 → Fin 1 → ℝ := fun y _ _ => if y = 0 then 1 else 0

/-- The same right-hand side in another basis. -/
noncomputable def regRhs' : Fin 2 → Fin 1 → Fin 1 → ℝ := fun y _ _ => rot y 0

theorem solveAr_regular {N B P : Type} [Fintype N] [Fintype B] [Fintype P] [DecidableEq N] [DecidableEq B] (la : Lapack ℝ) (ε : ℝ)
    (R : N → B → N → B → ℝ) (S : N → B → P → ℝ) (v : N × B → ℝ) (hR : ∀ y u x w, R y u x w = v (y, u) * v (x, w)) (hε : 0 < ε * absMax (hermAvg R)) :
    ∃ X, solveAr la ε .cholesky R S = .ok X ∧ ∀ y u p, ∑ x, ∑ w, R y u x w * X x w p + ε * absMax (hermAvg R) * X y u p = S y u p := by
  have hh : hermAvg R = Matrix.vecMulVec v v := by
    ext a b
    simp only [hermAvg, Matrix.smul_apply, Matrix.add_apply, Matrix.of_apply, Matrix.conjTranspose_apply, hR, Matrix.vecMulVec_apply, star_trivial,
      smul_eq_mul, RCLike.ofReal_real_eq_id, id]
    ring
  generalize hc : ε * absMax (hermAvg R) = c at hε ⊢
  have hp : (hermAvg R + ((c : ℝ) : ℝ) • (1 : Matrix (N × B) (N × B) ℝ)).PosDef := by
    refine Matrix.PosDef.posSemidef_add ?_ (Matrix.PosDef.one.smul hε)
    rw [hh]
    have := Matrix.posSemidef_vecMulVec_self_star v
    simpa using this
  have hsome := la.cholSolve_some _ (Matrix.of fun (a : N × B) p => S a.1 a.2 p) hp
  obtain ⟨X, hX⟩ := Option.isSome_iff_exists.1 hsome
  refine ⟨fun y u p => X (y, u) p, ?_, fun y u p => ?_⟩
  · unfold solveAr
    dsimp only
    rw [hc]
    erw [hX]
  · have h := la.cholSolve_ok _ _ X hp.isHermitian hX
    have h := congrFun (congrFun h (y, u)) p
    rw [Matrix.add_mul, Matrix.smul_mul, Matrix.one_mul, Matrix.add_apply, Matrix.mul_apply, Fintype.sum_prod_type, hh] at h
    simp only [Matrix.vecMulVec_apply, Matrix.smul_apply, smul_eq_mul, Matrix.of_apply] at h
    simp only [hR]
    exact h

/-- **C85 (regularisation).** The solver of the full update with Cholesky decompositions adds `als_epsilon` times the largest entry of a
matrix to its diagonal. This depends on the basis: the solutions of one linear system in two bases differ by more than the change of
basis, for every `als_epsilon > 0`. Therefore with this solver C85 is restricted to changes of signs. -/
theorem C85_regularisation (la la' : Lapack ℝ) (ε : ℝ) (hε : 0 < ε) :
    Unit2 rot ∧ (∀ y u x w, regMat' y u x w = ∑ y', ∑ x', rot y y' * rot x x' * regMat y' u x' w) ∧
    (∀ y u p, regRhs' y u p = ∑ y', rot y y' * regRhs y' u p) ∧
    ∃ X X', solveAr la ε .cholesky regMat regRhs = .ok X ∧ solveAr la' ε .cholesky regMat' regRhs' = .ok X' ∧
      ¬ ∀ y u p, X' y u p = ∑ y', rot y y' * X y' u p := by
  have hh : ∀ (R : Fin 2 → Fin 1 → Fin 2 → Fin 1 → ℝ), (∀ y u x w, R y u x w = R x w y u) → ∀ a b, hermAvg R a b = R a.1 a.2 b.1 b.2 := by
    intro R h a b
    simp only [hermAvg, Matrix.smul_apply, Matrix.add_apply, Matrix.of_apply, Matrix.conjTranspose_apply, star_trivial,
      smul_eq_mul, RCLike.ofReal_real_eq_id, id]
    rw [h b.1 b.2 a.1 a.2]
    ring
  have hbdd : ∀ M : Matrix (Fin 2 × Fin 1) (Fin 2 × Fin 1) ℝ, BddAbove (Set.range fun ij : (Fin 2 × Fin 1) × (Fin 2 × Fin 1) => ‖M ij.1 ij.2‖) :=
    fun M => Set.Finite.bddAbove (Set.finite_range _)
  have h1 : 1 ≤ absMax (hermAvg regMat) := by
    refine le_trans ?_ (le_ciSup (hbdd _) ((0, 0), (0, 0)))
    rw [hh _ (by intro y u x w; simp only [regMat, and_comm])]
    simp [regMat]
  have h2 : absMax (hermAvg regMat') ≤ 16 / 25 := by
    refine ciSup_le fun ij => ?_
    rw [hh _ (by intro y u x w; simp only [regMat', mul_comm])]
    obtain ⟨⟨y, u⟩, x, w⟩ := ij
    fin_cases y <;> fin_cases x <;> norm_num [regMat', rot, abs_le]
  have h3 : 0 < absMax (hermAvg regMat') := by
    refine lt_of_lt_of_le ?_ (le_ciSup (hbdd _) ((0, 0), (0, 0)))
    rw [hh _ (by intro y u x w; simp only [regMat', mul_comm])]
    norm_num [regMat', rot]
  obtain ⟨X, e, hX⟩ := solveAr_regular la ε regMat regRhs (fun a => if a.1 = 0 then 1 else 0) (by
    intro y u x w
    fin_cases y <;> fin_cases x <;> norm_num [regMat]) (mul_pos hε (by linarith))
  obtain ⟨X', e', hX'⟩ := solveAr_regular la' ε regMat' regRhs' (fun a => rot a.1 0) (fun _ _ _ _ => rfl) (mul_pos hε h3)
  refine ⟨rot_unit, fun y u x w => ?_, fun y u p => ?_, X, X', e, e', fun hx => ?_⟩
  · simp [regMat, regMat', Fin.sum_univ_two]
  · simp [regRhs, regRhs']
  · have q1 := hX 0 0 0
    have q2 := hX 1 0 0
    have q3 := hX' 0 0 0
    simp only [hx, Fin.sum_univ_two, Fin.sum_univ_one] at q1 q2 q3
    norm_num [regMat, regMat', regRhs, regRhs', rot] at q1 q2 q3
    generalize absMax (hermAvg regMat) = c at *
    generalize absMax (hermAvg regMat') = c' at *
    have hb : X 1 0 0 = 0 := by
      rcases q2 with (h | h) | h
      · linarith
      · linarith
      · exact h
    rw [hb] at q3
    generalize X 0 0 0 = a at *
    have e1 : a * (1 + ε * c') = 1 := by linarith
    have e2 : a * (1 + ε * c) = 1 := by linarith
    have ha : a ≠ 0 := by
      rintro rfl
      simp at e1
    have e3 : ε * (c - c') = 0 := by
      have : a * (ε * (c - c')) = 0 := by linarith
      exact (mul_eq_zero.1 this).resolve_left ha
    rcases mul_eq_zero.1 e3 with h | h <;> linarith

end AceTN
