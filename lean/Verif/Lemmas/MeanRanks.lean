import Verif.Lemmas.DistSession
import Verif.Props.MeanTheory

/-!
Distributed runs at bond dimension one, with both kinds of projectors.
-/

set_option autoImplicit false
set_option linter.unusedSectionVars false

namespace AceTN

open Matrix Spec Full Session

section stale

variable {𝕜 : Type} [RCLike 𝕜] {B P : Type} [Fintype B] [Fintype P] [DecidableEq B] [Unique B]

theorem staleAfter_consts (st : ProjSettings 𝕜) (ω : Draws B 𝕜) (pk : ProjKind) (m1 m2 : Move) (net : Net (Ten B P 𝕜)) :
    (staleAfter st ω pk m1 m2 net).nx = net.nx ∧ (staleAfter st ω pk m1 m2 net).ny = net.ny ∧ (staleAfter st ω pk m1 m2 net).chi = net.chi ∧
      (staleAfter st ω pk m1 m2 net).A = net.A := by
  obtain ⟨c1, c2, c3, c4⟩ := m1.after_consts (numOps st ω) pk net
  obtain ⟨d1, d2, d3, d4⟩ := m2.after_consts (givenOps st ω fun key => m2.proj (numOps st ω) pk net (m2.idx key.2)) pk (m1.after (numOps st ω) pk net)
  exact ⟨d1.trans c1, d2.trans c2, d3.trans c3, d4.trans c4⟩

/-- A distributed move, the second half of which uses projectors from before the first. -/
theorem Phased.stale {φ : ℤ × ℤ → Fin 4 → 𝕜} {net : Net (Ten B P 𝕜)} {st : ProjSettings 𝕜} {ω : Draws B 𝕜} {pk : ProjKind}
    (h : Phased φ net) (hx : 0 < net.nx) (hy : 0 < net.ny) (ht : NoTrunc 1 net.chi st ω) (hr : CutsResolve B st pk)
    (hcut : 0 ≤ st.cutoff) (hcut1 : st.cutoff < 1) (m1 m2 : Move) (v1 : m1.Valid net.nx net.ny) (v2 : m2.Valid net.nx net.ny) :
    ∃ φ', Phased φ' (staleAfter st ω pk m1 m2 net) := by
  obtain ⟨φ1, h1⟩ := h.after (pk := pk) hx hy ht hr hcut hcut1 m1 v1
  obtain ⟨c1, c2, c3, c4⟩ := m1.after_consts (numOps st ω) pk net
  unfold staleAfter
  refine h1.after_cuts (st := st) (ω := ω) (c1 ▸ hx) (c2 ▸ hy) m2 (by rw [c1, c2]; exact v2) _ rfl rfl rfl rfl fun q => ?_
  obtain ⟨u, hu, hq⟩ := h.cut (pk := pk) hx hy ht hr hcut hcut1 m2 q
  refine ⟨u, hu, fun hl => ?_⟩
  rw [c1, c2] at hl
  obtain ⟨a, b, ha, hb, e⟩ := hq hl
  refine ⟨a, b, ha, hb, ?_⟩
  rw [← e]
  unfold Move.cut
  rw [proj_given st ω m2 (m2.proj (numOps st ω) pk net), c1, c2]

end stale

variable {F : Type} {pD nx ny : ℕ} [NeZero pD]

section moves

variable {st : ProjSettings ℝ} {pk : ProjKind} {ws : ℕ} {ω : ℕ → ℕ → Draws (Fin 1) ℝ} (h0 : 0 ≤ st.cutoff) (h1 : st.cutoff < 1)
  (hω : ∀ r < ws, DrawsNonzero (ω r)) (hws : 2 ≤ ws) (s1 : SharingWorks ws nx) (s2 : SharingWorks ws ny) (hx : 0 < nx) (hy : 0 < ny)

include h0 h1 hω hws s1 s2 hx hy

theorem MeanNet.distMoves (ms : List ((ℕ × ℕ) ⊕ (ℕ × ℕ))) (t : ℕ) (nets : ℕ → Net (Ten (Fin 1) (Fin pD) ℝ)) (net : Net (Ten (Fin 1) (Fin pD) ℝ))
    (h : MeanNet nx ny net) (hs : InSync ws nets net) (hm : ∀ m ∈ ms, (pairOf m).1.Valid nx ny ∧ (pairOf m).2.Valid nx ny) :
    ∃ ns n, runDistDrawn st pk ws ω t ms nets = .ok ns ∧ InSync ws ns n ∧ MeanNet nx ny n ∧ n.A = net.A := by
  induction ms generalizing t nets net with
  | nil => exact ⟨nets, net, rfl, hs, h, rfl⟩
  | cons m ms ih =>
    obtain ⟨⟨rfl, rfl, f, hw⟩, hc, φ, hp⟩ := h
    obtain ⟨v1, v2⟩ := hm m List.mem_cons_self
    obtain ⟨ns, n, f', e, g1, g2, g3, g4, g5, -, g6⟩ := distMove_ok hw hx hy ws hws s1 s2 hs st (fun r => ω r t) pk m v1 v2
    have hd : DrawsNonzero fun t => mixDraws ws net.nx net.ny fun r => ω r t := fun t key q hq => hω _ (by unfold drawerOf; omega) t key q hq
    obtain ⟨φ', hp'⟩ := hp.stale (pk := pk) hx hy (noTrunc_one h0 h1 hd hc t) (cutsResolve_real st pk h0 h1) h0 h1 (pairOf m).1 (pairOf m).2 v1 v2
    obtain ⟨-, -, k3, -⟩ := staleAfter_consts st (mixDraws ws net.nx net.ny fun r => ω r t) pk (pairOf m).1 (pairOf m).2 net
    rw [← g6] at hp' k3
    obtain ⟨ns', n', e', i1, i2, i3⟩ := ih (t + 1) ns n ⟨⟨g3, g4, f', g2⟩, k3 ▸ hc, φ', hp'⟩ g1 fun m' hm' => hm m' (List.mem_cons_of_mem _ hm')
    refine ⟨ns', n', ?_, i1, i2, i3.trans g5⟩
    show (runMovesDist _ _ pk ws [m] nets >>= fun nets => runDistDrawn st pk ws ω (t + 1) ms nets) = _
    rw [e]
    exact e'

theorem MeanNet.distSweeps (n t : ℕ) (nets : ℕ → Net (Ten (Fin 1) (Fin pD) ℝ)) (net : Net (Ten (Fin 1) (Fin pD) ℝ)) (h : MeanNet nx ny net)
    (hs : InSync ws nets net) : ∃ ns n', ctmrgDistDrawn st pk ws ω t n nets = .ok ns ∧ InSync ws ns n' ∧ MeanNet nx ny n' ∧ n'.A = net.A := by
  induction n generalizing t nets net with
  | zero => exact ⟨nets, net, rfl, hs, h, rfl⟩
  | succ n ih =>
    have e0 := hs 0 (by omega)
    obtain ⟨e1, e2, -⟩ := id h.fit
    obtain ⟨ns, n1, e, g1, g2, g3⟩ := MeanNet.distMoves (pk := pk) h0 h1 hω hws s1 s2 hx hy (sweepMovesDist nx ny) t nets net h hs
      (fun m hm => by
        obtain ⟨m1, m2⟩ := serialOf_mem hm
        rw [serialOf_sweep] at m1 m2
        exact ⟨valid_of_range _ (sweepMoves_range hx hy _ m1), valid_of_range _ (sweepMoves_range hx hy _ m2)⟩)
    obtain ⟨ns', n2, e', i1, i2, i3⟩ := ih (t + (sweepMovesDist nx ny).length) ns n1 g2 g1
    refine ⟨ns', n2, ?_, i1, i2, i3.trans g3⟩
    show (runDistDrawn st pk ws ω t (sweepMovesDist (nets 0).nx (nets 0).ny) nets >>= fun nets' =>
      ctmrgDistDrawn st pk ws ω (t + (sweepMovesDist (nets 0).nx (nets 0).ny).length) n nets') = _
    rw [e0, e1, e2, e]
    exact e'

end moves

section step

variable {st : ProjSettings ℝ} {pk : ProjKind} {ws : ℕ} {ω : ℕ → ℕ → Draws (Fin 1) ℝ} (h0 : 0 ≤ st.cutoff) (h1 : st.cutoff < 1)
  (hω : ∀ r < ws, DrawsNonzero (ω r)) (hws : 2 ≤ ws) (s1 : SharingWorks ws nx) (s2 : SharingWorks ws ny) (hx : 2 ≤ nx) (hy : 2 ≤ ny)

include h0 h1 hω hws s1 s2 hx hy

/-- A full update on all ranks is a step of mean-field theory. -/
theorem MeanNet.distStep (la : Lapack ℝ) (fo : Als.FloatOps F) (rep : ℝ → F) (cfg : Settings F)
    (hm : SolvesOne cfg.als_method cfg.als_epsilon) (hcut : 0 < cfg.positive_approx_cutoff)
    (hatol : cfg.use_gauge_fix = true → cfg.gauge_fix_atol < Real.sqrt cfg.positive_approx_cutoff) (m : ModelTerms (Fin pD) ℝ) (dtau : ℝ)
    (s : (ℕ → Net (Ten (Fin 1) (Fin pD) ℝ)) × ℕ) (hs : InSync ws s.1 (s.1 0)) (h : MeanNet nx ny (s.1 0)) {b : Bond} (hb : b ∈ buildBondList nx ny) :
    let r := distBondStep st pk ws ω la fo rep cfg (twoSiteGate m dtau) s b
    (InSync ws r.1.1 (r.1.1 0) ∧ MeanNet nx ny (r.1.1 0)) ∧ r.2 = none ∧
      MeanStep nx ny (twoSiteGate m dtau b) b (netVec (s.1 0)) (netVec (r.1.1 0)) := by
  intro r
  obtain ⟨g1, g2, g3⟩ := MeanNet.fullStep_mean (st := st) (pk := pk) h0 h1 (hω 0 (by omega)) hx hy la fo rep cfg hm hcut hatol m dtau (s.1 0, s.2) h hb
  obtain ⟨nets, t⟩ := s
  dsimp only at h hs g1 g2 g3
  have hfit := id h.fit
  obtain ⟨e1, e2, f, hw⟩ := hfit
  have hw4 := (fullBondStep_wired st pk (ω 0) la fo rep cfg none (twoSiteGate m dtau) (nets 0, t) hw (by dsimp only; omega) (by dsimp only; omega)
    (b := b) (by rw [e1, e2]; exact hb)).2.2.2
  dsimp only at hw4
  cases hu : numUpdate la fo rep cfg none (twoSiteGate m dtau) (nets 0) b with
  | none => rw [hu] at hw4; exact absurd g2 hw4.1
  | some q =>
    cases q with
    | error e => rw [hu] at hw4; exact absurd g2 hw4.1
    | ok q =>
      rw [hu] at hw4
      obtain ⟨-, hA⟩ := hw4
      obtain ⟨q1, q2⟩ := q
      dsimp only at hA
      have hne := bond_ends_distinct nx ny hx hy b hb
      obtain ⟨c1, c2⟩ := C02_bond_ends_in_cell nx ny b hb
      rw [mem_buildSiteList] at c1 c2
      have n1 : q1 ≠ 0 := by
        obtain ⟨a, ea, na⟩ := g1.site c1
        rw [hA] at ea
        unfold writeSite at ea
        simp only [hne, if_true, if_false] at ea
        cases ea
        exact na
      have n2 : q2 ≠ 0 := by
        obtain ⟨a, ea, na⟩ := g1.site c2
        rw [hA] at ea
        unfold writeSite at ea
        simp only [if_true] at ea
        cases ea
        exact na
      obtain ⟨m', em, v1, v2, -⟩ := absorb_valid hb
      obtain ⟨ns, n, i1, i2, i3, i4⟩ := MeanNet.distMoves (pk := pk) h0 h1 hω hws s1 s2 (by omega) (by omega) (absorbMovesDist b) t
        (fun r => writeSite (writeSite (nets r) b.s1 q1) b.s2 q2) _ ((h.write b.s1 _ n1).write b.s2 _ n2)
        (fun r hr => by dsimp only; rw [hs r hr]) (fun m hm => by
          rw [em, List.mem_singleton] at hm
          rw [hm]
          exact ⟨v1, v2⟩)
      have e : r = ((ns, t + (absorbMovesDist b).length), none) := by
        show distBondStep st pk ws ω la fo rep cfg (twoSiteGate m dtau) (nets, t) b = _
        unfold distBondStep
        dsimp only
        rw [hu]
        dsimp only
        rw [i1]
      have k0 := i2 0 (by omega)
      rw [e]
      dsimp only
      rw [k0]
      refine ⟨⟨i2, i3⟩, rfl, ?_⟩
      rw [show netVec n = netVec _ from funext fun x => netVec_congr (congrFun (i4.trans hA.symm) x)]
      exact g3

end step

end AceTN
