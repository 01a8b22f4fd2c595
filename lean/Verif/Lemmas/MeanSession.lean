import Verif.Lemmas.MeanField
import Verif.Spec.MeanTheory
import Verif.Lemmas.Phased
import Verif.Lemmas.Session
import Verif.Props.LatticeError
import Verif.Props.SvdChoice

/-!
Sessions with bond dimension one: the boundary tensors stay positive numbers up to phases, and the site tensors stay nonzero.
-/

set_option autoImplicit false
set_option linter.unusedSectionVars false

namespace AceTN

open Matrix Spec Full Session

variable {𝕜 F : Type} [RCLike 𝕜] {pD nx ny : ℕ}

section phased

variable {φ : ℤ × ℤ → Fin 4 → 𝕜} {net : Net (Ten (Fin 1) (Fin pD) 𝕜)}

/-- Boundary tensors of this kind give the density matrices of the product of the site tensors. -/
theorem Phased.rdms (h : Phased φ net) (hx : 0 < net.nx) (hy : 0 < net.ny) (hc : 0 < net.chi) :
    ProductRdms net.nx net.ny (siteTensors (bare net)) net := by
  have hA : ∀ p, net.A (cellSite net.nx net.ny p) = .site (siteTensors (bare net) (cellSite net.nx net.ny p)) := by
    intro p
    obtain ⟨a, ha, -⟩ := h.site p
    rw [ha]
    exact congrArg Ten.site (bare_A ha).symm
  have hne : ∀ s, InCell net.nx net.ny s → siteTensors (bare net) s ≠ 0 := by
    intro s hs
    obtain ⟨a, ha, h0⟩ := h.site (atLattice s)
    rw [show cellSite net.nx net.ny (atLattice s) = s from cellSite_self _ _ s hs] at ha
    unfold siteTensors
    rw [bare_A ha]
    exact h0
  obtain ⟨la⟩ := nonempty_lapack (𝕜 := 𝕜)
  obtain ⟨f, hf, hp⟩ := C68_product (siteTensors (bare net)) hx hy hne hc ⟨la, true, 0, 0, 0⟩ .half (Or.inl rfl) le_rfl one_pos
    (fun _ _ _ _ _ => 0) (fun h => absurd h (by simp)) 0 0
  have hf : f = freshNet net.nx net.ny net.chi (siteTensors (bare net)) := (Except.ok.inj hf).symm
  subst hf
  obtain ⟨h1, h2⟩ := sameRdms_of_related (net := freshNet net.nx net.ny net.chi (siteTensors (bare net))) hx hy (phased_related (phased_fresh (chi := net.chi) _ hx hy hne) h rfl rfl rfl fun p => hA p)
  intro s hs
  obtain ⟨⟨r, er, c, hc, e⟩, h3⟩ := hp s hs
  refine ⟨?_, fun k init => ?_⟩
  · obtain ⟨r1, r2, e1, e2, c', hc', e'⟩ := h1 s hs
    obtain rfl := Except.ok.inj (e1.symm.trans er)
    refine ⟨r2, e2, c' * c, mul_pos hc' hc, fun b k => ?_⟩
    rw [e', e]
    push_cast
    ring
  · obtain ⟨r, er, c, hc, e⟩ := h3 k init
    obtain ⟨r1, r2, e1, e2, c', hc', e'⟩ := h2 s hs k init init
    obtain rfl := Except.ok.inj (e1.symm.trans er)
    refine ⟨r2, e2, c' * c, mul_pos hc' hc, fun b1 b2 k1 k2 => ?_⟩
    rw [e', e]
    push_cast
    ring

theorem Phased.write (h : Phased φ net) (s : Site) (a : ATensor (Fin 1) (Fin pD) 𝕜) (ha : a ≠ 0) : Phased φ (writeSite net s a) where
  unit := h.unit
  site p := by
    unfold writeSite
    dsimp only
    split_ifs
    · exact ⟨a, rfl, ha⟩
    · exact h.site p
  corner := h.corner
  edge := h.edge

theorem Phased.ne (h : Phased φ net) {s : Site} (hs : InCell net.nx net.ny s) : ∃ a, net.A s = .site a ∧ a ≠ 0 := by
  have := h.site (atLattice s)
  rwa [show cellSite net.nx net.ny (atLattice s) = s from cellSite_self _ _ s hs] at this

theorem Phased.runValid (h : Phased φ net) (hx : 0 < net.nx) (hy : 0 < net.ny) {st : ProjSettings 𝕜} {pk : ProjKind}
    (hr : CutsResolve (Fin 1) st pk) (hcut : 0 ≤ st.cutoff) (hcut1 : st.cutoff < 1) (ω : ℕ → Draws (Fin 1) 𝕜)
    (ht : ∀ t, NoTrunc 1 net.chi st (ω t)) (ms : List Move) (t : ℕ) (hm : ∀ m ∈ ms, m.Valid net.nx net.ny) :
    ∃ net' φ', runDrawn st pk ω t ms net = .ok net' ∧ Phased φ' net' ∧ net'.nx = net.nx ∧ net'.ny = net.ny ∧ net'.chi = net.chi := by
  induction ms generalizing t net φ with
  | nil => exact ⟨net, φ, rfl, h, rfl, rfl, rfl⟩
  | cons m ms ih =>
    obtain ⟨φ', h'⟩ := h.after hx hy (ht t) hr hcut hcut1 m (hm m (by simp))
    obtain ⟨net', φ'', h2, h3, h5, h6, h7⟩ := ih h' hx hy ht (t + 1) (fun m' h => hm m' (by simp [h]))
    refine ⟨net', φ'', ?_, h3, h5, h6, h7⟩
    simp only [runDrawn, Move.run_eq, bind, Except.bind]
    exact h2

end phased

/-- A best product approximation of something that is not zero is not zero. -/
theorem best_ne_zero {P : Type} [Fintype P] [DecidableEq P] {T T' : Fin 1 → Fin 1 → Fin 1 → Fin 1 → Fin 1 → Fin 1 → P → P → ℝ} {c : ℝ} (hT : T ≠ 0)
    (h : BestBond T T' c) : T' ≠ 0 := by
  rintro rfl
  apply hT
  funext u r d l' u' d' p q
  obtain rfl : u = 0 := Subsingleton.elim _ _
  obtain rfl : r = 0 := Subsingleton.elim _ _
  obtain rfl : d = 0 := Subsingleton.elim _ _
  obtain rfl : l' = 0 := Subsingleton.elim _ _
  obtain rfl : u' = 0 := Subsingleton.elim _ _
  obtain rfl : d' = 0 := Subsingleton.elim _ _
  by_contra hne
  have h1 := h.2 (fun _ _ _ _ p' => if p' = p then T 0 0 0 0 0 0 p q else 0) (fun _ _ _ _ q' => if q' = q then 1 else 0)
  have e : ∀ S : Fin 1 → Fin 1 → Fin 1 → Fin 1 → Fin 1 → Fin 1 → P → P → ℝ, normSq8 S = ∑ x : P × P, S 0 0 0 0 0 0 x.1 x.2 ^ 2 := by
    intro S
    unfold normSq8
    simp [Fintype.sum_prod_type]
  rw [e, e] at h1
  refine absurd h1 (not_le.2 (Finset.sum_lt_sum (fun x _ => ?_) ⟨(p, q), Finset.mem_univ _, ?_⟩))
  · unfold twoSite
    rw [Fintype.sum_subsingleton _ 0]
    by_cases h1 : x.1 = p
    · by_cases h2 : x.2 = q
      · simp [h1, h2, sq_nonneg]
      · simp [h2]
    · simp [h1]
  · unfold twoSite
    rw [Fintype.sum_subsingleton _ 0]
    have : 0 < T 0 0 0 0 0 0 p q ^ 2 := by
      have h2 : T 0 0 0 0 0 0 p q ≠ 0 := hne
      positivity
    simpa using this

theorem twoSite_ne_zero {P : Type} {a1 a2 : ATensor (Fin 1) P ℝ} : twoSite a1 a2 ≠ 0 ↔ a1 ≠ 0 ∧ a2 ≠ 0 := by
  have e : ∀ (z1 z2 : ATensor (Fin 1) P ℝ) u r d l' u' d' p q, twoSite z1 z2 u r d l' u' d' p q = z1 0 0 0 0 p * z2 0 0 0 0 q := by
    intro z1 z2 u r d l' u' d' p q
    unfold twoSite
    rw [Fintype.sum_subsingleton _ 0]
    simp only [Subsingleton.elim _ (0 : Fin 1)]
  have hz : ∀ z : ATensor (Fin 1) P ℝ, z ≠ 0 → ∃ p, z 0 0 0 0 p ≠ 0 := by
    intro z h
    by_contra hc
    push Not at hc
    apply h
    funext l u r d p
    simp only [Subsingleton.elim _ (0 : Fin 1)]
    exact hc p
  constructor
  · intro h
    constructor
    · rintro rfl
      apply h
      funext u r d l' u' d' p q
      rw [e]
      exact zero_mul _
    · rintro rfl
      apply h
      funext u r d l' u' d' p q
      rw [e]
      exact mul_zero _
  · rintro ⟨h1, h2⟩ h
    obtain ⟨p, hp⟩ := hz a1 h1
    obtain ⟨q, hq⟩ := hz a2 h2
    have := congrFun (congrFun (congrFun (congrFun (congrFun (congrFun (congrFun (congrFun h 0) 0) 0) 0) 0) 0) p) q
    rw [e] at this
    exact mul_ne_zero hp hq this

/-- The vectors of a network with bond dimension one. -/
noncomputable def Spec.netVec {P : Type} (net : Net (Ten (Fin 1) P ℝ)) : Site → P → ℝ := siteVec (siteTensors (bare net))

theorem netVec_congr {P : Type} {net net' : Net (Ten (Fin 1) P ℝ)} {s : Site} (h : net'.A s = net.A s) : netVec net' s = netVec net s := by
  unfold netVec siteVec
  funext p
  rw [show siteTensors (bare net') s = siteTensors (bare net) s from bare_congr h]

/-- Nearest pairs of tensors are nearest pairs of vectors. -/
theorem bestProduct_of {P : Type} [Fintype P] {gate : P → P → P → P → ℝ} {a1 a2 x1 x2 : ATensor (Fin 1) P ℝ} {κ : ℝ}
    (h : BestBond (gated gate (twoSite a1 a2)) (twoSite x1 x2) κ) :
    BestProduct (pairAfter gate (a1 0 0 0 0) (a2 0 0 0 0)) (x1 0 0 0 0) (x2 0 0 0 0) := by
  have e : ∀ S : Fin 1 → Fin 1 → Fin 1 → Fin 1 → Fin 1 → Fin 1 → P → P → ℝ, normSq8 S = ∑ p, ∑ q, S 0 0 0 0 0 0 p q ^ 2 := by
    intro S
    unfold normSq8
    simp
  have t : ∀ (z1 z2 : ATensor (Fin 1) P ℝ) p q, twoSite z1 z2 0 0 0 0 0 0 p q = z1 0 0 0 0 p * z2 0 0 0 0 q := by
    intro z1 z2 p q
    unfold twoSite
    rw [Fintype.sum_subsingleton _ 0]
  refine ⟨κ, h.1, fun f g => ?_⟩
  have h1 := h.2 (fun _ _ _ _ => f) (fun _ _ _ _ => g)
  rw [e, e] at h1
  simp only [t, gated, RCLike.ofReal_real_eq_id, id_eq] at h1
  exact h1

section real

variable [NeZero pD]

/-- What every call keeps: a lattice of the given size, a positive boundary dimension, site tensors that are not zero, and boundary tensors that are
positive numbers up to phases that cancel. -/
structure MeanNet (nx ny : ℕ) (net : Net (Ten (Fin 1) (Fin pD) ℝ)) : Prop where
  fit : FitNet nx ny net
  chi : 0 < net.chi
  phased : ∃ φ, Phased φ net

theorem cutsResolve_real (st : ProjSettings ℝ) (pk : ProjKind) (h0 : 0 ≤ st.cutoff) (h1 : st.cutoff < 1) : CutsResolve (Fin 1) st pk := by
  cases pk with
  | half => exact (cutsGood_half st h0 h1).resolve
  | full => exact (cutsGood_full_real st h0 h1).resolve

/-- Random draws that are not zero. -/
def Spec.DrawsNonzero (ω : ℕ → Draws (Fin 1) ℝ) : Prop := ∀ t key q, 0 < q → ω t key 1 1 q ≠ 0

variable {st : ProjSettings ℝ} {pk : ProjKind} {ω : ℕ → Draws (Fin 1) ℝ} (h0 : 0 ≤ st.cutoff) (h1 : st.cutoff < 1) (hω : DrawsNonzero ω)

include h0 h1 hω in
theorem noTrunc_one {chi : ℕ} (hchi : 0 < chi) (t : ℕ) : NoTrunc 1 chi st (ω t) :=
  product_noTrunc hchi st h1 (ω t) fun _ key => hω t key _ (by omega)

include h0 h1 hω in
theorem MeanNet.moves (hx : 0 < nx) (hy : 0 < ny) {net : Net (Ten (Fin 1) (Fin pD) ℝ)} (h : MeanNet nx ny net) (ms : List Move) (t : ℕ)
    (hm : ∀ m ∈ ms, m.Valid nx ny) : ∃ net', runDrawn st pk ω t ms net = .ok net' ∧ MeanNet nx ny net' := by
  obtain ⟨⟨rfl, rfl, f, hw⟩, hc, φ, hp⟩ := h
  obtain ⟨net', φ', e, hp', e1, e2, e3⟩ := hp.runValid hx hy (cutsResolve_real st pk h0 h1) h0 h1 ω (noTrunc_one h0 h1 hω hc) ms t hm
  obtain ⟨n, f', e', hw', -⟩ := wired_run st pk ω ms t net f hw hx hy hm
  obtain rfl := Except.ok.inj (e'.symm.trans e)
  exact ⟨n, e, ⟨e1, e2, f', hw'⟩, e3 ▸ hc, φ', hp'⟩

theorem MeanNet.write {net : Net (Ten (Fin 1) (Fin pD) ℝ)} (h : MeanNet nx ny net) (s : Site) (a : ATensor (Fin 1) (Fin pD) ℝ) (ha : a ≠ 0) :
    MeanNet nx ny (writeSite net s a) := by
  obtain ⟨⟨rfl, rfl, f, hw⟩, hc, φ, hp⟩ := h
  exact ⟨⟨rfl, rfl, f, wired_write hw _ _⟩, hc, φ, hp.write s a ha⟩

theorem MeanNet.site {net : Net (Ten (Fin 1) (Fin pD) ℝ)} (h : MeanNet nx ny net) {s : Site} (hs : InCell nx ny s) :
    ∃ a, net.A s = .site a ∧ a ≠ 0 := by
  obtain ⟨⟨rfl, rfl, f, hw⟩, hc, φ, hp⟩ := h
  exact hp.ne hs

theorem MeanNet.bond {net : Net (Ten (Fin 1) (Fin pD) ℝ)} (h : MeanNet nx ny net) {b : Bond} (hb : b ∈ buildBondList nx ny) :
    bondTensor (bare net) b ≠ 0 := by
  obtain ⟨c1, c2⟩ := C02_bond_ends_in_cell nx ny b hb
  rw [mem_buildSiteList] at c1 c2
  obtain ⟨a1, e1, n1⟩ := h.site c1
  obtain ⟨a2, e2, n2⟩ := h.site c2
  unfold bondTensor
  rw [bondPermute_unique, bondPermute_unique, bare_A e1, bare_A e2]
  exact twoSite_ne_zero.2 ⟨n1, n2⟩

include h0 h1 hω in
/-- A full update. -/
theorem MeanNet.fullStep_mean (hx : 2 ≤ nx) (hy : 2 ≤ ny) (la : Lapack ℝ) (fo : Als.FloatOps F) (rep : ℝ → F) (cfg : Settings F)
    (hm : SolvesOne cfg.als_method cfg.als_epsilon) (hcut : 0 < cfg.positive_approx_cutoff)
    (hatol : cfg.use_gauge_fix = true → cfg.gauge_fix_atol < Real.sqrt cfg.positive_approx_cutoff) (m : ModelTerms (Fin pD) ℝ) (dtau : ℝ)
    (s : Net (Ten (Fin 1) (Fin pD) ℝ) × ℕ) (h : MeanNet nx ny s.1) {b : Bond} (hb : b ∈ buildBondList nx ny) :
    MeanNet nx ny (fullBondStep st pk ω la fo rep cfg none (twoSiteGate m dtau) s b).1.1 ∧
      (fullBondStep st pk ω la fo rep cfg none (twoSiteGate m dtau) s b).2 = none ∧
      MeanStep nx ny (twoSiteGate m dtau b) b (netVec s.1) (netVec (fullBondStep st pk ω la fo rep cfg none (twoSiteGate m dtau) s b).1.1) := by
  have hne := h.bond hb
  obtain ⟨a1, a2, n12, hbond, hstep⟩ := fullBondStep_recomposed hx hy la s h.fit hb
  rw [hbond] at hne
  have hg := gated_ne_zero_of m dtau b _ hne
  obtain ⟨x1, x2, hrec, κ, hbest⟩ := recomposed_one la fo rep cfg hm hcut hatol n12 a1 a2 _ hg
  obtain ⟨hok, hoff, hnew⟩ := (hstep F st pk ω fo rep cfg (twoSiteGate m dtau)).2 x1 x2 hrec
  have hx2 := best_ne_zero hg hbest
  rw [← hnew] at hx2
  refine ⟨?_, hok, ?_⟩
  swap
  · rw [← hnew, ← hbond] at hbest
    unfold bondTensor at hbest
    rw [bondPermute_unique, bondPermute_unique, bondPermute_unique, bondPermute_unique] at hbest
    exact ⟨bestProduct_of hbest, fun s' _ h1 h2 => congrArg (fun a : ATensor (Fin 1) (Fin pD) ℝ => a 0 0 0 0) (hoff s' h1 h2)⟩
  have hx0 : 0 < nx := by omega
  have hy0 : 0 < ny := by omega
  obtain ⟨net, t⟩ := s
  dsimp only at h
  unfold bondTensor at hx2
  rw [bondPermute_unique, bondPermute_unique, twoSite_ne_zero] at hx2
  have hfit := h.fit
  obtain ⟨rfl, rfl, f, hw⟩ := hfit
  have hw4 := (fullBondStep_wired st pk ω la fo rep cfg none (twoSiteGate m dtau) (net, t) hw hx0 hy0 hb).2.2.2
  dsimp only at hw4
  cases hu : numUpdate la fo rep cfg none (twoSiteGate m dtau) net b with
  | none => rw [hu] at hw4; exact absurd hok hw4.1
  | some r =>
    cases r with
    | error e => rw [hu] at hw4; exact absurd hok hw4.1
    | ok q =>
      rw [hu] at hw4
      obtain ⟨-, hA⟩ := hw4
      have hne := bond_ends_distinct net.nx net.ny hx hy b hb
      have q1 : q.1 ≠ 0 := by
        have := hx2.1
        rwa [bare_A (show _ = Ten.site q.1 by rw [hA]; unfold writeSite; simp [hne])] at this
      have q2 : q.2 ≠ 0 := by
        have := hx2.2
        rwa [bare_A (show _ = Ten.site q.2 by rw [hA]; unfold writeSite; simp)] at this
      have hr : ∀ m ∈ absorbMoves b, m.Valid net.nx net.ny := by
        obtain ⟨p, K, rfl⟩ := bond_cellSite hx0 hy0 hb
        obtain ⟨m1, m2, em, -, -, v1, v2, -⟩ := absorb_moves hx0 hy0 p K
        rw [em]
        intro m hm
        simp only [List.mem_cons, List.not_mem_nil, or_false] at hm
        rcases hm with rfl | rfl
        · exact v1
        · exact v2
      obtain ⟨net', e, h'⟩ := MeanNet.moves (pk := pk) h0 h1 hω hx0 hy0 ((h.write b.s1 _ q1).write b.s2 _ q2) (absorbMoves b) t hr
      obtain ⟨q1, q2⟩ := q
      unfold fullBondStep
      dsimp only
      rw [hu]
      dsimp only at e ⊢
      rw [e]
      exact h'

include h0 h1 hω in
/-- A full update keeps such networks and does not raise. -/
theorem MeanNet.fullStep (hx : 2 ≤ nx) (hy : 2 ≤ ny) (la : Lapack ℝ) (fo : Als.FloatOps F) (rep : ℝ → F) (cfg : Settings F)
    (hm : SolvesOne cfg.als_method cfg.als_epsilon) (hcut : 0 < cfg.positive_approx_cutoff)
    (hatol : cfg.use_gauge_fix = true → cfg.gauge_fix_atol < Real.sqrt cfg.positive_approx_cutoff) (m : ModelTerms (Fin pD) ℝ) (dtau : ℝ)
    (s : Net (Ten (Fin 1) (Fin pD) ℝ) × ℕ) (h : MeanNet nx ny s.1) {b : Bond} (hb : b ∈ buildBondList nx ny) :
    MeanNet nx ny (fullBondStep st pk ω la fo rep cfg none (twoSiteGate m dtau) s b).1.1 ∧
      (fullBondStep st pk ω la fo rep cfg none (twoSiteGate m dtau) s b).2 = none :=
  have h' := MeanNet.fullStep_mean (st := st) (pk := pk) h0 h1 hω hx hy la fo rep cfg hm hcut hatol m dtau s h hb
  ⟨h'.1, h'.2.1⟩

/-- The tables of weights of simple updates with bond dimension one. -/
def AllOnes (nx ny : ℕ) (lt : LambdaTensors (Simple.Weight 1)) : Prop :=
  Stored nx ny lt ∧ ∀ s, InCell nx ny s → ∀ d < 4, ∀ w, lt.get s d = .ok w → w = ⟨false, fun _ => 1⟩

/-- A simple update. -/
theorem MeanNet.simpleStep_mean (hx : 2 ≤ nx) (hy : 2 ≤ ny) (la : Lapack ℝ) (m : ModelTerms (Fin pD) ℝ) (dtau : ℝ)
    (s : Net (Ten (Fin 1) (Fin pD) ℝ) × LambdaTensors (Simple.Weight 1)) (h : MeanNet nx ny s.1) (ht : AllOnes nx ny s.2) {b : Bond}
    (hb : b ∈ buildBondList nx ny) :
    MeanNet nx ny (Simple.numBondStep la (twoSiteGate m dtau) s b).1.1 ∧ AllOnes nx ny (Simple.numBondStep la (twoSiteGate m dtau) s b).1.2 ∧
      (Simple.numBondStep la (twoSiteGate m dtau) s b).2 = none ∧
      MeanStep nx ny (twoSiteGate m dtau b) b (netVec s.1) (netVec (Simple.numBondStep la (twoSiteGate m dtau) s b).1.1) := by
  obtain ⟨net, lt⟩ := s
  obtain ⟨hst, hone⟩ := ht
  dsimp only at h hst hone
  obtain ⟨c1, c2⟩ := C02_bond_ends_in_cell nx ny b hb
  rw [mem_buildSiteList] at c1 c2
  obtain ⟨a1, e1, n1⟩ := h.site c1
  obtain ⟨a2, e2, n2⟩ := h.site c2
  have : Nonempty (Simple.Weight 1) := ⟨Simple.ones 1 false⟩
  choose! W1 hW1 using fun (d : ℕ) (hd : d < 4) => hst.total c1 hd
  choose! W2 hW2 using fun (d : ℕ) (hd : d < 4) => hst.total c2 hd
  have o1 : ∀ d < 4, W1 d = ⟨false, fun _ => 1⟩ := fun d hd => hone _ c1 d hd _ (hW1 d hd)
  have o2 : ∀ d < 4, W2 d = ⟨false, fun _ => 1⟩ := fun d hd => hone _ c2 d hd _ (hW2 d hd)
  have hwt : ∀ (w : ℕ → Fin 1 → ℝ) (h : ∀ d < 4, w d = fun _ => 1) (ex : ℕ) (a : ATensor (Fin 1) (Fin pD) ℝ), weighted w ex a = a := by
    intro w h ex a
    funext l u r d p
    simp [weighted, legWeight, h 0 (by omega), h 1 (by omega), h 2 (by omega), h 3 (by omega)]
  have hbs : ∀ a1 a2 : ATensor (Fin 1) (Fin pD) ℝ, bondState W1 W2 b.k a1 a2 = twoSite a1 a2 := by
    intro a1 a2
    unfold bondState
    rw [hwt _ (fun d hd => by rw [o1 d hd]), hwt _ (fun d hd => by rw [o2 d hd]), bondPermute_unique, bondPermute_unique]
  have hg : gated (twoSiteGate m dtau b) (twoSite a1 a2) ≠ 0 := gated_ne_zero_of m dtau b _ (twoSite_ne_zero.2 ⟨n1, n2⟩)
  obtain ⟨b1, b2, lam, hbt, hnorm, cb, hbest⟩ := C40_partial la lt (twoSiteGate m dtau b) b a1 a2 W1 W2 hW1 hW2
    (fun d hd _ => by rw [o1 d hd]; exact ⟨rfl, fun _ => by norm_num⟩) (fun d hd _ => by rw [o2 d hd]; exact ⟨rfl, fun _ => by norm_num⟩)
    (by rw [hbs]; exact hg)
  rw [hbs, hbs] at hbest
  obtain ⟨m1, m2⟩ := twoSite_ne_zero.1 (best_ne_zero hg hbest)
  have u1 : Simple.numBondStep la (twoSiteGate m dtau) (net, lt) b =
      ((writeSite (writeSite net b.s1 b1) b.s2 b2, lt.setItem b ⟨false, lam⟩), none) := by
    unfold Simple.numBondStep
    dsimp only
    rw [e1, e2]
    dsimp only
    rw [hbt]
  have hlam : lam = fun _ => 1 := by
    obtain ⟨h0, -, -, h4⟩ := hnorm
    funext i
    obtain rfl : i = 0 := Subsingleton.elim _ _
    rw [Fintype.sum_subsingleton _ 0] at h4
    exact (pow_eq_one_iff_of_nonneg (h0 0) (by norm_num)).1 h4
  subst hlam
  rw [u1]
  refine ⟨(h.write _ _ m1).write _ _ m2, ⟨hst.set _ _, fun s' hs' d hd w hw => ?_⟩, rfl, ?_, fun s' _ h1 h2 => ?_⟩
  · rcases hst.get_set hs' hd hb _ w hw with ⟨-, rfl⟩ | ⟨-, h1⟩
    · rfl
    · exact hone s' hs' d hd w h1
  · have hne := bond_ends_distinct nx ny hx hy b hb
    have f1 : (writeSite (writeSite net b.s1 b1) b.s2 b2).A b.s1 = .site b1 := by unfold writeSite; simp [hne]
    have f2 : (writeSite (writeSite net b.s1 b1) b.s2 b2).A b.s2 = .site b2 := by unfold writeSite; simp
    have hv : ∀ {net : Net (Ten (Fin 1) (Fin pD) ℝ)} {s' a}, net.A s' = .site a → netVec net s' = a 0 0 0 0 := by
      intro net s' a ha
      unfold netVec siteVec siteTensors
      rw [bare_A ha]
    rw [hv e1, hv e2, hv f1, hv f2]
    exact bestProduct_of hbest
  · exact netVec_congr (by unfold writeSite; simp [h1, h2])

/-- A simple update keeps such networks and does not raise. -/
theorem MeanNet.simpleStep (hx : 2 ≤ nx) (hy : 2 ≤ ny) (la : Lapack ℝ) (m : ModelTerms (Fin pD) ℝ) (dtau : ℝ)
    (s : Net (Ten (Fin 1) (Fin pD) ℝ) × LambdaTensors (Simple.Weight 1)) (h : MeanNet nx ny s.1) (ht : AllOnes nx ny s.2) {b : Bond}
    (hb : b ∈ buildBondList nx ny) :
    MeanNet nx ny (Simple.numBondStep la (twoSiteGate m dtau) s b).1.1 ∧ AllOnes nx ny (Simple.numBondStep la (twoSiteGate m dtau) s b).1.2 ∧
      (Simple.numBondStep la (twoSiteGate m dtau) s b).2 = none :=
  have h' := h.simpleStep_mean hx hy la m dtau s ht hb
  ⟨h'.1, h'.2.1, h'.2.2.1⟩

theorem meanNet_fresh (hx : 0 < nx) (hy : 0 < ny) {chi : ℕ} (hchi : 0 < chi) (A : Site → ATensor (Fin 1) (Fin pD) ℝ)
    (hA : ∀ s, InCell nx ny s → A s ≠ 0) : MeanNet nx ny (freshNet nx ny chi A) :=
  ⟨fitNet_fresh hx hy chi A, hchi, _, phased_fresh A hx hy hA⟩

/-- So every such network gives the values of the product state. -/
theorem MeanNet.rdms (hx : 0 < nx) (hy : 0 < ny) {net : Net (Ten (Fin 1) (Fin pD) ℝ)} (h : MeanNet nx ny net) :
    ProductRdms nx ny (siteTensors (bare net)) net := by
  obtain ⟨⟨rfl, rfl, -⟩, hc, φ, hp⟩ := h
  exact hp.rdms hx hy hc

end real

end AceTN
