import Verif.Props.SvdChoice

/-!
# C74: Density matrices stay Hermitian

The boundary tensors hold a ket and a bra layer, but nothing in the truncation refers to the two layers.  Still the density
matrices stay exactly Hermitian: from fresh boundary tensors on, through any sequence of moves and of updates of site tensors,
as long as the singular values drop where they are cut off.  So norms and expectation values of Hermitian operators are real,
and nothing is lost when `measure` takes the real part.
-/

set_option autoImplicit false

namespace AceTN

namespace Spec

/-- All density matrices of a network are Hermitian. -/
def HermRdms {𝕜 B : Type} [RCLike 𝕜] [Fintype B] {pD : ℕ} (net : Net (Ten B (Fin pD) 𝕜)) : Prop :=
  (∀ s, InCell net.nx net.ny s → ∃ ρ, numSiteRdm net s = .ok ρ ∧ ∀ bra ket, ρ bra ket = star (ρ ket bra)) ∧
  ∀ s, InCell net.nx net.ny s → ∀ (k : Fin 4) init, ∃ ρ, numBondRdm init net ⟨s, neighbour net.nx net.ny s k.val, k.val⟩ = .ok ρ ∧
    ∀ b1 b2 k1 k2, ρ b1 b2 k1 k2 = star (ρ k1 k2 b1 b2)

/-- The moves of a list of steps are ones of the cell. -/
def StepsInRange {B P 𝕜 : Type} (nx ny : ℕ) (ss : List (NetStep B P 𝕜)) : Prop := ∀ m, NetStep.move m ∈ ss → InRange nx ny m

end Spec

open Spec

section herm

variable {𝕜 B : Type} [RCLike 𝕜] [Fintype B] [DecidableEq B] {pD : ℕ}

omit [Fintype B] [DecidableEq B] in
/-- A positive multiple of the conjugate of itself: the factor is one. -/
theorem star_of_scale {x y : 𝕜} {c : ℝ} (hc : 0 < c) (h : x = c * star y) (h' : y = c * star x) : x = star y := by
  have e : ‖x‖ = c * ‖y‖ := by rw [h, norm_mul, norm_star, RCLike.norm_ofReal, abs_of_pos hc]
  have e' : ‖y‖ = c * ‖x‖ := by rw [h', norm_mul, norm_star, RCLike.norm_ofReal, abs_of_pos hc]
  by_cases hx : x = 0
  · rw [hx, norm_zero, mul_zero, norm_eq_zero] at e'
    rw [hx, e', star_zero]
  · have hx : 0 < ‖x‖ := norm_pos_iff.2 hx
    have : c = 1 := by
      have : c * c = 1 := by
        have : ‖x‖ = c * c * ‖x‖ := by rw [mul_assoc, ← e', ← e]
        field_simp at this
        nlinarith
      nlinarith
    rw [h, this, RCLike.ofReal_one, one_mul]

/-- A network that exchanging its layers and complex conjugation leave alone. -/
def Mirror (net : Net (Ten B (Fin pD) 𝕜)) : Prop :=
  ∃ ℓ, Related (ScalarMap.conj 𝕜) (fun _ => swapMat (Fin pD)) (fun _ _ => swapMat B) ℓ net net

theorem Mirror.rdms {net : Net (Ten B (Fin pD) 𝕜)} (h : Mirror net) (hx : 0 < net.nx) (hy : 0 < net.ny) : HermRdms net := by
  obtain ⟨ℓ, hR⟩ := h
  refine ⟨fun s hs => ?_, fun s hs k init => ?_⟩
  · obtain ⟨ρ, ρ', h1, h2, c, hc, e⟩ := site_read hR (atLattice s)
    rw [show cellSite net.nx net.ny (atLattice s) = s from cellSite_self _ _ s hs] at h1 h2
    obtain rfl : ρ = ρ' := Except.ok.inj (h1.symm.trans h2)
    simp only [sum_swapMat] at e
    exact ⟨ρ, h1, fun bra ket => star_of_scale hc (e bra ket) (e ket bra)⟩
  · obtain ⟨ρ, ρ', h1, h2, c, hc, e⟩ := bond_read hR init init (atLattice s) k
    rw [← neighbour_cellSite _ _ hx hy, show cellSite net.nx net.ny (atLattice s) = s from cellSite_self _ _ s hs] at h1 h2
    obtain rfl : ρ = ρ' := Except.ok.inj (h1.symm.trans h2)
    simp only [mul_assoc, ← Finset.mul_sum, sum_swapMat] at e
    exact ⟨ρ, h1, fun b1 b2 k1 k2 => star_of_scale hc (e b1 b2 k1 k2) (e k1 k2 b1 b2)⟩

theorem Mirror.write {net : Net (Ten B (Fin pD) 𝕜)} (h : Mirror net) (s : Site) (a : ATensor B (Fin pD) 𝕜) : Mirror (writeSite net s a) := by
  obtain ⟨ℓ, hR⟩ := h
  refine ⟨ℓ, { hR with site := fun p => ?_ }⟩
  show SiteRel _ _ _ (if cellSite net.nx net.ny p = s then _ else _) (if cellSite net.nx net.ny p = s then _ else _)
  split_ifs
  · exact siteRel_swap a
  · exact hR.site p

theorem Mirror.steps (st : ProjSettings 𝕜) (pk : ProjKind) (h0 : 0 ≤ st.cutoff) (ω : ℕ → Draws B 𝕜)
    (ss : List (NetStep B (Fin pD) 𝕜)) (t : ℕ) (net : Net (Ten B (Fin pD) 𝕜)) (h : Mirror net) (hx : 0 < net.nx) (hy : 0 < net.ny)
    (hm : StepsInRange net.nx net.ny ss) (hd : DropSteps st pk ω t ss net) (hf : SvdSteps st pk ω t ss net) :
    ∃ n, runSteps st pk ω t ss net = .ok n ∧ n.nx = net.nx ∧ n.ny = net.ny ∧ Mirror n := by
  induction ss generalizing t net with
  | nil => exact ⟨net, rfl, rfl, rfl, h⟩
  | cons m ss ih =>
    have hm' : StepsInRange net.nx net.ny ss := fun m' hm' => hm m' (List.mem_cons_of_mem _ hm')
    cases m with
    | write s a => exact ih t _ (h.write s a) hx hy hm' hd hf
    | move m =>
      have hmv := valid_of_range m (hm m List.mem_cons_self)
      obtain ⟨ℓ, hR⟩ := h
      have hR1 := related_after hR st st (ω t) (ω t) pk m hx hy rfl h0 hmv hd.1 hf.1 hf.1
      obtain ⟨n, e, h1, h2, h3⟩ := ih (t + 1) _ hR1 hx hy hm' (hd.2 _ (m.run_eq _ _ _)) (hf.2 _ (m.run_eq _ _ _))
      refine ⟨n, ?_, h1, h2, h3⟩
      simp only [runSteps, Move.run_eq, bind, Except.bind]
      exact e

/-- **C74.** From fresh boundary tensors on, the density matrices are Hermitian after any sequence of moves and updates. -/
theorem C74_hermitian {D : ℕ} (st : ProjSettings 𝕜) (pk : ProjKind) (h0 : 0 ≤ st.cutoff)
    (ω : ℕ → Draws (Fin D) 𝕜) (nx ny chi t : ℕ) (hx : 0 < nx) (hy : 0 < ny) (A : Site → ATensor (Fin D) (Fin pD) 𝕜)
    (ss : List (NetStep (Fin D) (Fin pD) 𝕜)) (hm : StepsInRange nx ny ss) (hd : DropSteps st pk ω t ss (freshNet nx ny chi A))
    (hf : SvdSteps st pk ω t ss (freshNet nx ny chi A)) :
    ∃ net, runSteps st pk ω t ss (freshNet nx ny chi A) = .ok net ∧ HermRdms net := by
  obtain ⟨n, e, h1, h2, h3⟩ := Mirror.steps st pk h0 ω ss t _ (related_swap nx ny chi A) hx hy hm hd hf
  exact ⟨n, e, h3.rdms (h1 ▸ hx) (h2 ▸ hy)⟩

omit [DecidableEq B] in
/-- **C74 (values).** The numbers whose real parts `measure` takes are real, for every Hermitian operator. -/
theorem C74_values (net : Net (Ten B (Fin pD) 𝕜)) (h : HermRdms net) (s : Site) (hs : InCell net.nx net.ny s) :
    (∃ ρ, numSiteRdm net s = .ok ρ ∧ ((siteNorm ρ : ℝ) : 𝕜) = ∑ p, ρ p p ∧
      ∀ op : Fin pD → Fin pD → 𝕜, (∀ p q, op p q = star (op q p)) →
        ((measureOneSite ρ op : ℝ) : 𝕜) = ∑ bra, ∑ ket, ρ bra ket * op ket bra) ∧
    ∀ (k : Fin 4) init, ∃ ρ, numBondRdm init net ⟨s, neighbour net.nx net.ny s k.val, k.val⟩ = .ok ρ ∧
      ((bondNorm ρ : ℝ) : 𝕜) = ∑ p, ∑ q, ρ p q p q ∧
      ∀ op : Fin pD → Fin pD → Fin pD → Fin pD → 𝕜, (∀ p q p' q', op p q p' q' = star (op p' q' p q)) →
        ((measureTwoSite ρ op : ℝ) : 𝕜) = ∑ b1, ∑ b2, ∑ k1, ∑ k2, ρ b1 b2 k1 k2 * op k1 k2 b1 b2 := by
  have key : ∀ z : 𝕜, star z = z → ((RCLike.re z : ℝ) : 𝕜) = z := fun z hz => RCLike.conj_eq_iff_re.1 hz
  refine ⟨?_, fun k init => ?_⟩
  · obtain ⟨ρ, h1, h2⟩ := h.1 s hs
    refine ⟨ρ, h1, ?_, fun op hop => ?_⟩
    · refine key _ ?_
      rw [star_sum]
      exact Finset.sum_congr rfl fun p _ => (h2 p p).symm
    · refine key _ ?_
      simp only [star_sum, star_mul']
      rw [Finset.sum_comm]
      refine Finset.sum_congr rfl fun p _ => Finset.sum_congr rfl fun q _ => ?_
      rw [← h2, ← hop]
  · obtain ⟨ρ, h1, h2⟩ := h.2 s hs k init
    refine ⟨ρ, h1, ?_, fun op hop => ?_⟩
    · refine key _ ?_
      simp only [star_sum]
      exact Finset.sum_congr rfl fun p _ => Finset.sum_congr rfl fun q _ => (h2 p q p q).symm
    · refine key _ ?_
      simp only [star_sum, star_mul']
      have e : ∀ F : Fin pD → Fin pD → Fin pD → Fin pD → 𝕜, ∑ b1, ∑ b2, ∑ k1, ∑ k2, F b1 b2 k1 k2 = ∑ k1, ∑ k2, ∑ b1, ∑ b2, F b1 b2 k1 k2 := by
        intro F
        have := Finset.sum_comm (s := Finset.univ) (t := Finset.univ) (f := fun x y : Fin pD × Fin pD => F x.1 x.2 y.1 y.2)
        simpa only [Fintype.sum_prod_type] using this
      rw [e]
      refine Finset.sum_congr rfl fun p _ => Finset.sum_congr rfl fun q _ => Finset.sum_congr rfl fun p' _ =>
        Finset.sum_congr rfl fun q' _ => ?_
      rw [← h2, ← hop]

end herm

/-- The hypotheses hold for any steps that write product sites, with bonds of any dimension. -/
example {𝕜 : Type} [RCLike 𝕜] {D pD : ℕ} (st : ProjSettings 𝕜) (pk : ProjKind) (hf : st.fullRank = true) (h0 : 0 ≤ st.cutoff)
    (ω : ℕ → Draws (Fin D) 𝕜) (nx ny chi t : ℕ) (hx : 0 < nx) (hy : 0 < ny) (A : Site → ATensor (Fin D) (Fin pD) 𝕜)
    (hA : ∀ s, TenProd (.site (A s))) (ss : List (NetStep (Fin D) (Fin pD) 𝕜)) (hm : StepsInRange nx ny ss)
    (hs : ∀ s a, NetStep.write s a ∈ ss → TenProd (.site a)) :
    ∃ net, runSteps st pk ω t ss (freshNet nx ny chi A) = .ok net ∧ HermRdms net :=
  C74_hermitian st pk h0 ω nx ny chi t hx hy A ss hm ((factored_fresh _ _ _ _ hA).dropSteps st h0 pk ω ss t hs)
    (svdSteps_full hf pk ω ss t _)

example {𝕜 : Type} [RCLike 𝕜] {D pD : ℕ} (g : Fin 4 → Fin D → 𝕜) (v : Fin pD → 𝕜) :
    TenProd (.site (prodSite (g 0) (g 1) (g 2) (g 3) v)) := prodSite_prod _ _ _ _ _

end AceTN
