import Verif.Props.Cluster
import Verif.Props.FreshRdm
import Verif.Lemmas.Patch

/-!
# C67: Fresh and untruncated environments describe a finite patch of the state

The density matrices of freshly initialised boundary tensors, and those after any sequence of moves without truncation, are up
to a positive factor the reduced density matrices of a finite patch of the tensor network state.
-/

set_option autoImplicit false

namespace AceTN

namespace Spec

/-- The label of one site fixed. -/
def fixAt {P : Type} (p : ℤ × ℤ) (b : P) (q : ℤ × ℤ) : Option P := if q = p then some b else none

/-- The labels of two sites fixed. -/
def fixAt2 {P : Type} (p p' : ℤ × ℤ) (b b' : P) (q : ℤ × ℤ) : Option P :=
  if q = p then some b else if q = p' then some b' else none

/-- The tensors of the infinite lattice that the cell stands for. -/
def unfoldCell {T : Type} (nx ny : ℕ) (A : Site → T) (q : ℤ × ℤ) : T := A (cellSite nx ny q)

/-- The density matrices of `net` at all sites and bonds of the cell are, up to a positive factor, the reduced density matrices
of the patches `G r`, where `r` is the rectangle made of the site or the bond. -/
def PatchRdms {𝕜 : Type} [RCLike 𝕜] {dB pD : ℕ} (nx ny : ℕ) (A : Site → ATensor (Fin dB) (Fin pD) 𝕜)
    (net : Net (Ten (Fin dB) (Fin pD) 𝕜)) (G : Rect → Rect) : Prop :=
  (∀ s, InCell nx ny s → ∃ ρ, numSiteRdm net s = .ok ρ ∧ ∃ c : ℝ, 0 < c ∧ ∀ bra ket, ρ bra ket =
    c * patchOverlap (unfoldCell nx ny A) (G ⟨s.1, s.2, 1, 1⟩) (fixAt (atLattice s) bra) (fixAt (atLattice s) ket)) ∧
  ∀ s, InCell nx ny s → ∀ (k : Fin 4) init, ∃ ρ, numBondRdm init net ⟨s, neighbour nx ny s k.val, k.val⟩ = .ok ρ ∧
    ∃ c : ℝ, 0 < c ∧ ∀ b1 b2 k1 k2, ρ b1 b2 k1 k2 =
      c * patchOverlap (unfoldCell nx ny A) (G (bondRect (atLattice s) k)) (fixAt2 (atLattice s) (atLattice s + dir k) b1 b2)
        (fixAt2 (atLattice s) (atLattice s + dir k) k1 k2)

end Spec

open Spec Matrix ComplexOrder

section gram

variable {𝕜 : Type} [RCLike 𝕜] {n ι : Type} [Fintype n] [Fintype ι]

/-- Expectation values in a Gram matrix. -/
theorem gram_bounds (c : ℝ) (hc : 0 < c) (f : ι → n → 𝕜) (O : Matrix n n 𝕜) (hO : O.IsHermitian) (lo hi : ℝ) (hlo : AtLeast O lo)
    (hhi : AtLeast (-O) (-hi)) :
    RCLike.im (∑ b, ∑ k, ((c : 𝕜) * ∑ o, f o k * star (f o b)) * O k b) = 0 ∧
    0 ≤ RCLike.re (∑ p, (c : 𝕜) * ∑ o, f o p * star (f o p)) ∧
    (0 < RCLike.re (∑ p, (c : 𝕜) * ∑ o, f o p * star (f o p)) ↔ f ≠ 0) ∧
    lo * RCLike.re (∑ p, (c : 𝕜) * ∑ o, f o p * star (f o p)) ≤ RCLike.re (∑ b, ∑ k, ((c : 𝕜) * ∑ o, f o k * star (f o b)) * O k b) ∧
    RCLike.re (∑ b, ∑ k, ((c : 𝕜) * ∑ o, f o k * star (f o b)) * O k b) ≤ hi * RCLike.re (∑ p, (c : 𝕜) * ∑ o, f o p * star (f o p)) := by
  have e : ∑ p, (c : 𝕜) * ∑ o, f o p * star (f o p) = ((c * ∑ o, normSq (star (f o)) : ℝ) : 𝕜) := by
    rw [← Finset.mul_sum, gram_trace, ← RCLike.ofReal_mul, Finset.sum_comm]
    simp [normSq]
  have e2 : ∑ b, ∑ k, ((c : 𝕜) * ∑ o, f o k * star (f o b)) * O k b = c * ∑ o, qform O (star (f o)) := by
    unfold qform
    simp only [Pi.star_apply]
    generalize (c : 𝕜) = c'
    open SumTac in einsum_ring
  have hreal : ∀ v, RCLike.im (qform O v) = 0 := by
    intro v
    have h1 : star (qform O v) = qform O v := by
      have hij : ∀ i j, star (O i j) = O j i := fun i j => by
        rw [← hO.apply j i]
      unfold qform
      rw [star_sum]
      conv_rhs => rw [Finset.sum_comm]
      refine Finset.sum_congr rfl fun i _ => ?_
      rw [star_sum]
      refine Finset.sum_congr rfl fun j _ => ?_
      rw [SumTac.mul_star, SumTac.mul_star, star_star, hij]
      ring
    have h2 := congrArg RCLike.im h1
    rw [show star (qform O v) = (starRingEnd 𝕜) (qform O v) from rfl, RCLike.conj_im] at h2
    linarith
  have hn : ∀ o, 0 ≤ normSq (star (f o)) := fun o => Finset.sum_nonneg fun _ _ => sq_nonneg _
  rw [e, e2, RCLike.ofReal_re, RCLike.im_ofReal_mul, RCLike.re_ofReal_mul, map_sum, map_sum]
  refine ⟨by rw [Finset.sum_eq_zero fun o _ => hreal _, mul_zero], mul_nonneg hc.le (Finset.sum_nonneg fun o _ => hn o), ?_, ?_, ?_⟩
  · rw [mul_pos_iff_of_pos_left hc]
    constructor
    · rintro h0 rfl
      simp [normSq] at h0
    · intro h0
      refine lt_of_le_of_ne (Finset.sum_nonneg fun o _ => hn o) fun h1 => h0 ?_
      rw [eq_comm, Finset.sum_eq_zero_iff_of_nonneg fun o _ => hn o] at h1
      funext o p
      have h2 := h1 o (Finset.mem_univ _)
      unfold normSq at h2
      rw [Finset.sum_eq_zero_iff_of_nonneg fun _ _ => sq_nonneg _] at h2
      have h3 := pow_eq_zero_iff two_ne_zero |>.1 (h2 p (Finset.mem_univ _))
      rw [Pi.star_apply, norm_star, norm_eq_zero] at h3
      exact h3
  · rw [mul_left_comm, Finset.mul_sum _ _ lo]
    exact mul_le_mul_of_nonneg_left (Finset.sum_le_sum fun o _ => hlo _) hc.le
  · rw [mul_left_comm, Finset.mul_sum _ _ hi]
    refine mul_le_mul_of_nonneg_left (Finset.sum_le_sum fun o _ => ?_) hc.le
    have h1 := hhi (star (f o))
    have h2 : qform (-O) (star (f o)) = -qform O (star (f o)) := by
      unfold qform
      rw [← Finset.sum_neg_distrib]
      refine Finset.sum_congr rfl fun i _ => ?_
      rw [← Finset.sum_neg_distrib]
      refine Finset.sum_congr rfl fun j _ => ?_
      rw [neg_apply]
      ring
    rw [h2, map_neg] at h1
    linarith

end gram

section patch

variable {𝕜 : Type} [RCLike 𝕜] {dB pD nx ny chi : ℕ} (A : Site → ATensor (Fin dB) (Fin pD) 𝕜)

theorem patchRdms_of_exact (hx : 0 < nx) (hy : 0 < ny) (hA : ∀ s, InCell nx ny s → A s ≠ 0) {net : Net (Ten (Fin dB) (Fin pD) 𝕜)}
    {G : Rect → Rect} (h : ExactRdms (freshNet nx ny chi A) net G) : PatchRdms nx ny A net G := by
  refine ⟨fun s hs => ?_, fun s hs k init => ?_⟩
  · obtain ⟨ρ, hρ, c, hc, e⟩ := h.1 s hs
    obtain ⟨c', hc', e'⟩ := cluster_fresh (chi := chi) hx hy A hA (G ⟨s.1, s.2, 1, 1⟩) (fun q => decide (q = atLattice s))
    refine ⟨ρ, hρ, c * c', mul_pos hc hc', fun bra ket => ?_⟩
    rw [e, RCLike.ofReal_mul, mul_assoc]
    congr 1
    rw [show unfoldCell nx ny A = fun q => A (cellSite nx ny q) from rfl,
      ← e' (fixAt (atLattice s) bra) (fixAt (atLattice s) ket) (fun q => by unfold fixAt; split_ifs <;> simp_all)
      (fun q => by unfold fixAt; split_ifs <;> simp_all)]
    congr 1
    funext q
    unfold fixSite fixAt
    split_ifs <;> rfl
  · obtain ⟨ρ, hρ, c, hc, e⟩ := h.2 s hs k init
    obtain ⟨c', hc', e'⟩ := cluster_fresh (chi := chi) hx hy A hA (G (bondRect (atLattice s) k))
      (fun q => decide (q = atLattice s ∨ q = atLattice s + dir k))
    refine ⟨ρ, hρ, c * c', mul_pos hc hc', fun b1 b2 k1 k2 => ?_⟩
    rw [e, RCLike.ofReal_mul, mul_assoc]
    congr 1
    rw [show unfoldCell nx ny A = fun q => A (cellSite nx ny q) from rfl,
      ← e' (fixAt2 (atLattice s) (atLattice s + dir k) b1 b2) (fixAt2 (atLattice s) (atLattice s + dir k) k1 k2)
      (fun q => by unfold fixAt2; split_ifs <;> simp_all)
      (fun q => by unfold fixAt2; split_ifs <;> simp_all)]
    congr 1
    funext q
    unfold fixBond fixAt2
    split_ifs <;> rfl

theorem fresh_wired (hx : 0 < nx) (hy : 0 < ny) : Wired (freshNet nx ny chi A) fun _ _ => dB * dB :=
  wired_of hx hy (fun _ => ⟨_, rfl⟩) (fun _ _ => ⟨_, rfl⟩) (fun _ _ => ⟨_, rfl⟩)

/-- **C67 (fresh tensors).** Every cell of nonzero site tensors with freshly initialised boundary tensors. -/
theorem C67_fresh (hx : 0 < nx) (hy : 0 < ny) (hA : ∀ s, InCell nx ny s → A s ≠ 0) : PatchRdms nx ny A (freshNet nx ny chi A) id := by
  refine patchRdms_of_exact A hx hy hA (chi := chi) ?_
  refine ⟨fun s hs => ?_, fun s hs k init => ?_⟩
  · have e := numSiteRdm_eq (fresh_wired (chi := chi) A hx hy) hx hy (atLattice s)
    rw [show cellSite _ _ (atLattice s) = s from cellSite_self _ _ s hs] at e
    exact ⟨_, e, 1, one_pos, fun bra ket => by rw [RCLike.ofReal_one, one_mul]; rfl⟩
  · have e := numBondRdm_eq (fresh_wired (chi := chi) A hx hy) hx hy init (atLattice s) k
    rw [← neighbour_cellSite (freshNet nx ny chi A).nx (freshNet nx ny chi A).ny hx hy,
      show cellSite _ _ (atLattice s) = s from cellSite_self _ _ s hs] at e
    exact ⟨_, e, 1, one_pos, fun b1 b2 k1 k2 => by rw [RCLike.ofReal_one, one_mul]; rfl⟩

/-- **C67 (moves).** After any sequence of moves without truncation the patch has grown by the absorbed lines. -/
theorem C67_moves (hx : 0 < nx) (hy : 0 < ny) (hA : ∀ s, InCell nx ny s → A s ≠ 0) (st : ProjSettings 𝕜) (pk : ProjKind)
    (hk : pk = .half ∨ st.fullRank = true) (hcut : 0 ≤ st.cutoff) (hcut1 : st.cutoff < 1) (ω : ℕ → Draws (Fin dB) 𝕜) (ms : List Move)
    (t : ℕ) (hm : ∀ m ∈ ms, InRange nx ny m) (hl : LooseRun st pk ω t ms (freshNet nx ny chi A)) :
    ∃ net, runDrawn st pk ω t ms (freshNet nx ny chi A) = .ok net ∧ PatchRdms nx ny A net (growAll nx ny ms) := by
  obtain ⟨net, h1, h2⟩ := C66_moves st pk hk hcut hcut1 ω ms t _ _ (fresh_wired (chi := chi) A hx hy) hx hy hm hl
  exact ⟨net, h1, patchRdms_of_exact A hx hy hA h2⟩

/-- **C67 (sweeps).** After `n` sweeps without truncation the patch contains all sites up to distance `n`. -/
theorem C67_sweeps (hx : 0 < nx) (hy : 0 < ny) (hA : ∀ s, InCell nx ny s → A s ≠ 0) (st : ProjSettings 𝕜) (pk : ProjKind)
    (hk : pk = .half ∨ st.fullRank = true) (hcut : 0 ≤ st.cutoff) (hcut1 : st.cutoff < 1) (ω : ℕ → Draws (Fin dB) 𝕜) (n t : ℕ)
    (hl : LooseRun st pk ω t (List.replicate n (sweepMoves nx ny)).flatten (freshNet nx ny chi A)) :
    ∃ net G, ctmrgDrawn st pk ω t n (freshNet nx ny chi A) = .ok net ∧ PatchRdms nx ny A net G ∧
      ∀ (r : Rect) (p q : ℤ × ℤ), r.Has p → |q.1 - p.1| ≤ n → |q.2 - p.2| ≤ n → (G r).Has q := by
  obtain ⟨net, G, h1, h2, h3⟩ := C66_sweeps st pk hk hcut hcut1 ω n t _ _ (fresh_wired (chi := chi) A hx hy) hx hy hl
  exact ⟨net, G, h1, patchRdms_of_exact A hx hy hA h2, h3⟩

/-- **C67 (real tensors).** For real tensors with all kinds of projectors. -/
theorem C67_real {A : Site → ATensor (Fin dB) (Fin pD) ℝ} (hx : 0 < nx) (hy : 0 < ny) (hA : ∀ s, InCell nx ny s → A s ≠ 0)
    (st : ProjSettings ℝ) (pk : ProjKind) (hcut : 0 ≤ st.cutoff) (hcut1 : st.cutoff < 1) (ω : ℕ → Draws (Fin dB) ℝ) (ms : List Move)
    (t : ℕ) (hm : ∀ m ∈ ms, InRange nx ny m) (hl : LooseRun st pk ω t ms (freshNet nx ny chi A)) :
    ∃ net, runDrawn st pk ω t ms (freshNet nx ny chi A) = .ok net ∧ PatchRdms nx ny A net (growAll nx ny ms) := by
  obtain ⟨net, h1, h2⟩ := C66_real st pk hcut hcut1 ω ms t _ _ (fresh_wired (chi := chi) A hx hy) hx hy hm hl
  exact ⟨net, h1, patchRdms_of_exact A hx hy hA h2⟩

variable {A}

/-- **C67 (positivity).** Such density matrices are Hermitian and positive semidefinite. -/
theorem C67_posSemidef {net : Net (Ten (Fin dB) (Fin pD) 𝕜)} {G : Rect → Rect} (h : PatchRdms nx ny A net G) (s : Site)
    (hs : InCell nx ny s) :
    (∃ ρ, numSiteRdm net s = .ok ρ ∧ (of ρ).PosSemidef) ∧
    ∀ (k : Fin 4) init, ∃ ρ, numBondRdm init net ⟨s, neighbour nx ny s k.val, k.val⟩ = .ok ρ ∧
      (of fun b k : Fin pD × Fin pD => ρ b.1 b.2 k.1 k.2).PosSemidef := by
  refine ⟨?_, fun k init => ?_⟩
  · obtain ⟨ρ, hρ, c, hc, e⟩ := h.1 s hs
    refine ⟨ρ, hρ, ?_⟩
    rw [show ρ = fun bra ket => _ from funext fun bra => funext fun ket => e bra ket]
    exact gram_posSemidef c hc.le fun o p => patchAmp (unfoldCell nx ny A) (fixAt (atLattice s) p) (G ⟨s.1, s.2, 1, 1⟩) o
  · obtain ⟨ρ, hρ, c, hc, e⟩ := h.2 s hs k init
    refine ⟨ρ, hρ, ?_⟩
    simp only [e]
    exact gram_posSemidef c hc.le fun o (p : Fin pD × Fin pD) =>
      patchAmp (unfoldCell nx ny A) (fixAt2 (atLattice s) (atLattice s + dir k) p.1 p.2) (G (bondRect (atLattice s) k)) o

/-- **C67 (values).** The norm a measurement divides by is not negative, and positive unless the patch state vanishes; then
the expectation value of a Hermitian operator, on a site or on a bond, lies between its smallest and its largest eigenvalue. -/
theorem C67_bounds {net : Net (Ten (Fin dB) (Fin pD) 𝕜)} {G : Rect → Rect} (h : PatchRdms nx ny A net G) (s : Site)
    (hs : InCell nx ny s) :
    (∃ ρ, numSiteRdm net s = .ok ρ ∧ 0 ≤ siteNorm ρ ∧
      ((∃ e p, patchAmp (unfoldCell nx ny A) (fixAt (atLattice s) p) (G ⟨s.1, s.2, 1, 1⟩) e ≠ 0) → 0 < siteNorm ρ ∧
        ∀ (O : Matrix (Fin pD) (Fin pD) 𝕜) (lo hi : ℝ), O.IsHermitian → AtLeast O lo → AtLeast (-O) (-hi) →
          lo ≤ measureOneSite ρ O / siteNorm ρ ∧ measureOneSite ρ O / siteNorm ρ ≤ hi)) ∧
    ∀ (k : Fin 4) init, ∃ ρ, numBondRdm init net ⟨s, neighbour nx ny s k.val, k.val⟩ = .ok ρ ∧ 0 ≤ bondNorm ρ ∧
      ((∃ e p q, patchAmp (unfoldCell nx ny A) (fixAt2 (atLattice s) (atLattice s + dir k) p q) (G (bondRect (atLattice s) k)) e ≠ 0) →
        0 < bondNorm ρ ∧
        ∀ (O : Matrix (Fin pD × Fin pD) (Fin pD × Fin pD) 𝕜) (lo hi : ℝ), O.IsHermitian → AtLeast O lo → AtLeast (-O) (-hi) →
          lo ≤ measureTwoSite ρ (fun k1 k2 b1 b2 => O (k1, k2) (b1, b2)) / bondNorm ρ ∧
          measureTwoSite ρ (fun k1 k2 b1 b2 => O (k1, k2) (b1, b2)) / bondNorm ρ ≤ hi) := by
  have h1 : ∀ {n : Type} [Fintype n], AtLeast (0 : Matrix n n 𝕜) 0 ∧ AtLeast (-0 : Matrix n n 𝕜) (-0) := by
    intro n _
    refine ⟨fun v => ?_, fun v => ?_⟩ <;> simp [qform]
  refine ⟨?_, fun k init => ?_⟩
  · obtain ⟨ρ, hρ, c, hc, e⟩ := h.1 s hs
    let f : PatchLegs (Fin dB) (Fin pD) (G ⟨s.1, s.2, 1, 1⟩).w (G ⟨s.1, s.2, 1, 1⟩).h → Fin pD → 𝕜 :=
      fun o p => patchAmp (unfoldCell nx ny A) (fixAt (atLattice s) p) (G ⟨s.1, s.2, 1, 1⟩) o
    have e' : ∀ bra ket, ρ bra ket = (c : 𝕜) * ∑ o, f o ket * star (f o bra) := e
    have en : siteNorm ρ = RCLike.re (∑ p, (c : 𝕜) * ∑ o, f o p * star (f o p)) := by
      unfold siteNorm
      simp only [e']
    have em : ∀ O : Matrix (Fin pD) (Fin pD) 𝕜,
        measureOneSite ρ O = RCLike.re (∑ b, ∑ k, ((c : 𝕜) * ∑ o, f o k * star (f o b)) * O k b) := by
      intro O
      unfold measureOneSite
      simp only [e']
    obtain ⟨-, g2, g3, -⟩ := gram_bounds c hc f 0 (by simp) 0 0 h1.1 h1.2
    refine ⟨ρ, hρ, en ▸ g2, fun hp => ?_⟩
    have hpos : 0 < siteNorm ρ := by
      rw [en]
      refine g3.2 ?_
      rintro h0
      obtain ⟨o, p, hop⟩ := hp
      exact hop (congrFun (congrFun h0 o) p)
    refine ⟨hpos, fun O lo hi hO hlo hhi => ?_⟩
    obtain ⟨-, -, -, g4, g5⟩ := gram_bounds c hc f O hO lo hi hlo hhi
    rw [le_div_iff₀ hpos, div_le_iff₀ hpos, em, en]
    exact ⟨g4, g5⟩
  · obtain ⟨ρ, hρ, c, hc, e⟩ := h.2 s hs k init
    let f : PatchLegs (Fin dB) (Fin pD) (G (bondRect (atLattice s) k)).w (G (bondRect (atLattice s) k)).h → Fin pD × Fin pD → 𝕜 :=
      fun o p => patchAmp (unfoldCell nx ny A) (fixAt2 (atLattice s) (atLattice s + dir k) p.1 p.2) (G (bondRect (atLattice s) k)) o
    have e' : ∀ b1 b2 k1 k2, ρ b1 b2 k1 k2 = (c : 𝕜) * ∑ o, f o (k1, k2) * star (f o (b1, b2)) := e
    have en : bondNorm ρ = RCLike.re (∑ p, (c : 𝕜) * ∑ o, f o p * star (f o p)) := by
      unfold bondNorm
      simp only [e']
      rw [Fintype.sum_prod_type]
    have em : ∀ O : Matrix (Fin pD × Fin pD) (Fin pD × Fin pD) 𝕜, measureTwoSite ρ (fun k1 k2 b1 b2 => O (k1, k2) (b1, b2)) =
        RCLike.re (∑ b, ∑ k, ((c : 𝕜) * ∑ o, f o k * star (f o b)) * O k b) := by
      intro O
      unfold measureTwoSite
      simp only [e']
      rw [Fintype.sum_prod_type]
      congr 1
      refine Finset.sum_congr rfl fun b1 _ => Finset.sum_congr rfl fun b2 _ => ?_
      rw [Fintype.sum_prod_type]
    obtain ⟨-, g2, g3, -⟩ := gram_bounds c hc f 0 (by simp) 0 0 h1.1 h1.2
    refine ⟨ρ, hρ, en ▸ g2, fun hp => ?_⟩
    have hpos : 0 < bondNorm ρ := by
      rw [en]
      refine g3.2 ?_
      rintro h0
      obtain ⟨o, p, q, hop⟩ := hp
      exact hop (congrFun (congrFun h0 o) (p, q))
    refine ⟨hpos, fun O lo hi hO hlo hhi => ?_⟩
    obtain ⟨-, -, -, g4, g5⟩ := gram_bounds c hc f O hO lo hi hlo hhi
    rw [le_div_iff₀ hpos, div_le_iff₀ hpos, em, en]
    exact ⟨g4, g5⟩

end patch

/-- A 2 × 3 cell with bonds of dimension 2 and complex tensors. -/
example (chi : ℕ) : PatchRdms 2 3 (fun s l u r d (p : Fin 2) => (s.1 : ℂ) + Complex.I * s.2 + l + 2 * u + 3 * r + d + p + 1)
    (freshNet (D := 2) 2 3 chi fun s l u r d p => (s.1 : ℂ) + Complex.I * s.2 + l + 2 * u + 3 * r + d + p + 1) id := by
  refine C67_fresh _ (by decide) (by decide) fun s _ h => ?_
  have h1 := congrArg Complex.re (congrFun (congrFun (congrFun (congrFun (congrFun h 0) 0) 0) 0) 0)
  simp at h1
  have h3 : (0 : ℝ) ≤ s.1 := Nat.cast_nonneg _
  linarith

end AceTN
