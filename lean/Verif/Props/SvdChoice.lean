import Verif.Lemmas.Factored
import Verif.Props.Cluster
import Verif.Props.Patch

/-!
# C73: Measured values do not depend on how the SVD is computed

A singular value decomposition is not unique: singular vectors may be multiplied by phases, and within a space of equal
singular values any basis will do.  Libraries, devices and versions make different choices.  The projectors, the boundary
tensors and their bonds depend on them, the density matrices do not: after any number of truncated sweeps they agree up to a
positive factor, which drops out of all measured values, as long as the singular values drop where they are cut off.
-/

set_option autoImplicit false

namespace AceTN

namespace Spec

/-- The density matrices of two networks are the same up to positive factors. -/
def SameRdms {𝕜 B : Type} [RCLike 𝕜] [Fintype B] {pD : ℕ} (net net' : Net (Ten B (Fin pD) 𝕜)) : Prop :=
  (∀ s, InCell net.nx net.ny s → ∃ ρ ρ', numSiteRdm net s = .ok ρ ∧ numSiteRdm net' s = .ok ρ' ∧
    ∃ c : ℝ, 0 < c ∧ ∀ bra ket, ρ' bra ket = c * ρ bra ket) ∧
  ∀ s, InCell net.nx net.ny s → ∀ (k : Fin 4) init init', ∃ ρ ρ',
    numBondRdm init net ⟨s, neighbour net.nx net.ny s k.val, k.val⟩ = .ok ρ ∧
    numBondRdm init' net' ⟨s, neighbour net.nx net.ny s k.val, k.val⟩ = .ok ρ' ∧
    ∃ c : ℝ, 0 < c ∧ ∀ b1 b2 k1 k2, ρ' b1 b2 k1 k2 = c * ρ b1 b2 k1 k2

end Spec

open Spec

section choice

variable {𝕜 B : Type} [RCLike 𝕜] [Fintype B] [DecidableEq B] {pD : ℕ}

theorem sameRdms_of_related {ℓ : ℤ × ℤ → Fin 4 → Link 𝕜} {net net' : Net (Ten B (Fin pD) 𝕜)} (hx : 0 < net.nx) (hy : 0 < net.ny)
    (hR : Related (ScalarMap.id 𝕜) (fun _ => 1) (fun _ _ => 1) ℓ net net') : SameRdms net net' := by
  refine ⟨fun s hs => ?_, fun s hs k init init' => ?_⟩
  · obtain ⟨ρ, ρ', h1, h2, c, hc, e⟩ := site_read hR (atLattice s)
    rw [show cellSite net.nx net.ny (atLattice s) = s from cellSite_self _ _ s hs] at h1 h2
    refine ⟨ρ, ρ', h1, h2, c, hc, fun bra ket => ?_⟩
    rw [e]
    show _ * ∑ q : Fin pD × Fin pD, (1 : Matrix _ _ 𝕜) (bra, ket) q * ρ q.1 q.2 = _
    simp only [Matrix.one_apply, ite_mul, one_mul, zero_mul, Finset.sum_ite_eq, Finset.mem_univ, if_true]
  · obtain ⟨ρ, ρ', h1, h2, c, hc, e⟩ := bond_read hR init init' (atLattice s) k
    rw [← neighbour_cellSite _ _ hx hy, show cellSite net.nx net.ny (atLattice s) = s from cellSite_self _ _ s hs] at h1 h2
    refine ⟨ρ, ρ', h1, h2, c, hc, fun b1 b2 k1 k2 => ?_⟩
    rw [e]
    show _ * ∑ q : Fin pD × Fin pD, ∑ q' : Fin pD × Fin pD, (1 : Matrix _ _ 𝕜) (b1, k1) q * (1 : Matrix _ _ 𝕜) (b2, k2) q' *
      ρ q.1 q'.1 q.2 q'.2 = _
    simp only [Matrix.one_apply, ite_mul, mul_ite, one_mul, mul_one, zero_mul, mul_zero, Finset.sum_ite_eq, Finset.mem_univ, if_true]

/-- **C73 (moves).** Two linear algebra libraries, the same moves on the same network: the density matrices agree up to
positive factors. -/
theorem C73_moves (st st' : ProjSettings 𝕜) (pk : ProjKind)
    (hcut : st'.cutoff = st.cutoff) (h0 : 0 ≤ st.cutoff) (ω ω' : ℕ → Draws B 𝕜) (ms : List Move) (t t' : ℕ)
    (net : Net (Ten B (Fin pD) 𝕜)) (f : Site → ℕ → ℕ) (hw : Wired net f) (hx : 0 < net.nx) (hy : 0 < net.ny)
    (hm : ∀ m ∈ ms, InRange net.nx net.ny m) (hd : DropRun st pk ω t ms net) (hf : SvdRun st pk ω t ms net)
    (hf' : SvdRun st' pk ω' t' ms net) :
    ∃ n n', runDrawn st pk ω t ms net = .ok n ∧ runDrawn st' pk ω' t' ms net = .ok n' ∧ SameRdms n n' := by
  obtain ⟨n, n', ℓ, h1, h2, e1, e2, h3⟩ :=
    related_run st st' pk hcut h0 ω ω' ms t t' net net _ (related_self hw hx hy) hx hy hm hd hf hf'
  exact ⟨n, n', h1, h2, sameRdms_of_related (e1 ▸ hx) (e2 ▸ hy) h3⟩

/-- **C73 (sweeps).** The same for `ctmrg`. -/
theorem C73_sweeps (st st' : ProjSettings 𝕜) (pk : ProjKind)
    (hcut : st'.cutoff = st.cutoff) (h0 : 0 ≤ st.cutoff) (ω ω' : ℕ → Draws B 𝕜) (n t t' : ℕ)
    (net : Net (Ten B (Fin pD) 𝕜)) (f : Site → ℕ → ℕ) (hw : Wired net f) (hx : 0 < net.nx) (hy : 0 < net.ny)
    (hd : DropRun st pk ω t (List.replicate n (sweepMoves net.nx net.ny)).flatten net)
    (hf : SvdRun st pk ω t (List.replicate n (sweepMoves net.nx net.ny)).flatten net)
    (hf' : SvdRun st' pk ω' t' (List.replicate n (sweepMoves net.nx net.ny)).flatten net) :
    ∃ net1 net2, ctmrgDrawn st pk ω t n net = .ok net1 ∧ ctmrgDrawn st' pk ω' t' n net = .ok net2 ∧ SameRdms net1 net2 := by
  rw [ctmrgDrawn_eq, ctmrgDrawn_eq]
  exact C73_moves st st' pk hcut h0 ω ω' _ t t' net f hw hx hy (sweeps_range hx hy n) hd hf hf'

omit [DecidableEq B] in
/-- **C73 (values).** All measured one-site and two-site values agree. -/
theorem C73_values (net net' : Net (Ten B (Fin pD) 𝕜)) (h : SameRdms net net') (s : Site) (hs : InCell net.nx net.ny s) :
    (∃ ρ ρ', numSiteRdm net s = .ok ρ ∧ numSiteRdm net' s = .ok ρ' ∧
      ∀ op, measureOneSite ρ' op / siteNorm ρ' = measureOneSite ρ op / siteNorm ρ) ∧
    ∀ (k : Fin 4) init init', ∃ ρ ρ', numBondRdm init net ⟨s, neighbour net.nx net.ny s k.val, k.val⟩ = .ok ρ ∧
      numBondRdm init' net' ⟨s, neighbour net.nx net.ny s k.val, k.val⟩ = .ok ρ' ∧
      ∀ op, measureTwoSite ρ' op / bondNorm ρ' = measureTwoSite ρ op / bondNorm ρ := by
  obtain ⟨hS, hB⟩ := h
  refine ⟨?_, fun k init init' => ?_⟩
  · obtain ⟨ρ, ρ', hρ, hρ', c, hc, e⟩ := hS s hs
    refine ⟨ρ, ρ', hρ, hρ', fun op => ?_⟩
    unfold measureOneSite siteNorm
    simp only [e, mul_assoc, ← Finset.mul_sum, RCLike.re_ofReal_mul]
    exact mul_div_mul_left _ _ hc.ne'
  · obtain ⟨ρ, ρ', hρ, hρ', c, hc, e⟩ := hB s hs k init init'
    refine ⟨ρ, ρ', hρ, hρ', fun op => ?_⟩
    unfold measureTwoSite bondNorm
    simp only [e, mul_assoc, ← Finset.mul_sum, RCLike.re_ofReal_mul]
    exact mul_div_mul_left _ _ hc.ne'

end choice

/-- The hypotheses hold for any number of sweeps on any network of product sites, with bonds of any dimension; here the
environments of dimension `chi * D ^ 2` are cut off to one singular value. -/
example {𝕜 : Type} [RCLike 𝕜] {D pD : ℕ} (st st' : ProjSettings 𝕜) (pk : ProjKind) (hf : st.fullRank = true) (hf' : st'.fullRank = true)
    (hcut : st'.cutoff = st.cutoff) (h0 : 0 ≤ st.cutoff) (ω ω' : ℕ → Draws (Fin D) 𝕜) (n t t' nx ny chi : ℕ) (hx : 0 < nx) (hy : 0 < ny)
    (g : Site → Fin 4 → Fin D → 𝕜) (v : Site → Fin pD → 𝕜) :
    ∃ net1 net2, ctmrgDrawn st pk ω t n (freshNet nx ny chi fun s => prodSite (g s 0) (g s 1) (g s 2) (g s 3) (v s)) = .ok net1 ∧
      ctmrgDrawn st' pk ω' t' n (freshNet nx ny chi fun s => prodSite (g s 0) (g s 1) (g s 2) (g s 3) (v s)) = .ok net2 ∧
      SameRdms net1 net2 :=
  C73_sweeps st st' pk hcut h0 ω ω' n t t' _ _ (fresh_wired _ hx hy) hx hy
    ((factored_fresh _ _ _ _ fun _ => prodSite_prod _ _ _ _ _).dropRun st h0 pk ω _ t) (svdRun_full hf pk ω _ t _) (svdRun_full hf' pk ω' _ t' _)

/-- The singular values need not vanish where they are cut off. -/
example : Drop 0 1 ![2, 1] := by
  intro i j hi hj
  have hk : keep 0 1 ![(2 : ℝ), 1] = 1 := by
    have : (Finset.univ.filter fun x : Fin 2 => (0 : ℝ) < ![(2 : ℝ), 1] x / firstS ![(2 : ℝ), 1]) = Finset.univ := by
      ext x
      fin_cases x <;> simp [firstS]
    unfold keep
    rw [this]
    simp
  rw [hk] at hi hj
  fin_cases i <;> fin_cases j <;> simp at hi hj ⊢

end AceTN
