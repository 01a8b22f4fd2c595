import Verif.Lemmas.Phased
import Verif.Props.SvdChoice

/-!
# C101: A converged environment stays converged

`ctmrg` runs a fixed number of sweeps and does not check for convergence, so users run further sweeps until nothing changes and
take that as the sign that nothing will change any more.  Boundary tensors never come back to the same numbers, as the
decompositions leave phases and bases open: converged means that a sweep gives the same environment in another basis of the
boundary bonds.  Then all further sweeps do so too, with the same or with another linear algebra library, and all measured values
stay the same.
-/

set_option autoImplicit false

namespace AceTN

namespace Spec

/-- Two networks have the same sites and the same environment, in possibly different bases of the boundary bonds. -/
def SameEnvironment {𝕜 B P : Type} [RCLike 𝕜] [Fintype B] [Fintype P] [DecidableEq B] [DecidableEq P] (net net' : Net (Ten B P 𝕜)) : Prop :=
  ∃ ℓ, Related (ScalarMap.id 𝕜) (fun _ => 1) (fun _ _ => 1) ℓ net net'

end Spec

open Spec

section converged

variable {𝕜 B : Type} [RCLike 𝕜] [Fintype B] [DecidableEq B] {pD : ℕ}

theorem sweeps_add (nx ny a b : ℕ) : sweeps nx ny (a + b) = sweeps nx ny a ++ sweeps nx ny b := by
  unfold sweeps
  rw [List.replicate_add, List.flatten_append]

theorem ctmrgDrawn_add (st : ProjSettings 𝕜) (pk : ProjKind) (ω : ℕ → Draws B 𝕜) (a b t : ℕ) (net net' : Net (Ten B (Fin pD) 𝕜))
    (h : ctmrgDrawn st pk ω t a net = .ok net') :
    ctmrgDrawn st pk ω t (a + b) net = ctmrgDrawn st pk ω (t + (sweeps net.nx net.ny a).length) b net' := by
  rw [ctmrgDrawn_eq] at h
  obtain ⟨h1, h2⟩ := runDrawn_consts _ _ _ _ _ _ _ h
  rw [ctmrgDrawn_eq, ctmrgDrawn_eq, sweeps_add, runDrawn_append, h, h1, h2]
  rfl

variable (st st' : ProjSettings 𝕜) (pk : ProjKind) (hcut : st'.cutoff = st.cutoff) (h0 : 0 ≤ st.cutoff) (ω ω' : ℕ → Draws B 𝕜)
  (p t t' : ℕ) (net net1 : Net (Ten B (Fin pD) 𝕜)) (f : Site → ℕ → ℕ) (hw : Wired net f) (hx : 0 < net.nx) (hy : 0 < net.ny)
  (hd : DropRun st pk ω t (List.replicate p (sweepMoves net.nx net.ny)).flatten net)
  (hf : SvdRun st pk ω t (List.replicate p (sweepMoves net.nx net.ny)).flatten net)
  (hrun : ctmrgDrawn st pk ω t p net = .ok net1) (hsame : SameEnvironment net net1)

include hcut h0 hw hx hy hd hf hrun hsame

/-- **C101 (period).** If `p` sweeps bring an environment back, the environment after `p k + r` sweeps is the one after `r`
sweeps, also if another library computes them. -/
theorem C101_period (hf' : ∀ n, SvdRun st' pk ω' t' (List.replicate n (sweepMoves net.nx net.ny)).flatten net) (k r : ℕ) (hr : r ≤ p) :
    ∃ a b, ctmrgDrawn st pk ω t r net = .ok a ∧ ctmrgDrawn st' pk ω' t' (p * k + r) net = .ok b ∧ SameEnvironment a b ∧ SameRdms a b := by
  have full : ∀ k, ∃ b, ctmrgDrawn st' pk ω' t' (p * k) net = .ok b ∧ SameEnvironment net b := by
    intro k
    induction k with
    | zero => exact ⟨net, rfl, _, related_self hw hx hy⟩
    | succ k ih =>
      obtain ⟨b, hb, ℓ, hR⟩ := ih
      have hb' := hb
      rw [ctmrgDrawn_eq] at hb'
      have hs := hf' (p * k + p)
      rw [← sweeps, sweeps_add] at hs
      obtain ⟨n, n', ℓ', e1, e2, -, -, h3⟩ := related_run st st' pk hcut h0 ω ω' _ t _ net b ℓ hR hx hy (sweeps_range hx hy p) hd hf
        ((svdRun_append _ _ _ _ _ _ _ hs).2 b hb')
      rw [ctmrgDrawn_eq, e1] at hrun
      cases hrun
      obtain ⟨ℓ0, hR0⟩ := hsame
      refine ⟨n', ?_, _, related_trans hR0 h3⟩
      rw [mul_add, mul_one, ctmrgDrawn_add st' pk ω' _ _ _ _ _ hb, ctmrgDrawn_eq, ← e2, hR.nx, hR.ny]
  obtain ⟨b, hb, ℓ, hR⟩ := full k
  have hb' := hb
  rw [ctmrgDrawn_eq] at hb'
  have hs := hf' (p * k + r)
  rw [← sweeps, sweeps_add] at hs
  obtain ⟨s, rfl⟩ := Nat.exists_eq_add_of_le hr
  rw [← sweeps, sweeps_add] at hd hf
  obtain ⟨n, n', ℓ', e1, e2, c1, c2, h3⟩ := related_run st st' pk hcut h0 ω ω' _ t _ net b ℓ hR hx hy (sweeps_range hx hy r)
    (dropRun_prefix _ _ _ _ _ _ _ hd) (svdRun_append _ _ _ _ _ _ _ hf).1 ((svdRun_append _ _ _ _ _ _ _ hs).2 b hb')
  refine ⟨n, n', ?_, ?_, ⟨_, h3⟩, sameRdms_of_related (c1 ▸ hx) (c2 ▸ hy) h3⟩
  · rw [ctmrgDrawn_eq, e1]
  · rw [ctmrgDrawn_add st' pk ω' _ _ _ _ _ hb, ctmrgDrawn_eq, ← e2, hR.nx, hR.ny]

omit hcut h0 hw hx hy hd hf hrun hsame

variable (hd1 : DropRun st pk ω t (sweepMoves net.nx net.ny) net) (hf1 : SvdRun st pk ω t (sweepMoves net.nx net.ny) net)
  (hrun1 : ctmrgDrawn st pk ω t 1 net = .ok net1)

include hcut h0 hw hx hy hd1 hf1 hrun1 hsame

/-- **C101 (converged).** If one sweep gives the same environment, any number of sweeps does. -/
theorem C101_converged (hf' : ∀ n, SvdRun st' pk ω' t' (List.replicate n (sweepMoves net.nx net.ny)).flatten net) (n : ℕ) :
    ∃ b, ctmrgDrawn st' pk ω' t' n net = .ok b ∧ SameEnvironment net b ∧ SameRdms net b := by
  have e1 : (List.replicate 1 (sweepMoves net.nx net.ny)).flatten = sweepMoves net.nx net.ny := by simp
  obtain ⟨a, b, ha, hb, h1, h2⟩ := C101_period st st' pk hcut h0 ω ω' 1 t t' net net1 f hw hx hy (by rwa [e1])
    (by rwa [e1]) hrun1 hsame hf' n 0
    (Nat.zero_le _)
  cases ha
  rw [one_mul, add_zero] at hb
  exact ⟨b, hb, h1, h2⟩

/-- **C101 (values).** All values measured after further sweeps are the ones measured now. -/
theorem C101_values (hf' : ∀ n, SvdRun st' pk ω' t' (List.replicate n (sweepMoves net.nx net.ny)).flatten net) (n : ℕ) (s : Site)
    (hs : InCell net.nx net.ny s) : ∃ b, ctmrgDrawn st' pk ω' t' n net = .ok b ∧
    (∃ ρ ρ', numSiteRdm net s = .ok ρ ∧ numSiteRdm b s = .ok ρ' ∧
      ∀ op, measureOneSite ρ' op / siteNorm ρ' = measureOneSite ρ op / siteNorm ρ) ∧
    ∀ (k : Fin 4) init init', ∃ ρ ρ', numBondRdm init net ⟨s, neighbour net.nx net.ny s k.val, k.val⟩ = .ok ρ ∧
      numBondRdm init' b ⟨s, neighbour net.nx net.ny s k.val, k.val⟩ = .ok ρ' ∧
      ∀ op, measureTwoSite ρ' op / bondNorm ρ' = measureTwoSite ρ op / bondNorm ρ := by
  obtain ⟨b, hb, -, h2⟩ := C101_converged st st' pk hcut h0 ω ω' t t' net net1 f hw hx hy hsame hd1 hf1 hrun1 hf' n
  exact ⟨b, hb, C73_values net b h2 s hs⟩

end converged

section product

variable {𝕜 : Type} [RCLike 𝕜] {pD : ℕ}

/-- **C101 (product states).** The environment of a product state of bond dimension one is converged from the start. -/
theorem C101_product {nx ny chi : ℕ} (hx : 0 < nx) (hy : 0 < ny) (hchi : 0 < chi) (A : Site → ATensor (Fin 1) (Fin pD) 𝕜)
    (hA : ∀ s, InCell nx ny s → A s ≠ 0) (st : ProjSettings 𝕜) (h0 : 0 ≤ st.cutoff) (h1 : st.cutoff < 1)
    (pk : ProjKind) (hk : pk = .half ∨ st.fullRank = true) (ω : ℕ → Draws (Fin 1) 𝕜)
    (hd : st.fullRank = false → ∀ t key, ω t key 1 1 (chi + st.oversampling) ≠ 0) (t n : ℕ) :
    ∃ b, ctmrgDrawn st pk ω t n (freshNet nx ny chi A) = .ok b ∧ SameEnvironment (freshNet nx ny chi A) b := by
  have hr : CutsResolve (Fin 1) st pk := by
    cases pk with
    | half => exact (cutsGood_half st h0 h1).resolve
    | full => exact (cutsGood_full st (hk.resolve_left (by simp)) h0 h1).resolve
  have hP := phased_fresh (chi := chi) A hx hy hA
  obtain ⟨b, φ, e, hb, h2, h3, h4, h5⟩ := hP.run hx hy hr h0 h1 ω
    (fun t => product_noTrunc hchi st h1 (ω t) fun h => hd h t) (sweeps nx ny n) t (sweeps_range hx hy n)
  exact ⟨b, (ctmrgDrawn_eq st pk ω n t _).trans e, _, phased_related hP hb h3 h4 h5 fun p => congrFun h2 _⟩

/-- The hypotheses hold for product states. -/
example {nx ny chi : ℕ} (hx : 0 < nx) (hy : 0 < ny) (hchi : 0 < chi) (A : Site → ATensor (Fin 1) (Fin pD) 𝕜)
    (hA : ∀ s, InCell nx ny s → A s ≠ 0) (st : ProjSettings 𝕜) (hf : st.fullRank = true) (h0 : 0 ≤ st.cutoff) (h1 : st.cutoff < 1)
    (pk : ProjKind) (ω : ℕ → Draws (Fin 1) 𝕜) (t n : ℕ) :
    ∃ b, ctmrgDrawn st pk ω t n (freshNet nx ny chi A) = .ok b ∧ SameRdms (freshNet nx ny chi A) b := by
  obtain ⟨net1, e, hs⟩ := C101_product hx hy hchi A hA st h0 h1 pk (Or.inr hf) ω (fun h => absurd (hf.symm.trans h) (by decide)) t 1
  have hA' : A = fun s => prodSite (fun _ => 1) (fun _ => 1) (fun _ => 1) (fun _ => 1) (siteVec A s) := by
    funext s l u r d q
    rw [Subsingleton.elim l 0, Subsingleton.elim u 0, Subsingleton.elim r 0, Subsingleton.elim d 0]
    simp [prodSite, siteVec]
  have hF : Factored (freshNet nx ny chi A) := factored_fresh _ _ _ _ fun s => by
    rw [hA']
    exact prodSite_prod _ _ _ _ _
  obtain ⟨b, hb, -, h⟩ := C101_converged st st pk rfl h0 ω ω t t _ net1 _ (fresh_wired A hx hy) hx hy hs
    (hF.dropRun st h0 pk ω _ t) (svdRun_full hf pk ω _ t _) e (fun _ => svdRun_full hf pk ω _ t _) n
  exact ⟨b, hb, h⟩

end product

end AceTN
