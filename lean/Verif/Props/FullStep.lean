import Verif.Props.FullRun
import Verif.Props.Boundary

/-!
C86: what one bond update of the full update does to a network.
-/

set_option autoImplicit false

namespace AceTN

open Spec Full

variable {𝕜 F : Type} [RCLike 𝕜] {bD pD nx ny : ℕ}

/-- Specification: the tensor at a site of a network has norm one or is zero. -/
def Spec.UnitOrZero (net : Net (Ten (Fin bD) (Fin pD) 𝕜)) (s : Site) : Prop :=
  ∃ a, net.A s = .site a ∧ (∑ l, ∑ u, ∑ r, ∑ d, ∑ p, ‖a l u r d p‖ ^ 2 = 1 ∨ a = 0)

theorem bondPermute_sq (k : ℤ) (a : ATensor (Fin bD) (Fin pD) 𝕜) :
    ∑ l, ∑ u, ∑ r, ∑ d, ∑ p, ‖bondPermute k a l u r d p‖ ^ 2 = ∑ l, ∑ u, ∑ r, ∑ d, ∑ p, ‖a l u r d p‖ ^ 2 := by
  have hk : k % 4 = 0 ∨ k % 4 = 1 ∨ k % 4 = 2 ∨ k % 4 = 3 := by omega
  have h1 : ∀ a : ATensor (Fin bD) (Fin pD) 𝕜,
      ∑ l, ∑ u, ∑ r, ∑ d, ∑ p, ‖bondPermute 1 a l u r d p‖ ^ 2 = ∑ l, ∑ u, ∑ r, ∑ d, ∑ p, ‖a l u r d p‖ ^ 2 := by
    intro a
    rw [bondPermute_one]
    dsimp only
    calc ∑ l, ∑ u, ∑ r, ∑ d, ∑ p, ‖a d l u r p‖ ^ 2 = ∑ l, ∑ u, ∑ d, ∑ r, ∑ p, ‖a d l u r p‖ ^ 2 :=
          Finset.sum_congr rfl fun l _ => Finset.sum_congr rfl fun u _ => Finset.sum_comm
      _ = ∑ l, ∑ d, ∑ u, ∑ r, ∑ p, ‖a d l u r p‖ ^ 2 := Finset.sum_congr rfl fun l _ => Finset.sum_comm
      _ = _ := Finset.sum_comm
  rw [bondPermute_mod k (k % 4) (by omega)]
  rcases hk with hk | hk | hk | hk <;> rw [hk]
  · rw [bondPermute_zero]
  · exact h1 a
  · rw [show (2 : ℤ) = 1 + 1 from rfl, ← bondPermute_add, h1, h1]
  · rw [show (3 : ℤ) = 1 + 1 + 1 from rfl, ← bondPermute_add, h1, ← bondPermute_add, h1, h1]

theorem bondPermute_zeroT (k : ℤ) : bondPermute k (0 : ATensor (Fin bD) (Fin pD) 𝕜) = 0 := rfl

theorem normalise_unit (a : ATensor (Fin bD) (Fin pD) 𝕜) :
    ∑ l, ∑ u, ∑ r, ∑ d, ∑ p, ‖normalise a l u r d p‖ ^ 2 = 1 ∨ normalise a = 0 := by
  by_cases h : a = 0
  · right
    subst h
    funext l u r d p
    show (0 : 𝕜) / _ = 0
    rw [zero_div]
  · exact .inl (normaliseA_spec a h).1

section step

variable [NeZero bD] [NeZero pD]

theorem numUpdate_unit (la : Lapack 𝕜) (fo : Als.FloatOps F) (rep : ℝ → F) (cfg : Settings F)
    (gates : Bond → Fin pD → Fin pD → Fin pD → Fin pD → 𝕜) (net : Net (Ten (Fin bD) (Fin pD) 𝕜)) (b : Bond)
    {q : ATensor (Fin bD) (Fin pD) 𝕜 × ATensor (Fin bD) (Fin pD) 𝕜} (h : numUpdate la fo rep cfg none gates net b = some (.ok q)) :
    (∑ l, ∑ u, ∑ r, ∑ d, ∑ p, ‖q.1 l u r d p‖ ^ 2 = 1 ∨ q.1 = 0) ∧ (∑ l, ∑ u, ∑ r, ∑ d, ∑ p, ‖q.2 l u r d p‖ ^ 2 = 1 ∨ q.2 = 0) := by
  unfold numUpdate at h
  split at h
  · rename_i a1 a2 _ _
    unfold numTensorUpdate at h
    dsimp only at h
    split at h
    · cases h
    · rename_i n12 _
      rw [Option.map_map] at h
      cases hu : updateReduced la fo rep cfg bD_le (decompose la (bondPermute b.k a1) (bondPermute b.k a2)).a1r
          (decompose la (bondPermute b.k a1) (bondPermute b.k a2)).a2r n12 (gates b) with
      | none => rw [hu] at h; cases h
      | some r =>
        rw [hu] at h
        cases r with
        | error e => cases h
        | ok p =>
          have h := Except.ok.inj (Option.some.inj h)
          subst h
          refine ⟨?_, ?_⟩
          · dsimp only
            rw [bondPermute_sq]
            rcases normalise_unit (recompose _ p.1 _ p.2).1 with h | h
            · exact .inl h
            · refine .inr ?_
              rw [h, bondPermute_zeroT]
          · dsimp only
            rw [bondPermute_sq]
            rcases normalise_unit (recompose _ p.1 _ p.2).2 with h | h
            · exact .inl h
            · refine .inr ?_
              rw [h, bondPermute_zeroT]
  · cases h

/-- **C86 (one bond update).** A bond update leaves all tensors of sites off the bond as they are.  If it raises it leaves all site tensors as they
are, and if it does not it leaves tensors of norm one (or zero tensors) at the two sites of the bond. -/
theorem C86_step (hx : 0 < nx) (hy : 0 < ny) (st : ProjSettings 𝕜) (pk : ProjKind) (ω : ℕ → Draws (Fin bD) 𝕜) (la : Lapack 𝕜)
    (fo : Als.FloatOps F) (rep : ℝ → F) (cfg : Settings F) (gates : Bond → Fin pD → Fin pD → Fin pD → Fin pD → 𝕜)
    (net : Net (Ten (Fin bD) (Fin pD) 𝕜)) (h : FitNet nx ny net) (t : ℕ) (b : Bond) (hb : b ∈ buildBondList nx ny) :
    let r := fullBondStep st pk ω la fo rep cfg none gates (net, t) b
    (∀ s, s ≠ b.s1 → s ≠ b.s2 → r.1.1.A s = net.A s) ∧ (r.2 ≠ none → r.1.1.A = net.A) ∧
      (r.2 = none → UnitOrZero r.1.1 b.s1 ∧ UnitOrZero r.1.1 b.s2) := by
  intro r
  obtain ⟨rfl, rfl, f, hw⟩ := h
  obtain ⟨-, -, -, h4⟩ := fullBondStep_wired st pk ω la fo rep cfg none gates (net, t) hw hx hy hb
  dsimp only at h4
  split at h4
  · rename_i q hq
    obtain ⟨e, hA⟩ := h4
    have hu := numUpdate_unit la fo rep cfg gates net b hq
    have hA : r.1.1.A = (writeSite (writeSite net b.s1 q.1) b.s2 q.2).A := hA
    refine ⟨fun s h1 h2 => ?_, fun h => (h e).elim, fun _ => ⟨?_, q.2, ?_, hu.2⟩⟩
    · rw [hA]
      exact (if_neg h2).trans (if_neg h1)
    · by_cases hs : b.s1 = b.s2
      · exact ⟨q.2, by rw [hA]; exact if_pos hs, hu.2⟩
      · exact ⟨q.1, by rw [hA]; exact (if_neg hs).trans (if_pos rfl), hu.1⟩
    · rw [hA]
      exact if_pos rfl
  · obtain ⟨e, hA⟩ := h4
    have hA : r.1 = (net, t) := hA
    exact ⟨fun s _ _ => by rw [hA], fun _ => by rw [hA], fun h => (e h).elim⟩

/-- **C86 (separate one-site gates).** If one-site gates are applied separately, the update writes the tensors it writes without them, acted on
by the gate of their own site. -/
theorem C86_one_site (la : Lapack 𝕜) (fo : Als.FloatOps F) (rep : ℝ → F) (cfg : Settings F) (g : Site → Fin pD → Fin pD → 𝕜)
    (gates : Bond → Fin pD → Fin pD → Fin pD → Fin pD → 𝕜) (net : Net (Ten (Fin bD) (Fin pD) 𝕜)) (b : Bond)
    (a1 a2 : ATensor (Fin bD) (Fin pD) 𝕜) (h : numUpdate la fo rep cfg none gates net b = some (.ok (a1, a2))) :
    numUpdate la fo rep cfg (some g) gates net b =
      some (.ok (fun l u r d q => ∑ p, g b.s1 p q * a1 l u r d p, fun l u r d q => ∑ p, g b.s2 p q * a2 l u r d p)) := by
  unfold numUpdate at h ⊢
  split at h
  · rename_i A1 A2 h1 h2
    cases hu : numTensorUpdate la fo rep cfg net b (gates b) (bondPermute b.k A1) (bondPermute b.k A2) with
    | none => rw [hu] at h; cases h
    | some r =>
      rw [hu] at h
      cases r with
      | error e => cases h
      | ok p =>
        have h := Except.ok.inj (Option.some.inj h)
        obtain ⟨e1, e2⟩ := Prod.mk.inj h
        subst e1 e2
        rfl
  · cases h

/-- With the pseudo-inverse, updates of networks that fit together return, so the hypotheses are met. -/
example (hx : 0 < nx) (hy : 0 < ny) (chi : ℕ) (A : Site → ATensor (Fin bD) (Fin pD) 𝕜) (la : Lapack 𝕜) (fo : Als.FloatOps F) (rep : ℝ → F)
    (cfg : Settings F) (hm : cfg.als_method = .pinv) (gates : Bond → Fin pD → Fin pD → Fin pD → Fin pD → 𝕜) (b : Bond)
    (hb : b ∈ buildBondList nx ny) : ∃ q, numUpdate la fo rep cfg none gates (freshNet nx ny chi A) b = some (.ok q) :=
  numUpdate_returns (fresh_wired A hx hy) hx hy hb la fo rep cfg hm none gates

end step

end AceTN
