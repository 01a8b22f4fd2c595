import Verif.Lemmas.TurnGauge
import Verif.Lemmas.GaugeSplit

/-!
`update_reduced_tensors` in other bases (real numbers).
-/

set_option autoImplicit false
set_option linter.unusedSectionVars false

namespace AceTN

open Matrix Spec SumTac Full

variable {𝕜 F : Type} [RCLike 𝕜] {sgn : Bool} {ord : ∀ (n : Type) [Fintype n], n ≃ Fin (Fintype.card n)}
  {N P : Type} [Fintype N] [Fintype P] [DecidableEq N] [DecidableEq P] {bD : ℕ}
  {W V : Matrix N N 𝕜} {U T : Matrix P P 𝕜}

theorem gateReduced_turn {B : Type} [Fintype B] [DecidableEq B] (hs : ∀ a : 𝕜, star a = a) (hU : Unit2 U) (hT : Unit2 T) {Z : Matrix B B 𝕜}
    (hZ : Unit2 Z) {a1r a1r' a2r a2r' : N → B → P → 𝕜} (h1 : Turned3 W Z U a1r a1r') (h2 : Turned3 V Z T a2r a2r')
    {gate gate' : P → P → P → P → 𝕜} (hg : TurnedOp2 (ScalarMap.id 𝕜) U T gate gate') :
    Turned4 W V U T (gateReduced a1r a2r gate) (gateReduced a1r' a2r' gate') := by
  have hp := pair_turn hs hZ h1 h2
  intro y₀ x₀ p₀ q₀
  unfold gateReduced
  dsimp only
  have e : ∀ p q, ∑ u, a1r' y₀ u p * a2r' x₀ u q = ∑ a, ∑ b, U p a * T q b * ∑ y, ∑ x, W y₀ y * V x₀ x * ∑ u, a1r y u a * a2r x u b := by
    intro p q
    refine (hp y₀ x₀ p q).trans ?_
    dsimp only
    obtain ⟨G, hG⟩ : ∃ G : N → N → P → P → 𝕜, ∀ y x a b, ∑ u, a1r y u a * a2r x u b = G y x a b := ⟨_, fun _ _ _ _ => rfl⟩
    simp only [hG]
    einsum_ring
  simp only [e]
  rw [gate_turn hU hT hg]
  obtain ⟨G, hG⟩ : ∃ G : N → N → P → P → 𝕜, ∀ y x a b, ∑ u, a1r y u a * a2r x u b = G y x a b := ⟨_, fun _ _ _ _ => rfl⟩
  have hid : ∀ p q a b, (ScalarMap.id 𝕜).f (gate p q a b) = gate p q a b := fun _ _ _ _ => rfl
  simp only [hG, hid]
  einsum_ring

theorem undo_turn {N' : Type} [Fintype N'] [DecidableEq N'] {B : Type} [Fintype B] [DecidableEq B] (hs : ∀ a : 𝕜, star a = a) {Q : Matrix N' N' 𝕜} (hQ : Unit2 Q)
    {Z : Matrix B B 𝕜} {iv iv' : N → N' → 𝕜} (hi : ∀ y v, iv' y v = ∑ y', ∑ v', W y y' * iv y' v' * Q v v') {b₁ b₂ : N' → B → P → 𝕜}
    (h : Turned3 Q Z U b₁ b₂) : Turned3 W Z U (fun y u p => ∑ z, iv y z * b₁ z u p) (fun y u p => ∑ z, iv' y z * b₂ z u p) := by
  intro y₀ u₀ p₀
  dsimp only
  simp only [hi, h _ _ _]
  calc _ = ∑ c, ∑ d, (∑ x, Q x c * Q x d) * ∑ y, ∑ u, ∑ p, W y₀ y * Z u₀ u * U p₀ p * (iv y c * b₁ d u p) := by einsum_ring
    _ = _ := by
      simp only [orth_sum hs hQ]
      einsum_ring

/-- Two computations both do not end, or both end alike. -/
def AlikeO {α β : Type} (rel : α → β → Prop) : Option (Except PyErr α) → Option (Except PyErr β) → Prop
  | some x, some y => Alike rel x y
  | none, none => True
  | _, _ => False

theorem Alike.mono {α β : Type} {rel rel' : α → β → Prop} {x : Except PyErr α} {y : Except PyErr β} (h : Alike rel x y)
    (hr : ∀ a b, x = .ok a → rel a b → rel' a b) : Alike rel' x y := by
  cases x with
  | error e => cases y with
    | error e' => exact h
    | ok b => exact h.elim
  | ok a => cases y with
    | error e' => exact h.elim
    | ok b => exact hr a b rfl h

/-- The end of the update. -/
theorem finish_turn (hs : ∀ a : 𝕜, star a = a) (la la' : Lapack 𝕜)
    (hb : bD ≤ min (Fintype.card (Fin (qD N P bD))) (Fintype.card (Fin (qD N P bD)))) (hW : Unit2 W) (hV : Unit2 V) (hU : Unit2 U)
    (hT : Unit2 T) {Z : Matrix (Fin bD) (Fin bD) 𝕜} (hZ : Unit2 Z) {x y : Except PyErr ((N → Fin bD → P → 𝕜) × (N → Fin bD → P → 𝕜))}
    (h : Alike (fun p p' => Turned3 W Z U p.1 p'.1 ∧ Turned3 V Z T p.2 p'.2) x y)
    (hc : sgn = true → ∀ p, (do let p ← x; return finalizeCore la hb p.1 p.2) = Except.ok p → Distinct (finMat p.1 * (finMat p.2)ᵀ)) :
    ∃ Z' : Matrix (Fin bD) (Fin bD) 𝕜, Allowed sgn Z' ∧ Alike (fun p p' => Turned3 W Z' U p.1 p'.1 ∧ Turned3 V Z' T p.2 p'.2)
      (do let p ← x; return finalizeCore la hb p.1 p.2) (do let p ← y; return finalizeCore la' hb p.1 p.2) := by
  cases x with
  | error e => cases y with
    | error e' => exact ⟨1, Allowed.one, h⟩
    | ok b => exact h.elim
  | ok a => cases y with
    | error e' => exact h.elim
    | ok b =>
      obtain ⟨Z', hZ', h1, h2⟩ := finalizeCore_turn (sgn := sgn) hs la la' hb hW hV hU hT hZ h.1 h.2 fun hg => hc hg _ rfl
      exact ⟨Z', hZ', h1, h2⟩

theorem updateReduced_turn [Nonempty N] [NeZero bD] (hs : ∀ a : 𝕜, star a = a) (la la' : Lapack 𝕜)
    (hla : sgn = true → Triangular ord la ∧ Triangular ord la') (fo : Als.FloatOps F) (rep : ℝ → F) (cfg : Settings F)
    (hm : EvenSolver sgn cfg.als_method cfg.als_epsilon) (hcut : 0 < cfg.positive_approx_cutoff)
    (hb : bD ≤ Fintype.card (N × P)) (hW : Allowed sgn W) (hV : Allowed sgn V) (hU : Unit2 U) (hT : Unit2 T)
    {Z : Matrix (Fin bD) (Fin bD) 𝕜} (hZ : Unit2 Z) {a1r a1r' a2r a2r' : N → Fin bD → P → 𝕜} (h1 : Turned3 W Z U a1r a1r')
    (h2 : Turned3 V Z T a2r a2r') {gate gate' : P → P → P → P → 𝕜} (hg : TurnedOp2 (ScalarMap.id 𝕜) U T gate gate')
    {n12 n12' : N → N → N → N → 𝕜} (hn : TurnedN W V n12 n12') (hH : (normMat n12).IsHermitian)
    (hc : ClearUpdate sgn la fo rep cfg hb a1r a2r n12 gate) :
    ∃ Z' : Matrix (Fin bD) (Fin bD) 𝕜, Allowed sgn Z' ∧ AlikeO (fun p p' => Turned3 W Z' U p.1 p'.1 ∧ Turned3 V Z' T p.2 p'.2)
      (updateReduced la fo rep cfg hb a1r a2r n12 gate) (updateReduced la' fo rep cfg hb a1r' a2r' n12' gate') := by
  have hG := gateReduced_turn hs hU hT hZ h1 h2 hg
  obtain ⟨c1, c2⟩ := hc
  unfold updateReduced at c2 ⊢
  dsimp only at c2 ⊢
  rcases positiveApprox_turn hs la la' hcut 2 hW.unit hV.unit hn hH with ⟨e, e'⟩ | ⟨nz, nz', O, e, e', hO, hr, inv, hi⟩
  · rw [e, e']
    exact ⟨1, Allowed.one, trivial⟩
  · have c1 := c1 nz e
    rw [e] at c2 ⊢
    rw [e']
    simp only [Option.map_some] at c2 ⊢
    by_cases hgf : cfg.use_gauge_fix = true
    · rw [if_pos hgf] at c1
      simp only [if_pos hgf] at c2 ⊢
      obtain ⟨Q1, Q2, hQ1, hQ2, g1, g2, g3, g4⟩ := gaugeFix_turn hs la la' hla cfg.gauge_fix_atol hW hV hO hr hi hG
      obtain ⟨Z1, hZ1, hA⟩ := alsSolve_turn hs la la' fo rep cfg hm (hb_init (hb_gauge hb)) hQ1 hQ2 hU hT g1 g2 c1
      have hA' : Alike (fun p p' => Turned3 W Z1 U p.1 p'.1 ∧ Turned3 V Z1 T p.2 p'.2)
          (do
            let p ← alsSolve la fo rep cfg (hb_init (hb_gauge hb)) (gaugeFix la cfg.gauge_fix_atol nz (gateReduced a1r a2r gate)).n12
              (gaugeFix la cfg.gauge_fix_atol nz (gateReduced a1r a2r gate)).a12g
            return undoGauge (gaugeFix la cfg.gauge_fix_atol nz (gateReduced a1r a2r gate)).nzyr_inv
              (gaugeFix la cfg.gauge_fix_atol nz (gateReduced a1r a2r gate)).nzxr_inv p)
          (do
            let p ← alsSolve la' fo rep cfg (hb_init (hb_gauge hb)) (gaugeFix la' cfg.gauge_fix_atol nz' (gateReduced a1r' a2r' gate')).n12
              (gaugeFix la' cfg.gauge_fix_atol nz' (gateReduced a1r' a2r' gate')).a12g
            return undoGauge (gaugeFix la' cfg.gauge_fix_atol nz' (gateReduced a1r' a2r' gate')).nzyr_inv
              (gaugeFix la' cfg.gauge_fix_atol nz' (gateReduced a1r' a2r' gate')).nzxr_inv p) := by
        refine Alike.bind hA ?_
        intro p p' hp
        exact ⟨undo_turn hs hQ1.unit g3 hp.1, undo_turn hs hQ2.unit g4 hp.2⟩
      obtain ⟨Z', hZ', hF⟩ := finish_turn (sgn := sgn) hs la la' (hb_fin hb) hW.unit hV.unit hU hT hZ1.unit hA' (fun hg p hp => c2 hg p (by
        simpa only [bind_assoc, pure_bind] using congrArg some hp))
      refine ⟨Z', hZ', show Alike _ _ _ from ?_⟩
      simpa only [bind_assoc, pure_bind] using hF
    · rw [if_neg hgf] at c1
      simp only [if_neg hgf] at c2 ⊢
      obtain ⟨Z1, hZ1, hA⟩ := alsSolve_turn hs la la' fo rep cfg hm (hb_init hb) hW hV hU hT (squareNorm_turn hs hO hr) hG c1
      obtain ⟨Z', hZ', hF⟩ := finish_turn (sgn := sgn) hs la la' (hb_fin hb) hW.unit hV.unit hU hT hZ1.unit hA
        (fun hg p hp => c2 hg p (congrArg some hp))
      exact ⟨Z', hZ', hF⟩

end AceTN
