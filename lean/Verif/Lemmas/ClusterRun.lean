import Verif.Lemmas.ClusterMove
import Verif.Spec.ClusterGrow

/-!
Clusters under sequences of moves.
-/

set_option autoImplicit false

namespace AceTN

open Finset Spec

section lattice

variable {nx ny : ℕ} (hx : 0 < nx) (hy : 0 < ny)

theorem valid_of_range (m : Move) (h : InRange nx ny m) : m.Valid nx ny := by
  cases m <;> exact h

include hx hy

theorem growMove_eq (m : Move) (r : Rect) :
    growMove nx ny m r = if m.OnLine (cellSite nx ny (r.org m.dirn + dir m.dirn)) then r.grow m.dirn else r := by
  have key : ∀ {n : ℕ} (hn : 0 < n) (a : ℤ) (x : ℕ), a % n = x ↔ (a % n).toNat = x := by
    intro n hn a x
    have := Int.emod_nonneg a (b := (n : ℤ)) (by omega)
    omega
  cases m with
  | left x =>
    unfold growMove
    have : Move.OnLine (.left x) (cellSite nx ny (r.org 0 + dir 0)) ↔ (r.x - 1) % nx = x := by
      rw [key hx, ← absorbed_iff]
      rfl
    simp only [Move.dirn, this]
    rfl
  | up x =>
    unfold growMove
    have : Move.OnLine (.up x) (cellSite nx ny (r.org 1 + dir 1)) ↔ (r.y + r.h) % ny = x := by
      rw [key hy, ← absorbed_iff]
      show ((r.y + r.h - 1 + 1) % ny).toNat = x ↔ _
      rw [sub_add_cancel]
    simp only [Move.dirn, this]
    rfl
  | right x =>
    unfold growMove
    have : Move.OnLine (.right x) (cellSite nx ny (r.org 2 + dir 2)) ↔ (r.x + r.w) % nx = x := by
      rw [key hx, ← absorbed_iff]
      show ((r.x + r.w - 1 + 1) % nx).toNat = x ↔ _
      rw [sub_add_cancel]
    simp only [Move.dirn, this]
    rfl
  | down x =>
    unfold growMove
    have : Move.OnLine (.down x) (cellSite nx ny (r.org 3 + dir 3)) ↔ (r.y - 1) % ny = x := by
      rw [key hy, ← absorbed_iff]
      rfl
    simp only [Move.dirn, this]
    rfl

omit hx hy in
/-- The line next to a rectangle has no site in it. -/
theorem line_outside (r : Rect) (K : Fin 4) (j : Fin (r.hei K)) : ¬ r.Has (r.org K + dir K + (j : ℤ) • dir (K + 1)) := by
  unfold Rect.Has
  match K with
  | 0 =>
    show ¬ (r.x ≤ r.x + -1 + (j : ℤ) * 0 ∧ _)
    omega
  | 1 =>
    show ¬ (_ ∧ _ ∧ _ ∧ r.y + r.h - 1 + 1 + (j : ℤ) * 0 < r.y + r.h)
    omega
  | 2 =>
    show ¬ (_ ∧ r.x + r.w - 1 + 1 + (j : ℤ) * 0 < r.x + r.w ∧ _)
    omega
  | 3 =>
    show ¬ (_ ∧ _ ∧ r.y ≤ r.y + -1 + (j : ℤ) * 0 ∧ _)
    omega

omit hx hy in
/-- A sequence of moves only adds sites. -/
theorem growMove_has (m : Move) (r : Rect) (p : ℤ × ℤ) (h : r.Has p) : (growMove nx ny m r).Has p := by
  unfold Rect.Has at *
  cases m <;> unfold growMove <;> dsimp only <;> split_ifs <;> push_cast <;> omega

omit hx hy in
theorem growAll_has (ms : List Move) (r : Rect) (p : ℤ × ℤ) (h : r.Has p) : (growAll nx ny ms r).Has p := by
  induction ms with
  | nil => exact h
  | cons m ms ih => exact growMove_has m _ p ih

end lattice

variable {𝕜 : Type} [RCLike 𝕜] {B P : Type} [Fintype B] [Fintype P] [DecidableEq B]

/-- One move. -/
theorem clusterWith_move {net : Net (Ten B P 𝕜)} {f : Site → ℕ → ℕ} (hw : Wired net f) (hx : 0 < net.nx) (hy : 0 < net.ny)
    (st : ProjSettings 𝕜) (ω : Draws B 𝕜) (pk : ProjKind) (m : Move) (hm : InRange net.nx net.ny m)
    (hr : CutsResolve B st pk) (hl : LooseMove st ω pk net m) (r : Rect) :
    ∃ c : ℝ, 0 < c ∧ ∀ D : ℤ × ℤ → B × B → B × B → B × B → B × B → 𝕜, (∀ p, ¬ r.Has p → D p = siteLayers net (fun _ => none) p) →
      clusterWith (m.after (numOps st ω) pk net) D r = c * clusterWith net D (growMove net.nx net.ny m r) := by
  have hm' := valid_of_range m hm
  rw [growMove_eq hx hy]
  split_ifs with h
  · obtain ⟨c, hc, hv⟩ := cluster_hit hw hx hy st ω pk m hm' (r.org m.dirn) (r.wid m.dirn) (r.hei m.dirn)
      (max (netDim net) (netDim (m.after (numOps st ω) pk net))) (le_max_left _ _) (le_max_right _ _) h hr hl
    refine ⟨c, hc, fun D hD => ?_⟩
    rw [← cluster_rot m.dirn _ net hx hy D (r.grow m.dirn) (le_max_left _ (netDim (m.after (numOps st ω) pk net))),
      ← cluster_rot m.dirn _ (m.after (numOps st ω) pk net) hx hy D r (le_max_right (netDim net) _), grow_org, grow_wid, grow_hei]
    exact hv D fun j => hD _ (line_outside r m.dirn j)
  · refine ⟨1, one_pos, fun D _ => ?_⟩
    rw [← cluster_rot m.dirn _ net hx hy D r (le_max_left _ (netDim (m.after (numOps st ω) pk net))),
      ← cluster_rot m.dirn _ (m.after (numOps st ω) pk net) hx hy D r (le_max_right (netDim net) _),
      cluster_miss hx hy st ω pk m hm' _ _ _ _ D h, RCLike.ofReal_one, one_mul]

/-- A sequence of moves, with any tensors in the rectangle. -/
theorem clusterWith_run (st : ProjSettings 𝕜) (pk : ProjKind) (ω : ℕ → Draws B 𝕜) (hr : CutsResolve B st pk) (ms : List Move) (t : ℕ)
    (net : Net (Ten B P 𝕜)) (f : Site → ℕ → ℕ) (hw : Wired net f) (hx : 0 < net.nx) (hy : 0 < net.ny)
    (hm : ∀ m ∈ ms, InRange net.nx net.ny m) (hl : LooseRun st pk ω t ms net) :
    ∃ net', runDrawn st pk ω t ms net = .ok net' ∧ net'.nx = net.nx ∧ net'.ny = net.ny ∧ net'.A = net.A ∧ (∃ f', Wired net' f') ∧
      ∀ r, ∃ c : ℝ, 0 < c ∧ ∀ D : ℤ × ℤ → B × B → B × B → B × B → B × B → 𝕜,
        (∀ p, ¬ r.Has p → D p = siteLayers net (fun _ => none) p) →
        clusterWith net' D r = c * clusterWith net D (growAll net.nx net.ny ms r) := by
  induction ms generalizing t net f with
  | nil => exact ⟨net, rfl, rfl, rfl, rfl, ⟨f, hw⟩, fun r => ⟨1, one_pos, fun o _ => by rw [RCLike.ofReal_one, one_mul]; rfl⟩⟩
  | cons m ms ih =>
    have hmv := valid_of_range m (hm m (by simp))
    have hA := (m.after_consts (numOps st (ω t)) pk net).2.2.2
    obtain ⟨net', h1, hnx, hny, hA', hf, hv⟩ := ih (t + 1) (m.after (numOps st (ω t)) pk net) _ (wired_after hw hx hy st (ω t) pk m hmv) hx hy
      (fun m' hm' => hm m' (by simp [hm'])) (hl.2 _ (m.run_eq _ _ _))
    refine ⟨net', ?_, hnx, hny, hA'.trans hA, hf, fun r => ?_⟩
    · simp only [runDrawn, Move.run_eq, bind, Except.bind]
      exact h1
    obtain ⟨c, hc, hcv⟩ := hv r
    obtain ⟨d, hd, hdv⟩ := clusterWith_move hw hx hy st (ω t) pk m (hm m (by simp)) hr hl.1 (growAll net.nx net.ny ms r)
    refine ⟨c * d, mul_pos hc hd, fun D hD => ?_⟩
    rw [hcv D fun p hp => by rw [hD p hp]; unfold siteLayers; rw [hA]; rfl]
    have := hdv D fun p hp => hD p fun h => hp (growAll_has ms r p h)
    show (c : 𝕜) * clusterWith (m.after (numOps st (ω t)) pk net) D (growAll net.nx net.ny ms r) = _
    rw [this]
    push_cast
    exact (mul_assoc _ _ _).symm

/-- A sequence of moves. -/
theorem cluster_run (st : ProjSettings 𝕜) (pk : ProjKind) (ω : ℕ → Draws B 𝕜) (hr : CutsResolve B st pk) (ms : List Move) (t : ℕ)
    (net : Net (Ten B P 𝕜)) (f : Site → ℕ → ℕ) (hw : Wired net f) (hx : 0 < net.nx) (hy : 0 < net.ny)
    (hm : ∀ m ∈ ms, InRange net.nx net.ny m) (hl : LooseRun st pk ω t ms net) :
    ∃ net', runDrawn st pk ω t ms net = .ok net' ∧ net'.nx = net.nx ∧ net'.ny = net.ny ∧ (∃ f', Wired net' f') ∧
      ∀ r, ∃ c : ℝ, 0 < c ∧ ∀ o : ℤ × ℤ → Option (P × P), (∀ p, ¬ r.Has p → o p = none) →
        cluster net' o r = c * cluster net o (growAll net.nx net.ny ms r) := by
  obtain ⟨net', h1, hnx, hny, hA, hf, hv⟩ := clusterWith_run st pk ω hr ms t net f hw hx hy hm hl
  refine ⟨net', h1, hnx, hny, hf, fun r => ?_⟩
  obtain ⟨c, hc, e⟩ := hv r
  refine ⟨c, hc, fun o ho => ?_⟩
  have hs : siteLayers net' o = siteLayers net o := by
    funext p
    unfold siteLayers
    rw [hA, hnx, hny]
  rw [cluster_with, cluster_with, hs]
  exact e _ fun p hp => by unfold siteLayers; rw [ho p hp]

end AceTN
