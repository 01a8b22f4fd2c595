import Verif.Lemmas.Session
import Verif.Lemmas.Shapes

/-! The dimensions of the boundary tensors in sessions. -/

set_option autoImplicit false
set_option linter.unusedSectionVars false

namespace AceTN

open _root_.AceTN.Spec

section moves

variable {𝕜 : Type} [RCLike 𝕜] {B P : Type} [Fintype B] [Fintype P] [DecidableEq B]

/-- The new dimension of a projector is at most the boundary dimension. -/
theorem projDim_half (st : ProjSettings 𝕜) (ω : Draws B 𝕜) (key : ℕ × Site) (chi : ℕ) (q1 q4 : Ten B P 𝕜) :
    projDim ((numOps st ω).half key chi q1 q4).1 ≤ chi := by
  unfold numOps
  dsimp only
  split
  · split
    · show (ite _ _ _ : ProjPair _ _ _).cD ≤ chi
      split <;> exact Nat.min_le_left _ _
    · exact Nat.zero_le _
  · exact Nat.zero_le _

theorem projDim_full (st : ProjSettings 𝕜) (ω : Draws B 𝕜) (key : ℕ × Site) (chi : ℕ) (q1 q2 q3 q4 : Ten B P 𝕜) :
    projDim ((numOps st ω).full key chi q1 q2 q3 q4).1 ≤ chi := by
  unfold numOps
  dsimp only
  split
  · split
    · show (ite _ _ _ : ProjPair _ _ _).cD ≤ chi
      split <;> exact Nat.min_le_left _ _
    · exact Nat.zero_le _
  · exact Nat.zero_le _

theorem projDim_move (st : ProjSettings 𝕜) (ω : Draws B 𝕜) (pk : ProjKind) (net : Net (Ten B P 𝕜)) (m : Move) (i : ℕ) :
    projDim (m.proj (numOps st ω) pk net i).1 ≤ net.chi := by
  rw [Move.proj_eq]
  unfold calcProjectors
  cases pk with
  | half => exact projDim_half _ _ _ _ _ _
  | full => exact projDim_full _ _ _ _ _ _ _ _

theorem idx_tgt (m : Move) (nx ny i : ℕ) : m.idx (m.tgt nx ny i) = i := by cases m <;> rfl

theorem newDim_onLine (st : ProjSettings 𝕜) (ω : Draws B 𝕜) (pk : ProjKind) (net : Net (Ten B P 𝕜)) (f : Site → ℕ → ℕ) (m : Move) (s : Site)
    (h : m.onLine net.nx net.ny s) : newDim net f st ω pk m s (m.dirn + 3).val ≤ net.chi := by
  obtain ⟨i, -, rfl⟩ := h
  unfold newDim
  rw [if_pos ⟨rfl, by rw [idx_tgt]⟩]
  exact projDim_move st ω pk net m _

theorem newDim_cap (st : ProjSettings 𝕜) (ω : Draws B 𝕜) (pk : ProjKind) (net : Net (Ten B P 𝕜)) (f : Site → ℕ → ℕ) (m : Move) (s : Site)
    (k : ℕ) (h : f s k ≤ net.chi) : newDim net f st ω pk m s k ≤ net.chi := by
  unfold newDim
  split
  · exact projDim_move st ω pk net m _
  · exact h

/-- A list of moves keeps dimensions below the boundary dimension, and brings those of the links it visits below it. -/
theorem wired_run_cap (st : ProjSettings 𝕜) (pk : ProjKind) (ω : ℕ → Draws B 𝕜) (ms : List Move) (t : ℕ) (net : Net (Ten B P 𝕜))
    (f : Site → ℕ → ℕ) (hw : Wired net f) (hx : 0 < net.nx) (hy : 0 < net.ny) (hm : ∀ m ∈ ms, m.Valid net.nx net.ny) :
    ∃ n f', runDrawn st pk ω t ms net = .ok n ∧ Wired n f' ∧ n.nx = net.nx ∧ n.ny = net.ny ∧ n.A = net.A ∧ n.chi = net.chi ∧
      ∀ s k, (f s k ≤ net.chi ∨ ∃ m ∈ ms, k = (m.dirn + 3).val ∧ m.onLine net.nx net.ny s) → f' s k ≤ net.chi := by
  induction ms generalizing t net f with
  | nil => exact ⟨net, f, rfl, hw, rfl, rfl, rfl, rfl, fun s k h => h.resolve_right (by simp)⟩
  | cons m ms ih =>
    obtain ⟨c1, c2, c3, c4⟩ := m.after_consts (numOps st (ω t)) pk net
    obtain ⟨n, f', e, h1, h2, h3, h4, h5, h6⟩ := ih (t + 1) (m.after (numOps st (ω t)) pk net) _
      (wired_after hw hx hy st (ω t) pk m (hm m List.mem_cons_self)) (c1 ▸ hx) (c2 ▸ hy)
      (fun m' h => by rw [c1, c2]; exact hm m' (List.mem_cons_of_mem _ h))
    refine ⟨n, f', ?_, h1, h2.trans c1, h3.trans c2, h4.trans (funext fun s => congrFun c4 s), h5.trans c3, fun s k h => ?_⟩
    · simp only [runDrawn, Move.run_eq, bind, Except.bind]
      exact e
    · rw [c1, c2, c3] at h6
      rcases h with h | ⟨m', hm', rfl, hl⟩
      · exact h6 s k (Or.inl (newDim_cap st (ω t) pk net f m s k h))
      · rcases List.mem_cons.1 hm' with rfl | hm'
        · exact h6 s _ (Or.inl (newDim_onLine st (ω t) pk net f m' s hl))
        · exact h6 s _ (Or.inr ⟨m', hm', rfl, hl⟩)

theorem dirn_of_k (m : Move) : (m.k + 3) % 4 = (m.dirn + 3).val := by cases m <;> rfl

end moves

/-- The dimensions of the boundary tensors of a network are at most `chi`. -/
def Spec.Capped {B P 𝕜 : Type} (chi : ℕ) (net : Net (Ten B P 𝕜)) : Prop :=
  ∀ s, InCell net.nx net.ny s → ∀ k < 4, (∃ a b c, net.B s (.C k) = .corner a b c ∧ a ≤ chi ∧ b ≤ chi) ∧
    ∃ a b e, net.B s (.E k) = .edge a b e ∧ a ≤ chi ∧ b ≤ chi

theorem capped_of_wired {B P 𝕜 : Type} {chi : ℕ} {net : Net (Ten B P 𝕜)} {f : Site → ℕ → ℕ} (hw : Wired net f) (hx : 0 < net.nx)
    (hy : 0 < net.ny) (h : ∀ s, InCell net.nx net.ny s → ∀ k < 4, f s k ≤ chi) : Capped chi net := by
  intro s hs k hk
  obtain ⟨k, rfl⟩ : ∃ j : Fin 4, j.val = k := ⟨⟨k, hk⟩, rfl⟩
  rw [← cellSite_self _ _ s hs]
  obtain ⟨c, hc⟩ := wired_corner hw hx hy (atLattice s) _ k _ rfl rfl
  obtain ⟨e, he⟩ := wired_edge hw hx hy (atLattice s) _ k rfl
  have hle := fun p (j : Fin 4) => h _ (cellSite_inCell _ _ hx hy p) j.val j.isLt
  exact ⟨⟨_, _, c, hc, hle _ _, hle _ _⟩, _, _, e, he, hle _ _, hle _ _⟩

namespace Session

variable {𝕜 F : Type} [RCLike 𝕜] {bD pD nx ny N : ℕ} [NeZero bD] [NeZero pD]

/-- Sweeps keep the boundary dimension, and the dimensions of all boundary tensors are at most that. -/
theorem sweeps_cap (hx : 0 < nx) (hy : 0 < ny) (M : Machine F bD 𝕜) (c : Config F) (pk : ProjKind) (k : Set.SvdKind) (s : State bD pD 𝕜)
    (h : Sound nx ny s) : (sweeps M c pk k s).1.net.chi = s.net.chi ∧ (0 < c.sweeps → Capped s.net.chi (sweeps M c pk k s).1.net) := by
  obtain ⟨⟨rfl, rfl, f, hw⟩, -⟩ := h
  obtain ⟨n, f', e, h1, h2, h3, h4, h5, h6⟩ := wired_run_cap (c.proj M k) pk M.ω (AceTN.sweeps s.net.nx s.net.ny c.sweeps) s.moves s.net f hw hx hy
    (fun m hm => valid_of_range m (sweeps_range hx hy _ m hm))
  have e' := (ctmrgDrawn_eq (c.proj M k) pk M.ω c.sweeps s.moves s.net).trans e
  unfold sweeps
  rw [e']
  refine ⟨h5, fun hc => capped_of_wired h1 (h2 ▸ hx) (h3 ▸ hy) fun x hx' j hj => ?_⟩
  rw [h2, h3] at hx'
  obtain ⟨m, hm, hk, hl⟩ := sweep_covers _ _ x hx' j hj
  refine h6 x j (Or.inr ⟨m, ?_, hk.trans (dirn_of_k m), hl⟩)
  unfold AceTN.sweeps
  exact List.mem_flatten.2 ⟨_, List.mem_replicate.2 ⟨hc.ne', rfl⟩, hm⟩

theorem renormalize_cap (hx : 0 < nx) (hy : 0 < ny) (M : Machine F bD 𝕜) (c : Config F) (e : Evolution bD pD 𝕜) (s : State bD pD 𝕜)
    (h : Sound nx ny s) : (Set.renormalize (comp M c e) c.strings s).1.net.chi = s.net.chi ∧
      (0 < c.sweeps → (Set.renormalize (comp M c e) c.strings s).2 = none → Capped s.net.chi (Set.renormalize (comp M c e) c.strings s).1.net) := by
  unfold Set.renormalize
  cases setCalculate c.strings.projectors with
  | error x => exact ⟨rfl, fun _ h => by cases h⟩
  | ok pk =>
    obtain ⟨h1, h2⟩ := sweeps_cap hx hy M c pk (Set.svdKind c.strings.svdType) s h
    exact ⟨h1, fun h _ => h2 h⟩

theorem runDrawn_chi {B P : Type} [Fintype B] [Fintype P] [DecidableEq B] (st : ProjSettings 𝕜) (pk : ProjKind) (ω : ℕ → Draws B 𝕜) (ms : List Move)
    (t : ℕ) (net n : Net (Ten B P 𝕜)) (h : runDrawn st pk ω t ms net = .ok n) : n.chi = net.chi := by
  induction ms generalizing t net with
  | nil => cases h; rfl
  | cons m ms ih =>
    simp only [runDrawn, Move.run_eq, bind, Except.bind] at h
    exact (ih _ _ h).trans (m.after_consts (numOps st (ω t)) pk net).2.2.1

theorem evolveFn_chi (M : Machine F bD 𝕜) (c : Config F) (e : Evolution bD pD 𝕜) (s : State bD pD 𝕜) :
    (Set.evolveFn (comp M c e) c.strings s).1.net.chi = s.net.chi := by
  unfold Set.evolveFn
  cases createTensorUpdater c.strings.updateType with
  | error x => rfl
  | ok u =>
    cases u with
    | simple =>
      refine evolveLoop_inv (fun t : Net (Ten (Fin bD) (Fin pD) 𝕜) × LambdaTensors (Simple.Weight bD) => t.1.chi = s.net.chi) (fun _ => True)
        (fun t b _ ht => ?_) e.steps s.bonds (fun _ _ => trivial) (s.net, _) rfl
      unfold Simple.numBondStep
      split
      · split
        · exact ht
        · exact ht
      · exact ht
    | full =>
      dsimp only
      cases setCalculate c.strings.projectors with
      | error x => rfl
      | ok pk =>
        refine evolveLoop_inv (fun t : Net (Ten (Fin bD) (Fin pD) 𝕜) × ℕ => t.1.chi = s.net.chi) (fun _ => True)
          (fun t b _ ht => ?_) e.steps s.bonds (fun _ _ => trivial) (s.net, s.moves) rfl
        unfold Full.fullBondStep
        split
        · exact ht
        · exact ht
        · dsimp only
          split
          · exact ht
          · rename_i hr
            exact (runDrawn_chi _ _ _ _ _ _ _ hr).trans ht

/-- The boundary dimension after a call. -/
theorem exec_chi (hx : 0 < nx) (hy : 0 < ny) (M : Machine F bD 𝕜) (s : State bD pD 𝕜) (h : Sound nx ny s) (c : Config F) (e : Evolution bD pD 𝕜) :
    (exec M s (.evolve c e)).1.net.chi = s.net.chi ∧
      (0 < c.sweeps → (exec M s (.evolve c e)).2 = none → Capped s.net.chi (exec M s (.evolve c e)).1.net) := by
  have key : ∀ s : State bD pD 𝕜, Sound nx ny s → s.initialized = true → (exec M s (.evolve c e)).1.net.chi = s.net.chi ∧
      (0 < c.sweeps → (exec M s (.evolve c e)).2 = none → Capped s.net.chi (exec M s (.evolve c e)).1.net) := by
    intro s hs hi
    rw [exec_evolve M s c e hi]
    obtain ⟨r1, -⟩ := renormalize_sound hx hy M c e s hs
    obtain ⟨q1, -⟩ := renormalize_cap hx hy M c e s hs
    rcases hr : Set.renormalize (comp M c e) c.strings s with ⟨s1, x⟩
    rw [hr] at r1 q1
    cases x with
    | some x => exact ⟨q1, fun _ h => by cases h⟩
    | none =>
      have hsd := (evolveFn_sound hx hy M c e s1 r1).1
      have hch := evolveFn_chi M c e s1
      show (Set.andThen (Set.evolveFn (comp M c e) c.strings s1) _).1.net.chi = _ ∧
        (0 < c.sweeps → (Set.andThen (Set.evolveFn (comp M c e) c.strings s1) _).2 = none →
          Capped s.net.chi (Set.andThen (Set.evolveFn (comp M c e) c.strings s1) _).1.net)
      rcases hr2 : Set.evolveFn (comp M c e) c.strings s1 with ⟨s2, x⟩
      rw [hr2] at hch hsd
      cases x with
      | some x => exact ⟨hch.trans q1, fun _ h => by cases h⟩
      | none =>
        have := renormalize_cap hx hy M c e s2 hsd
        rw [hch.trans q1] at this
        exact this
  cases hi : s.initialized with
  | true => exact key s h hi
  | false =>
    rw [exec_evolve_init M s c e hi]
    exact key _ (initSites_sound hx hy e.start s h) rfl

end Session

end AceTN
