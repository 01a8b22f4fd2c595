import Verif.Lemmas.TrialCost
import Verif.Lemmas.SolveBest
import Verif.Lemmas.SolveRegularised

/-!
# C91: The full update approximates the state of a patch after the gate

With freshly initialised boundary tensors, and after any sequence of moves without truncation, the norm tensor of a bond consists
of the overlaps of states of a finite patch that differ in the two tensors of the bond, and the cost that the alternating solver
minimises is the squared distance of such a state from the state of the patch after the gate.
-/

set_option autoImplicit false

namespace AceTN

namespace Spec

/-- The norm tensors that the full update builds at all bonds of the cell from `net` are, up to a positive factor, the overlaps of
states of the patches `G r`, where `r` is the rectangle made of the bond. -/
def PatchNorms {𝕜 : Type} [RCLike 𝕜] {dB pD : ℕ} (nx ny : ℕ) (A : Site → ATensor (Fin dB) (Fin pD) 𝕜)
    (net : Net (Ten (Fin dB) (Fin pD) 𝕜)) (G : Rect → Rect) : Prop :=
  ∀ s, InCell nx ny s → ∀ (K : Fin 4) (N : Type) [Fintype N] (q1 q2 : Fin dB → Fin dB → Fin dB → N → 𝕜),
    ∃ n, Full.numNorm net ⟨s, neighbour nx ny s K.val, K.val⟩ q1 q2 = .ok n ∧ ∃ c : ℝ, 0 < c ∧
      ∀ (Q : Type) [Fintype Q] (t1 t2 t1' t2' : N → Fin dB → Q → 𝕜) (b1 b2 k1 k2 : Q),
        ∑ y, ∑ x, ∑ Y, ∑ X, n y x Y X * (∑ b, t1 y b k1 * t2 x b k2) * star (∑ b, t1' Y b b1 * t2' X b b2) =
          c * ∑ e, trialState (unfoldCell nx ny A) (G (bondRect (atLattice s) K)) (atLattice s) K q1 q2 t1 t2 e k1 k2 *
            star (trialState (unfoldCell nx ny A) (G (bondRect (atLattice s) K)) (atLattice s) K q1 q2 t1' t2' e b1 b2)

end Spec

open Spec Full Matrix ComplexOrder

section frames

variable {𝕜 : Type} [RCLike 𝕜] {B Q N : Type} [Fintype B] [Fintype N]

omit [RCLike 𝕜] [Fintype B] [Fintype N] in
theorem latticeFrame_eq (K : Fin 4) (T : ATensor B Q 𝕜) : latticeFrame K T = bondPermute (4 - (K.val : ℤ)) T := by
  match K with
  | 0 | 1 | 2 | 3 => rfl

omit [Fintype B] in
theorem recompose_join (q1 q2 : B → B → B → N → 𝕜) (t1 t2 : N → B → Q → 𝕜) :
    recompose q1 t1 q2 t2 = (joinFirst q1 t1, joinSecond q2 t2) := rfl

theorem trial_elim_inl {P₀ : Type} (U : ℤ × ℤ → ATensor B P₀ 𝕜) (p : ℤ × ℤ) (K : Fin 4) (R : Rect) (e : PatchLegs B P₀ R.w R.h)
    (q1 q2 : B → B → B → N → 𝕜) (t1 t2 t1' t2' : N → B → Q → 𝕜) (k k' : Q) :
    trialAmp U p (p + dir K)
      (bondPermute (4 - (K.val : ℤ)) (recompose q1 (fun y b => Sum.elim (t1 y b) (t1' y b)) q2 (fun y b => Sum.elim (t2 y b) (t2' y b))).1)
      (bondPermute (4 - (K.val : ℤ)) (recompose q1 (fun y b => Sum.elim (t1 y b) (t1' y b)) q2 (fun y b => Sum.elim (t2 y b) (t2' y b))).2)
      R e (.inl k) (.inl k') =
    trialAmp U p (p + dir K) (latticeFrame K (joinFirst q1 t1)) (latticeFrame K (joinSecond q2 t2)) R e k k' := by
  rw [latticeFrame_eq, latticeFrame_eq]
  exact trialAmp_slice _ _ _ _ _ _ _ _ _ _ _ (fun _ _ _ _ => rfl) (fun _ _ _ _ => rfl) _ _

theorem trial_elim_inr {P₀ : Type} (U : ℤ × ℤ → ATensor B P₀ 𝕜) (p : ℤ × ℤ) (K : Fin 4) (R : Rect) (e : PatchLegs B P₀ R.w R.h)
    (q1 q2 : B → B → B → N → 𝕜) (t1 t2 t1' t2' : N → B → Q → 𝕜) (k k' : Q) :
    trialAmp U p (p + dir K)
      (bondPermute (4 - (K.val : ℤ)) (recompose q1 (fun y b => Sum.elim (t1 y b) (t1' y b)) q2 (fun y b => Sum.elim (t2 y b) (t2' y b))).1)
      (bondPermute (4 - (K.val : ℤ)) (recompose q1 (fun y b => Sum.elim (t1 y b) (t1' y b)) q2 (fun y b => Sum.elim (t2 y b) (t2' y b))).2)
      R e (.inr k) (.inr k') =
    trialAmp U p (p + dir K) (latticeFrame K (joinFirst q1 t1')) (latticeFrame K (joinSecond q2 t2')) R e k k' := by
  rw [latticeFrame_eq, latticeFrame_eq]
  exact trialAmp_slice _ _ _ _ _ _ _ _ _ _ _ (fun _ _ _ _ => rfl) (fun _ _ _ _ => rfl) _ _

end frames

section patch

variable {𝕜 : Type} [RCLike 𝕜] {dB pD nx ny chi : ℕ} {A : Site → ATensor (Fin dB) (Fin pD) 𝕜}

theorem patchNorms_run (hx : 0 < nx) (hy : 0 < ny) (hA : ∀ s, InCell nx ny s → A s ≠ 0) (st : ProjSettings 𝕜)
    (pk : ProjKind) (hr : CutsResolve (Fin dB) st pk) (ω : ℕ → Draws (Fin dB) 𝕜) (ms : List Move) (t : ℕ) (hm : ∀ m ∈ ms, InRange nx ny m)
    (hl : LooseRun st pk ω t ms (freshNet nx ny chi A)) :
    ∃ net, runDrawn st pk ω t ms (freshNet nx ny chi A) = .ok net ∧ net.A = (freshNet nx ny chi A).A ∧
      PatchNorms nx ny A net (growAll nx ny ms) := by
  obtain ⟨net, h1, h2, h3⟩ := norm_patch hx hy A hA st pk hr ω ms t hm hl
  refine ⟨net, h1, h2, fun s hs K N _ q1 q2 => ?_⟩
  obtain ⟨n, hn, c, hc, e⟩ := h3 s hs K N q1 q2
  refine ⟨n, hn, c, hc, fun Q _ t1 t2 t1' t2' b1 b2 k1 k2 => ?_⟩
  have h := e (Q ⊕ Q) (fun y b => Sum.elim (t1 y b) (t1' y b)) (fun y b => Sum.elim (t2 y b) (t2' y b)) (.inr b1) (.inr b2)
    (.inl k1) (.inl k2)
  simp only [trial_elim_inl, trial_elim_inr] at h
  exact h

/-- **C91 (moves).** After any sequence of moves without truncation the norm tensors are overlaps of states of the patches grown by
the absorbed lines; with no moves at all, those of freshly initialised boundary tensors. -/
theorem C91_moves (hx : 0 < nx) (hy : 0 < ny) (hA : ∀ s, InCell nx ny s → A s ≠ 0) (st : ProjSettings 𝕜) (pk : ProjKind)
    (hk : pk = .half ∨ st.fullRank = true) (hcut : 0 ≤ st.cutoff) (hcut1 : st.cutoff < 1) (ω : ℕ → Draws (Fin dB) 𝕜) (ms : List Move)
    (t : ℕ) (hm : ∀ m ∈ ms, InRange nx ny m) (hl : LooseRun st pk ω t ms (freshNet nx ny chi A)) :
    ∃ net, runDrawn st pk ω t ms (freshNet nx ny chi A) = .ok net ∧ net.A = (freshNet nx ny chi A).A ∧
      PatchNorms nx ny A net (growAll nx ny ms) := by
  refine patchNorms_run hx hy hA st pk ?_ ω ms t hm hl
  cases pk with
  | half => exact (cutsGood_half st hcut hcut1).resolve
  | full => exact (cutsGood_full st (hk.resolve_left (by simp)) hcut hcut1).resolve

/-- **C91 (sweeps).** After `n` sweeps without truncation the patch contains all sites up to distance `n`. -/
theorem C91_sweeps (hx : 0 < nx) (hy : 0 < ny) (hA : ∀ s, InCell nx ny s → A s ≠ 0) (st : ProjSettings 𝕜) (pk : ProjKind)
    (hk : pk = .half ∨ st.fullRank = true) (hcut : 0 ≤ st.cutoff) (hcut1 : st.cutoff < 1) (ω : ℕ → Draws (Fin dB) 𝕜) (n t : ℕ)
    (hl : LooseRun st pk ω t (List.replicate n (sweepMoves nx ny)).flatten (freshNet nx ny chi A)) :
    ∃ net G, ctmrgDrawn st pk ω t n (freshNet nx ny chi A) = .ok net ∧ net.A = (freshNet nx ny chi A).A ∧ PatchNorms nx ny A net G ∧
      ∀ (r : Rect) (p q : ℤ × ℤ), r.Has p → |q.1 - p.1| ≤ n → |q.2 - p.2| ≤ n → (G r).Has q := by
  obtain ⟨net, h1, h2, h3⟩ := C91_moves hx hy hA st pk hk hcut hcut1 ω _ t (sweeps_range hx hy n) hl
  exact ⟨net, _, (ctmrgDrawn_eq st pk ω n t _).trans h1, h2, h3, fun r p q hp h h' => growAll_reach hx hy n r p q hp h h'⟩

/-- **C91 (real tensors).** For real tensors with all kinds of projectors. -/
theorem C91_real {A : Site → ATensor (Fin dB) (Fin pD) ℝ} (hx : 0 < nx) (hy : 0 < ny) (hA : ∀ s, InCell nx ny s → A s ≠ 0)
    (st : ProjSettings ℝ) (pk : ProjKind) (hcut : 0 ≤ st.cutoff) (hcut1 : st.cutoff < 1) (ω : ℕ → Draws (Fin dB) ℝ) (ms : List Move)
    (t : ℕ) (hm : ∀ m ∈ ms, InRange nx ny m) (hl : LooseRun st pk ω t ms (freshNet nx ny chi A)) :
    ∃ net, runDrawn st pk ω t ms (freshNet nx ny chi A) = .ok net ∧ net.A = (freshNet nx ny chi A).A ∧
      PatchNorms nx ny A net (growAll nx ny ms) := by
  refine patchNorms_run hx hy hA st pk ?_ ω ms t hm hl
  cases pk with
  | half => exact (cutsGood_half st hcut hcut1).resolve
  | full => exact (cutsGood_full_real st hcut hcut1).resolve

/-- **C91 (positivity).** Such norm tensors are Hermitian and positive semidefinite. -/
theorem C91_posSemidef [NeZero dB] {net : Net (Ten (Fin dB) (Fin pD) 𝕜)} {G : Rect → Rect} (h : PatchNorms nx ny A net G) (s : Site)
    (hs : InCell nx ny s) (K : Fin 4) (N : Type) [Fintype N] [DecidableEq N] (q1 q2 : Fin dB → Fin dB → Fin dB → N → 𝕜) :
    ∃ n, numNorm net ⟨s, neighbour nx ny s K.val, K.val⟩ q1 q2 = .ok n ∧ (normMat n).PosSemidef := by
  obtain ⟨n, hn, c, hc, e⟩ := h s hs K N q1 q2
  refine ⟨n, hn, ?_⟩
  let t : N → Fin dB → N → 𝕜 := fun y b k => if b = 0 ∧ y = k then 1 else 0
  have ht : ∀ y x k k', ∑ b, t y b k * t x b k' = if y = k ∧ x = k' then 1 else 0 := by
    intro y x k k'
    rw [Finset.sum_eq_single 0]
    · by_cases h1 : y = k <;> by_cases h2 : x = k' <;> simp [t, h1, h2]
    · intro b _ hb
      simp [t, hb]
    · simp
  have e' : ∀ b1 b2 k1 k2, n k1 k2 b1 b2 = c * ∑ e,
      trialState (unfoldCell nx ny A) (G (bondRect (atLattice s) K)) (atLattice s) K q1 q2 t t e k1 k2 *
        star (trialState (unfoldCell nx ny A) (G (bondRect (atLattice s) K)) (atLattice s) K q1 q2 t t e b1 b2) := by
    intro b1 b2 k1 k2
    rw [← e N t t t t b1 b2 k1 k2]
    simp only [ht]
    rw [Finset.sum_eq_single k1, Finset.sum_eq_single k2, Finset.sum_eq_single b1, Finset.sum_eq_single b2]
    · simp
    all_goals first | (intro z _ hz; simp [hz]) | simp
  have h2 := (gram_posSemidef c hc.le fun e (k : N × N) =>
    trialState (unfoldCell nx ny A) (G (bondRect (atLattice s) K)) (atLattice s) K q1 q2 t t e k.1 k.2).transpose
  have key : ∀ M : Matrix (N × N) (N × N) 𝕜, M.PosSemidef → (∀ a b, normMat n a b = M a b) → (normMat n).PosSemidef := by
    intro M hM hab
    rw [show normMat n = M from Matrix.ext hab]
    exact hM
  exact key _ h2 fun a b => e' b.1 b.2 a.1 a.2

omit [RCLike 𝕜] in
theorem latticeFrame_permute {B Q : Type} (K : Fin 4) (T : ATensor B Q 𝕜) : latticeFrame K (bondPermute K.val T) = T := by
  rw [latticeFrame_eq, bondPermute_add, bondPermute_mod _ 0 (by omega), bondPermute_zero]

/-- The state of the patch is the trial state of the decomposed tensors. -/
theorem trialState_decompose (la : Lapack 𝕜) (hx : 0 < nx) (hy : 0 < ny) (s : Site) (hs : InCell nx ny s) (K : Fin 4) (R : Rect) :
    trialState (unfoldCell nx ny A) R (atLattice s) K
      (decompose la (bondPermute K.val (A s)) (bondPermute K.val (A (neighbour nx ny s K.val)))).a1q
      (decompose la (bondPermute K.val (A s)) (bondPermute K.val (A (neighbour nx ny s K.val)))).a2q
      (decompose la (bondPermute K.val (A s)) (bondPermute K.val (A (neighbour nx ny s K.val)))).a1r
      (decompose la (bondPermute K.val (A s)) (bondPermute K.val (A (neighbour nx ny s K.val)))).a2r =
    trialAmp (unfoldCell nx ny A) (atLattice s) (atLattice s + dir K) (unfoldCell nx ny A (atLattice s))
      (unfoldCell nx ny A (atLattice s + dir K)) R := by
  have h := C30_recompose la (bondPermute K.val (A s)) (bondPermute K.val (A (neighbour nx ny s K.val)))
  rw [recompose_join] at h
  have h1 := congrArg Prod.fst h
  have h2 := congrArg Prod.snd h
  dsimp only at h1 h2
  have e1 : cellSite nx ny (atLattice s) = s := cellSite_self _ _ s hs
  have e2 : cellSite nx ny (atLattice s + dir K) = neighbour nx ny s K.val := by
    rw [← neighbour_cellSite _ _ hx hy, e1]
  unfold trialState
  rw [h1, h2, latticeFrame_permute, latticeFrame_permute]
  unfold unfoldCell
  rw [e1, e2]

/-- **C91 (cost).** The cost that the alternating solver minimises at a bond is, up to a positive factor and a constant, the squared
distance of the state of the patch with the trial tensors from the state of the patch after the gate. -/
theorem C91_cost (hx : 0 < nx) (hy : 0 < ny) {net : Net (Ten (Fin dB) (Fin pD) 𝕜)} {G : Rect → Rect} (h : PatchNorms nx ny A net G)
    (la : Lapack 𝕜) (s : Site) (hs : InCell nx ny s) (K : Fin 4) :
    let d := decompose la (bondPermute K.val (A s)) (bondPermute K.val (A (neighbour nx ny s K.val)))
    let R := G (bondRect (atLattice s) K)
    ∃ n, numNorm net ⟨s, neighbour nx ny s K.val, K.val⟩ d.a1q d.a2q = .ok n ∧ ∃ c : ℝ, 0 < c ∧ ∀ t1 t2 gate,
      cost t1 t2 (gateReduced d.a1r d.a2r gate) n =
        c * (stateDist (trialState (unfoldCell nx ny A) R (atLattice s) K d.a1q d.a2q t1 t2)
          (gatedState (unfoldCell nx ny A) R (atLattice s) K gate) - stateDist (gatedState (unfoldCell nx ny A) R (atLattice s) K gate) 0) := by
  intro d R
  obtain ⟨n, hn, c, hc, e⟩ := h s hs K _ d.a1q d.a2q
  refine ⟨n, hn, c, hc, fun t1 t2 gate => ?_⟩
  rw [cost_state n c (fun t1 t2 => trialState (unfoldCell nx ny A) R (atLattice s) K d.a1q d.a2q t1 t2) (fun _ _ _ _ _ _ _ _ => e _ _ _ _ _ _ _ _ _)]
  have hd := trialState_decompose (A := A) la hx hy s hs K R
  unfold stateDist gatedState gatedAmp
  simp only [← hd, Pi.zero_apply, sub_zero]
  rfl

/-- A state of a patch as a vector. -/
noncomputable def stateVec {w h : ℕ} (ψ : PatchLegs (Fin dB) (Fin pD) w h → Fin pD → Fin pD → 𝕜) :
    EuclideanSpace 𝕜 (PatchLegs (Fin dB) (Fin pD) w h × Fin pD × Fin pD) :=
  WithLp.toLp 2 fun i => ψ i.1 i.2.1 i.2.2

theorem stateDist_vec {w h : ℕ} (ψ φ : PatchLegs (Fin dB) (Fin pD) w h → Fin pD → Fin pD → 𝕜) :
    stateDist ψ φ = ‖stateVec ψ - stateVec φ‖ ^ 2 := by
  rw [EuclideanSpace.norm_sq_eq, Fintype.sum_prod_type]
  unfold stateDist
  refine Finset.sum_congr rfl fun e _ => ?_
  rw [Fintype.sum_prod_type]
  rfl

theorem stateOverlap_vec {w h : ℕ} (ψ φ : PatchLegs (Fin dB) (Fin pD) w h → Fin pD → Fin pD → 𝕜) :
    stateOverlap ψ φ = inner 𝕜 (stateVec ψ) (stateVec φ) := by
  rw [PiLp.inner_apply, Fintype.sum_prod_type]
  unfold stateOverlap
  refine Finset.sum_congr rfl fun e _ => ?_
  rw [Fintype.sum_prod_type]
  rfl

section update

variable {F : Type} [NeZero dB] [NeZero pD]

/-- What `update` computes for a bond, without one-site gates. -/
theorem numUpdate_none (la : Lapack 𝕜) (fo : Als.FloatOps F) (rep : ℝ → F) (cfg : Settings F)
    (gates : Bond → Fin pD → Fin pD → Fin pD → Fin pD → 𝕜) (net : Net (Ten (Fin dB) (Fin pD) 𝕜)) (hnA : ∀ s, net.A s = .site (A s))
    (b : Bond) (A1 A2 : ATensor (Fin dB) (Fin pD) 𝕜) (n : _) 
    (hn : numNorm net b (decompose la (bondPermute b.k (A b.s1)) (bondPermute b.k (A b.s2))).a1q
      (decompose la (bondPermute b.k (A b.s1)) (bondPermute b.k (A b.s2))).a2q = .ok n)
    (h : numUpdate la fo rep cfg none gates net b = some (.ok (A1, A2))) :
    ∃ f, updateReduced la fo rep cfg bD_le (decompose la (bondPermute b.k (A b.s1)) (bondPermute b.k (A b.s2))).a1r
        (decompose la (bondPermute b.k (A b.s1)) (bondPermute b.k (A b.s2))).a2r n (gates b) = some (.ok f) ∧
      A1 = bondPermute (4 - (b.k : ℤ)) (normalise (joinFirst (decompose la (bondPermute b.k (A b.s1)) (bondPermute b.k (A b.s2))).a1q f.1)) ∧
      A2 = bondPermute (4 - (b.k : ℤ)) (normalise (joinSecond (decompose la (bondPermute b.k (A b.s1)) (bondPermute b.k (A b.s2))).a2q f.2)) := by
  unfold numUpdate at h
  rw [hnA, hnA] at h
  dsimp only at h
  unfold numTensorUpdate at h
  dsimp only at h
  rw [hn] at h
  dsimp only at h
  generalize updateReduced la fo rep cfg bD_le (decompose la (bondPermute b.k (A b.s1)) (bondPermute b.k (A b.s2))).a1r
    (decompose la (bondPermute b.k (A b.s1)) (bondPermute b.k (A b.s2))).a2r n (gates b) = r at h ⊢
  match r, h with
  | some (.ok f), h =>
    have h := Except.ok.inj (Option.some.inj h)
    exact ⟨f, rfl, (congrArg Prod.fst h).symm, (congrArg Prod.snd h).symm⟩

omit [NeZero dB] [NeZero pD] in
theorem normA_zero (a : ATensor (Fin dB) (Fin pD) 𝕜) (h : normA a = 0) : a = 0 :=
  by_contra fun h0 => (normA_pos a h0).ne' h

omit [NeZero dB] [NeZero pD] in
/-- The state of the patch with the updated tensors is a multiple of the trial state that the solver found. -/
theorem updated_state {N : Type} [Fintype N] (U : ℤ × ℤ → ATensor (Fin dB) (Fin pD) 𝕜) (R : Rect) (p : ℤ × ℤ) (K : Fin 4)
    (q1 q2 : Fin dB → Fin dB → Fin dB → N → 𝕜) (n : N → N → N → N → 𝕜) (c : ℝ) (hc : 0 < c)
    (hO : ∀ (t1 t2 t1' t2' : N → Fin dB → Fin pD → 𝕜) b1 b2 k1 k2, attach2 n t1 t2 t1' t2' b1 b2 k1 k2 =
      c * ∑ e, trialState U R p K q1 q2 t1 t2 e k1 k2 * star (trialState U R p K q1 q2 t1' t2' e b1 b2))
    (f g : (N → Fin dB → Fin pD → 𝕜) × (N → Fin dB → Fin pD → 𝕜)) (κ : ℝ) (hκ : 0 < κ)
    (hf : ∀ y x k k', pairProd f.1 f.2 y x k k' = (κ : 𝕜) * pairProd g.1 g.2 y x k k') :
    ∃ μ : ℝ, 0 ≤ μ ∧ (trialState U R p K q1 q2 g.1 g.2 ≠ 0 → 0 < μ) ∧
      trialAmp U p (p + dir K) (latticeFrame K (normalise (joinFirst q1 f.1))) (latticeFrame K (normalise (joinSecond q2 f.2))) R =
        (μ : 𝕜) • trialState U R p K q1 q2 g.1 g.2 := by
  have hsp := fun (z : 𝕜) t1 t2 t1' t2' h => state_prod n c hc (trialState U R p K q1 q2) hO z t1 t2 t1' t2' h
  set α := normA (joinFirst q1 f.1) with hα
  set β := normA (joinSecond q2 f.2) with hβ
  have hα0 : 0 ≤ α := Real.sqrt_nonneg _
  have hβ0 : 0 ≤ β := Real.sqrt_nonneg _
  have e1 : normalise (joinFirst q1 f.1) = joinFirst q1 fun x b k => f.1 x b k / (α : 𝕜) := by
    funext l u r d k
    unfold normalise joinFirst
    rw [Finset.sum_div]
    exact Finset.sum_congr rfl fun x _ => mul_div_assoc _ _ _
  have e2 : normalise (joinSecond q2 f.2) = joinSecond q2 fun x b k => f.2 x b k / (β : 𝕜) := by
    funext l u r d k
    unfold normalise joinSecond
    rw [Finset.sum_div]
    exact Finset.sum_congr rfl fun x _ => mul_div_assoc _ _ _
  have hfg : trialState U R p K q1 q2 f.1 f.2 = (κ : 𝕜) • trialState U R p K q1 q2 g.1 g.2 := by
    funext e k k'
    exact hsp κ f.1 f.2 g.1 g.2 hf e k k'
  have hz : ∀ t : N → Fin dB → Fin pD → 𝕜, trialState U R p K q1 q2 0 t = 0 ∧ trialState U R p K q1 q2 t 0 = 0 := by
    intro t
    constructor
    · funext e k k'
      refine (hsp 0 0 t 0 t (fun _ _ _ _ => ?_) e k k').trans (zero_mul _)
      simp [pairProd]
    · funext e k k'
      refine (hsp 0 t 0 t 0 (fun _ _ _ _ => ?_) e k k').trans (zero_mul _)
      simp [pairProd]
  refine ⟨κ / (α * β), div_nonneg hκ.le (mul_nonneg hα0 hβ0), fun hne => ?_, ?_⟩
  · have hne' : trialState U R p K q1 q2 f.1 f.2 ≠ 0 := by
      intro h0
      refine hne ?_
      funext e k k'
      have h1 := congrFun (congrFun (congrFun (hfg.symm.trans h0) e) k) k'
      exact (mul_eq_zero.1 h1).resolve_left (RCLike.ofReal_ne_zero.2 hκ.ne')
    refine div_pos hκ (mul_pos (lt_of_le_of_ne hα0 fun h => hne' ?_) (lt_of_le_of_ne hβ0 fun h => hne' ?_))
    · have h0 := normA_zero _ (hα.symm.trans h.symm)
      have : joinFirst q1 f.1 = joinFirst q1 0 := by
        rw [h0]
        funext l u r d k
        simp [joinFirst]
      rw [← (hz f.2).1]
      unfold trialState
      rw [this]
    · have h0 := normA_zero _ (hβ.symm.trans h.symm)
      have : joinSecond q2 f.2 = joinSecond q2 0 := by
        rw [h0]
        funext l u r d k
        simp [joinSecond]
      rw [← (hz f.1).2]
      unfold trialState
      rw [this]
  · rw [e1, e2]
    funext e k k'
    refine (hsp ((κ / (α * β) : ℝ) : 𝕜) _ _ g.1 g.2 (fun y x p q => ?_) e k k')
    have h1 := hf y x p q
    unfold pairProd at h1 ⊢
    have h2 : ∀ u, f.1 y u p / (α : 𝕜) * (f.2 x u q / (β : 𝕜)) = f.1 y u p * f.2 x u q / ((α : 𝕜) * (β : 𝕜)) := fun u => by
      rw [div_mul_div_comm]
    simp only [h2, ← Finset.sum_div, h1]
    push_cast
    ring

/-- **C91 (update).** Without regularisation of the solver the updated tensors of a bond give a positive multiple of the patch state of a pair of reduced tensors that is at least as near to the patch state after the gate
as all pairs with the second tensor that the solver starts from, and as all pairs with the same first tensor.  Nearness is the
squared distance of the patch states, plus `t` times the one of the two-site tensors, where `t` is the multiple of the identity that
the positive approximation adds; it is zero if the eigenvalues of the norm tensor are not below the cutoff. -/
theorem C91_update (hx : 0 < nx) (hy : 0 < ny) {net : Net (Ten (Fin dB) (Fin pD) 𝕜)} {G : Rect → Rect}
    (h : PatchNorms nx ny A net G) (hnA : ∀ s, net.A s = .site (A s)) (la : Lapack 𝕜) (fo : Als.FloatOps F) (rep : ℝ → F)
    (cfg : Settings F) (he : cfg.als_epsilon = 0) (hni : 0 < cfg.als_niter) (hcut : 0 < cfg.positive_approx_cutoff)
    (hatol : cfg.use_gauge_fix = true → cfg.gauge_fix_atol < Real.sqrt (cfg.positive_approx_cutoff * nD (Fin dB) (Fin pD)))
    (gates : Bond → Fin pD → Fin pD → Fin pD → Fin pD → 𝕜) (s : Site) (hs : InCell nx ny s) (K : Fin 4)
    (A1 A2 : ATensor (Fin dB) (Fin pD) 𝕜)
    (hu : numUpdate la fo rep cfg none gates net ⟨s, neighbour nx ny s K.val, K.val⟩ = some (.ok (A1, A2))) :
    let d := decompose la (bondPermute K.val (A s)) (bondPermute K.val (A (neighbour nx ny s K.val)))
    let R := G (bondRect (atLattice s) K)
    let ψ := trialState (unfoldCell nx ny A) R (atLattice s) K d.a1q d.a2q
    let gate := gates ⟨s, neighbour nx ny s K.val, K.val⟩
    let φ := gatedState (unfoldCell nx ny A) R (atLattice s) K gate
    let g := gateReduced d.a1r d.a2r gate
    ∃ n nz, numNorm net ⟨s, neighbour nx ny s K.val, K.val⟩ d.a1q d.a2q = .ok n ∧
      positiveApprox la 2 cfg.positive_approx_cutoff n = some nz ∧
      ∃ c t : ℝ, 0 < c ∧ 0 ≤ t ∧ (AtLeast (normMat n) cfg.positive_approx_cutoff → t = 0) ∧ ∃ p1 p2,
        (∃ μ : ℝ, 0 ≤ μ ∧ (ψ p1 p2 ≠ 0 → 0 < μ) ∧
          trialAmp (unfoldCell nx ny A) (atLattice s) (atLattice s + dir K) A1 A2 R = (μ : 𝕜) • ψ p1 p2) ∧
        (∀ r1, c * stateDist (ψ p1 p2) φ + t * normSq4 (pairProd p1 p2 - g) ≤
          c * stateDist (ψ r1 (startPair la cfg bD_le nz g).2) φ + t * normSq4 (pairProd r1 (startPair la cfg bD_le nz g).2 - g)) ∧
        ∀ r2, c * stateDist (ψ p1 p2) φ + t * normSq4 (pairProd p1 p2 - g) ≤
          c * stateDist (ψ p1 r2) φ + t * normSq4 (pairProd p1 r2 - g) := by
  intro d R ψ gate φ g
  obtain ⟨n', hn', hpos⟩ := C91_posSemidef h s hs K _ d.a1q d.a2q
  obtain ⟨n, hn, c, hc, e⟩ := h s hs K _ d.a1q d.a2q
  obtain rfl : n = n' := Except.ok.inj (hn.symm.trans hn')
  obtain ⟨n', hn'', c', hc', ecost⟩ := C91_cost hx hy h la s hs K
  obtain rfl : n = n' := Except.ok.inj (hn.symm.trans hn'')
  obtain ⟨f, hf, hA1, hA2⟩ := numUpdate_none la fo rep cfg gates net hnA ⟨s, neighbour nx ny s K.val, K.val⟩ A1 A2 n hn hu
  obtain ⟨nz, hnz, p, ⟨κ, hκ, hp⟩, b1, b2⟩ := updateReduced_best la fo rep cfg bD_le he hni hcut
    (by rw [Fintype.card_fin]; exact hatol) _ _ n _ f hf
  obtain ⟨t, ht, hsq, -, -, ht0⟩ := C33_result la _ hcut.le 0 n nz hnz
  rw [la.herm_of _ hpos.1] at hsq ht0
  have hsq' : squareNorm nz = fun y x Y X => n y x Y X + if y = Y ∧ x = X then (t : 𝕜) else 0 := by
    funext y x Y X
    have := congrFun (congrFun hsq (y, x)) (Y, X)
    simp only [normMat, of_apply, Matrix.add_apply, Matrix.smul_apply, one_apply, Prod.mk.injEq, smul_eq_mul, mul_ite, mul_one, mul_zero] at this
    exact this
  have key : ∀ r1 r2, cost r1 r2 g (squareNorm nz) = c' * stateDist (ψ r1 r2) φ + t * normSq4 (pairProd r1 r2 - g) -
      (c' * stateDist φ 0 + t * normSq4 g) := by
    intro r1 r2
    rw [hsq', cost_shift, ecost r1 r2 gate]
    ring
  refine ⟨n, nz, hn, hnz, c', t, hc', ht, ht0, p.1, p.2, ?_, fun r1 => ?_, fun r2 => ?_⟩
  · obtain ⟨μ, h1, h2, h3⟩ := updated_state (unfoldCell nx ny A) R (atLattice s) K d.a1q d.a2q n c hc
      (fun _ _ _ _ _ _ _ _ => e _ _ _ _ _ _ _ _ _) f p κ hκ hp
    refine ⟨μ, h1, h2, ?_⟩
    rw [hA1, hA2, ← h3, latticeFrame_eq, latticeFrame_eq]
  · have := b1 r1
    rw [key, key] at this
    linarith
  · have := b2 r2
    rw [key, key] at this
    linarith

/-- **C91 (regularised update).** With the Cholesky method and any strength `als_epsilon` of the regularisation, the second tensor of the pair is the best
one for the first, if `als_epsilon` times the largest entry of the matrix that is inverted times the squared size of the second
tensor (in the gauge, if it is fixed) is added to the distance. -/
theorem C91_regularised (hx : 0 < nx) (hy : 0 < ny) {net : Net (Ten (Fin dB) (Fin pD) 𝕜)} {G : Rect → Rect}
    (h : PatchNorms nx ny A net G) (hnA : ∀ s, net.A s = .site (A s)) (la : Lapack 𝕜) (fo : Als.FloatOps F) (rep : ℝ → F)
    (cfg : Settings F) (he : 0 ≤ cfg.als_epsilon) (hm : cfg.als_method = .cholesky) (hni : 0 < cfg.als_niter) (hcut : 0 < cfg.positive_approx_cutoff)
    (hatol : cfg.use_gauge_fix = true → cfg.gauge_fix_atol < Real.sqrt (cfg.positive_approx_cutoff * nD (Fin dB) (Fin pD)))
    (gates : Bond → Fin pD → Fin pD → Fin pD → Fin pD → 𝕜) (s : Site) (hs : InCell nx ny s) (K : Fin 4)
    (A1 A2 : ATensor (Fin dB) (Fin pD) 𝕜)
    (hu : numUpdate la fo rep cfg none gates net ⟨s, neighbour nx ny s K.val, K.val⟩ = some (.ok (A1, A2))) :
    let d := decompose la (bondPermute K.val (A s)) (bondPermute K.val (A (neighbour nx ny s K.val)))
    let R := G (bondRect (atLattice s) K)
    let ψ := trialState (unfoldCell nx ny A) R (atLattice s) K d.a1q d.a2q
    let gate := gates ⟨s, neighbour nx ny s K.val, K.val⟩
    let φ := gatedState (unfoldCell nx ny A) R (atLattice s) K gate
    let g := gateReduced d.a1r d.a2r gate
    ∃ n nz, numNorm net ⟨s, neighbour nx ny s K.val, K.val⟩ d.a1q d.a2q = .ok n ∧
      positiveApprox la 2 cfg.positive_approx_cutoff n = some nz ∧
      ∃ c t : ℝ, 0 < c ∧ 0 ≤ t ∧ (AtLeast (normMat n) cfg.positive_approx_cutoff → t = 0) ∧ ∃ p1 p2,
        (∃ μ : ℝ, 0 ≤ μ ∧ (ψ p1 p2 ≠ 0 → 0 < μ) ∧
          trialAmp (unfoldCell nx ny A) (atLattice s) (atLattice s + dir K) A1 A2 R = (μ : 𝕜) • ψ p1 p2) ∧
        ∀ r2, c * stateDist (ψ p1 p2) φ + t * normSq4 (pairProd p1 p2 - g) +
            cfg.als_epsilon * regStrength la cfg nz g p1 * regSize la cfg nz p2 ≤
          c * stateDist (ψ p1 r2) φ + t * normSq4 (pairProd p1 r2 - g) +
            cfg.als_epsilon * regStrength la cfg nz g p1 * regSize la cfg nz r2 := by
  intro d R ψ gate φ g
  obtain ⟨n', hn', hpos⟩ := C91_posSemidef h s hs K _ d.a1q d.a2q
  obtain ⟨n, hn, c, hc, e⟩ := h s hs K _ d.a1q d.a2q
  obtain rfl : n = n' := Except.ok.inj (hn.symm.trans hn')
  obtain ⟨n', hn'', c', hc', ecost⟩ := C91_cost hx hy h la s hs K
  obtain rfl : n = n' := Except.ok.inj (hn.symm.trans hn'')
  obtain ⟨f, hf, hA1, hA2⟩ := numUpdate_none la fo rep cfg gates net hnA ⟨s, neighbour nx ny s K.val, K.val⟩ A1 A2 n hn hu
  obtain ⟨nz, hnz, p, ⟨κ, hκ, hp⟩, b2⟩ := updateReduced_regularised la fo rep cfg bD_le he hm hni hcut
    (by rw [Fintype.card_fin]; exact hatol) _ _ n _ f hf
  obtain ⟨t, ht, hsq, -, -, ht0⟩ := C33_result la _ hcut.le 0 n nz hnz
  rw [la.herm_of _ hpos.1] at hsq ht0
  have hsq' : squareNorm nz = fun y x Y X => n y x Y X + if y = Y ∧ x = X then (t : 𝕜) else 0 := by
    funext y x Y X
    have := congrFun (congrFun hsq (y, x)) (Y, X)
    simp only [normMat, of_apply, Matrix.add_apply, Matrix.smul_apply, one_apply, Prod.mk.injEq, smul_eq_mul, mul_ite, mul_one, mul_zero] at this
    exact this
  have key : ∀ r1 r2, cost r1 r2 g (squareNorm nz) = c' * stateDist (ψ r1 r2) φ + t * normSq4 (pairProd r1 r2 - g) -
      (c' * stateDist φ 0 + t * normSq4 g) := by
    intro r1 r2
    rw [hsq', cost_shift, ecost r1 r2 gate]
    ring
  refine ⟨n, nz, hn, hnz, c', t, hc', ht, ht0, p.1, p.2, ?_, fun r2 => ?_⟩
  · obtain ⟨μ, h1, h2, h3⟩ := updated_state (unfoldCell nx ny A) R (atLattice s) K d.a1q d.a2q n c hc
      (fun _ _ _ _ _ _ _ _ => e _ _ _ _ _ _ _ _ _) f p κ hκ hp
    refine ⟨μ, h1, h2, ?_⟩
    rw [hA1, hA2, ← h3, latticeFrame_eq, latticeFrame_eq]
  · have := b2 r2
    rw [key, key] at this
    linarith

/-- **C91 (overlap).** If moreover the eigenvalues of the norm tensor are not below the cutoff, the normalised overlap of the patch
state with the updated tensors and the patch state after the gate is at least the one of every trial state with the second tensor
that the solver starts from. -/
theorem C91_overlap (hx : 0 < nx) (hy : 0 < ny) {net : Net (Ten (Fin dB) (Fin pD) 𝕜)} {G : Rect → Rect}
    (h : PatchNorms nx ny A net G) (hnA : ∀ s, net.A s = .site (A s)) (la : Lapack 𝕜) (fo : Als.FloatOps F) (rep : ℝ → F)
    (cfg : Settings F) (he : cfg.als_epsilon = 0) (hni : 0 < cfg.als_niter) (hcut : 0 < cfg.positive_approx_cutoff)
    (hatol : cfg.use_gauge_fix = true → cfg.gauge_fix_atol < Real.sqrt (cfg.positive_approx_cutoff * nD (Fin dB) (Fin pD)))
    (gates : Bond → Fin pD → Fin pD → Fin pD → Fin pD → 𝕜) (s : Site) (hs : InCell nx ny s) (K : Fin 4)
    (A1 A2 : ATensor (Fin dB) (Fin pD) 𝕜)
    (hu : numUpdate la fo rep cfg none gates net ⟨s, neighbour nx ny s K.val, K.val⟩ = some (.ok (A1, A2))) :
    let d := decompose la (bondPermute K.val (A s)) (bondPermute K.val (A (neighbour nx ny s K.val)))
    let R := G (bondRect (atLattice s) K)
    let gate := gates ⟨s, neighbour nx ny s K.val, K.val⟩
    let φ := gatedState (unfoldCell nx ny A) R (atLattice s) K gate
    let ψ' := trialAmp (unfoldCell nx ny A) (atLattice s) (atLattice s + dir K) A1 A2 R
    ∃ n nz, numNorm net ⟨s, neighbour nx ny s K.val, K.val⟩ d.a1q d.a2q = .ok n ∧
      positiveApprox la 2 cfg.positive_approx_cutoff n = some nz ∧
      (AtLeast (normMat n) cfg.positive_approx_cutoff → ∀ r1,
        let ψ := trialState (unfoldCell nx ny A) R (atLattice s) K d.a1q d.a2q r1
          (startPair la cfg bD_le nz (gateReduced d.a1r d.a2r gate)).2
        ‖stateOverlap ψ φ‖ ^ 2 * stateDist ψ' 0 ≤ ‖stateOverlap ψ' φ‖ ^ 2 * stateDist ψ 0 ∧
          (stateOverlap ψ φ ≠ 0 → stateOverlap ψ' φ ≠ 0)) := by
  intro d R gate φ ψ'
  obtain ⟨n, nz, hn, hnz, c, t, hc, ht, ht0, p1, p2, ⟨μ, hμ, hμ', hψ⟩, b1, -⟩ :=
    C91_update hx hy h hnA la fo rep cfg he hni hcut hatol gates s hs K A1 A2 hu
  obtain ⟨n', hn', c', hc', e⟩ := h s hs K _ d.a1q d.a2q
  obtain rfl : n' = n := Except.ok.inj (hn'.symm.trans hn)
  refine ⟨n', nz, hn, hnz, fun hat r1 => ?_⟩
  intro ψ
  have ht := ht0 hat
  have hv0 : stateVec (0 : PatchLegs (Fin dB) (Fin pD) R.w R.h → Fin pD → Fin pD → 𝕜) = 0 := rfl
  have hsm : ∀ (z : 𝕜) (χ : PatchLegs (Fin dB) (Fin pD) R.w R.h → Fin pD → Fin pD → 𝕜), stateVec (z • χ) = z • stateVec χ :=
    fun _ _ => rfl
  set p := trialState (unfoldCell nx ny A) R (atLattice s) K d.a1q d.a2q p1 p2 with hp
  have hbest : ∀ z : 𝕜, ‖stateVec p - stateVec φ‖ ^ 2 ≤ ‖z • stateVec ψ - stateVec φ‖ ^ 2 := by
    intro z
    have h1 := b1 (z • r1)
    rw [ht, zero_mul, zero_mul, add_zero, add_zero] at h1
    have h2 := le_of_mul_le_mul_left h1 hc
    have h3 : trialState (unfoldCell nx ny A) R (atLattice s) K d.a1q d.a2q (z • r1)
        (startPair la cfg bD_le nz (gateReduced d.a1r d.a2r gate)).2 = z • ψ := by
      funext e' k k'
      refine state_prod n' c' hc' (trialState (unfoldCell nx ny A) R (atLattice s) K d.a1q d.a2q)
        (fun _ _ _ _ _ _ _ _ => e _ _ _ _ _ _ _ _ _) z _ _ _ _ (fun y x p q => ?_) e' k k'
      simp only [pairProd, Pi.smul_apply, smul_eq_mul, Finset.mul_sum, mul_assoc]
    rw [h3, stateDist_vec, stateDist_vec, hsm] at h2
    exact h2
  obtain ⟨o1, o2⟩ := best_overlap (stateVec ψ) (stateVec p) (stateVec φ) hbest
  have hψ' : stateVec ψ' = (μ : 𝕜) • stateVec p := by
    rw [← hsm, ← hψ]
  rw [stateOverlap_vec, stateOverlap_vec, stateDist_vec, stateDist_vec, hv0, sub_zero, sub_zero, hψ', norm_smul, inner_smul_left,
    norm_mul, RCLike.conj_ofReal, RCLike.norm_ofReal, abs_of_nonneg hμ]
  refine ⟨?_, fun h0 => mul_ne_zero (RCLike.ofReal_ne_zero.2 (hμ' ?_).ne') (o2 h0)⟩
  · nlinarith [sq_nonneg μ]
  · intro hp0
    refine o2 h0 ?_
    rw [hp0, hv0, inner_zero_left]

end update

end patch

/-- A 2 × 3 cell with bonds of dimension 2 and complex tensors; without any moves the patches are the bonds and the ring around
them. -/
noncomputable def exampleCell (s : Site) : ATensor (Fin 2) (Fin 2) ℂ :=
  fun l u r d p => (s.1 : ℂ) + Complex.I * s.2 + l + 2 * u + 3 * r + d + p + 1

theorem exampleCell_ne (s : Site) : exampleCell s ≠ 0 := by
  intro h
  have h1 := congrArg Complex.re (congrFun (congrFun (congrFun (congrFun (congrFun h 0) 0) 0) 0) 0)
  simp [exampleCell] at h1
  have h3 : (0 : ℝ) ≤ s.1 := Nat.cast_nonneg _
  linarith

example (chi : ℕ) (st : ProjSettings ℂ) (ω : ℕ → Draws (Fin 2) ℂ) (h0 : 0 ≤ st.cutoff) (h1 : st.cutoff < 1) :
    PatchNorms 2 3 exampleCell (freshNet 2 3 chi exampleCell) (growAll 2 3 []) := by
  obtain ⟨net, h, -, h2⟩ := C91_moves (nx := 2) (ny := 3) (chi := chi) (by decide) (by decide) (fun s _ => exampleCell_ne s) st .half (.inl rfl) h0 h1 ω [] 0
    (by simp) (by trivial)
  have h : (Except.ok (freshNet 2 3 chi exampleCell) : Except PyErr _) = .ok net := h
  rwa [← Except.ok.inj h] at h2

/-- The updates return with the pseudo-inverse method, so that the hypotheses of the theorems on updates can be met. -/
example {F : Type} (chi : ℕ) (la : Lapack ℂ) (fo : Als.FloatOps F) (rep : ℝ → F) (tol : F)
    (gates : Bond → Fin 2 → Fin 2 → Fin 2 → Fin 2 → ℂ) (b : Bond) (hb : b ∈ buildBondList 2 3) : ∃ q,
    numUpdate la fo rep ⟨true, 1e-12, 1e-12, 100, tol, .pinv, 0⟩ none gates (freshNet 2 3 chi exampleCell) b = some (.ok q) :=
  numUpdate_returns (net := freshNet 2 3 chi exampleCell) (fresh_wired (chi := chi) exampleCell (by decide) (by decide))
    (show 0 < 2 by decide) (show 0 < 3 by decide) hb la fo rep _ rfl none gates

/-- The tolerance of the default settings is below the bound asked for. -/
example : (1e-12 : ℝ) < Real.sqrt (1e-12 * nD (Fin 2) (Fin 2)) := by
  rw [Real.lt_sqrt (by norm_num)]
  have : (nD (Fin 2) (Fin 2) : ℝ) = 4 := by
    norm_num [nD]
  rw [this]
  norm_num

end AceTN
