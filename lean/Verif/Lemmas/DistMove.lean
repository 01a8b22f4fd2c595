import Verif.Lemmas.WiredLoop
import Verif.Lemmas.FullWired
import Verif.Model.DistSession
import Verif.Props.Distributed

/-! Distributed moves on networks whose tensors fit together. -/

set_option autoImplicit false
set_option linter.unusedSectionVars false

namespace AceTN

open Spec

/-! ### Who computes which projector -/

section owners

variable {T : Type}

/-- The rank of the lower half whose projector number `key` of `n` is kept; the rank of the upper half is `ws / 2` higher. -/
def ownerOf (ws n key : ℕ) : ℕ := key - min key ((2 * n + ws - 1) / ws - 1)

theorem gather_owner (ws n : ℕ) (calc1 calc2 : ℕ → ℕ → T × T) (hws : 2 ≤ ws) (hc : FirstPassOk ws n) (m : ℕ) :
    ∃ st, ((List.range (m + 1)).map (· * ws)).foldlM (gatherStep ws n calc1 calc2) (fun _ => none, fun _ => none, fun _ => none) = .ok st ∧
      (∀ r < ws, (st.1 r).isSome) ∧
      ∀ key < n, key - min key m < ws / 2 →
        st.2.1 key = some (calc1 (key - min key m) key) ∧ st.2.2 key = some (calc2 (key - min key m + ws / 2) key) := by
  have hstep : ∀ (m : ℕ) (st : (ℕ → Option (T × T)) × ProjDict T × ProjDict T), (1 ≤ m → ∀ r < ws, (st.1 r).isSome) →
      ∃ st', gatherStep ws n calc1 calc2 st (m * ws) = .ok st' ∧ (∀ r < ws, (st'.1 r).isSome) ∧ ∀ key < n,
        (m ≤ key → key - m < ws / 2 → st'.2.1 key = some (calc1 (key - m) key) ∧ st'.2.2 key = some (calc2 (key - m + ws / 2) key)) ∧
        (key < m → st'.2.1 key = st.2.1 key ∧ st'.2.2 key = st.2.2 key) := by
    intro m st hs
    have hdiv : m * ws / ws = m := Nat.mul_div_cancel _ (by omega)
    have hall : ∀ r < ws, ((if r < ws / 2 then
        (if r + m < n then some (calc1 r (r + m)) else st.1 r)
        else if r - ws / 2 + m < n then some (calc2 r (r - ws / 2 + m)) else st.1 r) :
          Option (T × T)).isSome := by
      intro r hr
      rcases Nat.eq_zero_or_pos m with rfl | hm
      · have := hc r hr
        split
        · rw [if_pos (by omega)]; rfl
        · rw [if_pos (by omega)]; rfl
      · have := hs hm r hr
        split <;> split <;> first | rfl | exact this
    simp only [gatherStep, hdiv, allGather, bind, Except.bind, pure, Except.pure]
    rw [if_pos hall]
    refine ⟨_, rfl, hall, fun key hk => ⟨fun h1 h2 => ?_, fun h1 => ?_⟩⟩
    · simp only [storeGathered_eq]
      have hin : m ≤ key ∧ key - m < ws / 2 := ⟨h1, h2⟩
      rw [if_pos hin, if_pos hin]
      have e : key - m + m = key := by omega
      constructor
      · rw [Nat.add_zero, if_pos h2, e, if_pos hk]
      · rw [if_neg (by omega), show key - m + ws / 2 - ws / 2 + m = key by omega, if_pos hk]
    · simp only [storeGathered_eq]
      rw [if_neg (by omega), if_neg (by omega)]
      exact ⟨rfl, rfl⟩
  induction m with
  | zero =>
    obtain ⟨st', h1, h2, h3⟩ := hstep 0 (fun _ => none, fun _ => none, fun _ => none) (by omega)
    refine ⟨st', ?_, h2, fun key hk hlt => ?_⟩
    · show (gatherStep ws n calc1 calc2 _ (0 * ws) >>= pure) = _
      rw [h1]
      rfl
    · rw [Nat.min_zero] at hlt ⊢
      exact (h3 key hk).1 (Nat.zero_le _) hlt
  | succ m ih =>
    obtain ⟨st, hst, hs, hcov⟩ := ih
    obtain ⟨st', h1, h2, h3⟩ := hstep (m + 1) st fun _ => hs
    refine ⟨st', ?_, h2, fun key hk hlt => ?_⟩
    · rw [List.range_succ, List.map_append, List.foldlM_append, hst]
      show (gatherStep ws n calc1 calc2 st ((m + 1) * ws) >>= pure) = _
      rw [h1]
      rfl
    · rcases Nat.lt_or_ge key (m + 1) with h | h
      · rw [((h3 key hk).2 h).1, ((h3 key hk).2 h).2]
        rw [Nat.min_eq_left (by omega : key ≤ m + 1)] at hlt ⊢
        have := hcov key hk (by rw [Nat.min_eq_left (by omega : key ≤ m)]; exact hlt)
        rw [Nat.min_eq_left (by omega : key ≤ m)] at this
        exact this
      · rw [Nat.min_eq_right h] at hlt ⊢
        exact (h3 key hk).1 h hlt

/-- The gathered projectors and who computed them. -/
theorem gather_owners (ws n : ℕ) (calc1 calc2 : ℕ → ℕ → T × T) (hws : 2 ≤ ws) (hn : 1 ≤ n) (hw : SharingWorks ws n) :
    ∃ d, gatherProjectors ws n calc1 calc2 = .ok d ∧ ∀ key < n, ownerOf ws n key < ws / 2 ∧
      d.1 key = some (calc1 (ownerOf ws n key) key) ∧ d.2 key = some (calc2 (ownerOf ws n key + ws / 2) key) := by
  rw [← sharing_iff ws n hws hn] at hw
  have hpos : 1 ≤ (2 * n + ws - 1) / ws := by
    rw [Nat.one_le_div_iff (by omega)]; omega
  obtain ⟨st, hst, -, h⟩ := gather_owner ws n calc1 calc2 hws ((firstPassOk_iff ws n hws).2 hw.1) ((2 * n + ws - 1) / ws - 1)
  refine ⟨st.2, ?_, fun key hk => ?_⟩
  · simp only [gatherProjectors, pyRange3]
    rw [show (2 * n + ws - 1) / ws = (2 * n + ws - 1) / ws - 1 + 1 by omega, hst]
    rfl
  · have : ownerOf ws n key < ws / 2 := by
      unfold ownerOf
      omega
    exact ⟨this, h key hk this⟩

end owners

variable {𝕜 : Type} [RCLike 𝕜] {B P : Type} [Fintype B] [Fintype P] [DecidableEq B]

/-- The rank whose random numbers are used for a projector. -/
def drawerOf (ws nx ny : ℕ) (key : ℕ × Site) : ℕ :=
  min (ws - 1) (match key.1 with
    | 0 => ownerOf ws ny key.2.2
    | 2 => ownerOf ws ny key.2.2 + ws / 2
    | 1 => ownerOf ws nx key.2.1
    | _ => ownerOf ws nx key.2.1 + ws / 2)

/-- The random numbers that are used, put together from those of the ranks. -/
def mixDraws (ws nx ny : ℕ) (ω : ℕ → Draws B 𝕜) : Draws B 𝕜 := fun key => ω (drawerOf ws nx ny key) key

/-- Only the projectors are computed with random numbers. -/
theorem numOps_draw (st : ProjSettings 𝕜) (ω ω' : Draws B 𝕜) :
    (numOps (P := P) st ω).permute = (numOps st ω').permute ∧ (numOps (P := P) st ω).quarter = (numOps st ω').quarter ∧
    (numOps (P := P) st ω).cj1 = (numOps st ω').cj1 ∧ (numOps (P := P) st ω).cj2 = (numOps st ω').cj2 ∧
    (numOps (P := P) st ω).ej = (numOps st ω').ej := by
  unfold numOps
  dsimp only
  exact ⟨rfl, rfl, rfl, rfl, rfl⟩

/-- A projector depends only on its own random matrix. -/
theorem calcProjectors_draw (st : ProjSettings 𝕜) (ω ω' : Draws B 𝕜) (pk : ProjKind) (net : Net (Ten B P 𝕜)) (s1 s2 s3 s4 : Site) (k : ℕ)
    (h : ω (k, s1) = ω' (k, s1)) :
    calcProjectors (numOps st ω) pk net s1 s2 s3 s4 k = calcProjectors (numOps st ω') pk net s1 s2 s3 s4 k := by
  have hq : ∀ s j, quarterTensor (numOps st ω) net s j = quarterTensor (numOps st ω') net s j := by
    intro s j
    unfold quarterTensor
    rw [(numOps_draw st ω ω').1, (numOps_draw st ω ω').2.1]
  cases pk with
  | half =>
    unfold calcProjectors
    dsimp only
    rw [hq, hq]
    generalize quarterTensor (numOps st ω') net s1 k = q1
    generalize quarterTensor (numOps st ω') net s4 (k + 3) = q4
    unfold numOps
    dsimp only
    rw [h]
  | full =>
    unfold calcProjectors
    dsimp only
    rw [hq, hq, hq, hq]
    generalize quarterTensor (numOps st ω') net s1 k = q1
    generalize quarterTensor (numOps st ω') net s2 (k + 1) = q2
    generalize quarterTensor (numOps st ω') net s3 (k + 2) = q3
    generalize quarterTensor (numOps st ω') net s4 (k + 3) = q4
    unfold numOps
    dsimp only
    rw [h]

/-! ### Pairs of opposite moves -/

/-- The loops over the boundary tensors draw nothing. -/
theorem simul_draw (st : ProjSettings 𝕜) (ω ω' : Draws B 𝕜) (net : Net (Ten B P 𝕜)) (Q : ℕ → Ten B P 𝕜 × Ten B P 𝕜) (s1 s2 : ℕ → Site)
    (jOf : ℕ → ℕ) (k : ℕ) (idx : List ℕ) : simul (numOps st ω') net Q s1 s2 jOf k idx = simul (numOps st ω) net Q s1 s2 jOf k idx := by
  have h : ∀ i sl, newB (numOps st ω') net Q s1 s2 jOf k i sl = newB (numOps st ω) net Q s1 s2 jOf k i sl := by
    intro i sl
    obtain ⟨h1, -, h3, h4, h5⟩ := numOps_draw (P := P) st ω' ω
    unfold newB
    rw [h1, h3, h4, h5]
  unfold simul
  simp only [h]

/-- The network after a distributed move: the projectors of the second half come from the network before the first one. -/
noncomputable def staleAfter (st : ProjSettings 𝕜) (ω : Draws B 𝕜) (pk : ProjKind) (m1 m2 : Move) (net : Net (Ten B P 𝕜)) : Net (Ten B P 𝕜) :=
  m2.after (givenOps st ω fun key => m2.proj (numOps st ω) pk net (m2.idx key.2)) pk (m1.after (numOps st ω) pk net)

/-- The two loops of a distributed move. -/
theorem pair_loop {net : Net (Ten B P 𝕜)} {f : Site → ℕ → ℕ} (hw : Wired net f) (hx : 0 < net.nx) (hy : 0 < net.ny) (st : ProjSettings 𝕜)
    (ω ω' : Draws B 𝕜) (pk : ProjKind) (m1 m2 : Move) (h1 : m1.Valid net.nx net.ny) (h2 : m2.Valid net.nx net.ny) (hne : m2.dirn ≠ m1.dirn)
    (hind : ∀ i, m2.proj (numOps st ω) .half (m1.after (numOps st ω) .half net) i = m2.proj (numOps st ω) .half net i)
    (d : ProjDict (Ten B P 𝕜) × ProjDict (Ten B P 𝕜)) (hd1 : ∀ i < m1.n net.nx net.ny, d.1 i = some (m1.proj (numOps st ω) pk net i))
    (hd2 : ∀ i < m2.n net.nx net.ny, d.2 i = some (m2.proj (numOps st ω) pk net i)) :
    ∃ n1 n f', renormLoop (numOps st ω') d.1 m1.src (m1.tgt net.nx net.ny) (m1.jOf net.nx net.ny) m1.k (List.range (m1.n net.nx net.ny)) net = .ok n1 ∧
      n1.nx = net.nx ∧ n1.ny = net.ny ∧
      renormLoop (numOps st ω') d.2 m2.src (m2.tgt net.nx net.ny) (m2.jOf net.nx net.ny) m2.k (List.range (m2.n net.nx net.ny)) n1 = .ok n ∧
      Wired n f' ∧ n.nx = net.nx ∧ n.ny = net.ny ∧ n.A = net.A ∧
      (pk = .half → n = m2.after (numOps st ω) .half (m1.after (numOps st ω) .half net)) ∧ n = staleAfter st ω pk m1 m2 net := by
  have e1 := Move.loop_eq (numOps st ω') d.1 (m1.proj (numOps st ω) pk net) net m1 hd1 _ (List.Perm.refl _)
  have e1' : simul (numOps st ω') net (m1.proj (numOps st ω) pk net) m1.src (m1.tgt net.nx net.ny) (m1.jOf net.nx net.ny) m1.k
      (List.range (m1.n net.nx net.ny)) = m1.after (numOps st ω) pk net := simul_draw st ω ω' net _ _ _ _ _ _
  rw [e1'] at e1
  obtain ⟨c1, c2, c3, c4⟩ := m1.after_consts (numOps st ω) pk net
  have hw1 := wired_after hw hx hy st ω pk m1 h1
  have hne' : m2.dirn + 3 ≠ m1.dirn + 3 := fun h => hne (by simpa using h)
  obtain ⟨n, f', e2, w, a1, a2, a3, -, -⟩ := wired_loop (net := m1.after (numOps st ω) pk net) (net0 := net) hw1 hw c1 c2 (c1 ▸ hx) (c2 ▸ hy) st ω
    ω' pk m2 (by rw [c1, c2]; exact h2) (fun s => newDim_other st ω pk m1 s _ hne') d.2 (by rw [c1, c2]; exact hd2)
  refine ⟨_, n, f', e1, c1, c2, ?_, w, a1.trans c1, a2.trans c2, a3.trans (funext fun s => congrFun c4 s), ?_, ?_⟩
  · exact e2
  · rintro rfl
    have e3 := Move.loop_eq (numOps st ω') d.2 (m2.proj (numOps st ω) .half (m1.after (numOps st ω) .half net))
      (m1.after (numOps st ω) .half net) m2 (fun i hi => by rw [hind]; exact hd2 i hi) _ (List.Perm.refl _)
    rw [simul_draw st ω ω'] at e3
    exact Except.ok.inj (e2.symm.trans e3)
  · have e3 := Move.loop_eq (numOps st ω') d.2 (m2.proj (numOps st ω) pk net) (m1.after (numOps st ω) pk net) m2
      (by rw [c1, c2]; exact hd2) _ (List.Perm.refl _)
    rw [simul_draw st ω ω'] at e3
    refine (Except.ok.inj (e2.symm.trans e3)).trans ?_
    unfold staleAfter
    generalize m1.after (numOps st ω) pk net = n1
    rw [Move.after, show m2.proj (givenOps st ω fun key => m2.proj (numOps st ω) pk net (m2.idx key.2)) pk n1 =
      m2.proj (numOps st ω) pk net from funext fun i => proj_given st ω m2 (m2.proj (numOps st ω) pk net) pk _ i]
    rfl

/-- The two serial moves of a distributed move. -/
def pairOf : (ℕ × ℕ) ⊕ (ℕ × ℕ) → Move × Move
  | .inl p => (.left p.1, .right p.2)
  | .inr p => (.up p.1, .down p.2)

theorem serialOf_cons (m : (ℕ × ℕ) ⊕ (ℕ × ℕ)) (ms : List ((ℕ × ℕ) ⊕ (ℕ × ℕ))) :
    serialOf (m :: ms) = (pairOf m).1 :: (pairOf m).2 :: serialOf ms := by
  cases m <;> rfl

/-- One distributed move from networks that are equal. -/
theorem distMove_ok {nets : ℕ → Net (Ten B P 𝕜)} {net : Net (Ten B P 𝕜)} {f : Site → ℕ → ℕ} (hw : Wired net f) (hx : 0 < net.nx)
    (hy : 0 < net.ny) (ws : ℕ) (hws : 2 ≤ ws) (s1 : SharingWorks ws net.nx) (s2 : SharingWorks ws net.ny) (hs : InSync ws nets net)
    (st : ProjSettings 𝕜) (ω : ℕ → Draws B 𝕜) (pk : ProjKind) (m : (ℕ × ℕ) ⊕ (ℕ × ℕ)) (h1 : (pairOf m).1.Valid net.nx net.ny)
    (h2 : (pairOf m).2.Valid net.nx net.ny) :
    ∃ ns n f', runMovesDist (fun r => numOps st (ω r)) (numOps st (ω 0)) pk ws [m] nets = .ok ns ∧ InSync ws ns n ∧ Wired n f' ∧
      n.nx = net.nx ∧ n.ny = net.ny ∧ n.A = net.A ∧
      (pk = .half → n = (pairOf m).2.after (numOps st (mixDraws ws net.nx net.ny ω)) .half
        ((pairOf m).1.after (numOps st (mixDraws ws net.nx net.ny ω)) .half net)) ∧
      n = staleAfter st (mixDraws ws net.nx net.ny ω) pk (pairOf m).1 (pairOf m).2 net := by
  have h0 := hs 0 (by omega)
  cases m with
  | inl p =>
    obtain ⟨x1, x2⟩ := p
    obtain ⟨d, hd, hk⟩ := gather_owners ws net.ny (fun r y => calcLeft (numOps st (ω r)) pk (nets r) x1 y)
      (fun r y => calcRight (numOps st (ω r)) pk (nets r) x2 y) hws hy s2
    obtain ⟨n1, n, f', q1, q2, q3, q4, q5⟩ := pair_loop hw hx hy st (mixDraws ws net.nx net.ny ω) (ω 0) pk (.left x1) (.right x2) h1 h2
      (show (_ : Fin 4) ≠ _ by simp [Move.dirn]) (fun i => calcHalf_left_indep _ net x1 x2 i) d
      (fun i hi => by
        obtain ⟨o1, o2, -⟩ := hk i hi
        rw [o2, hs _ (by omega)]
        refine congrArg some (calcProjectors_draw st _ _ pk net _ _ _ _ 0 ?_)
        show ω _ (0, (x1, i)) = ω (min (ws - 1) (ownerOf ws net.ny i)) (0, (x1, i))
        rw [Nat.min_eq_right (by omega)])
      (fun i hi => by
        obtain ⟨o1, -, o2⟩ := hk i hi
        rw [o2, hs _ (by omega)]
        refine congrArg some (calcProjectors_draw st _ _ pk net _ _ _ _ 2 ?_)
        show ω _ (2, (x2, i)) = ω (min (ws - 1) (ownerOf ws net.ny i + ws / 2)) (2, (x2, i))
        rw [Nat.min_eq_right (by omega)])
    obtain ⟨ns, r1, r2, -⟩ := onRanks_ok (fun r => do
      let net ← leftLoop (numOps st (ω 0)) d.1 x1 (nets r)
      rightLoop (numOps st (ω 0)) d.2 x2 net) (fun _ => n) nets ws (fun r hr => by
        rw [hs r hr, show leftLoop (numOps st (ω 0)) d.1 x1 net = .ok n1 from q1]
        show rightLoop (numOps st (ω 0)) d.2 x2 n1 = _
        unfold rightLoop
        rw [q2, q3]
        exact q4)
    refine ⟨ns, n, f', ?_, r2, q5⟩
    show (leftRightDist (fun r => numOps st (ω r)) (numOps st (ω 0)) pk ws x1 x2 nets >>= pure) = _
    unfold leftRightDist
    rw [h0, hd]
    show (onRanks _ nets ws >>= pure) = _
    rw [r1]
    rfl
  | inr p =>
    obtain ⟨y1, y2⟩ := p
    obtain ⟨d, hd, hk⟩ := gather_owners ws net.nx (fun r x => calcUp (numOps st (ω r)) pk (nets r) x y1)
      (fun r x => calcDown (numOps st (ω r)) pk (nets r) x y2) hws hx s1
    obtain ⟨n1, n, f', q1, q2, q3, q4, q5⟩ := pair_loop hw hx hy st (mixDraws ws net.nx net.ny ω) (ω 0) pk (.up y1) (.down y2) h1 h2
      (show (_ : Fin 4) ≠ _ by simp [Move.dirn]) (fun i => calcHalf_up_indep _ net y1 y2 i) d
      (fun i hi => by
        obtain ⟨o1, o2, -⟩ := hk i hi
        rw [o2, hs _ (by omega)]
        refine congrArg some (calcProjectors_draw st _ _ pk net _ _ _ _ 1 ?_)
        show ω _ (1, (i, y1)) = ω (min (ws - 1) (ownerOf ws net.nx i)) (1, (i, y1))
        rw [Nat.min_eq_right (by omega)])
      (fun i hi => by
        obtain ⟨o1, -, o2⟩ := hk i hi
        rw [o2, hs _ (by omega)]
        refine congrArg some (calcProjectors_draw st _ _ pk net _ _ _ _ 3 ?_)
        show ω _ (3, (i, y2)) = ω (min (ws - 1) (ownerOf ws net.nx i + ws / 2)) (3, (i, y2))
        rw [Nat.min_eq_right (by omega)])
    obtain ⟨ns, r1, r2, -⟩ := onRanks_ok (fun r => do
      let net ← upLoop (numOps st (ω 0)) d.1 y1 (nets r)
      downLoop (numOps st (ω 0)) d.2 y2 net) (fun _ => n) nets ws (fun r hr => by
        rw [hs r hr, show upLoop (numOps st (ω 0)) d.1 y1 net = .ok n1 from q1]
        show downLoop (numOps st (ω 0)) d.2 y2 n1 = _
        unfold downLoop
        rw [q2, q3]
        exact q4)
    refine ⟨ns, n, f', ?_, r2, q5⟩
    show (upDownDist (fun r => numOps st (ω r)) (numOps st (ω 0)) pk ws y1 y2 nets >>= pure) = _
    unfold upDownDist
    rw [h0, hd]
    show (onRanks _ nets ws >>= pure) = _
    rw [r1]
    rfl

/-- A list of distributed moves from networks that are equal. -/
theorem runDist_ok (st : ProjSettings 𝕜) (pk : ProjKind) (ws : ℕ) (hws : 2 ≤ ws) (ω : ℕ → ℕ → Draws B 𝕜) (ms : List ((ℕ × ℕ) ⊕ (ℕ × ℕ)))
    (t : ℕ) (nets : ℕ → Net (Ten B P 𝕜)) (net : Net (Ten B P 𝕜)) (f : Site → ℕ → ℕ) (hw : Wired net f) (hx : 0 < net.nx)
    (hy : 0 < net.ny) (s1 : SharingWorks ws net.nx) (s2 : SharingWorks ws net.ny) (hs : InSync ws nets net)
    (hm : ∀ m ∈ ms, (pairOf m).1.Valid net.nx net.ny ∧ (pairOf m).2.Valid net.nx net.ny) :
    ∃ ns n f', runDistDrawn st pk ws ω t ms nets = .ok ns ∧ InSync ws ns n ∧ Wired n f' ∧ n.nx = net.nx ∧ n.ny = net.ny ∧ n.A = net.A ∧
      (pk = .half → runDrawn st .half (fun t => mixDraws ws net.nx net.ny fun r => ω r (t / 2)) (2 * t) (serialOf ms) net = .ok n) := by
  induction ms generalizing t nets net f with
  | nil => exact ⟨nets, net, f, rfl, hs, hw, rfl, rfl, rfl, fun _ => rfl⟩
  | cons m ms ih =>
    obtain ⟨v1, v2⟩ := hm m List.mem_cons_self
    obtain ⟨ns, n, f', e, h1, h2, h3, h4, h5, h6, -⟩ := distMove_ok hw hx hy ws hws s1 s2 hs st (fun r => ω r t) pk m v1 v2
    obtain ⟨ns', n', f'', e', g1, g2, g3, g4, g5, g6⟩ := ih (t + 1) ns n f' h2 (h3 ▸ hx) (h4 ▸ hy) (h3 ▸ s1) (h4 ▸ s2) h1
      (fun m' hm' => by rw [h3, h4]; exact hm m' (List.mem_cons_of_mem _ hm'))
    refine ⟨ns', n', f'', ?_, g1, g2, g3.trans h3, g4.trans h4, g5.trans h5, fun hp => ?_⟩
    · show (runMovesDist _ _ pk ws [m] nets >>= fun nets => runDistDrawn st pk ws ω (t + 1) ms nets) = _
      rw [e]
      exact e'
    · have g6' := g6 hp
      rw [serialOf_cons]
      simp only [runDrawn, Move.run_eq, bind, Except.bind]
      rw [show 2 * t / 2 = t by omega, show (2 * t + 1) / 2 = t by omega, ← h6 hp]
      rw [h3, h4] at g6'
      exact g6'

end AceTN
