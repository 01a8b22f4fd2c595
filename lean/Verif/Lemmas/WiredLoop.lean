import Verif.Lemmas.WiredMove

/-!
The loop of a move over the boundary tensors, with projectors that may have been computed from another network of the same dimensions, as the
second half of a distributed move does it: the tensors fit together after it.
-/

set_option autoImplicit false
set_option linter.unusedSectionVars false

namespace AceTN

open Spec

variable {𝕜 : Type} [RCLike 𝕜] {B P : Type} [Fintype B] [Fintype P] [DecidableEq B]

/-- The operations with projectors that are given beforehand. -/
noncomputable def givenOps (st : ProjSettings 𝕜) (ω : Draws B 𝕜) (tbl : ℕ × Site → Ten B P 𝕜 × Ten B P 𝕜) : Ops (Ten B P 𝕜) :=
  { numOps st ω with
    half := fun key _ _ _ => tbl key
    full := fun key _ _ _ _ _ => tbl key }

theorem proj_given (st : ProjSettings 𝕜) (ω : Draws B 𝕜) (m : Move) (Q : ℕ → Ten B P 𝕜 × Ten B P 𝕜) (pk : ProjKind) (net : Net (Ten B P 𝕜)) (i : ℕ) :
    m.proj (givenOps st ω fun key => Q (m.idx key.2)) pk net i = Q i := by
  cases m <;> cases pk <;> rfl

section given

variable {net : Net (Ten B P 𝕜)} {f : Site → ℕ → ℕ} (hw : Wired net f) (hx : 0 < net.nx) (hy : 0 < net.ny)
  (st : ProjSettings 𝕜) (ω : Draws B 𝕜) (pk : ProjKind) (tbl : ℕ × Site → Ten B P 𝕜 × Ten B P 𝕜) (m : Move) (hm : m.Valid net.nx net.ny)
  (hcut : ∀ q, m.OnLine (cellSite net.nx net.ny q) → ∃ (z : ℕ) (p1 p2 : Fin (f (cellSite net.nx net.ny q) (m.dirn + 3).val) → B → B → Fin z → 𝕜),
    m.cut (givenOps st ω tbl) pk net q = (.proj _ z p1, .proj _ z p2))

/-- The dimensions after a move with given projectors. -/
noncomputable def givenDim (net : Net (Ten B P 𝕜)) (f : Site → ℕ → ℕ) (o : Ops (Ten B P 𝕜)) (pk : ProjKind) (m : Move) (s : Site) (k : ℕ) : ℕ :=
  if k = (m.dirn + 3).val ∧ m.tgt net.nx net.ny (m.idx s) = s then projDim (m.proj o pk net (m.idx s)).1 else f s k

theorem givenDim_other (o : Ops (Ten B P 𝕜)) (s : Site) (k : Fin 4) (hk : k ≠ m.dirn + 3) : givenDim net f o pk m s k.val = f s k.val := by
  unfold givenDim
  rw [if_neg]
  rintro ⟨h', -⟩
  exact hk (Fin.ext h')

include hm in
theorem givenDim_hit (o : Ops (Ten B P 𝕜)) (p : ℤ × ℤ) (h : m.OnLine (cellSite net.nx net.ny (p + dir m.dirn))) :
    givenDim net f o pk m (cellSite net.nx net.ny p) (m.dirn + 3).val = projDim (m.cut o pk net (p + dir m.dirn)).1 := by
  unfold givenDim Move.cut
  rw [if_pos ⟨rfl, (m.tgt_idx hm p).2 h⟩, m.idx_dir]

include hm in
theorem givenDim_miss (o : Ops (Ten B P 𝕜)) (p : ℤ × ℤ) (h : ¬ m.OnLine (cellSite net.nx net.ny (p + dir m.dirn))) (k : ℕ) :
    givenDim net f o pk m (cellSite net.nx net.ny p) k = f (cellSite net.nx net.ny p) k := by
  unfold givenDim
  rw [if_neg]
  rintro ⟨-, h'⟩
  exact h ((m.tgt_idx hm p).1 h')

include hw hx hy hm hcut

theorem given_lower (p : ℤ × ℤ) (h : m.OnLine (cellSite net.nx net.ny (p + dir m.dirn))) :
    ∃ c, (m.after (givenOps st ω tbl) pk net).B (cellSite net.nx net.ny p) (.C (m.dirn + 3).val) =
      .corner (f (cellSite net.nx net.ny (p + dir m.dirn)) (m.dirn + 2).val)
        (projDim (m.cut (givenOps st ω tbl) pk net (p + dir m.dirn)).1) c := by
  obtain ⟨v0, v1, v2, v3⟩ := fin4_val m.dirn
  obtain ⟨-, -, i13, -, i22, i23, i31, i32, i33⟩ := fin4 m.dirn
  rw [m.after_hit (givenOps st ω tbl) pk net hx hy hm p h, if_pos rfl]
  generalize p + dir m.dirn = q at h ⊢
  obtain ⟨z, p1, p2, hc⟩ := hcut q h
  obtain ⟨a, c, e1, e2, ha, hC, hE1, hE2, hQ⟩ := quarter_at hw hx hy st ω q (q + dir m.dirn) _ (m.dirn + 3) (m.dirn + 2) _ v3 i33.symm
    (by rw [i31]) rfl
  rw [hC, hE1, hc]
  exact ⟨_, cj1_eq st ω _ _ _⟩

theorem given_upper (p : ℤ × ℤ) (h : m.OnLine (cellSite net.nx net.ny (p + dir m.dirn))) :
    ∃ c, (m.after (givenOps st ω tbl) pk net).B (cellSite net.nx net.ny p) (.C m.dirn.val) =
      .corner (projDim (m.cut (givenOps st ω tbl) pk net (p + dir m.dirn + dir (m.dirn + 1))).1)
        (f (cellSite net.nx net.ny p) m.dirn.val) c := by
  obtain ⟨v0, v1, v2, v3⟩ := fin4_val m.dirn
  have hne : ∀ k : Fin 4, k ≠ k + 3 := by decide
  rw [m.after_hit (givenOps st ω tbl) pk net hx hy hm p h,
    if_neg (fun h => hne m.dirn (Fin.ext (Slot.C.inj h))), if_pos rfl]
  have hp := dir_cancel p m.dirn
  generalize p + dir m.dirn = q at h hp ⊢
  have h' : m.OnLine (cellSite net.nx net.ny (q + dir (m.dirn + 1))) := by
    have := (m.onLine_along q 1).2 h
    rwa [one_smul] at this
  obtain ⟨z, p1, p2, hc⟩ := hcut _ h'
  obtain ⟨a, c, e1, e2, ha, hC, hE1, hE2, hQ⟩ := quarter_at hw hx hy st ω q _ p m.dirn (m.dirn + 3) _ v0 rfl rfl hp.symm
  rw [hC, hE2, hc]
  exact ⟨_, cj2_eq st ω _ _ _⟩

theorem given_edge (p : ℤ × ℤ) (h : m.OnLine (cellSite net.nx net.ny (p + dir m.dirn))) :
    ∃ e, (m.after (givenOps st ω tbl) pk net).B (cellSite net.nx net.ny p) (.E (m.dirn + 3).val) =
      .edge (projDim (m.cut (givenOps st ω tbl) pk net (p + dir m.dirn)).1)
        (projDim (m.cut (givenOps st ω tbl) pk net (p + dir m.dirn + dir (m.dirn + 1))).1) e := by
  obtain ⟨v0, v1, v2, v3⟩ := fin4_val m.dirn
  rw [m.after_hit (givenOps st ω tbl) pk net hx hy hm p h, if_neg (by simp), if_neg (by simp), if_pos rfl]
  generalize p + dir m.dirn = q at h ⊢
  have h' : m.OnLine (cellSite net.nx net.ny (q + dir (m.dirn + 1))) := by
    have := (m.onLine_along q 1).2 h
    rwa [one_smul] at this
  obtain ⟨z, p1, p2, hc⟩ := hcut _ h
  obtain ⟨z', p1', p2', hc'⟩ := hcut _ h'
  obtain ⟨a, c, e1, e2, ha, hC, hE1, hE2, hQ⟩ := quarter_at hw hx hy st ω q _ _ m.dirn (m.dirn + 3) _ v0 rfl rfl rfl
  rw [hE1, hc, hc', ha]
  exact ⟨_, ej_eq st ω _ _ _ _⟩

/-- The tensors still fit together after a move with given projectors. -/
theorem wired_given : Wired (m.after (givenOps st ω tbl) pk net) (givenDim net f (givenOps st ω tbl) pk m) := by
  have hA := (m.after_consts (givenOps st ω tbl) pk net).2.2.2
  obtain ⟨i11, i12, i13, i21, i22, i23, i31, i32, i33⟩ := fin4 m.dirn
  have along : ∀ p, m.OnLine (cellSite net.nx net.ny (p + dir (m.dirn + 1) + dir m.dirn)) ↔
      m.OnLine (cellSite net.nx net.ny (p + dir m.dirn)) := by
    intro p
    have := m.onLine_along (nx := net.nx) (ny := net.ny) (p + dir m.dirn) 1
    rwa [one_smul, add_right_comm] at this
  refine wired_of (net := m.after (givenOps st ω tbl) pk net) hx hy (fun p => ?_) (fun p k => ?_) (fun p k => ?_)
  · rw [hA]
    exact wired_site hw hx hy p
  · change ∃ c, (m.after (givenOps st ω tbl) pk net).B (cellSite net.nx net.ny p) (.C k.val) =
      .corner (givenDim net f (givenOps st ω tbl) pk m (cellSite net.nx net.ny (p + dir (k + 1))) (k + 3).val)
        (givenDim net f (givenOps st ω tbl) pk m (cellSite net.nx net.ny p) k.val) c
    have hne : ∀ k : Fin 4, k ≠ k + 3 ∧ k + 2 ≠ k + 3 := by decide
    by_cases h : m.OnLine (cellSite net.nx net.ny (p + dir m.dirn))
    · by_cases hk : k = m.dirn + 3
      · subst hk
        rw [i31, i33, givenDim_other pk m _ _ _ (hne _).2, givenDim_hit pk m hm _ p h]
        exact given_lower hw hx hy st ω pk tbl m hm hcut p h
      by_cases hk' : k = m.dirn
      · subst hk'
        rw [givenDim_other pk m _ _ _ (hne _).1, givenDim_hit pk m hm _ _ ((along p).2 h), add_right_comm]
        exact given_upper hw hx hy st ω pk tbl m hm hcut p h
      rw [givenDim_other pk m _ _ _ hk, givenDim_other pk m _ _ _ (fun h => hk' (by simpa using h)),
        m.after_hit (givenOps st ω tbl) pk net hx hy hm p h, if_neg (fun h => hk (Fin.ext (Slot.C.inj h))),
        if_neg (fun h => hk' (Fin.ext (Slot.C.inj h))), if_neg (by simp)]
      exact wired_corner hw hx hy p _ k _ rfl rfl
    · have hold := wired_corner hw hx hy p _ k _ rfl rfl
      rw [m.after_miss (givenOps st ω tbl) pk net hm p h, givenDim_miss pk m hm _ p h]
      by_cases hk' : k = m.dirn
      · subst hk'
        rw [givenDim_miss pk m hm _ _ (fun h' => h ((along p).1 h'))]
        exact hold
      · rw [givenDim_other pk m _ _ _ (fun h => hk' (by simpa using h))]
        exact hold
  · change ∃ c, (m.after (givenOps st ω tbl) pk net).B (cellSite net.nx net.ny p) (.E k.val) =
      .edge (givenDim net f (givenOps st ω tbl) pk m (cellSite net.nx net.ny p) k.val)
        (givenDim net f (givenOps st ω tbl) pk m (cellSite net.nx net.ny (p + dir (k + 2))) k.val) c
    by_cases hk : k = m.dirn + 3
    · subst hk
      rw [i32]
      by_cases h : m.OnLine (cellSite net.nx net.ny (p + dir m.dirn))
      · rw [givenDim_hit pk m hm _ p h, givenDim_hit pk m hm _ _ ((along p).2 h), add_right_comm]
        exact given_edge hw hx hy st ω pk tbl m hm hcut p h
      · rw [givenDim_miss pk m hm _ p h, givenDim_miss pk m hm _ _ (fun h' => h ((along p).1 h')),
          m.after_miss (givenOps st ω tbl) pk net hm p h]
        exact wired_edge hw hx hy p _ _ (by rw [i32])
    · rw [givenDim_other pk m _ _ _ hk, givenDim_other pk m _ _ _ hk]
      have hold := wired_edge hw hx hy p _ k rfl
      by_cases h : m.OnLine (cellSite net.nx net.ny (p + dir m.dirn))
      · rw [m.after_hit (givenOps st ω tbl) pk net hx hy hm p h, if_neg (by simp), if_neg (by simp),
          if_neg (fun h => hk (Fin.ext (Slot.E.inj h)))]
        exact hold
      · rw [m.after_miss (givenOps st ω tbl) pk net hm p h]
        exact hold

end given

/-- The loop of a move with the projectors of another network whose tensors fit together with the same dimensions on the side of the move. -/
theorem wired_loop {net net0 : Net (Ten B P 𝕜)} {f f0 : Site → ℕ → ℕ} (hw : Wired net f) (hw0 : Wired net0 f0) (h1 : net.nx = net0.nx)
    (h2 : net.ny = net0.ny) (hx : 0 < net.nx) (hy : 0 < net.ny) (st : ProjSettings 𝕜) (ω ω' : Draws B 𝕜) (pk : ProjKind) (m : Move)
    (hm : m.Valid net.nx net.ny) (hf : ∀ s, f s (m.dirn + 3).val = f0 s (m.dirn + 3).val) (d : ProjDict (Ten B P 𝕜))
    (hd : ∀ i < m.n net.nx net.ny, d i = some (m.proj (numOps st ω) pk net0 i)) :
    ∃ n f', renormLoop (numOps st ω') d m.src (m.tgt net.nx net.ny) (m.jOf net.nx net.ny) m.k (List.range (m.n net.nx net.ny)) net = .ok n ∧
      Wired n f' ∧ n.nx = net.nx ∧ n.ny = net.ny ∧ n.A = net.A ∧ n.chi = net.chi ∧ ∀ s (k : Fin 4), k ≠ m.dirn + 3 → f' s k.val = f s k.val := by
  have e := Move.loop_eq (numOps st ω') d (m.proj (numOps st ω) pk net0) net m hd _ (List.Perm.refl _)
  have e' : simul (numOps st ω') net (m.proj (numOps st ω) pk net0) m.src (m.tgt net.nx net.ny) (m.jOf net.nx net.ny) m.k
      (List.range (m.n net.nx net.ny)) =
      m.after (givenOps st ω' fun key => m.proj (numOps st ω) pk net0 (m.idx key.2)) pk net := by
    unfold Move.after
    rw [show m.proj (givenOps st ω' fun key => m.proj (numOps st ω) pk net0 (m.idx key.2)) pk net = m.proj (numOps st ω) pk net0 from
      funext fun i => proj_given st ω' m (m.proj (numOps st ω) pk net0) pk net i]
    rfl
  rw [e'] at e
  obtain ⟨c1, c2, c3, c4⟩ := m.after_consts (givenOps st ω' fun key => m.proj (numOps st ω) pk net0 (m.idx key.2)) pk net
  refine ⟨_, _, e, wired_given hw hx hy st ω' pk _ m hm fun q hq => ?_, c1, c2, c4, c3, fun s k hk => givenDim_other pk m _ s k hk⟩
  obtain ⟨z, p1, p2, hc, -⟩ := cut_at hw0 (h1 ▸ hx) (h2 ▸ hy) st ω pk m q (by rw [← h1, ← h2]; exact hq)
  rw [hf, h1, h2]
  refine ⟨z, p1, p2, ?_⟩
  unfold Move.cut at hc ⊢
  rw [proj_given st ω' m (m.proj (numOps st ω) pk net0), h1, h2]
  exact hc

end AceTN
