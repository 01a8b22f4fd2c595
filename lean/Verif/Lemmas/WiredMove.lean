import Verif.Lemmas.ClusterTurn
import Verif.Lemmas.LooseCut

/-!
A move on a network whose tensors fit together: the tensors still fit, and the new ones are contractions of the old ones.
-/

set_option autoImplicit false

namespace AceTN

open Spec

theorem dir_cancel (p : ℤ × ℤ) (k : Fin 4) : p + dir k + dir (k + 2) = p := by
  rw [dir_opp, add_assoc, add_neg_cancel, add_zero]

theorem fin4 : ∀ k : Fin 4, k + 1 + 1 = k + 2 ∧ k + 1 + 2 = k + 3 ∧ k + 1 + 3 = k ∧ k + 2 + 1 = k + 3 ∧ k + 2 + 2 = k ∧
    k + 2 + 3 = k + 1 ∧ k + 3 + 1 = k ∧ k + 3 + 2 = k + 1 ∧ k + 3 + 3 = k + 2 := by decide

theorem fin4_val : ∀ k : Fin 4, k.val % 4 = k.val ∧ (k.val + 1) % 4 = (k + 1).val ∧ (k.val + 2) % 4 = (k + 2).val ∧
    (k.val + 3) % 4 = (k + 3).val := by decide

theorem moveDir_eq (m : Move) : moveDir m = m.dirn.val := by
  cases m <;> rfl

theorem absorbed_iff (m : Move) (s : Site) : IsAbsorbed m s ↔ m.OnLine s := by
  obtain ⟨x, y⟩ := s
  cases m <;> simp [IsAbsorbed, Move.OnLine, Move.src, Move.idx, eq_comm]

section wired

variable {𝕜 B P : Type}

variable {net : Net (Ten B P 𝕜)} {f : Site → ℕ → ℕ} (hw : Wired net f) (hx : 0 < net.nx) (hy : 0 < net.ny)

include hw hx hy

theorem wired_site (p : ℤ × ℤ) : ∃ a, net.A (cellSite net.nx net.ny p) = .site a :=
  hw.site _ (cellSite_inCell _ _ hx hy p)

theorem wired_corner (p q : ℤ × ℤ) (k j : Fin 4) (hq : q = p + dir (k + 1)) (hj : j = k + 3) :
    ∃ c, net.B (cellSite net.nx net.ny p) (.C k.val) =
      .corner (f (cellSite net.nx net.ny q) j.val) (f (cellSite net.nx net.ny p) k.val) c := by
  have hc := hw.corner _ (cellSite_inCell _ _ hx hy p) k.val k.isLt
  have h1 : ∀ k : Fin 4, (k.val + 1) % 4 = (k + 1).val := by decide
  have h3 : ∀ k : Fin 4, (k.val + 3) % 4 = (k + 3).val := by decide
  rw [h1, h3, neighbour_cellSite _ _ hx hy] at hc
  subst hq hj
  exact hc

theorem wired_edge (p q : ℤ × ℤ) (k : Fin 4) (hq : q = p + dir (k + 2)) :
    ∃ e, net.B (cellSite net.nx net.ny p) (.E k.val) =
      .edge (f (cellSite net.nx net.ny p) k.val) (f (cellSite net.nx net.ny q) k.val) e := by
  have hc := hw.edge _ (cellSite_inCell _ _ hx hy p) k.val k.isLt
  have h1 : ∀ k : Fin 4, (k.val + 2) % 4 = (k + 2).val := by decide
  rw [h1, neighbour_cellSite _ _ hx hy] at hc
  subst hq
  exact hc

theorem wired_le (p : ℤ × ℤ) (k : Fin 4) : f (cellSite net.nx net.ny p) k.val ≤ netDim net := by
  obtain ⟨e, he⟩ := wired_edge hw hx hy p _ k rfl
  have h := (le_netDim net _ (cellSite_inCell _ _ hx hy p) k.val k.isLt).2
  rw [he] at h
  exact le_trans (le_max_left _ _) h

end wired

section wiredOf

variable {𝕜 B P : Type}

/-- The conditions on the infinite lattice. -/
theorem wired_of {net : Net (Ten B P 𝕜)} {f : Site → ℕ → ℕ} (hx : 0 < net.nx) (hy : 0 < net.ny)
    (hs : ∀ p, ∃ a, net.A (cellSite net.nx net.ny p) = .site a)
    (hc : ∀ p (k : Fin 4), ∃ c, net.B (cellSite net.nx net.ny p) (.C k.val) =
      .corner (f (cellSite net.nx net.ny (p + dir (k + 1))) (k + 3).val) (f (cellSite net.nx net.ny p) k.val) c)
    (he : ∀ p (k : Fin 4), ∃ e, net.B (cellSite net.nx net.ny p) (.E k.val) =
      .edge (f (cellSite net.nx net.ny p) k.val) (f (cellSite net.nx net.ny (p + dir (k + 2))) k.val) e) : Wired net f := by
  have h1 : ∀ k : Fin 4, (k.val + 1) % 4 = (k + 1).val := by decide
  have h2 : ∀ k : Fin 4, (k.val + 2) % 4 = (k + 2).val := by decide
  have h3 : ∀ k : Fin 4, (k.val + 3) % 4 = (k + 3).val := by decide
  constructor
  · intro s hs'
    rw [← cellSite_self _ _ s hs']
    exact hs _
  · intro s hs' k hk
    obtain ⟨k, rfl⟩ : ∃ j : Fin 4, j.val = k := ⟨⟨k, hk⟩, rfl⟩
    have := hc (s.1, s.2) k
    rwa [← neighbour_cellSite _ _ hx hy, cellSite_self _ _ s hs', ← h1, ← h3] at this
  · intro s hs' k hk
    obtain ⟨k, rfl⟩ : ∃ j : Fin 4, j.val = k := ⟨⟨k, hk⟩, rfl⟩
    have := he (s.1, s.2) k
    rwa [← neighbour_cellSite _ _ hx hy, cellSite_self _ _ s hs', ← h2] at this

end wiredOf

variable {𝕜 : Type} [RCLike 𝕜] {B P : Type} [Fintype B] [Fintype P] [DecidableEq B]

omit [Fintype B] [Fintype P] [DecidableEq B] in
theorem maxNormalise_zero {m n : Type} [Fintype m] [Fintype n] : maxNormalise (0 : Matrix m n 𝕜) = 0 := by
  unfold maxNormalise
  ext i j
  simp

section move

variable {net : Net (Ten B P 𝕜)} {f : Site → ℕ → ℕ} (hw : Wired net f) (hx : 0 < net.nx) (hy : 0 < net.ny)
  (st : ProjSettings 𝕜) (ω : Draws B 𝕜) (pk : ProjKind)

include hw hx hy

theorem quarter_at (p q1 q2 : ℤ × ℤ) (k j : Fin 4) (kk : ℕ) (hkk : kk % 4 = k.val) (hj : j = k + 3) (h1 : q1 = p + dir (k + 1))
    (h2 : q2 = p + dir (k + 2)) :
    ∃ a c e1 e2, net.A (cellSite net.nx net.ny p) = .site a ∧
      net.B (cellSite net.nx net.ny p) (.C k.val) =
        .corner (f (cellSite net.nx net.ny q1) j.val) (f (cellSite net.nx net.ny p) k.val) c ∧
      net.B (cellSite net.nx net.ny p) (.E j.val) =
        .edge (f (cellSite net.nx net.ny p) j.val) (f (cellSite net.nx net.ny q1) j.val) e1 ∧
      net.B (cellSite net.nx net.ny p) (.E k.val) =
        .edge (f (cellSite net.nx net.ny p) k.val) (f (cellSite net.nx net.ny q2) k.val) e2 ∧
      quarterTensor (numOps st ω) net (cellSite net.nx net.ny p) kk =
        .quarter (f (cellSite net.nx net.ny q2) k.val) (f (cellSite net.nx net.ny p) j.val)
          (maxNormalise (quarterCore c e1 e2 (bondPermute k.val a))) := by
  obtain ⟨a, ha⟩ := wired_site hw hx hy p
  obtain ⟨c, hc⟩ := wired_corner hw hx hy p q1 k j h1 hj
  have hj' : ∀ k : Fin 4, k + 3 + 2 = k + 1 := by decide
  obtain ⟨e1, he1⟩ := wired_edge hw hx hy p q1 j (by rw [h1, hj, hj'])
  obtain ⟨e2, he2⟩ := wired_edge hw hx hy p q2 k h2
  refine ⟨a, c, e1, e2, ha, hc, he1, he2, ?_⟩
  unfold quarterTensor
  have m0 : (0 + kk) % 4 = k.val := by omega
  have m3 : (3 + kk) % 4 = j.val := by
    have : ∀ k : Fin 4, (3 + k.val) % 4 = (k + 3).val := by decide
    rw [hj, ← this]
    omega
  rw [m0, m3, ha, hc, he1, he2, permute_eq, quarter_eq, bondPermute_mod kk k.val (by have := k.isLt; omega)]

variable (m : Move)

omit hw hx hy in
/-- The dimensions after a move. -/
noncomputable def newDim (net : Net (Ten B P 𝕜)) (f : Site → ℕ → ℕ) (st : ProjSettings 𝕜) (ω : Draws B 𝕜) (pk : ProjKind) (m : Move)
    (s : Site) (k : ℕ) : ℕ :=
  if k = (m.dirn + 3).val ∧ m.tgt net.nx net.ny (m.idx s) = s then projDim (m.proj (numOps st ω) pk net (m.idx s)).1 else f s k

omit hw hx hy [Fintype B] [Fintype P] [DecidableEq B] in
/-- A quarter tensor that does not vanish. -/
def QNonzero (t : Ten B P 𝕜) : Prop := ∀ m n Q, t = .quarter m n Q → Q ≠ 0

theorem cut_at (q : ℤ × ℤ) (hq : m.OnLine (cellSite net.nx net.ny q)) :
    ∃ (z : ℕ) (p1 p2 : Fin (f (cellSite net.nx net.ny q) (m.dirn + 3).val) → B → B → Fin z → 𝕜),
      m.cut (numOps st ω) pk net q = (.proj _ z p1, .proj _ z p2) ∧
      (CutsResolve B st pk → LooseCut st ω pk net (cellSite net.nx net.ny q)
        (cellSite net.nx net.ny (q + dir (m.dirn + 2))) (cellSite net.nx net.ny (q + dir (m.dirn + 2) + dir (m.dirn + 3)))
        (cellSite net.nx net.ny (q + dir (m.dirn + 3))) m.dirn.val → ∃ c : ℝ, 0 < c ∧ Resolution p1 p2 (c : 𝕜)) := by
  obtain ⟨v0, v1, v2, v3⟩ := fin4_val m.dirn
  obtain ⟨-, -, i13, -, -, i23, -, i32, i33⟩ := fin4 m.dirn
  have c1 : q = q + dir (m.dirn + 3) + dir (m.dirn + 3 + 2) := (dir_cancel q _).symm
  obtain ⟨a, c, e1, e2, -, -, -, -, hq1⟩ := quarter_at hw hx hy st ω q _ _ m.dirn (m.dirn + 3) _ v0 rfl rfl rfl
  obtain ⟨a', c', e1', e2', -, -, -, -, hq4⟩ := quarter_at hw hx hy st ω (q + dir (m.dirn + 3)) _ q (m.dirn + 3) (m.dirn + 2) _ v3
    i33.symm rfl c1
  unfold Move.cut
  rw [m.proj_idx hx hy (numOps st ω) pk net rfl rfl q hq]
  cases pk with
  | half =>
    unfold calcProjectors
    dsimp only
    rw [hq1, hq4, half_eq]
    refine ⟨_, _, _, rfl, fun hr hl => ?_⟩
    obtain ⟨m', x, n, Q1, Q4, g1, g4, hl⟩ := hl
    rw [hq1] at g1
    rw [hq4] at g4
    cases g1
    cases g4
    exact hr ω _ _ _ _ _ _ _ hl
  | full =>
    obtain ⟨a'', c'', e1'', e2'', -, -, -, -, hq2⟩ := quarter_at hw hx hy st ω (q + dir (m.dirn + 2))  _
      (q + dir (m.dirn + 2) + dir (m.dirn + 1 + 2)) (m.dirn + 1) m.dirn _ v1 i13.symm rfl rfl
    obtain ⟨a3, c3, e13, e23, -, -, -, -, hq3⟩ := quarter_at hw hx hy st ω (q + dir (m.dirn + 2) + dir (m.dirn + 3)) _
      (q + dir (m.dirn + 3)) (m.dirn + 2) (m.dirn + 1) _ v2 i23.symm rfl (by
        rw [add_right_comm, add_right_comm, ← dir_cancel (q + dir (m.dirn + 3)) (m.dirn + 2)]
        abel)
    unfold calcProjectors
    dsimp only
    rw [hq1, hq2, hq3, hq4, full_eq]
    refine ⟨_, _, _, rfl, fun hr hl => ?_⟩
    obtain ⟨m', x, n, k1, k3, Q1, Q2, Q3, Q4, g1, g2, g3, g4, hl⟩ := hl
    rw [hq1] at g1
    rw [hq2] at g2
    rw [hq3] at g3
    rw [hq4] at g4
    cases g1
    cases g2
    cases g3
    cases g4
    exact hr ω _ _ _ _ _ _ _ _ _ _ _ hl

omit hw in
theorem looseCut_at (q : ℤ × ℤ) (hq : m.OnLine (cellSite net.nx net.ny q)) (hl : LooseMove st ω pk net m) :
    LooseCut st ω pk net (cellSite net.nx net.ny q)
        (cellSite net.nx net.ny (q + dir (m.dirn + 2))) (cellSite net.nx net.ny (q + dir (m.dirn + 2) + dir (m.dirn + 3)))
        (cellSite net.nx net.ny (q + dir (m.dirn + 3))) m.dirn.val := by
  obtain ⟨v0, v1, v2, v3⟩ := fin4_val m.dirn
  have := hl _ (cellSite_inCell _ _ hx hy q) ((absorbed_iff m _).2 hq)
  rwa [moveDir_eq, v2, v3, neighbour_cellSite _ _ hx hy, neighbour_cellSite _ _ hx hy, neighbour_cellSite _ _ hx hy] at this

omit hw in
theorem loose_nonzero (q : ℤ × ℤ) (hq : m.OnLine (cellSite net.nx net.ny q)) (hl : LooseMove st ω pk net m) :
    QNonzero (quarterTensor (numOps st ω) net (cellSite net.nx net.ny q) m.dirn.val) ∧
    QNonzero (quarterTensor (numOps st ω) net (cellSite net.nx net.ny (q + dir (m.dirn + 3))) (m.dirn.val + 3)) := by
  have h := looseCut_at hx hy st ω pk m q hq hl
  cases pk with
  | half =>
    obtain ⟨m', x, n, Q1, Q4, g1, g4, hl⟩ := h
    rw [g1, g4]
    constructor
    · rintro _ _ Q h rfl
      cases h
      exact hl.ne_zero (Matrix.zero_mul _)
    · rintro _ _ Q h rfl
      cases h
      exact hl.ne_zero (Matrix.mul_zero _)
  | full =>
    obtain ⟨m', x, n, k1, k3, Q1, Q2, Q3, Q4, g1, g2, g3, g4, hl⟩ := h
    rw [g1, g4]
    constructor
    · rintro _ _ Q h rfl
      cases h
      exact hl.ne_zero (by rw [Matrix.mul_zero, Matrix.zero_mul])
    · rintro _ _ Q h rfl
      cases h
      exact hl.ne_zero (by rw [Matrix.zero_mul, Matrix.mul_zero])

variable (hm : m.Valid net.nx net.ny)

include hm

omit hw hx hy in
theorem newDim_hit (p : ℤ × ℤ) (h : m.OnLine (cellSite net.nx net.ny (p + dir m.dirn))) :
    newDim net f st ω pk m (cellSite net.nx net.ny p) (m.dirn + 3).val =
      projDim (m.cut (numOps st ω) pk net (p + dir m.dirn)).1 := by
  unfold newDim Move.cut
  rw [if_pos ⟨rfl, (m.tgt_idx hm p).2 h⟩, m.idx_dir]

omit hw hx hy in
theorem newDim_miss (p : ℤ × ℤ) (h : ¬ m.OnLine (cellSite net.nx net.ny (p + dir m.dirn))) (k : ℕ) :
    newDim net f st ω pk m (cellSite net.nx net.ny p) k = f (cellSite net.nx net.ny p) k := by
  unfold newDim
  rw [if_neg]
  rintro ⟨-, h'⟩
  exact h ((m.tgt_idx hm p).1 h')

omit hw hx hy hm in
theorem newDim_other (s : Site) (k : Fin 4) (hk : k ≠ m.dirn + 3) : newDim net f st ω pk m s k.val = f s k.val := by
  unfold newDim
  rw [if_neg]
  rintro ⟨h', -⟩
  exact hk (Fin.ext h')

theorem new_lower (p : ℤ × ℤ) (h : m.OnLine (cellSite net.nx net.ny (p + dir m.dirn))) :
    (∃ c, (m.after (numOps st ω) pk net).B (cellSite net.nx net.ny p) (.C (m.dirn + 3).val) =
      .corner (f (cellSite net.nx net.ny (p + dir m.dirn)) (m.dirn + 2).val)
        (projDim (m.cut (numOps st ω) pk net (p + dir m.dirn)).1) c) ∧
    ∃ n : ℝ, (CutsResolve B st pk → LooseMove st ω pk net m → 0 < n) ∧ ∀ N, netDim net ≤ N → ∀ i j : ℕ,
      cornerEnt ((m.after (numOps st ω) pk net).B (cellSite net.nx net.ny p) (.C (m.dirn + 3).val)) i j =
        n * ∑ x : Fin N × (B × B), (∑ b : Fin N, edgeEnt (net.B (cellSite net.nx net.ny (p + dir m.dirn)) (.E (m.dirn + 2).val))
            i b x.2.1 x.2.2 * cornerEnt (net.B (cellSite net.nx net.ny (p + dir m.dirn)) (.C (m.dirn + 3).val)) b x.1) *
          projEnt (m.cut (numOps st ω) pk net (p + dir m.dirn)).1 x.1 x.2.1 x.2.2 j := by
  obtain ⟨v0, v1, v2, v3⟩ := fin4_val m.dirn
  obtain ⟨-, -, i13, -, i22, i23, i31, i32, i33⟩ := fin4 m.dirn
  rw [m.after_hit (numOps st ω) pk net hx hy hm p h, if_pos rfl]
  generalize p + dir m.dirn = q at h ⊢
  have h' : m.OnLine (cellSite net.nx net.ny (q + dir (m.dirn + 1))) := by
    have := (m.onLine_along q 1).2 h
    rwa [one_smul] at this
  have hback : q + dir (m.dirn + 1) + dir (m.dirn + 3) = q := by rw [← (fin4 m.dirn).2.1, dir_cancel]
  obtain ⟨z, p1, p2, hc, hres⟩ := cut_at hw hx hy st ω pk m q h
  obtain ⟨a, c, e1, e2, ha, hC, hE1, hE2, hQ⟩ := quarter_at hw hx hy st ω q (q + dir m.dirn) _ (m.dirn + 3) (m.dirn + 2) _ v3 i33.symm
    (by rw [i31]) rfl
  have hl1 := wired_le hw hx hy (q + dir m.dirn) (m.dirn + 2)
  have hl2 := wired_le hw hx hy q (m.dirn + 3)
  rw [hC, hE1, hc, cj1_eq]
  refine ⟨⟨_, rfl⟩, _, fun hr hl => ?_, fun N hN i j => cj1_ent (le_trans hl1 hN) (le_trans hl2 hN) c e1 p1 i j⟩
  obtain ⟨t, ht, hres⟩ := hres hr (looseCut_at hx hy st ω pk m q h hl)
  have hn := (loose_nonzero hx hy st ω pk m _ h' hl).2
  rw [hback] at hn
  have hn := hn _ _ _ hQ
  refine inv_pos.2 (norm2_pos _ ?_)
  refine lowerCorner_ne c e1 e2 (bondPermute (m.dirn + 3).val a) p1 p2 (t : 𝕜) (by exact_mod_cast ht.ne') hres ?_
  intro h0
  rw [h0, maxNormalise_zero] at hn
  exact hn rfl

theorem new_upper (p : ℤ × ℤ) (h : m.OnLine (cellSite net.nx net.ny (p + dir m.dirn))) :
    (∃ c, (m.after (numOps st ω) pk net).B (cellSite net.nx net.ny p) (.C m.dirn.val) =
      .corner (projDim (m.cut (numOps st ω) pk net (p + dir m.dirn + dir (m.dirn + 1))).1)
        (f (cellSite net.nx net.ny p) m.dirn.val) c) ∧
    ∃ n : ℝ, (CutsResolve B st pk → LooseMove st ω pk net m → 0 < n) ∧ ∀ N, netDim net ≤ N → ∀ i j : ℕ,
      cornerEnt ((m.after (numOps st ω) pk net).B (cellSite net.nx net.ny p) (.C m.dirn.val)) i j =
        n * ∑ x : Fin N × (B × B), projEnt (m.cut (numOps st ω) pk net (p + dir m.dirn + dir (m.dirn + 1))).2 x.1 x.2.1 x.2.2 i *
          ∑ b : Fin N, cornerEnt (net.B (cellSite net.nx net.ny (p + dir m.dirn)) (.C m.dirn.val)) x.1 b *
            edgeEnt (net.B (cellSite net.nx net.ny (p + dir m.dirn)) (.E m.dirn.val)) b j x.2.1 x.2.2 := by
  obtain ⟨v0, v1, v2, v3⟩ := fin4_val m.dirn
  have hne : ∀ k : Fin 4, k ≠ k + 3 := by decide
  rw [m.after_hit (numOps st ω) pk net hx hy hm p h,
    if_neg (fun h => hne m.dirn (Fin.ext (Slot.C.inj h))), if_pos rfl]
  have hp := dir_cancel p m.dirn
  generalize p + dir m.dirn = q at h hp ⊢
  have h' : m.OnLine (cellSite net.nx net.ny (q + dir (m.dirn + 1))) := by
    have := (m.onLine_along q 1).2 h
    rwa [one_smul] at this
  obtain ⟨z, p1, p2, hc, hres⟩ := cut_at hw hx hy st ω pk m _ h'
  obtain ⟨a, c, e1, e2, ha, hC, hE1, hE2, hQ⟩ := quarter_at hw hx hy st ω q _ p m.dirn (m.dirn + 3) _ v0 rfl rfl hp.symm
  have hl1 := wired_le hw hx hy (q + dir (m.dirn + 1)) (m.dirn + 3)
  have hl2 := wired_le hw hx hy q m.dirn
  rw [hC, hE2, hc, cj2_eq]
  refine ⟨⟨_, rfl⟩, _, fun hr hl => ?_, fun N hN i j => cj2_ent (le_trans hl1 hN) (le_trans hl2 hN) c e2 p2 i j⟩
  obtain ⟨t, ht, hres⟩ := hres hr (looseCut_at hx hy st ω pk m _ h' hl)
  have hn := (loose_nonzero hx hy st ω pk m _ h hl).1 _ _ _ hQ
  refine inv_pos.2 (norm2_pos _ ?_)
  refine upperCorner_ne c e1 e2 (bondPermute m.dirn.val a) p1 p2 (t : 𝕜) (by exact_mod_cast ht.ne') hres ?_
  intro h0
  rw [h0, maxNormalise_zero] at hn
  exact hn rfl

theorem new_edge (p : ℤ × ℤ) (h : m.OnLine (cellSite net.nx net.ny (p + dir m.dirn))) :
    (∃ e, (m.after (numOps st ω) pk net).B (cellSite net.nx net.ny p) (.E (m.dirn + 3).val) =
      .edge (projDim (m.cut (numOps st ω) pk net (p + dir m.dirn)).1)
        (projDim (m.cut (numOps st ω) pk net (p + dir m.dirn + dir (m.dirn + 1))).1) e) ∧
    ∃ n : ℝ, (CutsResolve B st pk → LooseMove st ω pk net m → 0 < n) ∧ ∀ N, netDim net ≤ N → ∀ (i j : ℕ) (g : B × B),
      edgeEnt ((m.after (numOps st ω) pk net).B (cellSite net.nx net.ny p) (.E (m.dirn + 3).val)) i j g.1 g.2 =
        n * ∑ x : Fin N × (B × B), ∑ y : Fin N × (B × B),
          projEnt (m.cut (numOps st ω) pk net (p + dir m.dirn)).2 x.1 x.2.1 x.2.2 i *
          (∑ g' : B × B, edgeEnt (net.B (cellSite net.nx net.ny (p + dir m.dirn)) (.E (m.dirn + 3).val)) x.1 y.1 g'.1 g'.2 *
            layer (bondPermute m.dirn.val (siteEnt (net.A (cellSite net.nx net.ny (p + dir m.dirn))))) none g' y.2 g x.2) *
          projEnt (m.cut (numOps st ω) pk net (p + dir m.dirn + dir (m.dirn + 1))).1 y.1 y.2.1 y.2.2 j := by
  obtain ⟨v0, v1, v2, v3⟩ := fin4_val m.dirn
  rw [m.after_hit (numOps st ω) pk net hx hy hm p h, if_neg (by simp), if_neg (by simp), if_pos rfl]
  generalize p + dir m.dirn = q at h ⊢
  have h' : m.OnLine (cellSite net.nx net.ny (q + dir (m.dirn + 1))) := by
    have := (m.onLine_along q 1).2 h
    rwa [one_smul] at this
  obtain ⟨z, p1, p2, hc, hres⟩ := cut_at hw hx hy st ω pk m _ h
  obtain ⟨z', p1', p2', hc', hres'⟩ := cut_at hw hx hy st ω pk m _ h'
  obtain ⟨a, c, e1, e2, ha, hC, hE1, hE2, hQ⟩ := quarter_at hw hx hy st ω q _ _ m.dirn (m.dirn + 3) _ v0 rfl rfl rfl
  have hl1 := wired_le hw hx hy q (m.dirn + 3)
  have hl2 := wired_le hw hx hy (q + dir (m.dirn + 1)) (m.dirn + 3)
  rw [hE1, hc, hc', ha, permute_eq, ej_eq]
  refine ⟨⟨_, rfl⟩, _, fun hr hl => ?_, fun N hN i j g => ej_ent (le_trans hl1 hN) (le_trans hl2 hN) e1 _ p2 p1' i j g⟩
  obtain ⟨t, ht, hres⟩ := hres hr (looseCut_at hx hy st ω pk m _ h hl)
  obtain ⟨t', ht', hres'⟩ := hres' hr (looseCut_at hx hy st ω pk m _ h' hl)
  have hn := (loose_nonzero hx hy st ω pk m _ h hl).1 _ _ _ hQ
  refine inv_pos.2 (norm4_pos _ ?_)
  refine absorbedEdge_ne c e1 e2 (bondPermute m.dirn.val a) p1 p2 p1' p2' (t' : 𝕜) (t : 𝕜) (by exact_mod_cast ht'.ne')
    (by exact_mod_cast ht.ne') hres' hres ?_
  intro h0
  rw [h0, maxNormalise_zero] at hn
  exact hn rfl

/-- The tensors still fit together after a move. -/
theorem wired_after : Wired (m.after (numOps st ω) pk net) (newDim net f st ω pk m) := by
  have hA := (m.after_consts (numOps st ω) pk net).2.2.2
  obtain ⟨i11, i12, i13, i21, i22, i23, i31, i32, i33⟩ := fin4 m.dirn
  have along : ∀ p, m.OnLine (cellSite net.nx net.ny (p + dir (m.dirn + 1) + dir m.dirn)) ↔
      m.OnLine (cellSite net.nx net.ny (p + dir m.dirn)) := by
    intro p
    have := m.onLine_along (nx := net.nx) (ny := net.ny) (p + dir m.dirn) 1
    rwa [one_smul, add_right_comm] at this
  refine wired_of (net := m.after (numOps st ω) pk net) hx hy (fun p => ?_) (fun p k => ?_) (fun p k => ?_)
  · rw [hA]
    exact wired_site hw hx hy p
  · change ∃ c, (m.after (numOps st ω) pk net).B (cellSite net.nx net.ny p) (.C k.val) =
      .corner (newDim net f st ω pk m (cellSite net.nx net.ny (p + dir (k + 1))) (k + 3).val)
        (newDim net f st ω pk m (cellSite net.nx net.ny p) k.val) c
    have hne : ∀ k : Fin 4, k ≠ k + 3 ∧ k + 2 ≠ k + 3 := by decide
    by_cases h : m.OnLine (cellSite net.nx net.ny (p + dir m.dirn))
    · by_cases hk : k = m.dirn + 3
      · subst hk
        rw [i31, i33, newDim_other st ω pk m _ _ (hne _).2, newDim_hit st ω pk m hm p h]
        exact (new_lower hw hx hy st ω pk m hm p h).1
      by_cases hk' : k = m.dirn
      · subst hk'
        rw [newDim_other st ω pk m _ _ (hne _).1, newDim_hit st ω pk m hm _ ((along p).2 h), add_right_comm]
        exact (new_upper hw hx hy st ω pk m hm p h).1
      rw [newDim_other st ω pk m _ _ hk, newDim_other st ω pk m _ _ (fun h => hk' (by simpa using h)),
        m.after_hit (numOps st ω) pk net hx hy hm p h, if_neg (fun h => hk (Fin.ext (Slot.C.inj h))),
        if_neg (fun h => hk' (Fin.ext (Slot.C.inj h))), if_neg (by simp)]
      exact wired_corner hw hx hy p _ k _ rfl rfl
    · have hold := wired_corner hw hx hy p _ k _ rfl rfl
      rw [m.after_miss (numOps st ω) pk net hm p h, newDim_miss st ω pk m hm p h]
      by_cases hk' : k = m.dirn
      · subst hk'
        rw [newDim_miss st ω pk m hm _ (fun h' => h ((along p).1 h'))]
        exact hold
      · rw [newDim_other st ω pk m _ _ (fun h => hk' (by simpa using h))]
        exact hold
  · change ∃ c, (m.after (numOps st ω) pk net).B (cellSite net.nx net.ny p) (.E k.val) =
      .edge (newDim net f st ω pk m (cellSite net.nx net.ny p) k.val)
        (newDim net f st ω pk m (cellSite net.nx net.ny (p + dir (k + 2))) k.val) c
    by_cases hk : k = m.dirn + 3
    · subst hk
      rw [i32]
      by_cases h : m.OnLine (cellSite net.nx net.ny (p + dir m.dirn))
      · rw [newDim_hit st ω pk m hm p h, newDim_hit st ω pk m hm _ ((along p).2 h), add_right_comm]
        exact (new_edge hw hx hy st ω pk m hm p h).1
      · rw [newDim_miss st ω pk m hm p h, newDim_miss st ω pk m hm _ (fun h' => h ((along p).1 h')),
          m.after_miss (numOps st ω) pk net hm p h]
        exact wired_edge hw hx hy p _ _ (by rw [i32])
    · rw [newDim_other st ω pk m _ _ hk, newDim_other st ω pk m _ _ hk]
      have hold := wired_edge hw hx hy p _ k rfl
      by_cases h : m.OnLine (cellSite net.nx net.ny (p + dir m.dirn))
      · rw [m.after_hit (numOps st ω) pk net hx hy hm p h, if_neg (by simp), if_neg (by simp),
          if_neg (fun h => hk (Fin.ext (Slot.E.inj h)))]
        exact hold
      · rw [m.after_miss (numOps st ω) pk net hm p h]
        exact hold

end move

end AceTN
