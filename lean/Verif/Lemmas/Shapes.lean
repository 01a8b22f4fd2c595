import Verif.Lemmas.SweepCount
import Verif.Model.Shapes
import Verif.Spec.Lattice

/-! The link-dimension invariant behind C10 and C11. -/

set_option autoImplicit false

namespace AceTN

/-! ### shapes of the contractions when sizes agree -/

theorem bind_of_eq {α β : Type} {x : Option α} {a : α} (h : x = some a) (f : α → Option β) :
    (x >>= f) = f a := by rw [h]; rfl

theorem permute_ok (k D p : ℕ) : permuteShape k [D, D, D, D, p] = some [D, D, D, D, p] := by
  have : k % 4 = 0 ∨ k % 4 = 1 ∨ k % 4 = 2 ∨ k % 4 = 3 := by omega
  have h : ∀ j, ([D, D, D, D] : List ℕ).getD (j % 4) 0 = D := by
    intro j
    have : j % 4 = 0 ∨ j % 4 = 1 ∨ j % 4 = 2 ∨ j % 4 = 3 := by omega
    rcases this with h | h | h | h <;> rw [h] <;> rfl
  simp only [permuteShape, List.range_succ, List.range_zero, List.nil_append, List.cons_append,
    List.map_cons, List.map_nil, h]

theorem quarter_ok (D p a b c e : ℕ) :
    quarterShape [D, D, D, D, p] [a, b] [e, a, D, D] [b, c, D, D] = some [c, D, D, e, D, D] := by
  simp [quarterShape, einsumShape, bindAll, bindIdx, outShape]

theorem half_ok (z D c e f : ℕ) :
    halfShape z [c, D, D, e, D, D] [e, D, D, f, D, D] = some ([e, D, D, z], [e, D, D, z]) := by
  simp [halfShape, matmulShape, qRows, qCols, einsumShape, bindAll, bindIdx, outShape]

theorem full_ok (z D c e f g h : ℕ) :
    fullShape z [c, D, D, e, D, D] [h, D, D, c, D, D] [f, D, D, g, D, D] [e, D, D, f, D, D]
      = some ([e, D, D, z], [e, D, D, z]) := by
  simp [fullShape, matmulShape, qRows, qCols, einsumShape, bindAll, bindIdx, outShape]

theorem cj1_ok (D a b c z : ℕ) : cj1Shape [b, c] [a, b, D, D] [c, D, D, z] = some [a, z] := by
  simp [cj1Shape, einsumShape, bindAll, bindIdx, outShape]

theorem cj2_ok (D a b c z : ℕ) : cj2Shape [a, b] [b, c, D, D] [a, D, D, z] = some [z, c] := by
  simp [cj2Shape, einsumShape, bindAll, bindIdx, outShape]

theorem ej_ok (D p a b y x : ℕ) :
    ejShape [a, b, D, D] [D, D, D, D, p] [a, D, D, y] [b, D, D, x] = some [y, x, D, D] := by
  simp [ejShape, einsumShape, bindAll, bindIdx, outShape]

theorem siteRdm_ok (D p a0 b0 a1 b1 a2 b2 a3 b3 : ℕ) :
    siteRdmShape [b3, a0] [b0, a1] [b1, a2] [b2, a3] [a0, b0, D, D] [a1, b1, D, D] [a2, b2, D, D]
      [a3, b3, D, D] [D, D, D, D, p] = some [p, p] := by
  iterate 8 refine (bind_of_eq (by simp [einsumShape, bindAll, bindIdx, outShape]; rfl) _).trans ?_
  simp [einsumShape, bindAll, bindIdx, outShape]

theorem bondRdm_ok (D p w1 w2 x0 y0 z0 a1 b1 a2 x2 z2 a3 b3 : ℕ) :
    bondRdmBlockShape w1 w2 [y0, a1] [a1, b1, D, D] [x0, y0, D, D] [b1, a2] [a2, x2, D, D] [D, D, D, D, p]
      [b3, z0] [z0, x0, D, D] [a3, b3, D, D] [z2, a3] [x2, z2, D, D] [D, D, D, D, p]
      = some [w1, w2, p, p] := by
  iterate 12 refine (bind_of_eq (by simp [einsumShape, bindAll, bindIdx, outShape]; rfl) _).trans ?_
  simp [einsumShape, bindAll, bindIdx, outShape]

theorem norm_ok (D n x0 y0 z0 a1 b1 a2 x2 z2 a3 b3 : ℕ) :
    normShape [y0, a1] [a1, b1, D, D] [x0, y0, D, D] [b1, a2] [a2, x2, D, D] [D, D, D, n]
      [b3, z0] [z0, x0, D, D] [a3, b3, D, D] [z2, a3] [x2, z2, D, D] [D, D, D, n]
      = some [n, n, n, n] := by
  iterate 12 refine (bind_of_eq (by simp [einsumShape, bindAll, bindIdx, outShape]; rfl) _).trans ?_
  simp [einsumShape, bindAll, bindIdx, outShape]

/-! ### geometry: one step clockwise along the boundary -/

/-- The next site clockwise along boundary row `e` (up edges run to the right, right edges down, down edges
to the left, left edges up). -/
def nxt (nx ny e : ℕ) (s : Site) : Site :=
  if e % 4 = 0 then ((s.1 + 1) % nx, s.2)
  else if e % 4 = 1 then (s.1, (s.2 + ny - 1) % ny)
  else if e % 4 = 2 then ((s.1 + nx - 1) % nx, s.2)
  else (s.1, (s.2 + 1) % ny)

theorem nxt_mod (nx ny e : ℕ) (s : Site) : nxt nx ny (e % 4) s = nxt nx ny e s := by
  simp [nxt]

theorem nxt_congr {nx ny e e' : ℕ} (h : e % 4 = e' % 4) (s : Site) : nxt nx ny e s = nxt nx ny e' s := by
  simp [nxt, h]

theorem nxt_inCell {nx ny : ℕ} (e : ℕ) {s : Site} (hs : Spec.InCell nx ny s) :
    Spec.InCell nx ny (nxt nx ny e s) := by
  obtain ⟨h1, h2⟩ := hs
  have hx : 0 < nx := by omega
  have hy : 0 < ny := by omega
  unfold nxt
  split
  · exact ⟨Nat.mod_lt _ hx, h2⟩
  split
  · exact ⟨h1, Nat.mod_lt _ hy⟩
  split
  · exact ⟨Nat.mod_lt _ hx, h2⟩
  · exact ⟨h1, Nat.mod_lt _ hy⟩

theorem nxt_back {nx ny : ℕ} (e : ℕ) {s : Site} (hs : Spec.InCell nx ny s) :
    nxt nx ny (e + 2) (nxt nx ny e s) = s := by
  obtain ⟨h1, h2⟩ := hs
  have : e % 4 = 0 ∨ e % 4 = 1 ∨ e % 4 = 2 ∨ e % 4 = 3 := by omega
  rcases this with h | h | h | h
  · simp only [nxt, h, show (e + 2) % 4 = 2 by omega]; simp [succ_pred_mod h1]
  · simp only [nxt, h, show (e + 2) % 4 = 3 by omega]; simp [pred_succ_mod h2]
  · simp only [nxt, h, show (e + 2) % 4 = 0 by omega]; simp [pred_succ_mod h1]
  · simp only [nxt, h, show (e + 2) % 4 = 1 by omega]; simp [succ_pred_mod h2]

theorem nxt_back' {nx ny : ℕ} (e : ℕ) {s : Site} (hs : Spec.InCell nx ny s) :
    nxt nx ny e (nxt nx ny (e + 2) s) = s := by
  have := nxt_back (e + 2) hs
  rwa [nxt_congr (show (e + 2 + 2) % 4 = e % 4 by omega)] at this

theorem nxt_comm (nx ny e : ℕ) (s : Site) :
    nxt nx ny (e + 1) (nxt nx ny e s) = nxt nx ny e (nxt nx ny (e + 1) s) := by
  have : e % 4 = 0 ∨ e % 4 = 1 ∨ e % 4 = 2 ∨ e % 4 = 3 := by omega
  rcases this with h | h | h | h
  · simp [nxt, h, show (e + 1) % 4 = 1 by omega]
  · simp [nxt, h, show (e + 1) % 4 = 2 by omega]
  · simp [nxt, h, show (e + 1) % 4 = 3 by omega]
  · simp [nxt, h, show (e + 1) % 4 = 0 by omega]

theorem nxt_comm3 (nx ny k : ℕ) (s : Site) :
    nxt nx ny (k + 3) (nxt nx ny k s) = nxt nx ny k (nxt nx ny (k + 3) s) := by
  have := nxt_comm nx ny (k + 3) s
  rw [nxt_congr (show (k + 3 + 1) % 4 = k % 4 by omega),
    nxt_congr (show (k + 3 + 1) % 4 = k % 4 by omega)] at this
  exact this.symm

/-! ### the moves in terms of `nxt` -/

variable {T : Type}

theorem Move.k_lt (m : Move) : m.k < 4 := by cases m <;> simp [Move.k]

theorem Move.tgt_eq (nx ny : ℕ) (m : Move) (i : ℕ) : m.tgt nx ny i = nxt nx ny m.k (m.src i) := by
  cases m <;> simp [Move.tgt, Move.src, Move.k, nxt]

theorem Move.src_jOf (nx ny : ℕ) (m : Move) (i : ℕ) :
    m.src (m.jOf nx ny i) = nxt nx ny (m.k + 3) (m.src i) := by
  cases m <;> simp [Move.jOf, Move.src, Move.k, nxt]

theorem Move.proj_eq (o : Ops T) (pk : ProjKind) (net : Net T) (m : Move) (i : ℕ) :
    m.proj o pk net i = calcProjectors o pk net (m.src i) (nxt net.nx net.ny m.k (m.src i))
      (nxt net.nx net.ny m.k (nxt net.nx net.ny (m.k + 1) (m.src i)))
      (nxt net.nx net.ny (m.k + 1) (m.src i)) m.k := by
  cases m <;> simp [Move.proj, calcLeft, calcRight, calcUp, calcDown, Move.src, Move.k, nxt]

theorem Move.src_inCell {nx ny : ℕ} {m : Move} (hm : (match m with
    | .left x | .right x => x < nx
    | .up y | .down y => y < ny)) {i : ℕ} (hi : i < m.n nx ny) : Spec.InCell nx ny (m.src i) := by
  cases m <;> exact ⟨by first | exact hm | exact hi, by first | exact hm | exact hi⟩

theorem Move.jOf_lt {nx ny : ℕ} (m : Move) {i : ℕ} (hi : i < m.n nx ny) : m.jOf nx ny i < m.n nx ny := by
  cases m <;> simp only [Move.n] at hi ⊢ <;> exact Nat.mod_lt _ (by omega)

/-! ### the invariant -/

/-- Shapes of the network in terms of the link dimensions: `lk e s` is the first dimension of `E[e]` at `s`. -/
structure Fits (sh : T → Option Shape) (D p : ℕ) (net : Net T) (lk : ℕ → Site → ℕ) : Prop where
  a : ∀ s, Spec.InCell net.nx net.ny s → sh (net.A s) = some [D, D, D, D, p]
  e : ∀ s, Spec.InCell net.nx net.ny s → ∀ e < 4,
    sh (net.B s (.E e)) = some [lk e s, lk e (nxt net.nx net.ny e s), D, D]
  c : ∀ s, Spec.InCell net.nx net.ny s → ∀ e < 4,
    sh (net.B s (.C e)) = some [lk ((e + 3) % 4) (nxt net.nx net.ny (e + 3) s), lk e s]

theorem Fits.eMod {sh : T → Option Shape} {D p : ℕ} {net : Net T} {lk : ℕ → Site → ℕ}
    (h : Fits sh D p net lk) {s : Site} (hs : Spec.InCell net.nx net.ny s) (e : ℕ) :
    sh (net.B s (.E (e % 4))) = some [lk (e % 4) s, lk (e % 4) (nxt net.nx net.ny e s), D, D] := by
  rw [h.e s hs _ (Nat.mod_lt _ (by omega)), nxt_mod]

theorem Fits.cMod {sh : T → Option Shape} {D p : ℕ} {net : Net T} {lk : ℕ → Site → ℕ}
    (h : Fits sh D p net lk) {s : Site} (hs : Spec.InCell net.nx net.ny s) (e : ℕ) :
    sh (net.B s (.C (e % 4))) = some [lk ((e + 3) % 4) (nxt net.nx net.ny (e + 3) s), lk (e % 4) s] := by
  rw [h.c s hs _ (Nat.mod_lt _ (by omega)), nxt_congr (show (e % 4 + 3) % 4 = (e + 3) % 4 by omega),
    show (e % 4 + 3) % 4 = (e + 3) % 4 by omega]

theorem quarterTensor_shape {o : Ops T} {sh : T → Option Shape} (L : ShapeLaws o sh) {D p : ℕ} {net : Net T}
    {lk : ℕ → Site → ℕ} (h : Fits sh D p net lk) {s : Site} (hs : Spec.InCell net.nx net.ny s) (k : ℕ) :
    sh (quarterTensor o net s k)
      = some [lk (k % 4) (nxt net.nx net.ny k s), D, D, lk ((k + 3) % 4) s, D, D] := by
  rw [quarterTensor, L.quarter, L.permute, h.a s hs, Nat.zero_add, Nat.add_comm 3 k, h.cMod hs, h.eMod hs,
    h.eMod hs]
  simp only [Option.bind_some, permute_ok]
  exact quarter_ok _ _ _ _ _ _

theorem calcProjectors_shape {o : Ops T} {sh : T → Option Shape} (L : ShapeLaws o sh) (pk : ProjKind)
    {D p : ℕ} {net : Net T} {lk : ℕ → Site → ℕ} (h : Fits sh D p net lk) (hchi : 1 ≤ net.chi) {s : Site}
    (hs : Spec.InCell net.nx net.ny s) (k : ℕ) :
    ∃ z, 1 ≤ z ∧ z ≤ net.chi ∧
      let P := calcProjectors o pk net s (nxt net.nx net.ny k s)
        (nxt net.nx net.ny k (nxt net.nx net.ny (k + 1) s)) (nxt net.nx net.ny (k + 1) s) k
      sh P.1 = some [lk ((k + 3) % 4) s, D, D, z] ∧ sh P.2 = some [lk ((k + 3) % 4) s, D, D, z] := by
  set s2 := nxt net.nx net.ny k s with hs2
  set s4 := nxt net.nx net.ny (k + 1) s with hs4
  have i4 : Spec.InCell net.nx net.ny s4 := nxt_inCell _ hs
  have i2 : Spec.InCell net.nx net.ny s2 := nxt_inCell _ hs
  have i3 : Spec.InCell net.nx net.ny (nxt net.nx net.ny k s4) := nxt_inCell _ i4
  have b4 : nxt net.nx net.ny (k + 3) s4 = s := by
    rw [hs4]; exact nxt_back (k + 1) hs
  have q1 := quarterTensor_shape L h hs k
  have q4 := quarterTensor_shape L h i4 (k + 3)
  rw [b4, show (k + 3 + 3) % 4 = (k + 2) % 4 by omega] at q4
  cases pk with
  | half =>
    obtain ⟨z, z1, z2, e1, e2⟩ := L.half (k, s) net.chi (quarterTensor o net s k)
      (quarterTensor o net s4 (k + 3)) hchi
    refine ⟨z, z1, z2, ?_⟩
    rw [q1, q4] at e1 e2
    simp only [Option.bind_some, half_ok, Option.map_some] at e1 e2
    exact ⟨e1, e2⟩
  | full =>
    have q2 := quarterTensor_shape L h i2 (k + 1)
    have e24 : lk (k % 4) s2 = lk (k % 4) (nxt net.nx net.ny k s) := by rw [hs2]
    have q3 := quarterTensor_shape L h i3 (k + 2)
    rw [show (k + 1 + 3) % 4 = k % 4 by omega] at q2
    rw [nxt_back k i4, show (k + 2 + 3) % 4 = (k + 1) % 4 by omega] at q3
    obtain ⟨z, z1, z2, e1, e2⟩ := L.full (k, s) net.chi (quarterTensor o net s k)
      (quarterTensor o net s2 (k + 1)) (quarterTensor o net (nxt net.nx net.ny k s4) (k + 2))
      (quarterTensor o net s4 (k + 3)) hchi
    refine ⟨z, z1, z2, ?_⟩
    rw [q1, q2, q3, q4, ← hs2] at e1 e2
    simp only [Option.bind_some, full_ok, Option.map_some] at e1 e2
    exact ⟨e1, e2⟩

/-- A site is one of the targets of a move. -/
def Move.onLine (nx ny : ℕ) (m : Move) (s : Site) : Prop := ∃ i < m.n nx ny, m.tgt nx ny i = s

/-- A move preserves the invariant; only the links of its own boundary row on its target line change, and
they become the truncated dimensions. -/
theorem move_fits {o : Ops T} {sh : T → Option Shape} (L : ShapeLaws o sh) (pk : ProjKind)
    {D p : ℕ} {net : Net T} {lk : ℕ → Site → ℕ} (h : Fits sh D p net lk) (hchi : 1 ≤ net.chi) (m : Move)
    (hm : match m with
      | .left x | .right x => x < net.nx
      | .up y | .down y => y < net.ny) :
    ∃ lk', Fits sh D p (m.after o pk net) lk' ∧
      (∀ e s, ¬ (e = (m.k + 3) % 4 ∧ m.onLine net.nx net.ny s) → lk' e s = lk e s) ∧
      (∀ s, m.onLine net.nx net.ny s → 1 ≤ lk' ((m.k + 3) % 4) s ∧ lk' ((m.k + 3) % 4) s ≤ net.chi) := by
  classical
  have hz : ∀ i, ∃ z, i < m.n net.nx net.ny → 1 ≤ z ∧ z ≤ net.chi ∧
      sh (m.proj o pk net i).1 = some [lk ((m.k + 3) % 4) (m.src i), D, D, z] ∧
      sh (m.proj o pk net i).2 = some [lk ((m.k + 3) % 4) (m.src i), D, D, z] := by
    intro i
    by_cases hi : i < m.n net.nx net.ny
    · obtain ⟨z, z1, z2, hp⟩ := calcProjectors_shape L pk h hchi (Move.src_inCell hm hi) m.k
      refine ⟨z, fun _ => ⟨z1, z2, ?_⟩⟩
      rw [Move.proj_eq]; exact hp
    · exact ⟨0, fun h => absurd h hi⟩
  choose z hz using hz
  -- the index of a target site
  let idx : Site → ℕ := fun s => if hl : m.onLine net.nx net.ny s then hl.choose else 0
  have idx_tgt : ∀ i < m.n net.nx net.ny, idx (m.tgt net.nx net.ny i) = i := by
    intro i hi
    have hl : m.onLine net.nx net.ny (m.tgt net.nx net.ny i) := ⟨i, hi, rfl⟩
    simp only [idx, dif_pos hl]
    exact m.tgt_inj hl.choose_spec.2
  let lk' : ℕ → Site → ℕ := fun e s =>
    if e = (m.k + 3) % 4 ∧ m.onLine net.nx net.ny s then z (idx s) else lk e s
  have lk'_tgt : ∀ i < m.n net.nx net.ny, lk' ((m.k + 3) % 4) (m.tgt net.nx net.ny i) = z i := by
    intro i hi
    simp only [lk']
    rw [if_pos ⟨trivial, ⟨i, hi, rfl⟩⟩, idx_tgt i hi]
  have lk'_ne : ∀ e s, ¬ (e = (m.k + 3) % 4 ∧ m.onLine net.nx net.ny s) → lk' e s = lk e s := by
    intro e s hne; simp only [lk']; rw [if_neg hne]
  have tgt_j : ∀ i, nxt net.nx net.ny (m.k + 3) (m.tgt net.nx net.ny i)
      = m.tgt net.nx net.ny (m.jOf net.nx net.ny i) := by
    intro i; rw [m.tgt_eq, m.tgt_eq, m.src_jOf, nxt_comm3]
  -- moving along the line stays on or off the line
  have line_nxt : ∀ s, Spec.InCell net.nx net.ny s →
      m.onLine net.nx net.ny (nxt net.nx net.ny (m.k + 3) s) → m.onLine net.nx net.ny s := by
    intro s hs ⟨i, hi, he⟩
    cases m with
    | left x => refine ⟨s.2, hs.2, ?_⟩
                simp [Move.tgt, Move.k, nxt] at he ⊢
                exact Prod.ext he.1 rfl
    | right x => refine ⟨s.2, hs.2, ?_⟩
                 simp [Move.tgt, Move.k, nxt] at he ⊢
                 exact Prod.ext he.1 rfl
    | up x => refine ⟨s.1, hs.1, ?_⟩
              simp [Move.tgt, Move.k, nxt] at he ⊢
              exact Prod.ext rfl he.2
    | down x => refine ⟨s.1, hs.1, ?_⟩
                simp [Move.tgt, Move.k, nxt] at he ⊢
                exact Prod.ext rfl he.2
  have hk := m.k_lt
  refine ⟨lk', ⟨fun s hs => h.a s hs, ?_, ?_⟩, lk'_ne, ?_⟩
  · -- edges
    intro s hs e he
    show sh ((m.after o pk net).B s (.E e)) = some [lk' e s, lk' e (nxt net.nx net.ny e s), D, D]
    by_cases hl : m.onLine net.nx net.ny s
    · obtain ⟨i, hi, rfl⟩ := hl
      rw [m.after_B_mem o pk net hi]
      by_cases hee : e = (m.k + 3) % 4
      · subst hee
        have hj := m.jOf_lt hi
        rw [nxt_mod, tgt_j, lk'_tgt i hi, lk'_tgt _ hj]
        have hs' := Move.src_inCell hm hi
        simp only [newB, reduceCtorEq, if_false]
        rw [show (3 + m.k) % 4 = (m.k + 3) % 4 by omega, if_pos rfl, L.ej, L.permute, h.a _ hs', h.eMod hs',
          (hz i hi).2.2.2, (hz _ hj).2.2.1, m.src_jOf]
        simp only [Option.bind_some, permute_ok]
        exact ej_ok _ _ _ _ _ _
      · have : ¬ (Slot.E e = .E ((3 + m.k) % 4)) := by
          intro hh; injection hh with hh; exact hee (by omega)
        simp only [newB, reduceCtorEq, if_false, this]
        rw [lk'_ne _ _ (fun hh => hee hh.1), lk'_ne _ _ (fun hh => hee hh.1)]
        exact h.e _ hs e he
    · rw [m.after_B_ne o pk net (fun i hi he => hl ⟨i, hi, he⟩), h.e s hs e he,
        lk'_ne _ _ (fun hh => hl hh.2), lk'_ne]
      rintro ⟨rfl, hh⟩
      rw [nxt_mod] at hh
      exact hl (line_nxt s hs hh)
  · -- corners
    intro s hs e he
    show sh ((m.after o pk net).B s (.C e))
      = some [lk' ((e + 3) % 4) (nxt net.nx net.ny (e + 3) s), lk' e s]
    by_cases hl : m.onLine net.nx net.ny s
    · obtain ⟨i, hi, rfl⟩ := hl
      rw [m.after_B_mem o pk net hi]
      have hs' := Move.src_inCell hm hi
      by_cases hee : e = (m.k + 3) % 4
      · subst hee
        have hback : nxt net.nx net.ny ((m.k + 3) % 4 + 3) (m.tgt net.nx net.ny i) = m.src i := by
          rw [m.tgt_eq, nxt_congr (show ((m.k + 3) % 4 + 3) % 4 = (m.k + 2) % 4 by omega)]
          exact nxt_back m.k hs'
        rw [hback, lk'_tgt i hi, lk'_ne _ _ (by rintro ⟨hh, -⟩; omega)]
        have hne : ¬ (Slot.C ((m.k + 3) % 4) = .C m.k) := by
          intro hh; injection hh with hh; omega
        simp only [newB]
        have c0 := h.cMod hs' (m.k + 3)
        have e0 := h.eMod hs' (m.k + 2)
        rw [show (m.k + 3 + 3) % 4 = (m.k + 2) % 4 by omega,
          nxt_congr (show (m.k + 3 + 3) % 4 = (m.k + 2) % 4 by omega)] at c0
        rw [show (3 + m.k) % 4 = (m.k + 3) % 4 by omega, show (2 + m.k) % 4 = (m.k + 2) % 4 by omega]
        simp only [hne, reduceCtorEq, if_true, if_false]
        rw [L.cj1, c0, e0, (hz i hi).2.2.1]
        simp only [Option.bind_some]
        rw [show ((m.k + 3) % 4 + 3) % 4 = (m.k + 2) % 4 by omega]
        exact cj1_ok _ _ _ _ _
      · by_cases hek : e = m.k
        · subst hek
          have hj := m.jOf_lt hi
          rw [tgt_j, lk'_tgt _ hj, lk'_ne _ _ (by rintro ⟨hh, -⟩; omega), m.tgt_eq]
          have c0 := h.c _ hs' m.k m.k_lt
          have e0 := h.e _ hs' m.k m.k_lt
          simp only [newB]
          have hne : ¬ (Slot.C m.k = .C ((3 + m.k) % 4)) := by
            intro hh; injection hh with hh; omega
          simp only [hne, reduceCtorEq, if_true, if_false]
          rw [L.cj2, c0, e0, (hz _ hj).2.2.2, m.src_jOf]
          simp only [Option.bind_some]
          exact cj2_ok _ _ _ _ _
        · have h1 : ¬ (Slot.C e = .C ((3 + m.k) % 4)) := by
            intro hh; injection hh with hh; omega
          have h2 : ¬ (Slot.C e = .C m.k) := by
            intro hh; injection hh with hh; exact hek hh
          simp only [newB, reduceCtorEq, if_false, h1, h2]
          rw [lk'_ne _ _ (by rintro ⟨hh, -⟩; omega), lk'_ne _ _ (fun hh => hee hh.1)]
          exact h.c _ hs e he
    · rw [m.after_B_ne o pk net (fun i hi he => hl ⟨i, hi, he⟩), h.c s hs e he,
        lk'_ne e s (fun hh => hl hh.2), lk'_ne]
      rintro ⟨hh, hon⟩
      have : e = m.k := by omega
      subst this
      exact hl (line_nxt s hs hon)
  · rintro s ⟨i, hi, rfl⟩
    rw [lk'_tgt i hi]
    exact ⟨(hz i hi).1, (hz i hi).2.1⟩

/-- Column or row index inside the cell. -/
def Move.ok (nx ny : ℕ) (m : Move) : Prop := match m with
  | .left x | .right x => x < nx
  | .up y | .down y => y < ny

theorem moves_fits {o : Ops T} {sh : T → Option Shape} (L : ShapeLaws o sh) (pk : ProjKind)
    {D p : ℕ} (ms : List Move) {net : Net T} {lk : ℕ → Site → ℕ} (h : Fits sh D p net lk) (hchi : 1 ≤ net.chi)
    (hm : ∀ m ∈ ms, m.ok net.nx net.ny) :
    ∃ lk', Fits sh D p (movesAfter o pk ms net) lk' ∧
      (∀ e s, (∀ m ∈ ms, ¬ (e = (m.k + 3) % 4 ∧ m.onLine net.nx net.ny s)) → lk' e s = lk e s) ∧
      (∀ e s, (∃ m ∈ ms, e = (m.k + 3) % 4 ∧ m.onLine net.nx net.ny s) →
        1 ≤ lk' e s ∧ lk' e s ≤ net.chi) := by
  induction ms generalizing net lk with
  | nil => exact ⟨lk, h, fun _ _ _ => rfl, by simp⟩
  | cons m ms ih =>
    obtain ⟨lk1, f1, n1, b1⟩ := move_fits L pk h hchi m (hm m (List.mem_cons_self ..))
    obtain ⟨lk2, f2, n2, b2⟩ := ih f1 hchi (fun m' hm' => hm m' (List.mem_cons_of_mem _ hm'))
    refine ⟨lk2, f2, ?_, ?_⟩
    · intro e s hh
      rw [n2 e s (fun m' hm' => hh m' (List.mem_cons_of_mem _ hm')), n1 e s (hh m (List.mem_cons_self ..))]
    · rintro e s ⟨m', hm', he, hl⟩
      by_cases hx : ∃ m'' ∈ ms, e = (m''.k + 3) % 4 ∧ m''.onLine net.nx net.ny s
      · exact b2 e s hx
      · have hx' : ∀ m'' ∈ ms, ¬ (e = (m''.k + 3) % 4 ∧ m''.onLine net.nx net.ny s) :=
          fun m'' h1 h2 => hx ⟨m'', h1, h2⟩
        rw [n2 e s hx']
        rcases List.mem_cons.1 hm' with rfl | hm''
        · subst he; exact b1 s hl
        · exact absurd ⟨he, hl⟩ (hx' m' hm'')

theorem sweep_ok (nx ny : ℕ) : ∀ m ∈ sweepMoves nx ny, m.ok nx ny := by
  intro m hm
  simp only [sweepMoves, List.mem_append, List.mem_flatMap, List.mem_range, List.mem_cons,
    List.not_mem_nil, or_false] at hm
  rcases hm with ⟨x, hx, rfl | rfl⟩ | ⟨y, hy, rfl | rfl⟩
  · exact hx
  · exact Nat.mod_lt _ (by omega)
  · exact Nat.mod_lt _ (by omega)
  · exact hy

theorem sweep_covers (nx ny : ℕ) (s : Site) (hs : Spec.InCell nx ny s) (e : ℕ) (he : e < 4) :
    ∃ m ∈ sweepMoves nx ny, e = (m.k + 3) % 4 ∧ m.onLine nx ny s := by
  classical
  have h := (sweep_hits nx ny s hs.1 hs.2 e he).1
  have : 0 < (sweepMoves nx ny).countP (fun m => m.hits nx ny s (.E e)) := by rw [h]; exact Nat.one_pos
  obtain ⟨m, hm, hh⟩ := List.countP_pos_iff.1 this
  rw [decide_eq_true_eq] at hh
  refine ⟨m, hm, ?_, hh.1⟩
  have h2 := hh.2
  simp only [hitSlot, reduceCtorEq, false_or, Slot.E.injEq] at h2
  omega

theorem ctmrg_fits {o : Ops T} {sh : T → Option Shape} (L : ShapeLaws o sh) (pk : ProjKind)
    {D p : ℕ} (n : ℕ) {net : Net T} {lk : ℕ → Site → ℕ} (h : Fits sh D p net lk) (hchi : 1 ≤ net.chi) :
    ∃ net' lk', ctmrg o pk n net = .ok net' ∧ Fits sh D p net' lk' ∧ net'.nx = net.nx ∧ net'.ny = net.ny ∧
      net'.chi = net.chi ∧
      ((0 < n ∨ ∀ s, Spec.InCell net.nx net.ny s → ∀ e < 4, 1 ≤ lk e s ∧ lk e s ≤ net.chi) →
        ∀ s, Spec.InCell net.nx net.ny s → ∀ e < 4, 1 ≤ lk' e s ∧ lk' e s ≤ net.chi) := by
  induction n generalizing net lk with
  | zero => exact ⟨net, lk, rfl, h, rfl, rfl, rfl, fun hh => hh.resolve_left (by omega)⟩
  | succ n ih =>
    obtain ⟨lk1, f1, -, b1⟩ := moves_fits L pk (sweepMoves net.nx net.ny) h hchi (sweep_ok _ _)
    obtain ⟨c1, c2, c3, -⟩ := movesAfter_consts o pk (sweepMoves net.nx net.ny) net
    obtain ⟨net', lk', r, f, e1, e2, e3, b⟩ := ih f1 (by rw [c3]; exact hchi)
    refine ⟨net', lk', ?_, f, e1.trans c1, e2.trans c2, e3.trans c3, ?_⟩
    · simp only [ctmrg, runMoves_eq, bind, Except.bind]; exact r
    · intro _
      rw [c1, c2, c3] at b
      apply b
      right
      intro s hs e he
      exact b1 e s (sweep_covers _ _ s hs e he)

end AceTN
