import Verif.Props.Distributed

/-! C60: after the update of a bond, the boundary tensors facing each other across it are rebuilt from the new site tensors. -/

set_option autoImplicit false

namespace AceTN
variable {T : Type}

namespace Spec

/-- The edge tensor on side `d` of a site (0 = left, 1 = up, 2 = right, 3 = down). -/
def edgeOn : ℕ → Slot
  | 0 => .E 3
  | 1 => .E 0
  | 2 => .E 1
  | _ => .E 2

/-- The corners at the two ends of side `d`, in clockwise order. -/
def cornersOn : ℕ → Slot × Slot
  | 0 => (.C 3, .C 0)
  | 1 => (.C 0, .C 1)
  | 2 => (.C 1, .C 2)
  | _ => (.C 2, .C 3)

/-- The edges that end in the first and in the second corner of side `d` and run along the neighbouring sides. -/
def edgesBeside : ℕ → Slot × Slot
  | 0 => (.E 2, .E 0)
  | 1 => (.E 3, .E 1)
  | 2 => (.E 0, .E 2)
  | _ => (.E 1, .E 3)

/-- Is the slot one of the three boundary tensors on side `d`? -/
def OnSide (d : ℕ) (sl : Slot) : Prop := sl = edgeOn d ∨ sl = (cornersOn d).1 ∨ sl = (cornersOn d).2

/-- The sites swept together with `t` by a move along direction `d`: the column of `t` for left and right, the row for up
and down. -/
def InLine (nx ny d : ℕ) (t s : Site) : Prop :=
  InCell nx ny s ∧ if d = 0 ∨ d = 2 then s.1 = t.1 else s.2 = t.2

/-- In `net'` the three boundary tensors on side `d` of `t` are those of the neighbour `f` in `net` with the tensor of `f`
absorbed; `p`, `q` are the projectors of the two cuts. -/
def Absorbed (o : Ops T) (net net' : Net T) (d : ℕ) (f t : Site) (p q : T × T) : Prop :=
  net'.B t (cornersOn d).1 = o.cj1 (net.B f (cornersOn d).1) (net.B f (edgesBeside d).1) p.1 ∧
  net'.B t (cornersOn d).2 = o.cj2 (net.B f (cornersOn d).2) (net.B f (edgesBeside d).2) q.2 ∧
  net'.B t (edgeOn d) = o.ej (net.B f (edgeOn d)) (o.permute d (net'.A f)) p.2 q.1

end Spec

open Spec

/-- The move that refreshes the tensors on side `d` of its target, from the line of site `f`. -/
def sideMove (d : ℕ) (f : Site) : Move :=
  match d with
  | 0 => .left f.1
  | 1 => .up f.2
  | 2 => .right f.1
  | _ => .down f.2

theorem sideMove_absorbs (o : Ops T) (pk : ProjKind) (net : Net T) (d : ℕ) (hd : d < 4) (f t : Site)
    (hf : InCell net.nx net.ny f) (ht : t = neighbour net.nx net.ny f (opposite d)) :
    ∃ p q, Absorbed o net ((sideMove d f).after o pk net) d f t p q := by
  obtain ⟨fx, fy⟩ := f
  obtain ⟨hx, hy⟩ := hf
  dsimp only at hx hy
  have hd' : d = 0 ∨ d = 1 ∨ d = 2 ∨ d = 3 := by omega
  rcases hd' with rfl | rfl | rfl | rfl
  · have ht' : t = ((fx + 1) % net.nx, fy) := by rw [ht]; simp only [neighbour, opposite, int_mod_toNat_succ]
    subst ht'
    have h := fun sl => (Move.left fx).after_B_mem o pk net (i := fy) hy sl
    refine ⟨calcLeft o pk net fx fy, calcLeft o pk net fx ((fy + 1) % net.ny), (h (.C 3)).trans ?_, (h (.C 0)).trans ?_,
      (h (.E 3)).trans ?_⟩ <;> simp [newB, Move.k, Move.src, Move.jOf, Move.proj, cornersOn, edgesBeside, edgeOn, sideMove, Move.after_consts]
  · have ht' : t = (fx, (fy + net.ny - 1) % net.ny) := by
      rw [ht]; simp only [neighbour, opposite, int_mod_toNat_pred fy net.ny (by omega)]
    subst ht'
    have h := fun sl => (Move.up fy).after_B_mem o pk net (i := fx) hx sl
    refine ⟨calcUp o pk net fx fy, calcUp o pk net ((fx + 1) % net.nx) fy, (h (.C 0)).trans ?_, (h (.C 1)).trans ?_,
      (h (.E 0)).trans ?_⟩ <;> simp [newB, Move.k, Move.src, Move.jOf, Move.proj, cornersOn, edgesBeside, edgeOn, sideMove, Move.after_consts]
  · have ht' : t = ((fx + net.nx - 1) % net.nx, fy) := by
      rw [ht]; simp only [neighbour, opposite, int_mod_toNat_pred fx net.nx (by omega)]
    subst ht'
    have h := fun sl => (Move.right fx).after_B_mem o pk net (i := fy) hy sl
    refine ⟨calcRight o pk net fx fy, calcRight o pk net fx ((fy + net.ny - 1) % net.ny), (h (.C 1)).trans ?_, (h (.C 2)).trans ?_,
      (h (.E 1)).trans ?_⟩ <;> simp [newB, Move.k, Move.src, Move.jOf, Move.proj, cornersOn, edgesBeside, edgeOn, sideMove, Move.after_consts]
  · have ht' : t = (fx, (fy + 1) % net.ny) := by rw [ht]; simp only [neighbour, opposite, int_mod_toNat_succ]
    subst ht'
    have h := fun sl => (Move.down fy).after_B_mem o pk net (i := fx) hx sl
    refine ⟨calcDown o pk net fx fy, calcDown o pk net ((fx + net.nx - 1) % net.nx) fy, (h (.C 2)).trans ?_, (h (.C 3)).trans ?_,
      (h (.E 2)).trans ?_⟩ <;> simp [newB, Move.k, Move.src, Move.jOf, Move.proj, cornersOn, edgesBeside, edgeOn, sideMove, Move.after_consts]

theorem sideMove_hits (nx ny d : ℕ) (hd : d < 4) (f t : Site) (hf : InCell nx ny f) (ht : t = neighbour nx ny f (opposite d))
    (s : Site) (sl : Slot) : (sideMove d f).hits nx ny s sl ↔ InLine nx ny d t s ∧ OnSide d sl := by
  obtain ⟨fx, fy⟩ := f
  obtain ⟨hx, hy⟩ := hf
  dsimp only at hx hy
  obtain ⟨sx, sy⟩ := s
  have m1 : ∀ a, a % nx < nx := fun a => Nat.mod_lt _ (by omega)
  have m2 : ∀ a, a % ny < ny := fun a => Nat.mod_lt _ (by omega)
  have hd' : d = 0 ∨ d = 1 ∨ d = 2 ∨ d = 3 := by omega
  rcases hd' with rfl | rfl | rfl | rfl <;> subst ht <;>
    simp only [sideMove, hits_left, hits_right, hits_up, hits_down, neighbour, opposite, int_mod_toNat_succ,
      int_mod_toNat_pred fx nx (by omega), int_mod_toNat_pred fy ny (by omega), InLine, InCell, OnSide, edgeOn, cornersOn] <;>
    simp only [true_or, or_true, if_true, OfNat.ofNat_ne_zero, one_ne_zero, reduceCtorEq, OfNat.one_ne_ofNat,
      Nat.reduceEqDiff, or_self, if_false] <;> constructor
  all_goals
    first
    | rintro ⟨h1, h2, h3⟩
      refine ⟨⟨by first | exact ⟨h1 ▸ m1 _, h2⟩ | exact ⟨h2, h1 ▸ m2 _⟩, h1⟩, by tauto⟩
    | rintro ⟨⟨⟨h1, h2⟩, h3⟩, h4⟩
      exact ⟨h3, by first | exact h1 | exact h2, by tauto⟩

theorem absorbMoves_eq (b : Bond) (hk : b.k < 4) :
    absorbMoves b = [sideMove (opposite b.k) b.s1, sideMove b.k b.s2] := by
  obtain ⟨s1, s2, k⟩ := b
  have : k = 0 ∨ k = 1 ∨ k = 2 ∨ k = 3 := by simp only at hk; omega
  rcases this with rfl | rfl | rfl | rfl <;> rfl

theorem inLine_opposite (nx ny d : ℕ) (hd : d < 4) (t s : Site) : InLine nx ny (opposite d) t s ↔ InLine nx ny d t s := by
  have hd' : d = 0 ∨ d = 1 ∨ d = 2 ∨ d = 3 := by omega
  rcases hd' with rfl | rfl | rfl | rfl <;> simp [InLine, opposite]

theorem sides_disjoint (d : ℕ) (hd : d < 4) (sl : Slot) (h : OnSide (opposite d) sl) :
    ¬ OnSide d sl ∧ sl ≠ (edgesBeside d).1 ∧ sl ≠ (edgesBeside d).2 := by
  have hd' : d = 0 ∨ d = 1 ∨ d = 2 ∨ d = 3 := by omega
  rcases hd' with rfl | rfl | rfl | rfl <;> simp only [OnSide, opposite, edgeOn, cornersOn, edgesBeside] at h ⊢ <;>
    rcases h with rfl | rfl | rfl <;> decide

theorem neighbour_back (nx ny : ℕ) (s : Site) (h : InCell nx ny s) (k : ℕ) (hk : k < 4) :
    InCell nx ny (neighbour nx ny s k) ∧ neighbour nx ny (neighbour nx ny s k) (opposite k) = s := by
  obtain ⟨x, y⟩ := s
  obtain ⟨hx, hy⟩ := h
  dsimp only at hx hy
  have m1 : ∀ a, a % nx < nx := fun a => Nat.mod_lt _ (by omega)
  have m2 : ∀ a, a % ny < ny := fun a => Nat.mod_lt _ (by omega)
  have hk' : k = 0 ∨ k = 1 ∨ k = 2 ∨ k = 3 := by omega
  rcases hk' with rfl | rfl | rfl | rfl <;>
    simp only [neighbour, opposite, int_mod_toNat_succ, int_mod_toNat_pred _ nx (show 0 < nx by omega),
      int_mod_toNat_pred _ ny (show 0 < ny by omega), InCell, pred_succ_mod hx, pred_succ_mod hy, succ_pred_mod hx,
      succ_pred_mod hy, and_true]
  · exact ⟨m1 _, hy⟩
  · exact ⟨hx, m2 _⟩
  · exact ⟨m1 _, hy⟩
  · exact ⟨hx, m2 _⟩

/-- **C60** (absorption of a bond update).  The fast full update of a bond `b` completes; the two new site tensors are stored
and no other one changes; exactly the boundary tensors facing each other across the line of the bond are rewritten, each once;
and at the bond itself those of each site come from the other site, whose *new* tensor was absorbed. -/
theorem C60_absorption (o : Ops T) (pk : ProjKind) (upd : Net T → Bond → T × T) (b : Bond) (hk : b.k < 4) (net : Net T)
    (h1 : InCell net.nx net.ny b.s1) (h2 : b.s2 = neighbour net.nx net.ny b.s1 b.k) :
    ∃ net', bondUpdateSerial o pk upd b net = .ok net' ∧
      (net'.A b.s2 = (upd net b).2 ∧ (b.s1 ≠ b.s2 → net'.A b.s1 = (upd net b).1) ∧
        ∀ s, s ≠ b.s1 → s ≠ b.s2 → net'.A s = net.A s) ∧
      (∀ s sl, (InLine net.nx net.ny b.k b.s1 s ∧ OnSide b.k sl ∨ InLine net.nx net.ny b.k b.s2 s ∧ OnSide (opposite b.k) sl →
          net'.writes s sl = net.writes s sl + 1) ∧
        (¬ (InLine net.nx net.ny b.k b.s1 s ∧ OnSide b.k sl ∨ InLine net.nx net.ny b.k b.s2 s ∧ OnSide (opposite b.k) sl) →
          net'.writes s sl = net.writes s sl ∧ net'.B s sl = net.B s sl)) ∧
      (∃ p q, Absorbed o net net' (opposite b.k) b.s1 b.s2 p q) ∧ ∃ p q, Absorbed o net net' b.k b.s2 b.s1 p q := by
  classical
  obtain ⟨s1, s2, k⟩ := b
  dsimp only at hk h1 h2 ⊢
  have hopp : opposite k < 4 ∧ opposite (opposite k) = k := by
    have : k = 0 ∨ k = 1 ∨ k = 2 ∨ k = 3 := by omega
    rcases this with rfl | rfl | rfl | rfl <;> decide
  have hc2 : InCell net.nx net.ny s2 := h2 ▸ (neighbour_back _ _ _ h1 k hk).1
  have hn : s1 = neighbour net.nx net.ny s2 (opposite k) := by rw [h2, (neighbour_back _ _ _ h1 k hk).2]
  set a := upd net ⟨s1, s2, k⟩ with ha
  set net0 := (net.setA s1 a.1).setA s2 a.2 with h0
  set net1 := (sideMove (opposite k) s1).after o pk net0 with hm1
  have hrun : bondUpdateSerial o pk upd ⟨s1, s2, k⟩ net = .ok ((sideMove k s2).after o pk net1) := by
    rw [bondUpdateSerial, runMoves_eq, absorbMoves_eq _ hk]
    rfl
  have hit1 : ∀ s sl, (sideMove (opposite k) s1).hits net.nx net.ny s sl ↔
      InLine net.nx net.ny k s2 s ∧ OnSide (opposite k) sl := fun s sl => by
    rw [sideMove_hits _ _ _ hopp.1 s1 s2 h1 (by rw [hopp.2]; exact h2), inLine_opposite _ _ _ hk]
  have hit2 : ∀ s sl, (sideMove k s2).hits net.nx net.ny s sl ↔ InLine net.nx net.ny k s1 s ∧ OnSide k sl := fun s sl =>
    sideMove_hits _ _ _ hk s2 s1 hc2 hn s sl
  have keep1 : ∀ s sl, ¬ (InLine net.nx net.ny k s2 s ∧ OnSide (opposite k) sl) → net1.B s sl = net.B s sl := fun s sl h =>
    Move.after_B_not_hits o pk net0 _ s sl (by rw [show net0.nx = net.nx from rfl, show net0.ny = net.ny from rfl, hit1]; exact h)
  have keep2 : ∀ s sl, ¬ (InLine net.nx net.ny k s1 s ∧ OnSide k sl) → ((sideMove k s2).after o pk net1).B s sl = net1.B s sl :=
    fun s sl h => Move.after_B_not_hits o pk net1 _ s sl
      (by rw [show net1.nx = net.nx from rfl, show net1.ny = net.ny from rfl, hit2]; exact h)
  refine ⟨_, hrun, ?_, ?_, ?_, ?_⟩
  · refine ⟨by simp [Move.after_consts, hm1, h0, Net.setA], fun h => by simp [Move.after_consts, hm1, h0, Net.setA, h],
      fun s ha hb => by simp [Move.after_consts, hm1, h0, Net.setA, ha, hb]⟩
  · intro s sl
    have hw : ((sideMove k s2).after o pk net1).writes s sl = net.writes s sl +
        (if InLine net.nx net.ny k s2 s ∧ OnSide (opposite k) sl then 1 else 0) +
        if InLine net.nx net.ny k s1 s ∧ OnSide k sl then 1 else 0 := by
      rw [Move.after_writes, show net1.nx = net.nx from rfl, show net1.ny = net.ny from rfl, hm1, Move.after_writes,
        show net0.nx = net.nx from rfl, show net0.ny = net.ny from rfl]
      simp only [hit1, hit2]
      rfl
    constructor
    · intro h
      rw [hw]
      rcases h with h | h
      · have : ¬ (InLine net.nx net.ny k s2 s ∧ OnSide (opposite k) sl) := fun h' => (sides_disjoint k hk sl h'.2).1 h.2
        simp [h, this]
      · have : ¬ (InLine net.nx net.ny k s1 s ∧ OnSide k sl) := fun h' => (sides_disjoint k hk sl h.2).1 h'.2
        simp [h, this]
    · intro h
      rw [not_or] at h
      refine ⟨by rw [hw]; simp [h.1, h.2], ?_⟩
      rw [keep2 s sl h.1, keep1 s sl h.2]
  · obtain ⟨p, q, e1, e2, e3⟩ := sideMove_absorbs o pk net0 (opposite k) hopp.1 s1 s2 h1 (by rw [hopp.2]; exact h2)
    have kp : ∀ sl, OnSide (opposite k) sl → ((sideMove k s2).after o pk net1).B s2 sl = net1.B s2 sl := fun sl h =>
      keep2 s2 sl fun h' => (sides_disjoint k hk sl h).1 h'.2
    refine ⟨p, q, ?_, ?_, ?_⟩
    · rw [kp _ (Or.inr (Or.inl rfl))]; exact e1
    · rw [kp _ (Or.inr (Or.inr rfl))]; exact e2
    · rw [kp _ (Or.inl rfl)]; exact e3
  · obtain ⟨p, q, e1, e2, e3⟩ := sideMove_absorbs o pk net1 k hk s2 s1 hc2 hn
    have kp : ∀ sl, ¬ OnSide (opposite k) sl → net1.B s2 sl = net.B s2 sl := fun sl h => keep1 s2 sl fun h' => h h'.2
    refine ⟨p, q, ?_, ?_, ?_⟩
    · rw [e1, kp _ fun h => (sides_disjoint k hk _ h).1 (Or.inr (Or.inl rfl)), kp _ fun h => (sides_disjoint k hk _ h).2.1 rfl]
    · rw [e2, kp _ fun h => (sides_disjoint k hk _ h).1 (Or.inr (Or.inr rfl)), kp _ fun h => (sides_disjoint k hk _ h).2.2 rfl]
    · rw [e3, kp _ fun h => (sides_disjoint k hk _ h).1 (Or.inl rfl)]

/-- **C60** (distributed).  If the distributed fast full update of a bond completes, every rank ends with the same network, in
which the facing boundary tensors have been rebuilt from the broadcast site tensors.  For
half-system projectors, as C12. -/
theorem C60_distributed (o : Ops T) (ws : ℕ) (upd : Net T → Bond → T × T) (b : Bond) (hk : b.k < 4)
    (nets nets' : ℕ → Net T) (net : Net T) (hws : 2 ≤ ws) (hs : Spec.InSync ws nets net)
    (h1 : InCell net.nx net.ny b.s1) (h2 : b.s2 = neighbour net.nx net.ny b.s1 b.k)
    (h : bondUpdateDist (fun _ => o) o .half ws upd b nets = .ok nets') :
    ∀ r < ws, (nets' r).A b.s2 = (upd net b).2 ∧ (b.s1 ≠ b.s2 → (nets' r).A b.s1 = (upd net b).1) ∧
      (∃ p q, Absorbed o net (nets' r) (opposite b.k) b.s1 b.s2 p q) ∧ ∃ p q, Absorbed o net (nets' r) b.k b.s2 b.s1 p q := by
  intro r hr
  have hnx : 1 ≤ net.nx := Nat.lt_of_le_of_lt (Nat.zero_le _) h1.1
  have hny : 1 ≤ net.ny := Nat.lt_of_le_of_lt (Nat.zero_le _) h1.2
  have hser := C12_bond_update_eq_serial o ws upd b hk nets nets' net hws hnx hny hs h r hr
  obtain ⟨net', hrun, ⟨ha, hb, -⟩, -, hp, hq⟩ := C60_absorption o .half upd b hk net h1 h2
  rw [hser] at hrun
  cases hrun
  exact ⟨ha, hb, hp, hq⟩

/-! ### The hypotheses can be met -/

/-- The bond that wraps around the right border of the 3 by 2 cell of named tensors. -/
example : (⟨(2, 1), (0, 1), 2⟩ : Bond) ∈ buildBondList traceNet.nx traceNet.ny ∧ InCell traceNet.nx traceNet.ny (2, 1) ∧
    ((0, 1) : Site) = neighbour traceNet.nx traceNet.ny (2, 1) 2 ∧ (2, 1) ≠ ((0, 1) : Site) := by
  refine ⟨by decide, ⟨by decide, by decide⟩, by decide, by decide⟩

/-- What happens there: the left edge of site (0,1) is rebuilt with the new tensor of site (2,1). -/
example : ∃ net' p q, bondUpdateSerial traceOps .half (fun _ _ => ("new1", "new2")) ⟨(2, 1), (0, 1), 2⟩ traceNet = .ok net' ∧
    net'.B (0, 1) (.E 3) = traceOps.ej "E3@21" (traceOps.permute 0 "new1") p q := by
  obtain ⟨net', h, ⟨-, hA, -⟩, -, ⟨p, q, -, -, e⟩, -⟩ := C60_absorption traceOps .half (fun _ _ => ("new1", "new2"))
    ⟨(2, 1), (0, 1), 2⟩ (by decide) traceNet ⟨by decide, by decide⟩ (by decide)
  refine ⟨net', p.2, q.1, h, ?_⟩
  rw [show (Slot.E 3) = edgeOn (opposite 2) from rfl, e, hA (by decide)]
  rfl

end AceTN
