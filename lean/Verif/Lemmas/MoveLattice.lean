import Verif.Lemmas.Moves
import Verif.Lemmas.Lattice
import Verif.Spec.ClusterNet

/-!
The moves seen on the infinite lattice.
-/

set_option autoImplicit false

namespace AceTN

open Spec

theorem neighbour_cellSite (nx ny : ℕ) (hx : 0 < nx) (hy : 0 < ny) (p : ℤ × ℤ) (k : Fin 4) :
    neighbour nx ny (cellSite nx ny p) k.val = cellSite nx ny (p + dir k) := by
  have h1 := Int.emod_nonneg p.1 (show (nx : ℤ) ≠ 0 by omega)
  have h3 := Int.emod_nonneg p.2 (show (ny : ℤ) ≠ 0 by omega)
  match k with
  | 0 | 1 | 2 | 3 =>
    simp [neighbour, cellSite, dir, h1, h3, Int.emod_add_emod, sub_eq_add_neg]

theorem cellSite_self (nx ny : ℕ) (s : Site) (hs : InCell nx ny s) : cellSite nx ny ((s.1 : ℤ), (s.2 : ℤ)) = s := by
  obtain ⟨h1, h2⟩ := hs
  unfold cellSite
  ext
  · dsimp only
    rw [Int.emod_eq_of_lt (by omega) (by omega)]
    rfl
  · dsimp only
    rw [Int.emod_eq_of_lt (by omega) (by omega)]
    rfl

namespace Move

/-- The direction of a move. -/
def dirn : Move → Fin 4
  | .left _ => 0 | .up _ => 1 | .right _ => 2 | .down _ => 3

theorem k_eq (m : Move) : m.k = m.dirn.val := by cases m <;> rfl

/-- The position of a site along the line of a move. -/
def idx : Move → Site → ℕ
  | .left _, s | .right _, s => s.2
  | .up _, s | .down _, s => s.1

/-- The line of the move is one of the cell. -/
def Valid (nx ny : ℕ) : Move → Prop
  | .left x | .right x => x < nx
  | .up y | .down y => y < ny

/-- The site is on the line that the move absorbs. -/
def OnLine (m : Move) (s : Site) : Prop := m.src (m.idx s) = s

instance (m : Move) (s : Site) : Decidable (m.OnLine s) := by unfold OnLine; infer_instance

end Move

section geometry

variable {nx ny : ℕ} (hx : 0 < nx) (hy : 0 < ny)

include hx hy

theorem Move.idx_lt (m : Move) (p : ℤ × ℤ) : m.idx (cellSite nx ny p) < m.n nx ny := by
  have h1 := Int.emod_nonneg p.1 (show (nx : ℤ) ≠ 0 by omega)
  have h2 := Int.emod_lt_of_pos p.1 (show (0 : ℤ) < nx by omega)
  have h3 := Int.emod_nonneg p.2 (show (ny : ℤ) ≠ 0 by omega)
  have h4 := Int.emod_lt_of_pos p.2 (show (0 : ℤ) < ny by omega)
  cases m <;> simp only [Move.idx, Move.n, cellSite] <;> omega

omit hx hy in
theorem Move.idx_dir (m : Move) (p : ℤ × ℤ) : m.idx (cellSite nx ny (p + dir m.dirn)) = m.idx (cellSite nx ny p) := by
  cases m <;> simp [Move.idx, cellSite, dir, Move.dirn]

omit hx hy in
theorem toNat_succ {n : ℕ} (hn : 0 < n) (a : ℤ) : ((a % n).toNat + 1) % n = ((a + 1) % n).toNat := by
  rw [← int_mod_toNat_succ, Int.toNat_of_nonneg (Int.emod_nonneg a (by omega)), Int.emod_add_emod]

omit hx hy in
theorem toNat_pred {n : ℕ} (hn : 0 < n) (a : ℤ) : ((a % n).toNat + n - 1) % n = ((a - 1) % n).toNat := by
  rw [← int_mod_toNat_pred _ _ hn, Int.toNat_of_nonneg (Int.emod_nonneg a (by omega)), Int.emod_sub_emod]

omit hx hy in
theorem toNat_lt {n : ℕ} (hn : 0 < n) (a : ℤ) : (a % n).toNat < n := by
  have h1 := Int.emod_nonneg a (show (n : ℤ) ≠ 0 by omega)
  have h2 := Int.emod_lt_of_pos a (show (0 : ℤ) < n by omega)
  omega

omit hx hy in
theorem succ_eq_iff {n x : ℕ} (hx : x < n) (a : ℤ) : (x + 1) % n = (a % n).toNat ↔ x = ((a - 1) % n).toNat := by
  have hn : 0 < n := by omega
  rw [← toNat_pred hn]
  constructor
  · intro h
    rw [← h, succ_pred_mod hx]
  · rintro rfl
    rw [pred_succ_mod (toNat_lt hn a)]

omit hx hy in
theorem pred_eq_iff {n x : ℕ} (hx : x < n) (a : ℤ) : (x + n - 1) % n = (a % n).toNat ↔ x = ((a + 1) % n).toNat := by
  have hn : 0 < n := by omega
  rw [← toNat_succ hn]
  constructor
  · intro h
    rw [← h, pred_succ_mod hx]
  · rintro rfl
    rw [succ_pred_mod (toNat_lt hn a)]

theorem Move.jOf_idx (m : Move) (p : ℤ × ℤ) :
    m.jOf nx ny (m.idx (cellSite nx ny p)) = m.idx (cellSite nx ny (p + dir (m.dirn + 1))) := by
  cases m with
  | left x => exact toNat_succ hy p.2
  | up y => exact toNat_succ hx p.1
  | right x => exact toNat_pred hy p.2
  | down y => exact toNat_pred hx p.1

omit hx hy in
theorem Move.tgt_idx (m : Move) (hm : m.Valid nx ny) (p : ℤ × ℤ) :
    m.tgt nx ny (m.idx (cellSite nx ny p)) = cellSite nx ny p ↔ m.OnLine (cellSite nx ny (p + dir m.dirn)) := by
  cases m with
  | left x =>
    have := succ_eq_iff hm p.1
    simp only [Move.OnLine, Move.tgt, Move.src, Move.idx, cellSite, dir, Move.dirn, Prod.mk.injEq, and_true, Prod.fst_add]
    exact this
  | up y =>
    have := pred_eq_iff hm p.2
    simp only [Move.OnLine, Move.tgt, Move.src, Move.idx, cellSite, dir, Move.dirn, Prod.mk.injEq, true_and, Prod.snd_add]
    exact this
  | right x =>
    have := pred_eq_iff hm p.1
    simp only [Move.OnLine, Move.tgt, Move.src, Move.idx, cellSite, dir, Move.dirn, Prod.mk.injEq, and_true, Prod.fst_add]
    exact this
  | down y =>
    have := succ_eq_iff hm p.2
    simp only [Move.OnLine, Move.tgt, Move.src, Move.idx, cellSite, dir, Move.dirn, Prod.mk.injEq, true_and, Prod.snd_add]
    exact this

theorem Move.proj_idx {T : Type} (o : Ops T) (pk : ProjKind) (net : Net T) (h1 : net.nx = nx) (h2 : net.ny = ny) (m : Move)
    (p : ℤ × ℤ) (hp : m.OnLine (cellSite nx ny p)) :
    m.proj o pk net (m.idx (cellSite nx ny p)) = calcProjectors o pk net (cellSite nx ny p)
      (cellSite nx ny (p + dir (m.dirn + 2))) (cellSite nx ny (p + dir (m.dirn + 2) + dir (m.dirn + 3)))
      (cellSite nx ny (p + dir (m.dirn + 3))) m.dirn.val := by
  have e1 := toNat_succ hx p.1
  have e2 := toNat_pred hx p.1
  have e3 := toNat_succ hy p.2
  have e4 := toNat_pred hy p.2
  cases m with
  | left x =>
    have hl : x = (p.1 % nx).toNat := (Prod.ext_iff.1 hp).1
    show calcLeft o pk net x (p.2 % ny).toNat = calcProjectors o pk net (cellSite nx ny p) (cellSite nx ny (p + (1, 0)))
      (cellSite nx ny (p + (1, 0) + (0, -1))) (cellSite nx ny (p + (0, -1))) 0
    simp only [calcLeft, h1, h2, hl, e1, e4, cellSite, Prod.fst_add, Prod.snd_add, add_zero]
    rfl
  | up y =>
    have hl : y = (p.2 % ny).toNat := (Prod.ext_iff.1 hp).2
    show calcUp o pk net (p.1 % nx).toNat y = calcProjectors o pk net (cellSite nx ny p) (cellSite nx ny (p + (0, -1)))
      (cellSite nx ny (p + (0, -1) + (-1, 0))) (cellSite nx ny (p + (-1, 0))) 1
    simp only [calcUp, h1, h2, hl, e2, e4, cellSite, Prod.fst_add, Prod.snd_add, add_zero]
    rfl
  | right x =>
    have hl : x = (p.1 % nx).toNat := (Prod.ext_iff.1 hp).1
    show calcRight o pk net x (p.2 % ny).toNat = calcProjectors o pk net (cellSite nx ny p) (cellSite nx ny (p + (-1, 0)))
      (cellSite nx ny (p + (-1, 0) + (0, 1))) (cellSite nx ny (p + (0, 1))) 2
    simp only [calcRight, h1, h2, hl, e2, e3, cellSite, Prod.fst_add, Prod.snd_add, add_zero]
    rfl
  | down y =>
    have hl : y = (p.2 % ny).toNat := (Prod.ext_iff.1 hp).2
    show calcDown o pk net (p.1 % nx).toNat y = calcProjectors o pk net (cellSite nx ny p) (cellSite nx ny (p + (0, 1)))
      (cellSite nx ny (p + (0, 1) + (1, 0))) (cellSite nx ny (p + (1, 0))) 3
    simp only [calcDown, h1, h2, hl, e1, e3, cellSite, Prod.fst_add, Prod.snd_add, add_zero]

omit hx hy in
theorem Move.onLine_along (m : Move) (p : ℤ × ℤ) (t : ℤ) :
    m.OnLine (cellSite nx ny (p + t • dir (m.dirn + 1))) ↔ m.OnLine (cellSite nx ny p) := by
  cases m <;> simp [Move.OnLine, Move.src, Move.idx, cellSite, dir, Move.dirn]

end geometry

theorem dir_opp (k : Fin 4) : dir (k + 2) = -dir k := by
  match k with
  | 0 | 1 | 2 | 3 => rfl

section after

variable {T : Type} (o : Ops T) (pk : ProjKind) (net : Net T) (hx : 0 < net.nx) (hy : 0 < net.ny) (m : Move)
  (hm : m.Valid net.nx net.ny)

/-- The projectors of the cut at a site of the absorbed line. -/
def Move.cut (p : ℤ × ℤ) : T × T := m.proj o pk net (m.idx (cellSite net.nx net.ny p))

include hx hy hm

theorem Move.after_hit (p : ℤ × ℤ) (h : m.OnLine (cellSite net.nx net.ny (p + dir m.dirn))) (sl : Slot) :
    (m.after o pk net).B (cellSite net.nx net.ny p) sl =
      if sl = .C (m.dirn + 3).val then
        o.cj1 (net.B (cellSite net.nx net.ny (p + dir m.dirn)) (.C (m.dirn + 3).val))
          (net.B (cellSite net.nx net.ny (p + dir m.dirn)) (.E (m.dirn + 2).val)) (m.cut o pk net (p + dir m.dirn)).1
      else if sl = .C m.dirn.val then
        o.cj2 (net.B (cellSite net.nx net.ny (p + dir m.dirn)) (.C m.dirn.val))
          (net.B (cellSite net.nx net.ny (p + dir m.dirn)) (.E m.dirn.val)) (m.cut o pk net (p + dir m.dirn + dir (m.dirn + 1))).2
      else if sl = .E (m.dirn + 3).val then
        o.ej (net.B (cellSite net.nx net.ny (p + dir m.dirn)) (.E (m.dirn + 3).val))
          (o.permute m.dirn.val (net.A (cellSite net.nx net.ny (p + dir m.dirn)))) (m.cut o pk net (p + dir m.dirn)).2
          (m.cut o pk net (p + dir m.dirn + dir (m.dirn + 1))).1
      else net.B (cellSite net.nx net.ny p) sl := by
  have h3 : ∀ k : Fin 4, (3 + k.val) % 4 = (k + 3).val := by decide
  have h2 : ∀ k : Fin 4, (2 + k.val) % 4 = (k + 2).val := by decide
  have ht := (m.tgt_idx hm p).2 h
  have h := m.after_B_mem o pk net (m.idx_lt hx hy p) sl
  rw [ht] at h
  rw [h]
  unfold newB Move.cut
  rw [m.idx_dir, ← m.jOf_idx hx hy, m.idx_dir, ht, m.k_eq, h3, h2]
  have hs : m.src (m.idx (cellSite net.nx net.ny p)) = cellSite net.nx net.ny (p + dir m.dirn) := by
    rw [← m.idx_dir]
    assumption
  rw [hs]

omit hx hy in
theorem Move.after_miss (p : ℤ × ℤ) (h : ¬ m.OnLine (cellSite net.nx net.ny (p + dir m.dirn))) (sl : Slot) :
    (m.after o pk net).B (cellSite net.nx net.ny p) sl = net.B (cellSite net.nx net.ny p) sl := by
  refine m.after_B_ne o pk net ?_ sl
  intro i hi hc
  refine h ((m.tgt_idx hm p).1 ?_)
  rw [← hc]
  congr 1
  cases m <;> rfl

theorem Move.after_other (p : ℤ × ℤ) (sl : Slot) (h1 : sl ≠ .C (m.dirn + 3).val) (h2 : sl ≠ .C m.dirn.val)
    (h3 : sl ≠ .E (m.dirn + 3).val) :
    (m.after o pk net).B (cellSite net.nx net.ny p) sl = net.B (cellSite net.nx net.ny p) sl := by
  by_cases h : m.OnLine (cellSite net.nx net.ny (p + dir m.dirn))
  · rw [m.after_hit o pk net hx hy hm p h, if_neg h1, if_neg h2, if_neg h3]
  · exact m.after_miss o pk net hm p h sl

end after

end AceTN
