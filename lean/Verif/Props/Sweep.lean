import Verif.Lemmas.SweepCount
import Verif.Spec.Lattice

/-! C07, C08, C09: boundary moves and sweeps, over arbitrary tensors and tensor operations. -/

set_option autoImplicit false

namespace AceTN
variable {T : Type}

namespace Spec

/-- The sites a move writes to: `Move.left x` refreshes the column to the right of `x`, and so on
(periodic coordinates, integer arithmetic). -/
def target (nx ny : ℕ) : Move → Site → Prop
  | .left x, s => (s.1 : ℤ) = ((x : ℤ) + 1) % nx ∧ s.2 < ny
  | .right x, s => (s.1 : ℤ) = ((x : ℤ) - 1) % nx ∧ s.2 < ny
  | .up y, s => (s.2 : ℤ) = ((y : ℤ) - 1) % ny ∧ s.1 < nx
  | .down y, s => (s.2 : ℤ) = ((y : ℤ) + 1) % ny ∧ s.1 < nx

/-- The three boundary tensors on one side of a site: two corners and the edge between them
(`C0` upper left, `C1` upper right, `C2` lower right, `C3` lower left; `E0` up, `E1` right, `E2` down,
`E3` left). -/
def sideSlots : Move → List Slot
  | .left _ => [.C 3, .E 3, .C 0]
  | .up _ => [.C 0, .E 0, .C 1]
  | .right _ => [.C 1, .E 1, .C 2]
  | .down _ => [.C 2, .E 2, .C 3]

/-- A move whose column or row lies in the cell. -/
def MoveInCell (nx ny : ℕ) : Move → Prop
  | .left x | .right x => x < nx
  | .up y | .down y => y < ny

end Spec

/-- The code's move with the second loop running over `order` instead of `range(n)`; the first loop (which
only fills the projector dictionaries) is unchanged. -/
def moveInOrder (o : Ops T) (pk : ProjKind) (net : Net T) (order : List ℕ) : Move → Except PyErr (Net T)
  | .left x => renormLoop o (fillProj net.ny (calcLeft o pk net x)) (fun y => (x, y))
      (fun y => ((x + 1) % net.nx, y)) (fun y => (y + 1) % net.ny) 0 order net
  | .right x => renormLoop o (fillProj net.ny (calcRight o pk net x)) (fun y => (x, y))
      (fun y => ((x + net.nx - 1) % net.nx, y)) (fun y => (y + net.ny - 1) % net.ny) 2 order net
  | .up y => renormLoop o (fillProj net.nx (fun x => calcUp o pk net x y)) (fun x => (x, y))
      (fun x => (x, (y + net.ny - 1) % net.ny)) (fun x => (x + 1) % net.nx) 1 order net
  | .down y => renormLoop o (fillProj net.nx (fun x => calcDown o pk net x y)) (fun x => (x, y))
      (fun x => (x, (y + 1) % net.ny)) (fun x => (x + net.nx - 1) % net.nx) 3 order net

/-- Number of rows (for left/right) or columns (for up/down) processed by a move. -/
def Spec.loopLength (nx ny : ℕ) : Move → ℕ
  | .left _ | .right _ => ny
  | .up _ | .down _ => nx


theorem hits_iff_spec {nx ny : ℕ} (m : Move) (hm : Spec.MoveInCell nx ny m) (s : Site) (sl : Slot) :
    m.hits nx ny s sl ↔ Spec.target nx ny m s ∧ sl ∈ Spec.sideSlots m := by
  have key : ∀ (a b n : ℕ), 0 < n → ((a : ℤ) = ((b : ℤ) - 1) % n ↔ a = (b + n - 1) % n) := by
    intro a b n hn
    rw [← int_mod_toNat_pred b n hn]
    have := Int.emod_nonneg ((b : ℤ) - 1) (show (n : ℤ) ≠ 0 by omega)
    omega
  have key' : ∀ (a b n : ℕ), 0 < n → ((a : ℤ) = ((b : ℤ) + 1) % n ↔ a = (b + 1) % n) := by
    intro a b n hn
    rw [← int_mod_toNat_succ b n]
    have := Int.emod_nonneg ((b : ℤ) + 1) (show (n : ℤ) ≠ 0 by omega)
    omega
  cases m with
  | left x => have hx : x < nx := hm
              rw [hits_left, Spec.target, key' _ _ _ (by omega)]; simp [Spec.sideSlots]; tauto
  | right x => have hx : x < nx := hm
               rw [hits_right, Spec.target, key _ _ _ (by omega)]; simp [Spec.sideSlots]; tauto
  | up x => have hx : x < ny := hm
            rw [hits_up, Spec.target, key _ _ _ (by omega)]; simp [Spec.sideSlots]; tauto
  | down x => have hx : x < ny := hm
              rw [hits_down, Spec.target, key' _ _ _ (by omega)]; simp [Spec.sideSlots]; tauto

/-! ### C07 -/

/-- C07 (schedule): a sweep consists of exactly one left and one right move per column and one up and one
down move per row, and nothing else. -/
theorem C07_schedule (nx ny : ℕ) :
    (sweepMoves nx ny).length = 2 * nx + 2 * ny ∧
    (∀ x < nx, (sweepMoves nx ny).count (.left x) = 1 ∧ (sweepMoves nx ny).count (.right x) = 1) ∧
    (∀ y < ny, (sweepMoves nx ny).count (.up y) = 1 ∧ (sweepMoves nx ny).count (.down y) = 1) := by
  refine ⟨?_, ?_, ?_⟩
  · simp [sweepMoves, List.length_flatMap]; omega
  · intro x hx
    simp only [List.count, sweep_countP]
    constructor
    · rw [countP_range_unique nx x hx _ (by intro z _; simp),
        countP_range_zero nx _ (by intro z _; rfl), countP_range_zero ny _ (by intro z _; rfl),
        countP_range_zero ny _ (by intro z _; rfl)]
    · rw [countP_range_zero nx _ (by intro z _; rfl),
        countP_range_unique nx ((nx - (x + nx - 1) % nx) % nx) (Nat.mod_lt _ (by omega)),
        countP_range_zero ny _ (by intro z _; rfl), countP_range_zero ny _ (by intro z _; rfl)]
      intro z hz
      rw [beq_iff_eq, Move.right.injEq,
        ← rev_arg_iff nx ((x + nx - 1) % nx) (Nat.mod_lt _ (by omega)) z hz]
      constructor
      · rintro h; rw [h]
      · intro h
        have h' := congrArg (fun t => (t + 1) % nx) h
        rw [pred_succ_mod hx, pred_succ_mod (Nat.mod_lt _ (by omega))] at h'
        exact h'.symm
  · intro y hy
    simp only [List.count, sweep_countP]
    constructor
    · rw [countP_range_zero nx _ (by intro z _; rfl), countP_range_zero nx _ (by intro z _; rfl),
        countP_range_unique ny ((ny - (y + ny - 1) % ny) % ny) (Nat.mod_lt _ (by omega)),
        countP_range_zero ny _ (by intro z _; rfl)]
      intro z hz
      rw [beq_iff_eq, Move.up.injEq,
        ← rev_arg_iff ny ((y + ny - 1) % ny) (Nat.mod_lt _ (by omega)) z hz]
      constructor
      · rintro h; rw [h]
      · intro h
        have h' := congrArg (fun t => (t + 1) % ny) h
        rw [pred_succ_mod hy, pred_succ_mod (Nat.mod_lt _ (by omega))] at h'
        exact h'.symm
    · rw [countP_range_zero nx _ (by intro z _; rfl), countP_range_zero nx _ (by intro z _; rfl),
        countP_range_zero ny _ (by intro z _; rfl), countP_range_unique ny y hy _ (by intro z _; simp)]

/-- C07: `n` sweeps of `renormalize` complete and write every edge tensor of every site exactly `n` times and
every corner tensor exactly `2 n` times. -/
theorem C07_refresh (o : Ops T) (pk : ProjKind) (n : ℕ) (net : Net T) :
    ∃ net', ctmrg o pk n net = .ok net' ∧
      ∀ s, Spec.InCell net.nx net.ny s → ∀ k < 4,
        net'.writes s (.E k) = net.writes s (.E k) + n ∧
        net'.writes s (.C k) = net.writes s (.C k) + 2 * n := by
  induction n generalizing net with
  | zero => exact ⟨net, rfl, fun s _ k _ => ⟨rfl, rfl⟩⟩
  | succ n ih =>
    simp only [ctmrg, runMoves_eq, bind, Except.bind]
    obtain ⟨net', h, hw⟩ := ih (movesAfter o pk (sweepMoves net.nx net.ny) net)
    refine ⟨net', h, ?_⟩
    intro s hs k hk
    obtain ⟨c1, c2, -, -⟩ := movesAfter_consts o pk (sweepMoves net.nx net.ny) net
    rw [c1, c2] at hw
    obtain ⟨w1, w2⟩ := hw s hs k hk
    rw [movesAfter_writes] at w1 w2
    obtain ⟨s1, s2⟩ := sweep_hits net.nx net.ny s hs.1 hs.2 k hk
    rw [s1] at w1; rw [s2] at w2
    omega

/-! ### C08 -/

/-- C08 (bulk): renormalization never changes a bulk tensor, nor the lattice size, nor chi. -/
theorem C08_bulk_unchanged (o : Ops T) (pk : ProjKind) (n : ℕ) (net net' : Net T)
    (h : ctmrg o pk n net = .ok net') :
    net'.A = net.A ∧ net'.nx = net.nx ∧ net'.ny = net.ny ∧ net'.chi = net.chi := by
  obtain ⟨m, hm, h1, h2, h3, h4, -⟩ := ctmrg_eq o pk n net
  rw [hm] at h; cases h
  exact ⟨h4, h1, h2, h3⟩

/-- C08 (frame): a single move completes, leaves all bulk tensors alone, and leaves every boundary tensor
that is not one of the three tensors on its side of a site of its target column (row) both unchanged and
unwritten. -/
theorem C08_frame (o : Ops T) (pk : ProjKind) (net : Net T) (m : Move)
    (hm : Spec.MoveInCell net.nx net.ny m) :
    ∃ net', m.run o pk net = .ok net' ∧ net'.A = net.A ∧
      ∀ s sl, ¬ (Spec.target net.nx net.ny m s ∧ sl ∈ Spec.sideSlots m) →
        net'.B s sl = net.B s sl ∧ net'.writes s sl = net.writes s sl := by
  refine ⟨m.after o pk net, m.run_eq o pk net, rfl, ?_⟩
  intro s sl h
  rw [← hits_iff_spec m hm] at h
  refine ⟨m.after_B_not_hits o pk net s sl h, ?_⟩
  rw [m.after_writes]; simp [h]

/-! ### C09 -/

/-- C09 (order): processing the rows (columns) in any order gives the same network. -/
theorem C09_order_independent (o : Ops T) (pk : ProjKind) (net : Net T) (m : Move) (order : List ℕ)
    (ho : order.Perm (List.range (Spec.loopLength net.nx net.ny m))) :
    moveInOrder o pk net order m = m.run o pk net := by
  have h1 : moveInOrder o pk net order m
      = renormLoop o (fillProj (m.n net.nx net.ny) (m.proj o pk net)) m.src
        (m.tgt net.nx net.ny) (m.jOf net.nx net.ny) m.k order net := by cases m <;> rfl
  have h2 : Spec.loopLength net.nx net.ny m = m.n net.nx net.ny := by cases m <;> rfl
  rw [h1, m.run_eq, Move.loop_eq o _ (m.proj o pk net) net m _ _ (h2 ▸ ho)]
  · rfl
  · intro i hi; simp [fillProj, hi]

/-- C09 (left, before-state): after a left move of column `x`, the three left boundary tensors of every site
of column `x+1` are the contractions of the tensors of column `x` and the projectors of the cuts, all taken
in the network before the move. -/
theorem C09_left_reads_before (o : Ops T) (pk : ProjKind) (net : Net T) (x : ℕ) :
    ∃ net', leftMove o pk net x = .ok net' ∧ ∀ y < net.ny,
      let P := calcLeft o pk net x
      let t : Site := ((x + 1) % net.nx, y)
      let y' := (y + 1) % net.ny
      net'.B t (.C 3) = o.cj1 (net.B (x, y) (.C 3)) (net.B (x, y) (.E 2)) (P y).1 ∧
      net'.B t (.C 0) = o.cj2 (net.B (x, y) (.C 0)) (net.B (x, y) (.E 0)) (P y').2 ∧
      net'.B t (.E 3) = o.ej (net.B (x, y) (.E 3)) (o.permute 0 (net.A (x, y))) (P y).2 (P y').1 := by
  refine ⟨_, (Move.left x).run_eq o pk net, ?_⟩
  intro y hy
  have h := fun sl => (Move.left x).after_B_mem o pk net (i := y) hy sl
  refine ⟨(h (.C 3)).trans ?_, (h (.C 0)).trans ?_, (h (.E 3)).trans ?_⟩ <;>
    simp [newB, Move.k, Move.src, Move.jOf, Move.proj]

/-- C09 (right, before-state). -/
theorem C09_right_reads_before (o : Ops T) (pk : ProjKind) (net : Net T) (x : ℕ) :
    ∃ net', rightMove o pk net x = .ok net' ∧ ∀ y < net.ny,
      let P := calcRight o pk net x
      let t : Site := ((x + net.nx - 1) % net.nx, y)
      let y' := (y + net.ny - 1) % net.ny
      net'.B t (.C 1) = o.cj1 (net.B (x, y) (.C 1)) (net.B (x, y) (.E 0)) (P y).1 ∧
      net'.B t (.C 2) = o.cj2 (net.B (x, y) (.C 2)) (net.B (x, y) (.E 2)) (P y').2 ∧
      net'.B t (.E 1) = o.ej (net.B (x, y) (.E 1)) (o.permute 2 (net.A (x, y))) (P y).2 (P y').1 := by
  refine ⟨_, (Move.right x).run_eq o pk net, ?_⟩
  intro y hy
  have h := fun sl => (Move.right x).after_B_mem o pk net (i := y) hy sl
  refine ⟨(h (.C 1)).trans ?_, (h (.C 2)).trans ?_, (h (.E 1)).trans ?_⟩ <;>
    simp [newB, Move.k, Move.src, Move.jOf, Move.proj]

/-- C09 (up, before-state). -/
theorem C09_up_reads_before (o : Ops T) (pk : ProjKind) (net : Net T) (y : ℕ) :
    ∃ net', upMove o pk net y = .ok net' ∧ ∀ x < net.nx,
      let P := fun x => calcUp o pk net x y
      let t : Site := (x, (y + net.ny - 1) % net.ny)
      let x' := (x + 1) % net.nx
      net'.B t (.C 0) = o.cj1 (net.B (x, y) (.C 0)) (net.B (x, y) (.E 3)) (P x).1 ∧
      net'.B t (.C 1) = o.cj2 (net.B (x, y) (.C 1)) (net.B (x, y) (.E 1)) (P x').2 ∧
      net'.B t (.E 0) = o.ej (net.B (x, y) (.E 0)) (o.permute 1 (net.A (x, y))) (P x).2 (P x').1 := by
  refine ⟨_, (Move.up y).run_eq o pk net, ?_⟩
  intro x hx
  have h := fun sl => (Move.up y).after_B_mem o pk net (i := x) hx sl
  refine ⟨(h (.C 0)).trans ?_, (h (.C 1)).trans ?_, (h (.E 0)).trans ?_⟩ <;>
    simp [newB, Move.k, Move.src, Move.jOf, Move.proj]

/-- C09 (down, before-state). -/
theorem C09_down_reads_before (o : Ops T) (pk : ProjKind) (net : Net T) (y : ℕ) :
    ∃ net', downMove o pk net y = .ok net' ∧ ∀ x < net.nx,
      let P := fun x => calcDown o pk net x y
      let t : Site := (x, (y + 1) % net.ny)
      let x' := (x + net.nx - 1) % net.nx
      net'.B t (.C 2) = o.cj1 (net.B (x, y) (.C 2)) (net.B (x, y) (.E 1)) (P x).1 ∧
      net'.B t (.C 3) = o.cj2 (net.B (x, y) (.C 3)) (net.B (x, y) (.E 3)) (P x').2 ∧
      net'.B t (.E 2) = o.ej (net.B (x, y) (.E 2)) (o.permute 3 (net.A (x, y))) (P x).2 (P x').1 := by
  refine ⟨_, (Move.down y).run_eq o pk net, ?_⟩
  intro x hx
  have h := fun sl => (Move.down y).after_B_mem o pk net (i := x) hx sl
  refine ⟨(h (.C 2)).trans ?_, (h (.C 3)).trans ?_, (h (.E 2)).trans ?_⟩ <;>
    simp [newB, Move.k, Move.src, Move.jOf, Move.proj]

/-! ### witnesses -/

/-- A concrete instance with "tensors" that are strings recording how they were computed. -/
def traceOps : Ops String where
  permute k a := s!"p{k}({a})"
  quarter a b c d := s!"q({a},{b},{c},{d})"
  half key chi a b := (s!"h1({key.1};{chi};{a},{b})", s!"h2({key.1};{chi};{a},{b})")
  full key chi a b c d := (s!"f1({key.1};{chi};{a},{b},{c},{d})", s!"f2({key.1};{chi};{a},{b},{c},{d})")
  cj1 a b c := s!"c1({a},{b},{c})"
  cj2 a b c := s!"c2({a},{b},{c})"
  ej a b c d := s!"e({a},{b},{c},{d})"

/-- A 3 by 2 network of named tensors. -/
def traceNet : Net String where
  nx := 3
  ny := 2
  chi := 4
  A s := s!"A{s.1}{s.2}"
  B s sl := match sl with
    | .C k => s!"C{k}@{s.1}{s.2}"
    | .E k => s!"E{k}@{s.1}{s.2}"
  writes _ _ := 0

/-- The hypotheses of C08 are met by a move on the last column of a 3 by 2 cell, which wraps around to column
0 and really changes a tensor there. -/
example : Spec.MoveInCell traceNet.nx traceNet.ny (.left 2) ∧ Spec.target 3 2 (.left 2) (0, 1) ∧
    ¬ Spec.target 3 2 (.left 2) (1, 1) ∧
    ∃ net', (Move.left 2).run traceOps .half traceNet = .ok net' ∧
      net'.writes (0, 1) (.C 3) = traceNet.writes (0, 1) (.C 3) + 1 := by
  refine ⟨by simp [Spec.MoveInCell, traceNet], by simp [Spec.target], by simp [Spec.target],
    _, Move.run_eq _ _ _ _, ?_⟩
  rw [Move.after_writes, if_pos]
  rw [hits_left]; simp [traceNet]

/-- A non-trivial order for C09. -/
example : [1, 0].Perm (List.range (Spec.loopLength traceNet.nx traceNet.ny (.left 2))) := by
  decide

end AceTN
