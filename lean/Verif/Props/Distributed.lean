import Verif.Lemmas.Dist
import Verif.Props.Sweep
import Mathlib.Tactic.Linarith

/-! C12, C13, C14: distributed boundary moves and bond updates. -/

set_option autoImplicit false

namespace AceTN
variable {T : Type}

namespace Spec

/-- Numbers of ranks `ws` and rows `n` for which the work sharing covers everything. -/
def SharingWorks (ws n : ℕ) : Prop := ws = 2 ∨ n = (ws + 1) / 2 ∨ (ws % 2 = 0 ∧ n = ws / 2 + 1)

/-- All ranks hold the network `net`. -/
def InSync (ws : ℕ) (nets : ℕ → Net T) (net : Net T) : Prop := ∀ r < ws, nets r = net

/-- All ranks have the same lattice. -/
def SameCell (ws : ℕ) (nets : ℕ → Net T) (nx ny : ℕ) : Prop := ∀ r < ws, (nets r).nx = nx ∧ (nets r).ny = ny

end Spec

theorem sharing_iff (ws n : ℕ) (hws : 2 ≤ ws) (hn : 1 ≤ n) :
    ((ws + 1) / 2 ≤ n ∧ n + 1 ≤ (2 * n + ws - 1) / ws + ws / 2) ↔ Spec.SharingWorks ws n := by
  unfold Spec.SharingWorks
  constructor
  · rintro ⟨h1, h2⟩
    by_contra hcon
    push Not at hcon
    obtain ⟨c1, c2, c3⟩ := hcon
    obtain ⟨m, hm⟩ : ∃ m, (2 * n + ws - 1) / ws = m := ⟨_, rfl⟩
    have hmul : m * ws ≤ 2 * n + ws - 1 := by rw [← hm]; exact Nat.div_mul_le_self _ _
    rw [hm] at h2
    rcases Nat.even_or_odd' ws with ⟨h, rfl | rfl⟩
    · have e : n ≥ h + 2 := by have := c3 (by omega); omega
      obtain ⟨j, rfl⟩ := Nat.exists_eq_add_of_le e
      have hm3 : 3 + j ≤ m := by omega
      have h3 : (3 + j) * (2 * h) ≤ m * (2 * h) := Nat.mul_le_mul_right _ hm3
      have hh : 2 ≤ h := by omega
      have : (3 + j) * (2 * h) + 1 ≤ 2 * (h + 2 + j) + 2 * h := by omega
      nlinarith
    · have e : n ≥ h + 2 := by omega
      obtain ⟨j, rfl⟩ := Nat.exists_eq_add_of_le e
      have hm3 : 3 + j ≤ m := by omega
      have h3 : (3 + j) * (2 * h + 1) ≤ m * (2 * h + 1) := Nat.mul_le_mul_right _ hm3
      have hh : 1 ≤ h := by omega
      have : (3 + j) * (2 * h + 1) + 1 ≤ 2 * (h + 2 + j) + (2 * h + 1) := by omega
      nlinarith
  · rintro (rfl | rfl | ⟨h1, rfl⟩)
    · have : (2 * n + 2 - 1) / 2 = n := by omega
      omega
    · refine ⟨le_rfl, ?_⟩
      rcases Nat.even_or_odd' ws with ⟨h, rfl | rfl⟩
      · have : 1 ≤ (2 * ((2 * h + 1) / 2) + 2 * h - 1) / (2 * h) := by
          rw [Nat.one_le_div_iff (by omega)]; omega
        omega
      · have : 2 ≤ (2 * ((2 * h + 1 + 1) / 2) + (2 * h + 1) - 1) / (2 * h + 1) := by
          rw [Nat.le_div_iff_mul_le (by omega)]; omega
        omega
    · refine ⟨by omega, ?_⟩
      have : 2 ≤ (2 * (ws / 2 + 1) + ws - 1) / ws := by
        rw [Nat.le_div_iff_mul_le (by omega)]; omega
      omega

/-! ### C13 -/

/-- The gathering loop produces every projector iff the sharing works; otherwise the error is determined. -/
theorem gather_complete (ws n : ℕ) (calc1 calc2 : ℕ → ℕ → T × T) (hws : 2 ≤ ws) (hn : 1 ≤ n) :
    (Spec.SharingWorks ws n → ∃ d, gatherProjectors ws n calc1 calc2 = .ok d ∧ ∀ key < n,
      (∃ r < ws, d.1 key = some (calc1 r key)) ∧ ∃ r < ws, d.2 key = some (calc2 r key)) ∧
    (n < (ws + 1) / 2 → gatherProjectors ws n calc1 calc2 = .error .unboundLocalError) ∧
    ((ws + 1) / 2 ≤ n → ¬ Spec.SharingWorks ws n → ∃ d, gatherProjectors ws n calc1 calc2 = .ok d ∧
      ∃ key < n, d.1 key = none) := by
  refine ⟨?_, ?_, ?_⟩
  · intro h
    rw [← sharing_iff ws n hws hn] at h
    obtain ⟨d, h1, h2, -⟩ := gatherProjectors_ok ws n calc1 calc2 hws ((firstPassOk_iff ws n hws).2 h.1)
    exact ⟨d, h1, fun key hk => h2 key hk ((covered_all_iff ws n hws hn).2 h.2 key hk)⟩
  · intro h
    apply gatherProjectors_unbound ws n calc1 calc2 hws hn
    rw [firstPassOk_iff ws n hws]; omega
  · intro h1 h2
    rw [← sharing_iff ws n hws hn] at h2
    obtain ⟨d, hd, -, hnc⟩ := gatherProjectors_ok ws n calc1 calc2 hws ((firstPassOk_iff ws n hws).2 h1)
    have : ¬ ∀ key < n, Covered ws ((2 * n + ws - 1) / ws) key := by
      rw [covered_all_iff ws n hws hn]; tauto
    push Not at this
    obtain ⟨key, hk, hkc⟩ := this
    exact ⟨d, hd, key, hk, (hnc key hk hkc).1⟩

private theorem exists_fun {n : ℕ} (d : ProjDict T) (t : T) (h : ∀ key < n, ∃ p, d key = some p) :
    ∃ P : ℕ → T × T, ∀ key < n, d key = some (P key) := by
  refine ⟨fun key => (d key).getD (t, t), fun key hk => ?_⟩
  obtain ⟨p, hp⟩ := h key hk
  simp [hp]

/-- C13 (exact, left-right): the distributed left-right move completes for exactly these numbers of ranks and
rows, whatever the tensors, projector type and random draws; otherwise some rank raises. -/
theorem C13_left_right_completes_iff_partial (po : ℕ → Ops T) (o : Ops T) (pk : ProjKind) (ws x1 x2 nx ny : ℕ)
    (nets : ℕ → Net T) (hws : 2 ≤ ws) (hny : 1 ≤ ny) (hc : Spec.SameCell ws nets nx ny) :
    (∃ nets', leftRightDist po o pk ws x1 x2 nets = .ok nets') ↔ Spec.SharingWorks ws ny := by
  obtain ⟨g1, g2, g3⟩ := gather_complete ws ny (fun r y => calcLeft (po r) pk (nets r) x1 y)
    (fun r y => calcRight (po r) pk (nets r) x2 y) hws hny
  have hny0 : (nets 0).ny = ny := (hc 0 (by omega)).2
  constructor
  · rintro ⟨nets', h⟩
    by_contra hcon
    rcases Nat.lt_or_ge ny ((ws + 1) / 2) with hlt | hge
    · simp [leftRightDist, hny0, g2 hlt, bind, Except.bind] at h
    · obtain ⟨d, hd, key, hk, hn⟩ := g3 hge hcon
      simp only [leftRightDist, hny0, hd, bind, Except.bind] at h
      rw [onRanks_error _ _ _ .keyError (by omega)] at h
      · cases h
      · rw [show leftLoop o d.1 x1 (nets 0) = .error .keyError from
          renormLoop_keyError _ _ _ _ _ _ _ ⟨key, by rw [hny0]; exact List.mem_range.2 hk, hn⟩ _]
  · intro h
    obtain ⟨d, hd, hk⟩ := g1 h
    obtain ⟨P1, hP1⟩ := exists_fun d.1 ((nets 0).A (0, 0)) fun key hkey =>
      let ⟨r, _, e⟩ := (hk key hkey).1; ⟨_, e⟩
    obtain ⟨P2, hP2⟩ := exists_fun d.2 ((nets 0).A (0, 0)) fun key hkey =>
      let ⟨r, _, e⟩ := (hk key hkey).2; ⟨_, e⟩
    simp only [leftRightDist, hny0, hd]
    have hok : ∀ r < ws, ∃ g, (leftLoop o d.1 x1 (nets r) >>= fun net => rightLoop o d.2 x2 net)
        = Except.ok g := by
      intro r hr
      have e1 := Move.loop_eq o d.1 P1 (nets r) (.left x1) (by rw [(hc r hr).1, (hc r hr).2]; exact hP1) _
        (List.Perm.refl _)
      rw [show leftLoop o d.1 x1 (nets r) = _ from e1]
      simp only [bind, Except.bind]
      generalize hq : simul o (nets r) P1 _ _ _ _ _ = q
      have hq1 : q.nx = nx := by rw [← hq]; exact (hc r hr).1
      have hq2 : q.ny = ny := by rw [← hq]; exact (hc r hr).2
      have e2 := Move.loop_eq o d.2 P2 q (.right x2) (by rw [hq1, hq2]; exact hP2) _ (List.Perm.refl _)
      exact ⟨_, e2⟩
    have : Nonempty (Net T) := ⟨nets 0⟩
    choose! g hg using hok
    obtain ⟨ns, h1, -⟩ := onRanks_ok _ g nets ws hg
    exact ⟨ns, h1⟩

/-- C13 (exact, up-down). -/
theorem C13_up_down_completes_iff_partial (po : ℕ → Ops T) (o : Ops T) (pk : ProjKind) (ws y1 y2 nx ny : ℕ)
    (nets : ℕ → Net T) (hws : 2 ≤ ws) (hnx : 1 ≤ nx) (hc : Spec.SameCell ws nets nx ny) :
    (∃ nets', upDownDist po o pk ws y1 y2 nets = .ok nets') ↔ Spec.SharingWorks ws nx := by
  obtain ⟨g1, g2, g3⟩ := gather_complete ws nx (fun r x => calcUp (po r) pk (nets r) x y1)
    (fun r x => calcDown (po r) pk (nets r) x y2) hws hnx
  have hnx0 : (nets 0).nx = nx := (hc 0 (by omega)).1
  constructor
  · rintro ⟨nets', h⟩
    by_contra hcon
    rcases Nat.lt_or_ge nx ((ws + 1) / 2) with hlt | hge
    · simp [upDownDist, hnx0, g2 hlt, bind, Except.bind] at h
    · obtain ⟨d, hd, key, hk, hn⟩ := g3 hge hcon
      simp only [upDownDist, hnx0, hd, bind, Except.bind] at h
      rw [onRanks_error _ _ _ .keyError (by omega)] at h
      · cases h
      · rw [show upLoop o d.1 y1 (nets 0) = .error .keyError from
          renormLoop_keyError _ _ _ _ _ _ _ ⟨key, by rw [hnx0]; exact List.mem_range.2 hk, hn⟩ _]
  · intro h
    obtain ⟨d, hd, hk⟩ := g1 h
    obtain ⟨P1, hP1⟩ := exists_fun d.1 ((nets 0).A (0, 0)) fun key hkey =>
      let ⟨r, _, e⟩ := (hk key hkey).1; ⟨_, e⟩
    obtain ⟨P2, hP2⟩ := exists_fun d.2 ((nets 0).A (0, 0)) fun key hkey =>
      let ⟨r, _, e⟩ := (hk key hkey).2; ⟨_, e⟩
    simp only [upDownDist, hnx0, hd]
    have hok : ∀ r < ws, ∃ g, (upLoop o d.1 y1 (nets r) >>= fun net => downLoop o d.2 y2 net)
        = Except.ok g := by
      intro r hr
      have e1 := Move.loop_eq o d.1 P1 (nets r) (.up y1) (by rw [(hc r hr).1, (hc r hr).2]; exact hP1) _
        (List.Perm.refl _)
      rw [show upLoop o d.1 y1 (nets r) = _ from e1]
      simp only [bind, Except.bind]
      generalize hq : simul o (nets r) P1 _ _ _ _ _ = q
      have hq1 : q.nx = nx := by rw [← hq]; exact (hc r hr).1
      have hq2 : q.ny = ny := by rw [← hq]; exact (hc r hr).2
      have e2 := Move.loop_eq o d.2 P2 q (.down y2) (by rw [hq1, hq2]; exact hP2) _ (List.Perm.refl _)
      exact ⟨_, e2⟩
    have : Nonempty (Net T) := ⟨nets 0⟩
    choose! g hg using hok
    obtain ⟨ns, h1, -⟩ := onRanks_ok _ g nets ws hg
    exact ⟨ns, h1⟩

/-- C13 (what goes wrong): more than `2 ny` ranks (rounded) leave a rank without any projector, which fails
with `UnboundLocalError`; otherwise a projector nobody computed is looked up, `KeyError`. -/
theorem C13_error_kind_partial (po : ℕ → Ops T) (o : Ops T) (pk : ProjKind) (ws x1 x2 nx ny : ℕ)
    (nets : ℕ → Net T) (hws : 2 ≤ ws) (hny : 1 ≤ ny) (hc : Spec.SameCell ws nets nx ny)
    (hbad : ¬ Spec.SharingWorks ws ny) :
    leftRightDist po o pk ws x1 x2 nets
      = .error (if ny < (ws + 1) / 2 then .unboundLocalError else .keyError) := by
  obtain ⟨-, g2, g3⟩ := gather_complete ws ny (fun r y => calcLeft (po r) pk (nets r) x1 y)
    (fun r y => calcRight (po r) pk (nets r) x2 y) hws hny
  have hny0 : (nets 0).ny = ny := (hc 0 (by omega)).2
  split
  · next hlt => simp [leftRightDist, hny0, g2 hlt, bind, Except.bind]
  · next hge =>
    obtain ⟨d, hd, key, hk, hn⟩ := g3 (by omega) hbad
    simp only [leftRightDist, hny0, hd, bind, Except.bind]
    rw [onRanks_error _ _ _ .keyError (by omega)]
    rw [show leftLoop o d.1 x1 (nets 0) = .error .keyError from
      renormLoop_keyError _ _ _ _ _ _ _ ⟨key, by rw [hny0]; exact List.mem_range.2 hk, hn⟩ _]

/-- C13 is violated: on a 4 by 4 cell four ranks fail with `KeyError`, and on a 2 by 2 cell eight ranks fail
with `UnboundLocalError`, whatever the tensors. -/
theorem C13_violated :
    (∀ (T : Type) (po : ℕ → Ops T) (o : Ops T) (pk : ProjKind) (nets : ℕ → Net T),
      Spec.SameCell 4 nets 4 4 → ∀ x1 x2, leftRightDist po o pk 4 x1 x2 nets = .error .keyError) ∧
    (∀ (T : Type) (po : ℕ → Ops T) (o : Ops T) (pk : ProjKind) (nets : ℕ → Net T),
      Spec.SameCell 8 nets 2 2 → ∀ x1 x2, leftRightDist po o pk 8 x1 x2 nets = .error .unboundLocalError) := by
  constructor
  · intro T po o pk nets hc x1 x2
    rw [C13_error_kind_partial po o pk 4 x1 x2 4 4 nets (by omega) (by omega) hc
      (by simp [Spec.SharingWorks])]
    rfl
  · intro T po o pk nets hc x1 x2
    rw [C13_error_kind_partial po o pk 8 x1 x2 2 2 nets (by omega) (by omega) hc
      (by simp [Spec.SharingWorks])]
    rfl

/-- Witness: such networks exist (four ranks holding a 4 by 4 network of strings). -/
example : Spec.SameCell 4 (fun _ => { traceNet with nx := 4, ny := 4 }) 4 4 := fun _ _ => ⟨rfl, rfl⟩

/-- Witness for the positive direction: two ranks work on any lattice; four ranks work on two rows. -/
example : (∀ n, Spec.SharingWorks 2 n) ∧ Spec.SharingWorks 4 2 ∧ Spec.SharingWorks 4 3 ∧
    ¬ Spec.SharingWorks 4 4 := by simp [Spec.SharingWorks]

theorem renormLoop_cell (o : Ops T) (d : ProjDict T) (s1 s2 : ℕ → Site) (j : ℕ → ℕ) (k : ℕ)
    (idx : List ℕ) (a b : Net T) (h : renormLoop o d s1 s2 j k idx a = .ok b) :
    b.nx = a.nx ∧ b.ny = a.ny := by
  induction idx generalizing a with
  | nil => simp only [renormLoop] at h; cases h; exact ⟨rfl, rfl⟩
  | cons i is ih =>
    simp only [renormLoop, renormalizeBoundary, ProjDict.item, bind, Except.bind, pure, Except.pure] at h
    cases h1 : d i with
    | none => rw [h1] at h; cases h
    | some p =>
      cases h2 : d (j i) with
      | none => rw [h1, h2] at h; cases h
      | some q =>
        rw [h1, h2] at h
        have := ih _ h
        exact ⟨this.1.trans rfl, this.2.trans rfl⟩

theorem leftRightDist_cell (po : ℕ → Ops T) (o : Ops T) (pk : ProjKind) (ws x1 x2 nx ny : ℕ)
    (nets ns : ℕ → Net T) (hc : Spec.SameCell ws nets nx ny)
    (h : leftRightDist po o pk ws x1 x2 nets = .ok ns) : Spec.SameCell ws ns nx ny := by
  simp only [leftRightDist, bind, Except.bind] at h
  split at h
  · cases h
  · intro r hr
    have hq := onRanks_inv _ _ _ _ h r hr
    split at hq
    · cases hq
    · next q' hq' =>
      obtain ⟨e1, e2⟩ := renormLoop_cell _ _ _ _ _ _ _ _ _ hq'
      obtain ⟨e3, e4⟩ := renormLoop_cell _ _ _ _ _ _ _ _ _ hq
      exact ⟨e3.trans (e1.trans (hc r hr).1), e4.trans (e2.trans (hc r hr).2)⟩

theorem upDownDist_cell (po : ℕ → Ops T) (o : Ops T) (pk : ProjKind) (ws y1 y2 nx ny : ℕ)
    (nets ns : ℕ → Net T) (hc : Spec.SameCell ws nets nx ny)
    (h : upDownDist po o pk ws y1 y2 nets = .ok ns) : Spec.SameCell ws ns nx ny := by
  simp only [upDownDist, bind, Except.bind] at h
  split at h
  · cases h
  · intro r hr
    have hq := onRanks_inv _ _ _ _ h r hr
    split at hq
    · cases hq
    · next q' hq' =>
      obtain ⟨e1, e2⟩ := renormLoop_cell _ _ _ _ _ _ _ _ _ hq'
      obtain ⟨e3, e4⟩ := renormLoop_cell _ _ _ _ _ _ _ _ _ hq
      exact ⟨e3.trans (e1.trans (hc r hr).1), e4.trans (e2.trans (hc r hr).2)⟩

/-- C13 (whole renormalization): when the sharing works for both lattice dimensions a distributed
renormalization of any number of sweeps completes. -/
theorem C13_renormalize_completes_partial (po : ℕ → Ops T) (o : Ops T) (pk : ProjKind) (ws n nx ny : ℕ)
    (nets : ℕ → Net T) (hws : 2 ≤ ws) (hnx : 1 ≤ nx) (hny : 1 ≤ ny) (h1 : Spec.SharingWorks ws nx)
    (h2 : Spec.SharingWorks ws ny) (hc : Spec.SameCell ws nets nx ny) :
    ∃ nets', ctmrgDist po o pk ws n nets = .ok nets' := by
  have key : ∀ (ms : List ((ℕ × ℕ) ⊕ (ℕ × ℕ))) (nets : ℕ → Net T), Spec.SameCell ws nets nx ny →
      ∃ nets', runMovesDist po o pk ws ms nets = .ok nets' ∧ Spec.SameCell ws nets' nx ny := by
    intro ms
    induction ms with
    | nil => intro nets hc; exact ⟨nets, rfl, hc⟩
    | cons m ms ih =>
      intro nets hc
      cases m with
      | inl p =>
        obtain ⟨ns, hns⟩ := (C13_left_right_completes_iff_partial po o pk ws p.1 p.2 nx ny nets hws hny hc).2 h2
        obtain ⟨n2, h3, h4⟩ := ih ns (leftRightDist_cell po o pk ws p.1 p.2 nx ny nets ns hc hns)
        exact ⟨n2, by simp only [runMovesDist, hns, bind, Except.bind, h3], h4⟩
      | inr p =>
        obtain ⟨ns, hns⟩ := (C13_up_down_completes_iff_partial po o pk ws p.1 p.2 nx ny nets hws hnx hc).2 h1
        obtain ⟨n2, h3, h4⟩ := ih ns (upDownDist_cell po o pk ws p.1 p.2 nx ny nets ns hc hns)
        exact ⟨n2, by simp only [runMovesDist, hns, bind, Except.bind, h3], h4⟩
  induction n generalizing nets with
  | zero => exact ⟨nets, rfl⟩
  | succ n ih =>
    obtain ⟨n1, h3, h4⟩ := key (sweepMovesDist (nets 0).nx (nets 0).ny) nets hc
    obtain ⟨n2, h5⟩ := ih n1 h4
    exact ⟨n2, by simp only [ctmrgDist, bind, Except.bind, h3, h5]⟩

/-! ### C12 -/

theorem leftRightDist_sync (o : Ops T) (ws x1 x2 : ℕ) (nets nets' : ℕ → Net T) (net : Net T)
    (hws : 2 ≤ ws) (hny : 1 ≤ net.ny) (hs : Spec.InSync ws nets net)
    (h : leftRightDist (fun _ => o) o .half ws x1 x2 nets = .ok nets') :
    Spec.InSync ws nets' ((Move.right x2).after o .half ((Move.left x1).after o .half net)) := by
  have hc : Spec.SameCell ws nets net.nx net.ny := fun r hr => by rw [hs r hr]; exact ⟨rfl, rfl⟩
  have hw := (C13_left_right_completes_iff_partial _ o .half ws x1 x2 net.nx net.ny nets hws hny hc).1 ⟨_, h⟩
  obtain ⟨d, hd, hk⟩ := (gather_complete ws net.ny (fun r y => calcLeft o .half (nets r) x1 y)
    (fun r y => calcRight o .half (nets r) x2 y) hws hny).1 hw
  have h1 : ∀ y < net.ny, d.1 y = some (calcLeft o .half net x1 y) := by
    intro y hy
    obtain ⟨r, hr, e⟩ := (hk y hy).1
    rw [e, hs r hr]
  have h2 : ∀ y < net.ny, d.2 y = some (calcRight o .half net x2 y) := by
    intro y hy
    obtain ⟨r, hr, e⟩ := (hk y hy).2
    rw [e, hs r hr]
  simp only [leftRightDist, (hc 0 (by omega)).2, hd, bind, Except.bind] at h
  intro r hr
  have hr' := onRanks_inv _ _ _ _ h r hr
  rw [hs r hr] at hr'
  rw [show leftLoop o d.1 x1 net = .ok ((Move.left x1).after o .half net) from
    Move.loop_eq o d.1 (calcLeft o .half net x1) net (.left x1) h1 _ (List.Perm.refl _)] at hr'
  dsimp only at hr'
  have e2 := Move.loop_eq o d.2 ((Move.right x2).proj o .half ((Move.left x1).after o .half net))
    ((Move.left x1).after o .half net) (.right x2) (fun i hi => by
      rw [h2 i hi]; exact congrArg some (calcHalf_left_indep o net x1 x2 i).symm) _ (List.Perm.refl _)
  rw [show rightLoop o d.2 x2 ((Move.left x1).after o .half net) = _ from e2] at hr'
  exact (Except.ok.inj hr').symm

theorem upDownDist_sync (o : Ops T) (ws y1 y2 : ℕ) (nets nets' : ℕ → Net T) (net : Net T)
    (hws : 2 ≤ ws) (hnx : 1 ≤ net.nx) (hs : Spec.InSync ws nets net)
    (h : upDownDist (fun _ => o) o .half ws y1 y2 nets = .ok nets') :
    Spec.InSync ws nets' ((Move.down y2).after o .half ((Move.up y1).after o .half net)) := by
  have hc : Spec.SameCell ws nets net.nx net.ny := fun r hr => by rw [hs r hr]; exact ⟨rfl, rfl⟩
  have hw := (C13_up_down_completes_iff_partial _ o .half ws y1 y2 net.nx net.ny nets hws hnx hc).1 ⟨_, h⟩
  obtain ⟨d, hd, hk⟩ := (gather_complete ws net.nx (fun r x => calcUp o .half (nets r) x y1)
    (fun r x => calcDown o .half (nets r) x y2) hws hnx).1 hw
  have h1 : ∀ x < net.nx, d.1 x = some (calcUp o .half net x y1) := by
    intro y hy
    obtain ⟨r, hr, e⟩ := (hk y hy).1
    rw [e, hs r hr]
  have h2 : ∀ x < net.nx, d.2 x = some (calcDown o .half net x y2) := by
    intro y hy
    obtain ⟨r, hr, e⟩ := (hk y hy).2
    rw [e, hs r hr]
  simp only [upDownDist, (hc 0 (by omega)).1, hd, bind, Except.bind] at h
  intro r hr
  have hr' := onRanks_inv _ _ _ _ h r hr
  rw [hs r hr] at hr'
  rw [show upLoop o d.1 y1 net = .ok ((Move.up y1).after o .half net) from
    Move.loop_eq o d.1 (fun x => calcUp o .half net x y1) net (.up y1) h1 _ (List.Perm.refl _)] at hr'
  dsimp only at hr'
  have e2 := Move.loop_eq o d.2 ((Move.down y2).proj o .half ((Move.up y1).after o .half net))
    ((Move.up y1).after o .half net) (.down y2) (fun i hi => by
      rw [h2 i hi]; exact congrArg some (calcHalf_up_indep o net y1 y2 i).symm) _ (List.Perm.refl _)
  rw [show downLoop o d.2 y2 ((Move.up y1).after o .half net) = _ from e2] at hr'
  exact (Except.ok.inj hr').symm

/-- C12 (left-right): whenever the distributed left-right move completes, every rank holds exactly the network
produced by the serial left move followed by the serial right move. -/
theorem C12_left_right_eq_serial (o : Ops T) (ws x1 x2 : ℕ) (nets nets' : ℕ → Net T) (net : Net T)
    (hws : 2 ≤ ws) (hny : 1 ≤ net.ny) (hs : Spec.InSync ws nets net)
    (h : leftRightDist (fun _ => o) o .half ws x1 x2 nets = .ok nets') :
    ∀ r < ws, runMoves o .half [.left x1, .right x2] net = .ok (nets' r) := by
  intro r hr
  rw [runMoves_eq, leftRightDist_sync o ws x1 x2 nets nets' net hws hny hs h r hr]; rfl

/-- C12 (up-down). -/
theorem C12_up_down_eq_serial (o : Ops T) (ws y1 y2 : ℕ) (nets nets' : ℕ → Net T) (net : Net T)
    (hws : 2 ≤ ws) (hnx : 1 ≤ net.nx) (hs : Spec.InSync ws nets net)
    (h : upDownDist (fun _ => o) o .half ws y1 y2 nets = .ok nets') :
    ∀ r < ws, runMoves o .half [.up y1, .down y2] net = .ok (nets' r) := by
  intro r hr
  rw [runMoves_eq, upDownDist_sync o ws y1 y2 nets nets' net hws hnx hs h r hr]; rfl

/-- The serial moves corresponding to distributed ones. -/
def serialOf : List ((ℕ × ℕ) ⊕ (ℕ × ℕ)) → List Move
  | [] => []
  | .inl p :: ms => .left p.1 :: .right p.2 :: serialOf ms
  | .inr p :: ms => .up p.1 :: .down p.2 :: serialOf ms

theorem runMovesDist_sync (o : Ops T) (ws : ℕ) (ms : List ((ℕ × ℕ) ⊕ (ℕ × ℕ))) (nets nets' : ℕ → Net T)
    (net : Net T) (hws : 2 ≤ ws) (hnx : 1 ≤ net.nx) (hny : 1 ≤ net.ny) (hs : Spec.InSync ws nets net)
    (h : runMovesDist (fun _ => o) o .half ws ms nets = .ok nets') :
    Spec.InSync ws nets' (movesAfter o .half (serialOf ms) net) := by
  induction ms generalizing nets net with
  | nil => simp only [runMovesDist] at h; cases h; exact hs
  | cons m ms ih =>
    cases m with
    | inl p =>
      simp only [runMovesDist, bind, Except.bind] at h
      cases h1 : leftRightDist (fun _ => o) o .half ws p.1 p.2 nets with
      | error e => rw [h1] at h; cases h
      | ok ns =>
        rw [h1] at h
        exact ih ns _ hnx hny (leftRightDist_sync o ws p.1 p.2 nets ns net hws hny hs h1) h
    | inr p =>
      simp only [runMovesDist, bind, Except.bind] at h
      cases h1 : upDownDist (fun _ => o) o .half ws p.1 p.2 nets with
      | error e => rw [h1] at h; cases h
      | ok ns =>
        rw [h1] at h
        exact ih ns _ hnx hny (upDownDist_sync o ws p.1 p.2 nets ns net hws hnx hs h1) h

theorem serialOf_sweep (nx ny : ℕ) : serialOf (sweepMovesDist nx ny) = sweepMoves nx ny := by
  have happ : ∀ a b, serialOf (a ++ b) = serialOf a ++ serialOf b := by
    intro a b
    induction a with
    | nil => rfl
    | cons m a ih => cases m <;> simp [serialOf, ih]
  have h1 : ∀ (l : List ℕ) (f g : ℕ → ℕ), serialOf (l.map fun i => .inl (f i, g i))
      = l.flatMap fun i => [Move.left (f i), Move.right (g i)] := by
    intro l f g
    induction l with
    | nil => rfl
    | cons a l ih => simp [serialOf, ih]
  have h2 : ∀ (l : List ℕ) (f g : ℕ → ℕ), serialOf (l.map fun i => .inr (f i, g i))
      = l.flatMap fun i => [Move.up (f i), Move.down (g i)] := by
    intro l f g
    induction l with
    | nil => rfl
    | cons a l ih => simp [serialOf, ih]
  rw [sweepMovesDist, happ, h1 _ (fun i => i), h2 _ _ (fun i => i)]
  rfl

/-- C12 (whole renormalization): if a distributed renormalization of `n` sweeps completes, every rank holds
exactly the network the serial renormalization produces. -/
theorem C12_ctmrg_eq_serial (o : Ops T) (ws n : ℕ) (nets nets' : ℕ → Net T) (net : Net T)
    (hws : 2 ≤ ws) (hnx : 1 ≤ net.nx) (hny : 1 ≤ net.ny) (hs : Spec.InSync ws nets net)
    (h : ctmrgDist (fun _ => o) o .half ws n nets = .ok nets') :
    ∀ r < ws, ctmrg o .half n net = .ok (nets' r) := by
  induction n generalizing nets net with
  | zero =>
    simp only [ctmrgDist] at h; cases h
    intro r hr; rw [hs r hr]; rfl
  | succ n ih =>
    simp only [ctmrgDist, bind, Except.bind, hs 0 (by omega)] at h
    cases h1 : runMovesDist (fun _ => o) o .half ws (sweepMovesDist net.nx net.ny) nets with
    | error e => rw [h1] at h; cases h
    | ok ns =>
      rw [h1] at h
      have hsync := runMovesDist_sync o ws _ nets ns net hws hnx hny hs h1
      rw [serialOf_sweep] at hsync
      obtain ⟨c1, c2, -, -⟩ := movesAfter_consts o .half (sweepMoves net.nx net.ny) net
      simp only [ctmrg, runMoves_eq, bind, Except.bind]
      exact ih ns _ (by rw [c1]; exact hnx) (by rw [c2]; exact hny) hsync h

/-- C12 (bond update): if the distributed full update of a bond completes, every rank holds exactly the network
the serial full update of that bond produces, although the two halves of the absorption run in the other
order for directions 0 and 1. -/
theorem C12_bond_update_eq_serial (o : Ops T) (ws : ℕ) (upd : Net T → Bond → T × T) (b : Bond) (hk : b.k < 4)
    (nets nets' : ℕ → Net T) (net : Net T) (hws : 2 ≤ ws) (hnx : 1 ≤ net.nx) (hny : 1 ≤ net.ny)
    (hs : Spec.InSync ws nets net)
    (h : bondUpdateDist (fun _ => o) o .half ws upd b nets = .ok nets') :
    ∀ r < ws, bondUpdateSerial o .half upd b net = .ok (nets' r) := by
  simp only [bondUpdateDist, hs 0 (by omega)] at h
  have hs' : Spec.InSync ws (fun r => ((nets r).setA b.s1 (upd net b).1).setA b.s2 (upd net b).2)
      ((net.setA b.s1 (upd net b).1).setA b.s2 (upd net b).2) := fun r hr => by simp only [hs r hr]
  have hsync := runMovesDist_sync o ws _ _ nets' _ hws (by exact hnx) (by exact hny) hs' h
  intro r hr
  rw [hsync r hr, bondUpdateSerial, runMoves_eq]
  congr 1
  generalize (net.setA b.s1 (upd net b).1).setA b.s2 (upd net b).2 = q
  obtain ⟨s1, s2, k⟩ := b
  have : k = 0 ∨ k = 1 ∨ k = 2 ∨ k = 3 := by simp only at hk; omega
  rcases this with rfl | rfl | rfl | rfl
  · exact left_right_comm_half o _ _ q
  · exact up_down_comm_half o _ _ q
  · rfl
  · rfl

/-! ### C14 -/

/-- One collective operation of a distributed run after construction: a renormalization of `n` sweeps or a
full update of bond `b`. -/
inductive DistOp
  | renormalize (n : ℕ)
  | bondUpdate (b : Bond)

/-- Perform a collective operation; `po` are the projector operations with each rank's own random draws (which
may differ from call to call), `upd` is rank 0's tensor update. -/
def DistOp.run (o : Ops T) (pk : ProjKind) (ws : ℕ) (upd : Net T → Bond → T × T) (po : ℕ → Ops T)
    (nets : ℕ → Net T) : DistOp → Except PyErr (ℕ → Net T)
  | .renormalize n => ctmrgDist po o pk ws n nets
  | .bondUpdate b => bondUpdateDist po o pk ws upd b nets

/-- A history of collective operations, each with its own random draws. -/
def DistOp.runAll (o : Ops T) (pk : ProjKind) (ws : ℕ) (upd : Net T → Bond → T × T) :
    List (DistOp × (ℕ → Ops T)) → (ℕ → Net T) → Except PyErr (ℕ → Net T)
  | [], nets => .ok nets
  | op :: ops, nets => do
    let nets ← op.1.run o pk ws upd op.2 nets
    DistOp.runAll o pk ws upd ops nets

theorem leftRightDist_agree (po : ℕ → Ops T) (o : Ops T) (pk : ProjKind) (ws x1 x2 : ℕ)
    (nets nets' : ℕ → Net T) (hs : ∀ r < ws, nets r = nets 0)
    (h : leftRightDist po o pk ws x1 x2 nets = .ok nets') : ∀ r < ws, nets' r = nets' 0 := by
  simp only [leftRightDist, bind, Except.bind] at h
  split at h
  · cases h
  · intro r hr
    have h1 := onRanks_inv _ _ _ _ h r hr
    have h0 := onRanks_inv _ _ _ _ h 0 (by omega)
    rw [hs r hr, h0] at h1
    exact (Except.ok.inj h1).symm

theorem upDownDist_agree (po : ℕ → Ops T) (o : Ops T) (pk : ProjKind) (ws y1 y2 : ℕ)
    (nets nets' : ℕ → Net T) (hs : ∀ r < ws, nets r = nets 0)
    (h : upDownDist po o pk ws y1 y2 nets = .ok nets') : ∀ r < ws, nets' r = nets' 0 := by
  simp only [upDownDist, bind, Except.bind] at h
  split at h
  · cases h
  · intro r hr
    have h1 := onRanks_inv _ _ _ _ h r hr
    have h0 := onRanks_inv _ _ _ _ h 0 (by omega)
    rw [hs r hr, h0] at h1
    exact (Except.ok.inj h1).symm

theorem runMovesDist_agree (po : ℕ → Ops T) (o : Ops T) (pk : ProjKind) (ws : ℕ)
    (ms : List ((ℕ × ℕ) ⊕ (ℕ × ℕ))) (nets nets' : ℕ → Net T) (hs : ∀ r < ws, nets r = nets 0)
    (h : runMovesDist po o pk ws ms nets = .ok nets') : ∀ r < ws, nets' r = nets' 0 := by
  induction ms generalizing nets with
  | nil => simp only [runMovesDist] at h; cases h; exact hs
  | cons m ms ih =>
    cases m with
    | inl p =>
      simp only [runMovesDist, bind, Except.bind] at h
      split at h
      · cases h
      · next ns h1 => exact ih ns (leftRightDist_agree po o pk ws p.1 p.2 nets ns hs h1) h
    | inr p =>
      simp only [runMovesDist, bind, Except.bind] at h
      split at h
      · cases h
      · next ns h1 => exact ih ns (upDownDist_agree po o pk ws p.1 p.2 nets ns hs h1) h

theorem ctmrgDist_agree (po : ℕ → Ops T) (o : Ops T) (pk : ProjKind) (ws n : ℕ) (nets nets' : ℕ → Net T)
    (hs : ∀ r < ws, nets r = nets 0) (h : ctmrgDist po o pk ws n nets = .ok nets') :
    ∀ r < ws, nets' r = nets' 0 := by
  induction n generalizing nets with
  | zero => simp only [ctmrgDist] at h; cases h; exact hs
  | succ n ih =>
    simp only [ctmrgDist, bind, Except.bind] at h
    split at h
    · cases h
    · next ns h1 => exact ih ns (runMovesDist_agree po o pk ws _ nets ns hs h1) h

/-- C14 (partial: once the ranks agree): with the full update, any history of renormalizations and bond updates
keeps all ranks' networks equal, although every rank draws its own random numbers; both projector types.
Missing: agreement at construction, which is violated because the initial noise is drawn by every rank for
itself, see `C14_violated_disagreement_persists`. -/
theorem C14_stays_in_sync_partial (o : Ops T) (pk : ProjKind) (ws : ℕ) (upd : Net T → Bond → T × T)
    (ops : List (DistOp × (ℕ → Ops T))) (nets nets' : ℕ → Net T)
    (hs : ∀ r < ws, nets r = nets 0) (h : DistOp.runAll o pk ws upd ops nets = .ok nets') :
    ∀ r < ws, nets' r = nets' 0 := by
  induction ops generalizing nets with
  | nil => simp only [DistOp.runAll] at h; cases h; exact hs
  | cons op ops ih =>
    simp only [DistOp.runAll, bind, Except.bind] at h
    split at h
    · cases h
    · next ns h1 =>
      refine ih ns ?_ h
      obtain ⟨op, po⟩ := op
      cases op with
      | renormalize n => exact ctmrgDist_agree po o pk ws n nets ns hs h1
      | bondUpdate b =>
        simp only [DistOp.run, bondUpdateDist] at h1
        exact runMovesDist_agree po o pk ws _ _ ns (fun r hr => by simp only [hs r hr]) h1

theorem renormLoop_A (o : Ops T) (d : ProjDict T) (s1 s2 : ℕ → Site) (j : ℕ → ℕ) (k : ℕ) (idx : List ℕ)
    (net net' : Net T) (h : renormLoop o d s1 s2 j k idx net = .ok net') : net'.A = net.A := by
  induction idx generalizing net with
  | nil => simp only [renormLoop] at h; cases h; rfl
  | cons i is ih =>
    simp only [renormLoop, renormalizeBoundary, ProjDict.item, bind, Except.bind, pure, Except.pure] at h
    cases h1 : d i with
    | none => rw [h1] at h; cases h
    | some p =>
      cases h2 : d (j i) with
      | none => rw [h1, h2] at h; cases h
      | some q => rw [h1, h2] at h; exact (ih _ h).trans rfl

theorem ctmrgDist_A (po : ℕ → Ops T) (o : Ops T) (pk : ProjKind) (ws n : ℕ) (nets nets' : ℕ → Net T)
    (h : ctmrgDist po o pk ws n nets = .ok nets') : ∀ r < ws, (nets' r).A = (nets r).A := by
  have hm : ∀ (ms : List ((ℕ × ℕ) ⊕ (ℕ × ℕ))) (a b : ℕ → Net T),
      runMovesDist po o pk ws ms a = .ok b → ∀ r < ws, (b r).A = (a r).A := by
    intro ms
    induction ms with
    | nil => intro a b h; simp only [runMovesDist] at h; cases h; intro r _; rfl
    | cons m ms ih =>
      intro a b h r hr
      cases m with
      | inl p =>
        simp only [runMovesDist, leftRightDist, bind, Except.bind] at h
        split at h
        · cases h
        · next c hc =>
          split at hc
          · cases hc
          · have := onRanks_inv _ _ _ _ hc r hr
            split at this
            · cases this
            · next q hq =>
              rw [ih c b h r hr, renormLoop_A _ _ _ _ _ _ _ _ _ this, renormLoop_A _ _ _ _ _ _ _ _ _ hq]
      | inr p =>
        simp only [runMovesDist, upDownDist, bind, Except.bind] at h
        split at h
        · cases h
        · next c hc =>
          split at hc
          · cases hc
          · have := onRanks_inv _ _ _ _ hc r hr
            split at this
            · cases this
            · next q hq =>
              rw [ih c b h r hr, renormLoop_A _ _ _ _ _ _ _ _ _ this, renormLoop_A _ _ _ _ _ _ _ _ _ hq]
  induction n generalizing nets with
  | zero => simp only [ctmrgDist] at h; cases h; intro r _; rfl
  | succ n ih =>
    simp only [ctmrgDist, bind, Except.bind] at h
    split at h
    · cases h
    · next ns h1 =>
      intro r hr
      rw [ih ns h r hr, hm _ _ _ h1 r hr]

/-- C14 is violated: if two ranks drew initial noise that makes one of their bulk tensors different, then they
still hold different networks after every completed `renormalize`, whatever the number of sweeps. -/
theorem C14_violated_disagreement_persists (po : ℕ → Ops T) (o : Ops T) (pk : ProjKind) (ws n : ℕ)
    (nets nets' : ℕ → Net T) (r r' : ℕ) (hr : r < ws) (hr' : r' < ws) (s : Site)
    (hd : (nets r).A s ≠ (nets r').A s) (h : ctmrgDist po o pk ws n nets = .ok nets') :
    nets' r ≠ nets' r' := by
  intro e
  apply hd
  rw [← ctmrgDist_A po o pk ws n nets nets' h r hr, ← ctmrgDist_A po o pk ws n nets nets' h r' hr', e]

/-- Two ranks with different bulk tensors. -/
def desyncNets : ℕ → Net String := fun r => { traceNet with A := fun s => s!"A{s.1}{s.2}:noise{r}" }

/-- The hypotheses are met: two ranks, different draws, and the distributed renormalization completes. -/
example : (desyncNets 0).A (0, 0) ≠ (desyncNets 1).A (0, 0) ∧
    ∃ nets', ctmrgDist (fun _ => traceOps) traceOps .half 2 1 desyncNets = .ok nets' :=
  ⟨by decide, C13_renormalize_completes_partial _ _ _ 2 1 3 2 _ (by omega) (by omega) (by omega)
    (Or.inl rfl) (Or.inl rfl) fun _ _ => ⟨rfl, rfl⟩⟩

end AceTN
