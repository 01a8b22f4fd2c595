import Verif.Model.Dist
import Verif.Lemmas.Moves

/-! The gathering loop of the distributed moves. -/

set_option autoImplicit false

namespace AceTN
variable {T : Type}

theorem storeGathered_eq (h shift off : ℕ) (all : ℕ → Option (T × T)) (d : ProjDict T) (key : ℕ) :
    storeGathered h shift off all d key
      = if shift ≤ key ∧ key - shift < h then all (key - shift + off) else d key := by
  unfold storeGathered
  induction h with
  | zero => simp
  | succ h ih =>
    rw [List.range_succ, List.foldl_append]
    simp only [List.foldl_cons, List.foldl_nil]
    by_cases hk : key = h + shift
    · subst hk
      rw [if_pos rfl, if_pos ⟨by omega, by omega⟩]
      congr 1; omega
    · rw [if_neg hk, ih]
      by_cases h1 : shift ≤ key ∧ key - shift < h
      · rw [if_pos h1, if_pos ⟨h1.1, by omega⟩]
      · rw [if_neg h1, if_neg (by omega)]

/-- Every rank computes something in the first pass. -/
def FirstPassOk (ws n : ℕ) : Prop := ∀ r < ws, (r < ws / 2 → r < n) ∧ (ws / 2 ≤ r → r - ws / 2 < n)

theorem firstPassOk_iff (ws n : ℕ) (hws : 2 ≤ ws) : FirstPassOk ws n ↔ (ws + 1) / 2 ≤ n := by
  constructor
  · intro h
    have := (h (ws - 1) (by omega)).2 (by omega)
    omega
  · intro h r hr
    constructor <;> intro _ <;> omega

/-- Row `key` is assigned in one of the first `m` passes. -/
def Covered (ws m key : ℕ) : Prop := ∃ t < m, t ≤ key ∧ key - t < ws / 2

theorem gather_fold (ws n : ℕ) (calc1 calc2 : ℕ → ℕ → T × T) (hws : 2 ≤ ws)
    (hc : FirstPassOk ws n) (m : ℕ) :
    ∃ st, ((List.range m).map (· * ws)).foldlM (gatherStep ws n calc1 calc2)
        (fun _ => none, fun _ => none, fun _ => none) = .ok st ∧
      (1 ≤ m → ∀ r < ws, (st.1 r).isSome) ∧
      (∀ key < n, Covered ws m key →
        (∃ r < ws, st.2.1 key = some (calc1 r key)) ∧ ∃ r < ws, st.2.2 key = some (calc2 r key)) ∧
      (∀ key < n, ¬ Covered ws m key → st.2.1 key = none ∧ st.2.2 key = none) := by
  induction m with
  | zero =>
    refine ⟨_, rfl, by omega, ?_, ?_⟩
    · rintro key - ⟨t, ht, -⟩; omega
    · intro key _ _; exact ⟨rfl, rfl⟩
  | succ m ih =>
    obtain ⟨st, hst, hs, hcov, hncov⟩ := ih
    rw [List.range_succ, List.map_append, List.foldlM_append, hst]
    simp only [List.map_cons, List.map_nil, List.foldlM_cons, List.foldlM_nil]
    have hdiv : m * ws / ws = m := Nat.mul_div_cancel _ (by omega)
    have hall : ∀ r < ws, ((if r < ws / 2 then
        (if r + m < n then some (calc1 r (r + m)) else st.1 r)
        else if r - ws / 2 + m < n then some (calc2 r (r - ws / 2 + m)) else st.1 r) :
          Option (T × T)).isSome := by
      intro r hr
      rcases Nat.eq_zero_or_pos m with rfl | hm
      · have := hc r hr
        split
        · rw [if_pos (by omega)]; rfl
        · rw [if_pos (by omega)]; rfl
      · have := hs hm r hr
        split <;> split <;> first | rfl | exact this
    simp only [gatherStep, hdiv, allGather, bind, Except.bind, pure, Except.pure]
    rw [if_pos hall]
    refine ⟨_, rfl, fun _ => hall, ?_, ?_⟩
    · intro key hk hco
      simp only [storeGathered_eq]
      by_cases hin : m ≤ key ∧ key - m < ws / 2
      · rw [if_pos hin, if_pos hin]
        have e : key - m + m = key := by omega
        constructor
        · exact ⟨key - m, by omega, by rw [Nat.add_zero, if_pos hin.2, e, if_pos hk]⟩
        · exact ⟨key - m + ws / 2, by omega, by
            rw [if_neg (by omega), show key - m + ws / 2 - ws / 2 + m = key by omega, if_pos hk]⟩
      · rw [if_neg hin, if_neg hin]
        apply hcov key hk
        obtain ⟨t, ht, hh⟩ := hco
        rcases Nat.lt_or_ge t m with h | h
        · exact ⟨t, h, hh⟩
        · have : t = m := by omega
          subst this; exact absurd hh hin
    · intro key hk hco
      simp only [storeGathered_eq]
      have hin : ¬ (m ≤ key ∧ key - m < ws / 2) := fun h => hco ⟨m, by omega, h⟩
      rw [if_neg hin, if_neg hin]
      exact hncov key hk fun ⟨t, ht, hh⟩ => hco ⟨t, by omega, hh⟩

theorem gatherProjectors_ok (ws n : ℕ) (calc1 calc2 : ℕ → ℕ → T × T) (hws : 2 ≤ ws)
    (hc : FirstPassOk ws n) :
    ∃ d, gatherProjectors ws n calc1 calc2 = .ok d ∧
      (∀ key < n, Covered ws ((2 * n + ws - 1) / ws) key →
        (∃ r < ws, d.1 key = some (calc1 r key)) ∧ ∃ r < ws, d.2 key = some (calc2 r key)) ∧
      (∀ key < n, ¬ Covered ws ((2 * n + ws - 1) / ws) key → d.1 key = none ∧ d.2 key = none) := by
  obtain ⟨st, hst, -, ha, hb⟩ := gather_fold ws n calc1 calc2 hws hc ((2 * n + ws - 1) / ws)
  refine ⟨st.2, ?_, ha, hb⟩
  simp only [gatherProjectors, pyRange3, hst, bind, Except.bind, pure, Except.pure]

theorem gatherProjectors_unbound (ws n : ℕ) (calc1 calc2 : ℕ → ℕ → T × T) (hws : 2 ≤ ws) (hn : 1 ≤ n)
    (hc : ¬ FirstPassOk ws n) :
    gatherProjectors ws n calc1 calc2 = .error .unboundLocalError := by
  have hpos : (2 * n + ws - 1) / ws ≠ 0 := by
    rw [Nat.div_ne_zero_iff]; omega
  obtain ⟨m, hm⟩ := Nat.exists_eq_succ_of_ne_zero hpos
  simp only [gatherProjectors, pyRange3, hm, List.range_succ_eq_map, List.map_cons, List.foldlM_cons,
    gatherStep, Nat.zero_mul, Nat.zero_div, allGather, Nat.add_zero, bind, Except.bind, pure, Except.pure]
  rw [if_neg]
  intro hall
  apply hc
  intro r hr
  have := hall r hr
  constructor
  · intro h; rw [if_pos h] at this
    by_contra hn'; rw [if_neg hn'] at this; simp at this
  · intro h; rw [if_neg (by omega)] at this
    by_contra hn'; rw [if_neg hn'] at this; simp at this

theorem covered_all_iff (ws n : ℕ) (hws : 2 ≤ ws) (hn : 1 ≤ n) :
    (∀ key < n, Covered ws ((2 * n + ws - 1) / ws) key) ↔ n + 1 ≤ (2 * n + ws - 1) / ws + ws / 2 := by
  have hpos : 1 ≤ (2 * n + ws - 1) / ws := by
    rw [Nat.one_le_div_iff (by omega)]; omega
  generalize (2 * n + ws - 1) / ws = m at *
  constructor
  · intro h
    obtain ⟨t, ht, h1, h2⟩ := h (n - 1) (by omega)
    omega
  · intro h key hk
    by_cases hkm : key < m
    · exact ⟨key, hkm, le_rfl, by omega⟩
    · exact ⟨m - 1, by omega, by omega, by omega⟩

theorem onRanks_ok (f : ℕ → Except PyErr (Net T)) (g : ℕ → Net T) (nets : ℕ → Net T) (ws : ℕ)
    (h : ∀ r < ws, f r = .ok (g r)) :
    ∃ ns, onRanks f nets ws = .ok ns ∧ (∀ r < ws, ns r = g r) ∧ ∀ r, ws ≤ r → ns r = nets r := by
  induction ws with
  | zero => exact ⟨nets, rfl, by omega, fun _ _ => rfl⟩
  | succ ws ih =>
    obtain ⟨ns, h1, h2, h3⟩ := ih fun r hr => h r (by omega)
    refine ⟨Function.update ns ws (g ws), ?_, ?_, ?_⟩
    · simp only [onRanks, h1, h ws (by omega), bind, Except.bind, pure, Except.pure]
    · intro r hr
      by_cases hrw : r = ws
      · subst hrw; simp
      · rw [Function.update_of_ne hrw, h2 r (by omega)]
    · intro r hr
      rw [Function.update_of_ne (by omega), h3 r (by omega)]

theorem onRanks_error (f : ℕ → Except PyErr (Net T)) (nets : ℕ → Net T) (ws : ℕ) (e : PyErr)
    (hws : 0 < ws) (h : f 0 = .error e) : onRanks f nets ws = .error e := by
  induction ws with
  | zero => omega
  | succ ws ih =>
    rcases Nat.eq_zero_or_pos ws with rfl | hpos
    · simp only [onRanks, h, bind, Except.bind]
    · simp only [onRanks, ih hpos, bind, Except.bind]

theorem onRanks_inv (f : ℕ → Except PyErr (Net T)) (nets ns : ℕ → Net T) (ws : ℕ)
    (h : onRanks f nets ws = .ok ns) : ∀ r < ws, f r = .ok (ns r) := by
  induction ws generalizing ns with
  | zero => omega
  | succ ws ih =>
    simp only [onRanks, bind, Except.bind, pure, Except.pure] at h
    cases h1 : onRanks f nets ws with
    | error e => rw [h1] at h; simp at h
    | ok ns1 =>
      rw [h1] at h
      cases h2 : f ws with
      | error e => rw [h2] at h; simp at h
      | ok n =>
        rw [h2] at h
        simp only [Except.ok.injEq] at h
        subst h
        intro r hr
        by_cases hrw : r = ws
        · subst hrw; simpa using h2
        · rw [Function.update_of_ne hrw]; exact ih ns1 h1 r (by omega)

/-! ### the second half of a distributed move does not see the first (half-system projectors) -/

theorem calcHalf_left_indep (o : Ops T) (net : Net T) (x1 x2 y : ℕ) :
    calcRight o .half ((Move.left x1).after o .half net) x2 y = calcRight o .half net x2 y := by
  have hB : ∀ s sl, (¬ (sl = .C 3 ∨ sl = .C 0 ∨ sl = .E 3)) →
      ((Move.left x1).after o .half net).B s sl = net.B s sl := by
    intro s sl h
    exact (Move.left x1).after_B_not_hits o .half net s sl fun hh => h (by simpa [hitSlot, Move.k] using hh.2)
  obtain ⟨-, c2, c3, c4⟩ := (Move.left x1).after_consts o .half net
  simp only [calcRight, calcProjectors, quarterTensor, c2, c3, c4]
  rw [hB _ _ (by simp), hB _ _ (by simp), hB _ _ (by simp), hB _ _ (by simp), hB _ _ (by simp),
    hB _ _ (by simp)]

theorem calcHalf_up_indep (o : Ops T) (net : Net T) (y1 y2 x : ℕ) :
    calcDown o .half ((Move.up y1).after o .half net) x y2 = calcDown o .half net x y2 := by
  have hB : ∀ s sl, (¬ (sl = .C 0 ∨ sl = .C 1 ∨ sl = .E 0)) →
      ((Move.up y1).after o .half net).B s sl = net.B s sl := by
    intro s sl h
    exact (Move.up y1).after_B_not_hits o .half net s sl fun hh => h (by simpa [hitSlot, Move.k] using hh.2)
  obtain ⟨c1, -, c3, c4⟩ := (Move.up y1).after_consts o .half net
  simp only [calcDown, calcProjectors, quarterTensor, c1, c3, c4]
  rw [hB _ _ (by simp), hB _ _ (by simp), hB _ _ (by simp), hB _ _ (by simp), hB _ _ (by simp),
    hB _ _ (by simp)]

/-- The three slots on the side opposite to a move's own side. -/
def oppSlot (k : ℕ) (sl : Slot) : Prop :=
  sl = .C ((1 + k) % 4) ∨ sl = .C ((2 + k) % 4) ∨ sl = .E ((1 + k) % 4)

/-- Half-system moves neither read nor write the opposite side: two networks that agree elsewhere agree
elsewhere after the move. -/
theorem Move.after_congr_half (o : Ops T) (m : Move) (a b : Net T) (h1 : a.nx = b.nx) (h2 : a.ny = b.ny)
    (h3 : a.chi = b.chi) (h4 : a.A = b.A)
    (hB : ∀ s sl, ¬ oppSlot m.k sl → a.B s sl = b.B s sl) (s : Site) (sl : Slot) (hs : ¬ oppSlot m.k sl) :
    (m.after o .half a).B s sl = (m.after o .half b).B s sl := by
  have hproj : m.proj o .half a = m.proj o .half b := by
    funext i
    cases m <;>
      simp only [Move.proj, calcLeft, calcRight, calcUp, calcDown, calcProjectors, quarterTensor, h1, h2, h3,
        h4] <;>
      rw [hB _ _ (by simp [oppSlot, Move.k]), hB _ _ (by simp [oppSlot, Move.k]),
        hB _ _ (by simp [oppSlot, Move.k]), hB _ _ (by simp [oppSlot, Move.k]),
        hB _ _ (by simp [oppSlot, Move.k]), hB _ _ (by simp [oppSlot, Move.k])]
  by_cases h : ∃ i < m.n a.nx a.ny, m.tgt a.nx a.ny i = s
  · obtain ⟨i, hi, rfl⟩ := h
    rw [m.after_B_mem o .half a hi]
    rw [h1, h2] at hi ⊢
    rw [m.after_B_mem o .half b hi]
    simp only [newB, hproj, h4]
    have e1 : a.B (m.src i) (.C ((3 + m.k) % 4)) = b.B (m.src i) (.C ((3 + m.k) % 4)) :=
      hB _ _ (by cases m <;> simp [oppSlot, Move.k])
    have e2 : a.B (m.src i) (.E ((2 + m.k) % 4)) = b.B (m.src i) (.E ((2 + m.k) % 4)) :=
      hB _ _ (by cases m <;> simp [oppSlot, Move.k])
    have e3 : a.B (m.src i) (.C m.k) = b.B (m.src i) (.C m.k) :=
      hB _ _ (by cases m <;> simp [oppSlot, Move.k])
    have e4 : a.B (m.src i) (.E m.k) = b.B (m.src i) (.E m.k) :=
      hB _ _ (by cases m <;> simp [oppSlot, Move.k])
    have e5 : a.B (m.src i) (.E ((3 + m.k) % 4)) = b.B (m.src i) (.E ((3 + m.k) % 4)) :=
      hB _ _ (by cases m <;> simp [oppSlot, Move.k])
    rw [e1, e2, e3, e4, e5, hB _ sl hs]
  · push Not at h
    rw [m.after_B_ne o .half a h, m.after_B_ne o .half b (by rw [← h1, ← h2]; exact h), hB s sl hs]

theorem Move.not_opp_hit (m : Move) (sl : Slot) (h1 : oppSlot m.k sl) (h2 : hitSlot m.k sl) : False := by
  cases m <;> simp only [oppSlot, hitSlot, Move.k] at h1 h2 <;>
    rcases h1 with rfl | rfl | rfl <;> simp at h2

/-- Half-system moves on opposite sides commute. -/
theorem Move.after_comm_half (o : Ops T) (m m' : Move) (net : Net T)
    (hop : ∀ sl, oppSlot m.k sl ↔ hitSlot m'.k sl) (hop' : ∀ sl, oppSlot m'.k sl ↔ hitSlot m.k sl) :
    m.after o .half (m'.after o .half net) = m'.after o .half (m.after o .half net) := by
  classical
  apply Net.ext'
  · rfl
  · rfl
  · rfl
  · rfl
  · intro s sl
    by_cases h : oppSlot m.k sl
    · have hnh : ∀ (n : Net T), (m.after o .half n).B s sl = n.B s sl := by
        intro n
        apply m.after_B_not_hits
        rintro ⟨-, hh⟩
        exact m.not_opp_hit sl h hh
      rw [hnh]
      apply m'.after_congr_half o net (m.after o .half net) rfl rfl rfl rfl
      · intro s' sl' h'
        rw [hop'] at h'
        exact (m.after_B_not_hits o .half net s' sl' fun hh => h' hh.2).symm
      · rw [hop] at h
        intro hh
        exact m'.not_opp_hit sl hh h
    · have hnh : ∀ (n : Net T), (m'.after o .half n).B s sl = n.B s sl := by
        intro n
        apply m'.after_B_not_hits
        rintro ⟨-, hh⟩
        exact h ((hop sl).2 hh)
      rw [hnh]
      apply m.after_congr_half o (m'.after o .half net) net rfl rfl rfl rfl
      · intro s' sl' h'
        rw [hop] at h'
        exact m'.after_B_not_hits o .half net s' sl' fun hh => h' hh.2
      · exact h
  · intro s sl
    simp only [Move.after_writes]
    rw [show (m'.after o .half net).nx = net.nx from rfl, show (m'.after o .half net).ny = net.ny from rfl,
      show (m.after o .half net).nx = net.nx from rfl, show (m.after o .half net).ny = net.ny from rfl]
    omega

theorem left_right_comm_half (o : Ops T) (x1 x2 : ℕ) (net : Net T) :
    (Move.left x1).after o .half ((Move.right x2).after o .half net)
      = (Move.right x2).after o .half ((Move.left x1).after o .half net) := by
  apply Move.after_comm_half <;> intro sl <;> simp [oppSlot, hitSlot, Move.k]

theorem up_down_comm_half (o : Ops T) (y1 y2 : ℕ) (net : Net T) :
    (Move.up y1).after o .half ((Move.down y2).after o .half net)
      = (Move.down y2).after o .half ((Move.up y1).after o .half net) := by
  apply Move.after_comm_half <;> intro sl <;> simp [oppSlot, hitSlot, Move.k]

end AceTN
