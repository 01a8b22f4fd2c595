import Verif.Lemmas.GhzSplit
import Verif.Props.BondStore

/-!
Runs of simple updates on a 2 × 2 cell of tensors `ghz`: the ratios of the two bond weights are powers of the ratio of the
amplitudes, and the exponents can be followed.
-/

set_option autoImplicit false

namespace AceTN

open Matrix Spec Simple Full LambdaTensors

variable {𝕜 : Type} [RCLike 𝕜] {bD : ℕ} {P X : Type}

/-- What `strip` returns. -/
noncomputable def stripped (W : ℕ → Weight bD) (ex : ℕ) (a : ATensor (Fin bD) P 𝕜) : ATensor (Fin bD) P 𝕜 :=
  fun l u r d p => (((legWeight (divisor W) ex 0 l * legWeight (divisor W) ex 1 u *
      legWeight (divisor W) ex 2 r * legWeight (divisor W) ex 3 d)⁻¹ : ℝ) : 𝕜) * a l u r d p

/-- What `bond_update` computes with real weights. -/
theorem bondTensors_eq [Fintype P] [DecidableEq P] [NeZero bD] [Nonempty P] (la : Lapack 𝕜) (lt : LambdaTensors (Weight bD))
    (gate : P → P → P → P → 𝕜) (b : Bond)
    (a1 a2 : ATensor (Fin bD) P 𝕜) (W1 W2 : ℕ → Weight bD) (hW1 : Weights lt b.s1 W1) (hW2 : Weights lt b.s2 W2)
    (h1 : ∀ d < 4, (W1 d).cx = false) (h2 : ∀ d < 4, (W2 d).cx = false) :
    bondTensors la lt none gate b a1 a2 =
      let s := splitBond la gate (bondPermute b.k (weighted (fun d => (W1 d).v) b.k a1))
        (bondPermute b.k (weighted (fun d => (W2 d).v) ((b.k + 2) % 4) a2))
      .ok (stripped W1 b.k (bondPermute (4 - b.k) s.1), stripped W2 ((b.k + 2) % 4) (bondPermute (4 - b.k) s.2.1), s.2.2) := by
  unfold bondTensors
  rw [absorb_eq lt a1 b.s1 b.k W1 hW1, absorb_eq lt a2 b.s2 ((b.k + 2) % 4) W2 hW2]
  simp only [bind, Except.bind]
  rw [strip_eq lt _ b.s1 b.k W1 hW1 fun d hd _ => h1 d hd, strip_eq lt _ b.s2 _ W2 hW2 fun d hd _ => h2 d hd]
  rfl

/-- The bond at a side of a site of the 2 × 2 cell. -/
def bondAt (s : Site) : ℕ → Bond
  | 0 => ⟨((s.1 + 1) % 2, s.2), s, 2⟩
  | 1 => ⟨s, (s.1, (s.2 + 1) % 2), 1⟩
  | 2 => ⟨s, ((s.1 + 1) % 2, s.2), 2⟩
  | _ => ⟨(s.1, (s.2 + 1) % 2), s, 1⟩

theorem bondAt_ok (s : Site) (hs : InCell 2 2 s) (d : ℕ) (hd : d < 4) :
    bondAt s d ∈ buildBondList 2 2 ∧ HasEnd (bondAt s d) s d := by
  obtain ⟨x, y⟩ := s
  obtain ⟨hx, hy⟩ := hs
  dsimp only at hx hy
  have key : ∀ (x y : Fin 2) (d : Fin 4), bondAt (x.val, y.val) d.val ∈ buildBondList 2 2 ∧
      (((bondAt (x.val, y.val) d.val).s1 = (x.val, y.val) ∧ (bondAt (x.val, y.val) d.val).k = d.val) ∨
        ((bondAt (x.val, y.val) d.val).s2 = (x.val, y.val) ∧ opposite (bondAt (x.val, y.val) d.val).k = d.val)) := by decide
  exact key ⟨x, hx⟩ ⟨y, hy⟩ ⟨d, hd⟩

/-- Weights reached from unit weights by assigning to bonds. -/
def Table (lt : LambdaTensors (Weight 2)) (w : Bond → Weight 2) : Prop :=
  ∃ (L : List Bond) (ws : List (Bond × Weight 2)), L.Perm (buildBondList 2 2) ∧
    lt = ws.foldl (fun l p => l.setItem p.1 p.2) (LambdaTensors.init L (ones 2 false)) ∧
    w = lastAssigned (ones 2 false) ws

theorem Table.init (L : List Bond) (h : L.Perm (buildBondList 2 2)) :
    Table (LambdaTensors.init L (ones 2 false)) fun _ => ones 2 false := ⟨L, [], h, rfl, rfl⟩

theorem Table.weights {lt : LambdaTensors (Weight 2)} {w : Bond → Weight 2} (h : Table lt w) (s : Site) (hs : InCell 2 2 s) :
    Weights lt s fun d => w (bondAt s d) := by
  obtain ⟨L, ws, hL, rfl, rfl⟩ := h
  intro d hd
  obtain ⟨h1, h2⟩ := bondAt_ok s hs d hd
  exact C03_weight_lookup 2 2 L hL _ ws s hs d hd _ h1 h2

theorem Table.set {lt : LambdaTensors (Weight 2)} {w : Bond → Weight 2} (h : Table lt w) (b : Bond) (x : Weight 2) :
    Table (lt.setItem b x) (Function.update w b x) := by
  obtain ⟨L, ws, hL, rfl, rfl⟩ := h
  refine ⟨L, ws ++ [(b, x)], hL, ?_, ?_⟩
  · rw [List.foldl_append]; rfl
  · funext b'
    unfold lastAssigned
    rw [List.foldl_append]
    by_cases hb : b' = b
    · subst hb
      simp
    · simp [Function.update_of_ne hb, Ne.symm hb]

/-- The amplitude ratio and the gate parameter. -/
noncomputable def yy : ℝ := 4 / 5

noncomputable def kk : ℝ := 1 / 100

/-- The state: tensors `ghz` with amplitude ratio `yy` and weights with ratios `yy ^ ρ`. -/
structure GhzInv (ρ : Bond → ℕ) (st : NetT (Fin 2) P2 X ℝ × LambdaTensors (Weight 2)) : Prop where
  site : ∀ s, InCell 2 2 s → ∃ v, (st.1 s).A = ghz v ∧ v 0 ≠ 0 ∧ |v 1| = yy * |v 0|
  weight : ∃ w, Table st.2 w ∧ ∀ b ∈ buildBondList 2 2,
    (w b).cx = false ∧ 1 / 2 ≤ (w b).v 0 ∧ (w b).v 1 = yy ^ ρ b * (w b).v 0 ∧ ρ b ≤ 8

/-- Sum of the exponents on the other three legs. -/
def expo (ρ : Bond → ℕ) (s : Site) (ex : ℕ) : ℕ :=
  (if 0 = ex then 0 else ρ (bondAt s 0)) + (if 1 = ex then 0 else ρ (bondAt s 1)) +
  (if 2 = ex then 0 else ρ (bondAt s 2)) + (if 3 = ex then 0 else ρ (bondAt s 3))

theorem yy_pos : 0 < yy := by norm_num [yy]
theorem yy_lt : yy < 1 := by norm_num [yy]

theorem legProd_ratio (w : Bond → Weight 2) (ρ : Bond → ℕ)
    (hw : ∀ b ∈ buildBondList 2 2, (w b).cx = false ∧ 1 / 2 ≤ (w b).v 0 ∧ (w b).v 1 = yy ^ ρ b * (w b).v 0 ∧ ρ b ≤ 8)
    (s : Site) (hs : InCell 2 2 s) (ex : ℕ) :
    Strippable (fun d => w (bondAt s d)) ex ∧ 0 < legProd (fun d => (w (bondAt s d)).v) ex 0 ∧
    legProd (fun d => (w (bondAt s d)).v) ex 1 = yy ^ expo ρ s ex * legProd (fun d => (w (bondAt s d)).v) ex 0 := by
  have hS : Strippable (fun d => w (bondAt s d)) ex := by
    intro d hd _
    obtain ⟨h1, h2, h3, h4⟩ := hw _ (bondAt_ok s hs d hd).1
    refine ⟨h1, fun i => ?_⟩
    fin_cases i
    · exact le_trans (by norm_num) h2
    · show _ ≤ (w (bondAt s d)).v 1
      rw [h3]
      have : yy ^ 8 ≤ yy ^ ρ (bondAt s d) := pow_le_pow_of_le_one yy_pos.le yy_lt.le h4
      have h8 : (1e-3 : ℝ) ≤ yy ^ 8 := by norm_num [yy]
      nlinarith
  have hleg : ∀ d < 4, legWeight (fun d => (w (bondAt s d)).v) ex d 1 =
      yy ^ (if d = ex then 0 else ρ (bondAt s d)) * legWeight (fun d => (w (bondAt s d)).v) ex d 0 := by
    intro d hd
    unfold legWeight
    by_cases h : d = ex
    · simp [h]
    · simp only [h, if_false]
      exact (hw _ (bondAt_ok s hs d hd).1).2.2.1
  refine ⟨hS, ?_, ?_⟩
  · have h0 := legWeight_pos _ ex 0 (by omega) hS 0
    have h1 := legWeight_pos _ ex 1 (by omega) hS 0
    have h2 := legWeight_pos _ ex 2 (by omega) hS 0
    have h3 := legWeight_pos _ ex 3 (by omega) hS 0
    exact mul_pos (mul_pos (mul_pos h0 h1) h2) h3
  · unfold legProd expo
    rw [hleg 0 (by omega), hleg 1 (by omega), hleg 2 (by omega), hleg 3 (by omega), pow_add, pow_add, pow_add]
    ring

/-- The new weights. -/
theorem weight_calc (A : ℝ) (hA : 0 < A) (n : ℕ) :
    1 / 2 ≤ Real.sqrt (A / Real.sqrt (A ^ 2 + ((yy ^ n) ^ 2 * A) ^ 2)) ∧
    Real.sqrt ((yy ^ n) ^ 2 * A / Real.sqrt (A ^ 2 + ((yy ^ n) ^ 2 * A) ^ 2)) =
      yy ^ n * Real.sqrt (A / Real.sqrt (A ^ 2 + ((yy ^ n) ^ 2 * A) ^ 2)) := by
  have hy : 0 < yy ^ n := pow_pos yy_pos n
  have hy1 : yy ^ n ≤ 1 := pow_le_one₀ yy_pos.le yy_lt.le
  constructor
  · refine Real.le_sqrt_of_sq_le ?_
    have h1 : Real.sqrt (A ^ 2 + ((yy ^ n) ^ 2 * A) ^ 2) ≤ 4 * A := by
      rw [Real.sqrt_le_left (by positivity)]
      have : (yy ^ n) ^ 2 ≤ 1 := pow_le_one₀ hy.le hy1
      have h2 : (yy ^ n) ^ 2 * A ≤ A := mul_le_of_le_one_left hA.le this
      have h3 : 0 ≤ (yy ^ n) ^ 2 * A := by positivity
      nlinarith
    have h2 : 0 < Real.sqrt (A ^ 2 + ((yy ^ n) ^ 2 * A) ^ 2) := Real.sqrt_pos.2 (by positivity)
    rw [le_div_iff₀ h2]
    linarith
  · rw [mul_div_assoc, Real.sqrt_mul (by positivity), Real.sqrt_sq hy.le]

theorem stripped_ghz (W : ℕ → Weight 2) (ex : ℕ) (hS : Strippable W ex) (x : Fin 2 → ℝ) :
    stripped W ex (ghz x) = ghz fun i => (legProd (fun d => (W d).v) ex i)⁻¹ * x i := by
  unfold stripped
  have := mul_ghz (fun l u r d => (legWeight (divisor W) ex 0 l * legWeight (divisor W) ex 1 u *
      legWeight (divisor W) ex 2 r * legWeight (divisor W) ex 3 d)⁻¹) x
  refine Eq.trans this ?_
  congr 1
  funext i
  rw [divisor_legWeight W ex 0 (by omega) hS, divisor_legWeight W ex 1 (by omega) hS,
    divisor_legWeight W ex 2 (by omega) hS, divisor_legWeight W ex 3 (by omega) hS]
  rfl

theorem mem_cell {b : Bond} (hb : b ∈ buildBondList 2 2) : InCell 2 2 b.s1 ∧ InCell 2 2 b.s2 := by
  obtain ⟨h1, h2⟩ := C02_bond_ends_in_cell 2 2 b hb
  rw [mem_buildSiteList] at h1 h2
  exact ⟨h1, h2⟩

/-- The absorbed pair of a bond. -/
theorem GhzInv.pair {ρ : Bond → ℕ} {st : NetT (Fin 2) P2 X ℝ × LambdaTensors (Weight 2)} (h : GhzInv ρ st) (b : Bond)
    (hb : b ∈ buildBondList 2 2) (m : ℕ) (h1 : expo ρ b.s1 b.k = m) (h2 : expo ρ b.s2 ((b.k + 2) % 4) = m) (la : Lapack ℝ) :
    ∃ (w : Bond → Weight 2) (x x' : Fin 2 → ℝ), Table st.2 w ∧ (∀ b ∈ buildBondList 2 2,
        (w b).cx = false ∧ 1 / 2 ≤ (w b).v 0 ∧ (w b).v 1 = yy ^ ρ b * (w b).v 0 ∧ ρ b ≤ 8) ∧
      bondTensors la st.2 none (flipGate kk) b (st.1 b.s1).A (st.1 b.s2).A =
        (let s := splitBond la (flipGate kk) (ghz x) (ghz x')
        .ok (stripped (fun d => w (bondAt b.s1 d)) b.k (bondPermute (4 - b.k) s.1),
          stripped (fun d => w (bondAt b.s2 d)) ((b.k + 2) % 4) (bondPermute (4 - b.k) s.2.1), s.2.2)) ∧
      0 < |x 0 * x' 0| ∧ |x 1 * x' 1| = (yy ^ (m + 1)) ^ 2 * |x 0 * x' 0| := by
  obtain ⟨hc1, hc2⟩ := mem_cell hb
  obtain ⟨w, hT, hw⟩ := h.weight
  obtain ⟨v, hv, hv0, hv1⟩ := h.site _ hc1
  obtain ⟨v', hv', hv0', hv1'⟩ := h.site _ hc2
  obtain ⟨-, p1, r1⟩ := legProd_ratio w ρ hw _ hc1 b.k
  obtain ⟨-, p2, r2⟩ := legProd_ratio w ρ hw _ hc2 ((b.k + 2) % 4)
  rw [h1] at r1
  rw [h2] at r2
  refine ⟨w, fun i => legProd (fun d => (w (bondAt b.s1 d)).v) b.k i * v i,
    fun i => legProd (fun d => (w (bondAt b.s2 d)).v) ((b.k + 2) % 4) i * v' i, hT, hw, ?_, ?_, ?_⟩
  · rw [bondTensors_eq la st.2 (flipGate kk) b _ _ _ _ (hT.weights _ hc1) (hT.weights _ hc2)
      (fun d hd => (hw _ (bondAt_ok _ hc1 d hd).1).1) (fun d hd => (hw _ (bondAt_ok _ hc2 d hd).1).1), hv, hv',
      weighted_ghz, weighted_ghz, bondPermute_ghz, bondPermute_ghz]
  · exact abs_pos.2 (mul_ne_zero (mul_ne_zero p1.ne' hv0) (mul_ne_zero p2.ne' hv0'))
  · dsimp only
    rw [r1, r2]
    simp only [abs_mul, hv1, hv1', abs_of_pos p1, abs_of_pos p2, abs_of_pos (pow_pos yy_pos m)]
    ring

theorem storePair_at (ipeps : NetT (Fin 2) P2 X ℝ) (b : Bond) (hb : b ∈ buildBondList 2 2) (a1 a2 : ATensor (Fin 2) P2 ℝ)
    (s : Site) : (storePair ipeps b.s1 b.s2 a1 a2 s).A = if s = b.s1 then a1 else if s = b.s2 then a2 else (ipeps s).A := by
  obtain ⟨e1, e2, e3, -⟩ := C42_store_partial ipeps _ _ (bond_ends_distinct 2 2 le_rfl le_rfl b hb) a1 a2
  split_ifs with h1 h2
  · rw [h1, e1]
  · rw [h2, e2]
  · rw [e3 s h1 h2]

theorem bondUpdate_of (la : Lapack ℝ) (st : NetT (Fin 2) P2 X ℝ × LambdaTensors (Weight 2)) (b : Bond)
    (b1 b2 : ATensor (Fin 2) P2 ℝ) (l : Fin 2 → ℝ)
    (h : bondTensors la st.2 none (flipGate kk) b (st.1 b.s1).A (st.1 b.s2).A = .ok (b1, b2, l)) :
    bondUpdate la none (flipGate kk) st b = .ok (storePair st.1 b.s1 b.s2 b1 b2, st.2.setItem b ⟨false, l⟩) := by
  unfold bondUpdate
  dsimp only
  rw [h]
  rfl

/-- An update that keeps the form of the state. -/
theorem GhzInv.keep {ρ : Bond → ℕ} {st : NetT (Fin 2) P2 X ℝ × LambdaTensors (Weight 2)} (h : GhzInv ρ st) (b : Bond)
    (hb : b ∈ buildBondList 2 2) (m : ℕ) (h1 : expo ρ b.s1 b.k = m) (h2 : expo ρ b.s2 ((b.k + 2) % 4) = m) (hm : m + 1 ≤ 8)
    (la : Lapack ℝ) :
    ∃ st', bondUpdate la none (flipGate kk) st b = .ok st' ∧ GhzInv (Function.update ρ b (m + 1)) st' := by
  obtain ⟨hc1, hc2⟩ := mem_cell hb
  obtain ⟨w, x, x', hT, hw, hbt, hpos, hrat⟩ := h.pair b hb m h1 h2 la
  have hy8 : yy ^ 8 ≤ yy ^ (m + 1) := pow_le_pow_of_le_one yy_pos.le yy_lt.le hm
  have hk8 : kk < (yy ^ 8) ^ 2 := by norm_num [yy, kk]
  have hlt : kk < (yy ^ (m + 1)) ^ 2 := lt_of_lt_of_le hk8 (pow_le_pow_left₀ (pow_pos yy_pos 8).le hy8 2)
  have hone : (yy ^ (m + 1)) ^ 2 < 1 := pow_lt_one₀ (pow_pos yy_pos _).le (pow_lt_one₀ yy_pos.le yy_lt (by omega)) (by omega)
  obtain ⟨z, z', hz, hz', az, az', hl⟩ := ghz_keep la kk x x' (by norm_num [kk]) (by norm_num [kk])
    (by rw [hrat]; exact mul_lt_of_lt_one_left hpos hone) (by rw [hrat]; exact mul_lt_mul_of_pos_right hlt hpos)
  dsimp only at hbt
  rw [hz, hz'] at hbt
  rw [hrat] at hl
  obtain ⟨c1, c2⟩ := weight_calc _ hpos (m + 1)
  set l := (splitBond la (flipGate kk) (ghz x) (ghz x')).2.2 with hldef
  have l0 : 1 / 2 ≤ l 0 := by rw [hl]; exact c1
  have l1 : l 1 = yy ^ (m + 1) * l 0 := by
    rw [hl]
    dsimp only
    rw [hrat]
    exact c2
  obtain ⟨s1, p1, r1⟩ := legProd_ratio w ρ hw _ hc1 b.k
  obtain ⟨s2, p2, r2⟩ := legProd_ratio w ρ hw _ hc2 ((b.k + 2) % 4)
  rw [h1] at r1
  rw [h2] at r2
  rw [bondPermute_ghz, bondPermute_ghz, stripped_ghz _ _ s1, stripped_ghz _ _ s2] at hbt
  refine ⟨_, bondUpdate_of la st b _ _ _ hbt, ⟨fun s hs => ?_, ⟨_, hT.set b _, fun b' hb' => ?_⟩⟩⟩
  · have hl0 : 0 < l 0 := lt_of_lt_of_le (by norm_num) l0
    have hym : yy ^ m ≠ 0 := (pow_pos yy_pos m).ne'
    have main : ∀ (q : Fin 2 → ℝ) (t : Fin 2 → ℝ), (∀ i, |t i| = l i) → 0 < q 0 → q 1 = yy ^ m * q 0 →
        (q 0)⁻¹ * t 0 ≠ 0 ∧ |(q 1)⁻¹ * t 1| = yy * |(q 0)⁻¹ * t 0| := by
      intro q t ht hq hq1
      have ht0 : t 0 ≠ 0 := abs_pos.1 (by rw [ht]; exact hl0)
      refine ⟨mul_ne_zero (inv_ne_zero hq.ne') ht0, ?_⟩
      rw [abs_mul, abs_mul, ht, ht, l1, hq1, abs_inv, abs_inv, abs_mul, abs_of_pos hq, abs_of_pos (pow_pos yy_pos m)]
      field_simp
      ring
    dsimp only
    rw [storePair_at _ b hb]
    split_ifs
    · exact ⟨_, rfl, main _ z az p1 r1⟩
    · exact ⟨_, rfl, main _ z' az' p2 r2⟩
    · exact h.site s hs
  · by_cases hbb : b' = b
    · subst hbb
      simp only [Function.update_self]
      exact ⟨trivial, l0, l1, hm⟩
    · simp only [Function.update_of_ne hbb]
      exact hw b' hb'

/-- The site has lost the states with first bit one. -/
def Lost (st : NetT (Fin 2) P2 X ℝ × LambdaTensors (Weight 2)) (s : Site) : Prop :=
  ∀ l u r d j, (st.1 s).A l u r d (1, j) = 0

/-- The weights are real, so no update raises. -/
def Good (st : NetT (Fin 2) P2 X ℝ × LambdaTensors (Weight 2)) : Prop :=
  ∃ w, Table st.2 w ∧ ∀ b ∈ buildBondList 2 2, (w b).cx = false

theorem Good.set {st : NetT (Fin 2) P2 X ℝ × LambdaTensors (Weight 2)} (h : Good st) (b : Bond) (l : Fin 2 → ℝ)
    (n : NetT (Fin 2) P2 X ℝ) : Good (n, st.2.setItem b ⟨false, l⟩) := by
  obtain ⟨w, hT, hw⟩ := h
  refine ⟨_, hT.set b _, fun b' hb' => ?_⟩
  by_cases hbb : b' = b
  · subst hbb; simp
  · simp only [Function.update_of_ne hbb]; exact hw b' hb'

theorem GhzInv.good {ρ : Bond → ℕ} {st : NetT (Fin 2) P2 X ℝ × LambdaTensors (Weight 2)} (h : GhzInv ρ st) : Good st := by
  obtain ⟨w, hT, hw⟩ := h.weight
  exact ⟨w, hT, fun b hb => (hw b hb).1⟩

/-- `bondPermute` does not touch the physical index. -/
theorem bondPermute_zero_at (k : ℤ) (a : ATensor (Fin 2) P2 ℝ) (p : P2) (h : ∀ l u r d, a l u r d p = 0) (l u r d : Fin 2) :
    bondPermute k a l u r d p = 0 := by
  rw [bondPermute_mod k (k % 4) (by omega)]
  have hk : k % 4 = 0 ∨ k % 4 = 1 ∨ k % 4 = 2 ∨ k % 4 = 3 := by omega
  rcases hk with hk | hk | hk | hk <;> rw [hk]
  · rw [bondPermute_zero]; exact h _ _ _ _
  · rw [bondPermute_one]; exact h _ _ _ _
  · rw [bondPermute_two]; exact h _ _ _ _
  · rw [bondPermute_three]; exact h _ _ _ _

/-- An update that loses the states with first bit one. -/
theorem GhzInv.lose {ρ : Bond → ℕ} {st : NetT (Fin 2) P2 X ℝ × LambdaTensors (Weight 2)} (h : GhzInv ρ st) (b : Bond)
    (hb : b ∈ buildBondList 2 2) (m : ℕ) (h1 : expo ρ b.s1 b.k = m) (h2 : expo ρ b.s2 ((b.k + 2) % 4) = m) (hm : 12 ≤ m + 1)
    (la : Lapack ℝ) :
    ∃ st', bondUpdate la none (flipGate kk) st b = .ok st' ∧ Good st' ∧ Lost st' b.s1 := by
  obtain ⟨w, x, x', hT, hw, hbt, hpos, hrat⟩ := h.pair b hb m h1 h2 la
  have hy : yy ^ (m + 1) ≤ yy ^ 12 := pow_le_pow_of_le_one yy_pos.le yy_lt.le hm
  have hk12 : (yy ^ 12) ^ 2 < kk := by norm_num [yy, kk]
  have hlt : (yy ^ (m + 1)) ^ 2 < kk := lt_of_le_of_lt (pow_le_pow_left₀ (pow_pos yy_pos _).le hy 2) hk12
  have hz := ghz_lose la kk x x' (by norm_num [kk]) (by norm_num [kk]) hpos
    (by rw [hrat]; exact mul_lt_mul_of_pos_right hlt hpos)
  dsimp only at hbt
  refine ⟨_, bondUpdate_of la st b _ _ _ hbt, h.good.set _ _ _, fun l u r d j => ?_⟩
  dsimp only
  rw [storePair_at _ b hb, if_pos rfl]
  unfold stripped
  rw [bondPermute_zero_at _ _ _ (fun b u r d => hz b u r d j), mul_zero]

/-- What is lost stays lost. -/
theorem Good.step {st : NetT (Fin 2) P2 X ℝ × LambdaTensors (Weight 2)} (h : Good st) (b : Bond)
    (hb : b ∈ buildBondList 2 2) (la : Lapack ℝ) :
    ∃ st', bondUpdate la none (flipGate kk) st b = .ok st' ∧ Good st' ∧ ∀ s, Lost st s → Lost st' s := by
  obtain ⟨hc1, hc2⟩ := mem_cell hb
  obtain ⟨w, hT, hw⟩ := h
  have hbt := bondTensors_eq la st.2 (flipGate kk) b (st.1 b.s1).A (st.1 b.s2).A _ _ (hT.weights _ hc1) (hT.weights _ hc2)
      (fun d hd => hw _ (bondAt_ok _ hc1 d hd).1) (fun d hd => hw _ (bondAt_ok _ hc2 d hd).1)
  dsimp only at hbt
  refine ⟨_, bondUpdate_of la st b _ _ _ hbt, Good.set ⟨w, hT, hw⟩ _ _ _, fun s hs l u r d j => ?_⟩
  dsimp only
  rw [storePair_at _ b hb]
  split_ifs with e1 e2
  · unfold stripped
    rw [bondPermute_zero_at _ _ _ (fun b0 u r d => splitBond_zero1 la _ _ _ _ (fun u r d l' u' d' q => ?_) b0 u r d), mul_zero]
    unfold gated
    refine Finset.sum_eq_zero fun p' _ => Finset.sum_eq_zero fun q' _ => ?_
    by_cases hp : p'.1 = 1
    · have : twoSite (bondPermute b.k (weighted (fun d => (w (bondAt b.s1 d)).v) b.k (st.1 b.s1).A))
          (bondPermute b.k (weighted (fun d => (w (bondAt b.s2 d)).v) ((b.k + 2) % 4) (st.1 b.s2).A)) u r d l' u' d' p' q' = 0 := by
        unfold twoSite
        refine Finset.sum_eq_zero fun b0 _ => ?_
        rw [bondPermute_zero_at _ _ _ (fun l u r d => ?_), zero_mul]
        unfold weighted
        have := hs l u r d p'.2
        rw [e1] at this
        rw [show p' = (1, p'.2) from Prod.ext hp rfl, this, mul_zero]
      rw [this, zero_mul]
    · simp [flipGate, hp]
  · unfold stripped
    rw [bondPermute_zero_at _ _ _ (fun l u b0 d => splitBond_zero2 la _ _ _ _ (fun u r d l' u' d' p => ?_) l u b0 d), mul_zero]
    unfold gated
    refine Finset.sum_eq_zero fun p' _ => Finset.sum_eq_zero fun q' _ => ?_
    by_cases hq : q'.1 = 1
    · have : twoSite (bondPermute b.k (weighted (fun d => (w (bondAt b.s1 d)).v) b.k (st.1 b.s1).A))
          (bondPermute b.k (weighted (fun d => (w (bondAt b.s2 d)).v) ((b.k + 2) % 4) (st.1 b.s2).A)) u r d l' u' d' p' q' = 0 := by
        unfold twoSite
        refine Finset.sum_eq_zero fun b0 _ => ?_
        rw [bondPermute_zero_at _ _ q' (fun l u r d => ?_), mul_zero]
        unfold weighted
        have := hs l u r d q'.2
        rw [e2] at this
        rw [show q' = (1, q'.2) from Prod.ext hq rfl, this, mul_zero]
      rw [this, zero_mul]
    · simp [flipGate, hq]
  · exact hs l u r d j

end AceTN
