import Verif.Lemmas.GaugeRun
import Verif.Props.BondStore
import Verif.Props.LatticeState

/-!
The simple update of a bond in two equivalent networks: the networks and the weights after it.
-/

set_option autoImplicit false

namespace AceTN

open Matrix Spec Simple

variable {𝕜 : Type} [RCLike 𝕜] {P X : Type} [Fintype P] [DecidableEq P] {bD : ℕ} {nx ny : ℕ}

section weights

variable {W : Type}

/-- Weights of the bonds of the lattice, after any number of assignments. -/
def Stored (nx ny : ℕ) (lt : LambdaTensors W) : Prop :=
  ∃ (L : List Bond) (ones : W) (ws : List (Bond × W)), L.Perm (buildBondList nx ny) ∧
    lt = ws.foldl (fun l p => l.setItem p.1 p.2) (LambdaTensors.init L ones)

theorem Stored.set {lt : LambdaTensors W} (h : Stored nx ny lt) (b : Bond) (w : W) : Stored nx ny (lt.setItem b w) := by
  obtain ⟨L, o, ws, hL, e⟩ := h
  refine ⟨L, o, ws ++ [(b, w)], hL, ?_⟩
  rw [List.foldl_append, ← e]
  rfl

theorem Stored.get {lt : LambdaTensors W} (h : Stored nx ny lt) {s : Site} (hs : InCell nx ny s) {d : ℕ} (hd : d < 4) {b : Bond}
    (hb : b ∈ buildBondList nx ny) (hE : HasEnd b s d) : ∃ w, lt.get s d = .ok w ∧ lt.getItem b = .ok w := by
  obtain ⟨L, o, ws, hL, rfl⟩ := h
  exact ⟨_, C03_weight_lookup nx ny L hL o ws s hs d hd b hb hE, (C03_both_ends nx ny L hL o ws b hb).2.2⟩

theorem Stored.total {lt : LambdaTensors W} (h : Stored nx ny lt) {s : Site} (hs : InCell nx ny s) {d : ℕ} (hd : d < 4) :
    ∃ w, lt.get s d = .ok w := by
  obtain ⟨b, ⟨hb, hE⟩, -⟩ := C03_unique_bond_per_side nx ny s hs d hd
  obtain ⟨w, hw, -⟩ := h.get hs hd hb hE
  exact ⟨w, hw⟩

/-- Assigning to a bond changes the weight seen from its two ends only. -/
theorem Stored.get_set {lt : LambdaTensors W} (h : Stored nx ny lt) {s : Site} (hs : InCell nx ny s) {d : ℕ} (hd : d < 4) {b : Bond}
    (hb : b ∈ buildBondList nx ny) (w v : W) (hv : (lt.setItem b w).get s d = .ok v) :
    (HasEnd b s d ∧ v = w) ∨ (¬ HasEnd b s d ∧ lt.get s d = .ok v) := by
  obtain ⟨b', ⟨hb', hE⟩, hu⟩ := C03_unique_bond_per_side nx ny s hs d hd
  obtain ⟨v', h1, h2⟩ := (h.set b w).get hs hd hb' hE
  obtain ⟨v'', h3, h4⟩ := h.get hs hd hb' hE
  rw [h1] at hv
  obtain rfl := Except.ok.inj hv
  rw [getItem_setItem] at h2
  by_cases hbb : b = b'
  · rw [if_pos hbb] at h2
    subst hbb
    exact Or.inl ⟨hE, (Except.ok.inj h2).symm⟩
  · rw [if_neg hbb, h4] at h2
    refine Or.inr ⟨fun hE' => hbb (hu b ⟨hb, hE'⟩), ?_⟩
    rw [h3, Except.ok.inj h2]

end weights

/-- The changes of basis of a bond do not mix indices of different weights. -/
def Spec.Gauge.Commutes (g : Gauge (Fin bD) P 𝕜) (nx ny : ℕ) (lt : LambdaTensors (Weight bD)) : Prop :=
  ∀ s, InCell nx ny s → ∀ (k : Fin 4) (w : Weight bD), lt.get s k.val = .ok w → ∀ x y, g.G s k x y ≠ 0 → w.v x = w.v y

/-- Two states of simple update runs that are the same in other bases. -/
structure Spec.SameState (σ : ScalarMap 𝕜) (U : Site → Matrix P P 𝕜) (nx ny : ℕ)
    (st st' : NetT (Fin bD) P X 𝕜 × LambdaTensors (Weight bD)) (g : Gauge (Fin bD) P 𝕜) : Prop where
  weights : st'.2 = st.2
  stored : Stored nx ny st.2
  unit : g.U = U
  joined : g.Joined nx ny
  equiv : g.Equiv σ nx ny (siteTensors st.1) (siteTensors st'.1)
  commutes : g.Commutes nx ny st.2

/-- The changes of basis after the update of a bond. -/
noncomputable def Spec.Gauge.after (g : Gauge (Fin bD) P 𝕜) (b : Bond) (k : Fin 4) (W : Matrix (Fin bD) (Fin bD) 𝕜) (hW : Unit2 W) :
    Gauge (Fin bD) P 𝕜 where
  G s := if s = b.s1 then Function.update (g.G b.s1) k W else
    if s = b.s2 then Function.update (g.G b.s2) (k + 2) (W.map star) else g.G s
  U := g.U
  t s := if s = b.s1 ∨ s = b.s2 then 1 else g.t s
  unitG s j := by
    split_ifs
    · by_cases h : j = k
      · rw [h, Function.update_self]; exact hW
      · rw [Function.update_of_ne h]; exact g.unitG _ _
    · by_cases h : j = k + 2
      · rw [h, Function.update_self]; exact hW.star
      · rw [Function.update_of_ne h]; exact g.unitG _ _
    · exact g.unitG _ _
  unitU := g.unitU
  pos s := by
    split_ifs
    · exact one_pos
    · exact g.pos s

theorem after_G1 (g : Gauge (Fin bD) P 𝕜) (b : Bond) (k : Fin 4) (W : Matrix (Fin bD) (Fin bD) 𝕜) (hW : Unit2 W) :
    (g.after b k W hW).G b.s1 = Function.update (g.G b.s1) k W := if_pos rfl

theorem after_G2 (g : Gauge (Fin bD) P 𝕜) (b : Bond) (k : Fin 4) (W : Matrix (Fin bD) (Fin bD) 𝕜) (hW : Unit2 W) (hne : b.s1 ≠ b.s2) :
    (g.after b k W hW).G b.s2 = Function.update (g.G b.s2) (k + 2) (W.map star) := by
  show (if _ then _ else _) = _
  rw [if_neg hne.symm, if_pos rfl]

theorem after_G (g : Gauge (Fin bD) P 𝕜) (b : Bond) (k : Fin 4) (W : Matrix (Fin bD) (Fin bD) 𝕜) (hW : Unit2 W) {s : Site}
    (h1 : s ≠ b.s1) (h2 : s ≠ b.s2) : (g.after b k W hW).G s = g.G s := by
  show (if _ then _ else _) = _
  rw [if_neg h1, if_neg h2]

/-- The matrices at the two ends of the bond, and everywhere else. -/
theorem after_cases (g : Gauge (Fin bD) P 𝕜) (b : Bond) (k : Fin 4) (W : Matrix (Fin bD) (Fin bD) 𝕜) (hW : Unit2 W) (hne : b.s1 ≠ b.s2)
    (s : Site) (j : Fin 4) :
    (s = b.s1 ∧ j = k ∧ (g.after b k W hW).G s j = W) ∨ (s = b.s2 ∧ j = k + 2 ∧ (g.after b k W hW).G s j = W.map star) ∨
    (¬ (s = b.s1 ∧ j = k) ∧ ¬ (s = b.s2 ∧ j = k + 2) ∧ (g.after b k W hW).G s j = g.G s j) := by
  by_cases h1 : s = b.s1
  · subst h1
    rw [after_G1]
    by_cases hj : j = k
    · exact Or.inl ⟨rfl, hj, by rw [hj, Function.update_self]⟩
    · exact Or.inr (Or.inr ⟨fun h => hj h.2, fun h => hne h.1, by rw [Function.update_of_ne hj]⟩)
  · by_cases h2 : s = b.s2
    · subst h2
      rw [after_G2 _ _ _ _ _ hne]
      by_cases hj : j = k + 2
      · exact Or.inr (Or.inl ⟨rfl, hj, by rw [hj, Function.update_self]⟩)
      · exact Or.inr (Or.inr ⟨fun h => h1 h.1, fun h => hj h.2, by rw [Function.update_of_ne hj]⟩)
    · exact Or.inr (Or.inr ⟨fun h => h1 h.1, fun h => h2 h.1, by rw [after_G _ _ _ _ _ h1 h2]⟩)

theorem opposite_fin (k : Fin 4) : opposite k.val = (k + 2).val := by
  revert k; decide

theorem after_joined {g : Gauge (Fin bD) P 𝕜} (hg : g.Joined nx ny) (b : Bond) (k : Fin 4) (hk : b.k = k.val)
    (W : Matrix (Fin bD) (Fin bD) 𝕜) (hW : Unit2 W) (hne : b.s1 ≠ b.s2) (h1 : InCell nx ny b.s1) (h2 : b.s2 = neighbour nx ny b.s1 b.k) :
    (g.after b k W hW).Joined nx ny := by
  have f4 : ∀ k : Fin 4, k + 2 + 2 = k := by decide
  obtain ⟨-, hback⟩ := neighbour_back nx ny b.s1 h1 b.k (by rw [hk]; exact k.isLt)
  rw [← h2, hk, opposite_fin] at hback
  rw [hk] at h2
  intro s hs j
  rcases after_cases g b k W hW hne s j with ⟨e1, e2, e3⟩ | ⟨e1, e2, e3⟩ | ⟨e1, e2, e3⟩
  · rw [e3, e1, e2, ← h2]
    rw [after_G2 _ _ _ _ _ hne, Function.update_self]
  · rw [e3, e1, e2, hback, f4, after_G1, Function.update_self]
    ext x y
    simp
  · rw [e3]
    obtain ⟨hi, hb⟩ := neighbour_back nx ny s hs j.val j.isLt
    rw [opposite_fin] at hb
    rcases after_cases g b k W hW hne (neighbour nx ny s j.val) (j + 2) with ⟨d1, d2, d3⟩ | ⟨d1, d2, d3⟩ | ⟨d1, d2, d3⟩
    · refine absurd ⟨?_, ?_⟩ e2
      · rw [← hb, d1, d2, ← h2]
      · rw [← d2, f4]
    · refine absurd ⟨?_, ?_⟩ e1
      · rw [← hb, d1, d2, hback]
      · have := congrArg (· + 2) d2
        simpa only [f4] using this
    · rw [d3]
      exact hg s hs j

/-- What the update of a bond needs: the gate does not annihilate the two-site tensor in its surroundings (otherwise the program
divides zero by zero) and cutting off its singular values is unambiguous. -/
def Spec.ClearCut (gates : Bond → P → P → P → P → 𝕜) (st : NetT (Fin bD) P X 𝕜 × LambdaTensors (Weight bD)) (b : Bond) : Prop :=
  ∀ W1 W2, Weights st.2 b.s1 W1 → Weights st.2 b.s2 W2 →
    gated (gates b) (bondState W1 W2 b.k (st.1 b.s1).A (st.1 b.s2).A) ≠ 0 ∧
    NoTie bD (twoMat (gated (gates b) (bondState W1 W2 b.k (st.1 b.s1).A (st.1 b.s2).A)))

variable [Nonempty P] [NeZero bD]

/-- One bond. -/
theorem bondStep_turn (hx : 2 ≤ nx) (hy : 2 ≤ ny) (la la' : Lapack 𝕜) {σ : ScalarMap 𝕜} {U : Site → Matrix P P 𝕜}
    {gates gates' : Bond → P → P → P → P → 𝕜} {st st' : NetT (Fin bD) P X 𝕜 × LambdaTensors (Weight bD)} {g : Gauge (Fin bD) P 𝕜}
    (h : SameState σ U nx ny st st' g) {b : Bond} (hb : b ∈ buildBondList nx ny)
    (hgate : TurnedOp2 σ (U b.s1) (U b.s2) (gates b) (gates' b)) (hcut : ClearCut gates st b) :
    (bondStep la' (fun _ => none) gates' st' b).2 = (bondStep la (fun _ => none) gates st b).2 ∧
    ∃ g', SameState σ U nx ny (bondStep la (fun _ => none) gates st b).1 (bondStep la' (fun _ => none) gates' st' b).1 g' := by
  obtain ⟨h1, hk12, h2⟩ := ((C02_bond_list nx ny).2.2 b).1 hb
  have hne := bond_ends_distinct nx ny hx hy b hb
  obtain ⟨net, lt⟩ := st
  obtain ⟨net', lt'⟩ := st'
  obtain ⟨hw, hst, hU, hj, he, hc⟩ := h
  dsimp only at hw hst he hc
  subst hU
  obtain rfl : lt = lt' := hw.symm
  have hk4 : b.k < 4 := by omega
  have hk : b.k = (⟨b.k, hk4⟩ : Fin 4).val := rfl
  generalize (⟨b.k, hk4⟩ : Fin 4) = k at hk
  have h2' : InCell nx ny b.s2 := by
    rw [h2]
    exact (neighbour_back nx ny b.s1 h1 b.k hk4).1
  have : Nonempty (Weight bD) := ⟨ones bD false⟩
  choose! W1 hW1 using fun (d : ℕ) (hd : d < 4) => hst.total h1 hd
  choose! W2 hW2 using fun (d : ℕ) (hd : d < 4) => hst.total h2' hd
  have hjk : g.G b.s2 (k + 2) = (g.G b.s1 k).map star := by
    rw [h2, hk]
    exact hj b.s1 h1 k
  have key := bondTensors_turn la la' (g.pos b.s1) (g.pos b.s2) (g.unitG b.s1) (g.unitG b.s2) (g.unitU b.s1) (g.unitU b.s2)
    (he b.s1 h1) (he b.s2 h2') hgate b k hk hjk lt W1 W2 hW1 hW2 (fun j x y => hc _ h1 j _ (hW1 j j.isLt) x y)
    (fun j x y => hc _ h2' j _ (hW2 j j.isLt) x y) (hcut W1 W2 hW1 hW2).2
  unfold siteTensors at key
  rcases key with ⟨e, e1, e2⟩ | ⟨b1, b2, b1', b2', w, e1, e2, W, hW, hWw, r1, r2⟩
  · have u1 : bondStep la (fun _ => none) gates (net, lt) b = ((net, lt), some e) := by
      unfold bondStep bondUpdate
      dsimp only
      rw [e1]
      rfl
    have u2 : bondStep la' (fun _ => none) gates' (net', lt) b = ((net', lt), some e) := by
      unfold bondStep bondUpdate
      dsimp only
      rw [e2]
      rfl
    rw [u1, u2]
    exact ⟨rfl, g, rfl, hst, rfl, hj, he, hc⟩
  · have u1 : bondStep la (fun _ => none) gates (net, lt) b = ((storePair net b.s1 b.s2 b1 b2, lt.setItem b ⟨false, w⟩), none) := by
      unfold bondStep bondUpdate
      dsimp only
      rw [e1]
      rfl
    have u2 : bondStep la' (fun _ => none) gates' (net', lt) b =
        ((storePair net' b.s1 b.s2 b1' b2', lt.setItem b ⟨false, w⟩), none) := by
      unfold bondStep bondUpdate
      dsimp only
      rw [e2]
      rfl
    rw [u1, u2]
    refine ⟨rfl, g.after b k W hW, rfl, hst.set _ _, rfl, after_joined hj b k hk W hW hne h1 h2, ?_, ?_⟩
    · intro s hs
      obtain ⟨p1, p2, p3, -⟩ := C42_store_partial net _ _ hne b1 b2
      obtain ⟨q1, q2, q3, -⟩ := C42_store_partial net' _ _ hne b1' b2'
      unfold siteTensors
      dsimp only
      by_cases hs1 : s = b.s1
      · subst hs1
        rw [p1, q1, after_G1]
        have ht : (g.after b k W hW).t b.s1 = 1 := if_pos (Or.inl rfl)
        rw [ht]
        exact r1
      by_cases hs2 : s = b.s2
      · subst hs2
        rw [p2, q2, after_G2 _ _ _ _ _ hne]
        have ht : (g.after b k W hW).t b.s2 = 1 := if_pos (Or.inr rfl)
        rw [ht]
        exact r2
      · rw [p3 s hs1 hs2, q3 s hs1 hs2, after_G _ _ _ _ _ hs1 hs2]
        have ht : (g.after b k W hW).t s = g.t s := if_neg (by tauto)
        rw [ht]
        exact he s hs
    · intro s hs j v hv x y hne'
      have hE : ∀ j : Fin 4, HasEnd b s j.val ↔ (s = b.s1 ∧ j = k) ∨ (s = b.s2 ∧ j = k + 2) := by
        intro j
        unfold HasEnd
        rw [hk, opposite_fin, ← Fin.ext_iff, ← Fin.ext_iff]
        constructor <;> rintro (⟨a, c⟩ | ⟨a, c⟩) <;> simp [a, c]
      have hv' := hst.get_set hs j.isLt hb ⟨false, w⟩ v hv
      rw [hE] at hv'
      rcases after_cases g b k W hW hne s j with ⟨d1, d2, d3⟩ | ⟨d1, d2, d3⟩ | ⟨d1, d2, d3⟩
      · rw [d3] at hne'
        rcases hv' with ⟨-, rfl⟩ | ⟨hn, -⟩
        · exact hWw x y hne'
        · exact absurd (Or.inl ⟨d1, d2⟩) hn
      · rw [d3] at hne'
        rcases hv' with ⟨-, rfl⟩ | ⟨hn, -⟩
        · refine hWw x y fun h0 => hne' ?_
          rw [Matrix.map_apply, h0, star_zero]
        · exact absurd (Or.inr ⟨d1, d2⟩) hn
      · rw [d3] at hne'
        rcases hv' with ⟨ho, -⟩ | ⟨-, hl⟩
        · rcases ho with ho | ho
          · exact absurd ho d1
          · exact absurd ho d2
        · exact hc s hs j v hl x y hne'

/-! ### Runs -/

section loop

variable {S S' : Type} (upd : S → Bond → S × Option PyErr) (upd' : S' → Bond → S' × Option PyErr) (R : S → S' → Prop)
  (Q : S → Bond → Prop) (M : Bond → Prop)
  (step : ∀ s s' b, R s s' → M b → Q s b → (upd' s' b).2 = (upd s b).2 ∧ R (upd s b).1 (upd' s' b).1)

include step

theorem bondPass_rel (l rest : List Bond) (hl : ∀ b ∈ l, M b) (s : S) (s' : S') (h : R s s') (hQ : Along Q upd (l ++ rest) s) :
    (bondPass upd' l s').2 = (bondPass upd l s).2 ∧ R (bondPass upd l s).1 (bondPass upd' l s').1 ∧
      ((bondPass upd l s).2 = none → Along Q upd rest (bondPass upd l s).1) := by
  induction l generalizing s s' with
  | nil => exact ⟨rfl, h, fun _ => hQ⟩
  | cons b l ih =>
    obtain ⟨q1, q2⟩ := hQ
    obtain ⟨e, r⟩ := step s s' b h (hl b List.mem_cons_self) q1
    unfold bondPass
    cases hu : upd s b with
    | mk t o =>
      cases hu' : upd' s' b with
      | mk t' o' =>
        rw [hu, hu'] at e r
        rw [hu] at q2
        dsimp only at e r q2
        subst e
        cases o' with
        | some e => exact ⟨rfl, r, fun hn => absurd hn (by simp)⟩
        | none => exact ih (fun b' hb' => hl b' (List.mem_cons_of_mem _ hb')) t t' r q2

theorem evolveLoop_rel (n : ℕ) (bl : List Bond) (hl : ∀ b ∈ bl, M b) (s : S) (s' : S') (h : R s s')
    (hQ : Along Q upd (schedule n bl) s) :
    (evolveLoop upd' n bl s').1 = (evolveLoop upd n bl s).1 ∧ (evolveLoop upd' n bl s').2.2 = (evolveLoop upd n bl s).2.2 ∧
      R (evolveLoop upd n bl s).2.1 (evolveLoop upd' n bl s').2.1 := by
  induction n generalizing bl s s' with
  | zero => exact ⟨rfl, rfl, h⟩
  | succ n ih =>
    rw [schedule_succ] at hQ
    obtain ⟨e, r, q⟩ := bondPass_rel upd upd' R Q M step bl _ hl s s' h hQ
    unfold evolveLoop
    cases hu : bondPass upd bl s with
    | mk t o =>
      cases hu' : bondPass upd' bl s' with
      | mk t' o' =>
        rw [hu, hu'] at e r
        rw [hu] at q
        dsimp only at e r q
        subst e
        cases o' with
        | some e => exact ⟨rfl, rfl, r⟩
        | none => exact ih bl.reverse (fun b hb => hl b (List.mem_reverse.1 hb)) t t' r (q rfl)

end loop

end AceTN
