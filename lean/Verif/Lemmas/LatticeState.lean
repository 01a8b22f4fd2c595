import Verif.Lemmas.EdgeState
import Verif.Props.TrotterOrder

/-!
The edges of a lattice covering the cell, and updating all copies of a bond.
-/

set_option autoImplicit false

namespace AceTN
open Spec Trot
open scoped Matrix.Norms.L2Operator

theorem before_eq {n : ℕ} (i : Fin n) (x : ℕ) (hx : x < n) : (before i : ℕ) = x ↔ (i : ℕ) = (x + 1) % n := by
  have hi := i.2
  have e : (before i : ℕ) = if (i : ℕ) = 0 then n - 1 else i - 1 := by
    show ((i : ℕ) + (n - 1)) % n = _
    split_ifs with h
    · rw [h, zero_add, Nat.mod_eq_of_lt (by omega)]
    · rw [show (i : ℕ) + (n - 1) = (i - 1) + n by omega, Nat.add_mod_right, Nat.mod_eq_of_lt (by omega)]
  have e' : (x + 1) % n = if x + 1 = n then 0 else x + 1 := by
    split_ifs with h
    · rw [h, Nat.mod_self]
    · rw [Nat.mod_eq_of_lt (by omega)]
  rw [e, e']
  split_ifs <;> omega

variable {nx ny N : ℕ}

/-- The two ends of a copy of a bond. -/
theorem bigLeg_ends (hx : 2 ≤ nx) (hy : 2 ≤ ny) (σ : Bond → Equiv.Perm (Fin N)) (b : Bond)
    (hb : b ∈ buildBondList nx ny) (c : Fin N) (v : BigSite nx ny N) (k : Fin 4) :
    bigLeg σ v k = ((c, place hx hy b.s1), decide (b.k = 2)) ↔
      (v = (c, place hx hy b.s1) ∧ k = side b.k 0) ∨ (v = (σ b c, place hx hy b.s2) ∧ k = side b.k 2) := by
  rw [mem_buildBondList] at hb
  obtain ⟨⟨x, y⟩, s2, kk⟩ := b
  obtain ⟨⟨h1, h2⟩, ⟨hk, hs⟩ | ⟨hk, hs⟩⟩ := hb
  · dsimp only at h1 h2 hk hs
    subst hk hs
    obtain ⟨c', i, j⟩ := v
    have s0 : side 2 0 = 2 := rfl
    have s2 : side 2 2 = 0 := rfl
    have p1 : place hx hy (x, y) = (⟨x, h1⟩, ⟨y, h2⟩) := by
      simp [place, Nat.mod_eq_of_lt h1, Nat.mod_eq_of_lt h2]
    have p2 : place hx hy ((x + 1) % nx, y) = (⟨(x + 1) % nx, Nat.mod_lt _ (by omega)⟩, ⟨y, h2⟩) := by
      simp [place, Nat.mod_eq_of_lt h2]
    rw [s0, s2, p1]
    dsimp only
    rw [p2]
    fin_cases k
    · show bigLeg σ (c', i, j) 0 = _ ↔ _
      simp only [bigLeg, Prod.mk.injEq, decide_true, and_true, Fin.ext_iff, Fin.zero_eta, Fin.isValue]
      rw [before_eq i x h1, ← Fin.ext_iff, Equiv.symm_apply_eq]
      constructor
      · rintro ⟨hc, hi, hj⟩
        have hbi := (before_eq i x h1).2 hi
        rw [hbi, hi, hj] at hc
        right
        exact ⟨congrArg Fin.val hc, hi, hj⟩
      · rintro (⟨_, h⟩ | ⟨hc, hi, hj⟩)
        · exact absurd h (by decide)
        · have hbi := (before_eq i x h1).2 hi
          rw [hbi, hi, hj]
          exact ⟨Fin.ext hc, rfl, rfl⟩
    · simp [bigLeg]
    · simp [bigLeg, Prod.ext_iff]
    · simp [bigLeg]
  · dsimp only at h1 h2 hk hs
    subst hk hs
    obtain ⟨c', i, j⟩ := v
    have s0 : side 1 0 = 1 := rfl
    have s2 : side 1 2 = 3 := rfl
    have p1 : place hx hy (x, y) = (⟨x, h1⟩, ⟨y, h2⟩) := by
      simp [place, Nat.mod_eq_of_lt h1, Nat.mod_eq_of_lt h2]
    have p2 : place hx hy (x, (y + 1) % ny) = (⟨x, h1⟩, ⟨(y + 1) % ny, Nat.mod_lt _ (by omega)⟩) := by
      simp [place, Nat.mod_eq_of_lt h1]
    rw [s0, s2, p1]
    dsimp only
    rw [p2]
    fin_cases k
    · simp [bigLeg]
    · simp [bigLeg, Prod.ext_iff]
    · simp [bigLeg]
    · show bigLeg σ (c', i, j) 3 = _ ↔ _
      simp only [bigLeg, Prod.mk.injEq, Fin.ext_iff, Fin.isValue]
      rw [before_eq j y h2, ← Fin.ext_iff, Equiv.symm_apply_eq]
      constructor
      · rintro ⟨⟨hc, hi, hj⟩, -⟩
        have hbi := (before_eq j y h2).2 hj
        rw [hbi, hi, hj] at hc
        right
        exact ⟨⟨congrArg Fin.val hc, hi, hj⟩, rfl⟩
      · rintro (⟨_, h⟩ | ⟨⟨hc, hi, hj⟩, -⟩)
        · exact absurd h (by decide)
        · have hbi := (before_eq j y h2).2 hj
          rw [hbi, hi, hj]
          exact ⟨⟨Fin.ext hc, rfl, rfl⟩, rfl⟩

variable {𝕜 : Type} [RCLike 𝕜] {B P : Type} [Fintype B] [Fintype P] [DecidableEq P]

/-- An exact update of one bond: the tensors of other sites stay and the two-site tensor of the bond becomes `κ` times the
gate applied to it. -/
def Spec.ExactBond (gate : P → P → P → P → 𝕜) (b : Bond) (A A' : Site → B → B → B → B → P → 𝕜) (κ : 𝕜) : Prop :=
  (∀ s, s ≠ b.s1 → s ≠ b.s2 → A' s = A s) ∧
  ∀ w1 w2 p q, bondPair b.k (A' b.s1) (A' b.s2) w1 w2 p q = κ * gatedPair gate (bondPair b.k (A b.s1) (A b.s2)) w1 w2 p q

/-- The tensors when the bond has been updated in the copies `l` only. -/
def partly (hx : 2 ≤ nx) (hy : 2 ≤ ny) (σ : Bond → Equiv.Perm (Fin N)) (b : Bond) (A A' : Site → B → B → B → B → P → 𝕜)
    (l : List (Fin N)) (v : BigSite nx ny N) : B → B → B → B → P → 𝕜 :=
  if (v.2 = place hx hy b.s1 ∧ v.1 ∈ l) ∨ (v.2 = place hx hy b.s2 ∧ (σ b).symm v.1 ∈ l) then A' (v.2.1, v.2.2)
  else A (v.2.1, v.2.2)

open Classical in
theorem coveringOps_on (hx : 2 ≤ nx) (hy : 2 ≤ ny) (σ : Bond → Equiv.Perm (Fin N)) (b : Bond)
    (hb : b ∈ buildBondList nx ny) (c : Fin N) (M : Matrix (P × P) (P × P) 𝕜) :
    (coveringOps hx hy σ).on c b M = pairMat (c, place hx hy b.s1) (σ b c, place hx hy b.s2) M := by
  show (if h : place hx hy b.s1 ≠ place hx hy b.s2 then _ else _ : Matrix (P × P) (P × P) 𝕜 →ₐ[𝕜] _) M = _
  rw [dif_pos (place_ne hx hy b hb)]
  rfl

theorem place_val (hx : 2 ≤ nx) (hy : 2 ≤ ny) (s : Site) (h : InCell nx ny s) :
    (((place hx hy s).1 : ℕ), ((place hx hy s).2 : ℕ)) = s := by
  simp [place, Nat.mod_eq_of_lt h.1, Nat.mod_eq_of_lt h.2]

theorem netState_partly (hx : 2 ≤ nx) (hy : 2 ≤ ny) (σ : Bond → Equiv.Perm (Fin N)) (b : Bond)
    (hb : b ∈ buildBondList nx ny) (gate : P → P → P → P → 𝕜) (A A' : Site → B → B → B → B → P → 𝕜) (κ : 𝕜)
    (h : ExactBond gate b A A' κ) (l : List (Fin N)) (hl : l.Nodup) :
    netState (bigLeg σ) (partly hx hy σ b A A' l) =
      κ ^ l.length • ((l.map fun c => (coveringOps hx hy σ).on c b (gateMatrix gate).transpose).prod).mulVec
        (latticeState σ A) := by
  have hne := place_ne hx hy b hb
  have hin : InCell nx ny b.s1 ∧ InCell nx ny b.s2 := by
    have hb' := hb
    rw [mem_buildBondList] at hb'
    obtain ⟨h1, ⟨_, hs⟩ | ⟨_, hs⟩⟩ := hb'
    · exact ⟨h1, by rw [hs]; exact ⟨Nat.mod_lt _ (by omega), h1.2⟩⟩
    · exact ⟨h1, by rw [hs]; exact ⟨h1.1, Nat.mod_lt _ (by omega)⟩⟩
  induction l with
  | nil =>
    simp only [List.length_nil, pow_zero, one_smul, List.map_nil, List.prod_nil, Matrix.one_mulVec]
    unfold latticeState
    congr 1
    funext v
    simp [partly]
  | cons c l ih =>
    rw [List.nodup_cons] at hl
    have hv : (c, place hx hy b.s1) ≠ (σ b c, place hx hy b.s2) := fun e => hne (congrArg Prod.snd e)
    have hA1 : ∀ l', c ∉ l' → partly hx hy σ b A A' l' (c, place hx hy b.s1) = A b.s1 := by
      intro l' hc
      rw [partly, if_neg (by simp [hc, hne])]
      exact congrArg A (place_val hx hy _ hin.1)
    have hA2 : ∀ l', c ∉ l' → partly hx hy σ b A A' l' (σ b c, place hx hy b.s2) = A b.s2 := by
      intro l' hc
      rw [partly, if_neg (by simp [hc, hne.symm])]
      exact congrArg A (place_val hx hy _ hin.2)
    have hA1' : ∀ l', c ∈ l' → partly hx hy σ b A A' l' (c, place hx hy b.s1) = A' b.s1 := by
      intro l' hc
      rw [partly, if_pos (by simp [hc])]
      exact congrArg A' (place_val hx hy _ hin.1)
    have hA2' : ∀ l', c ∈ l' → partly hx hy σ b A A' l' (σ b c, place hx hy b.s2) = A' b.s2 := by
      intro l' hc
      rw [partly, if_pos (by simp [hc])]
      exact congrArg A' (place_val hx hy _ hin.2)
    rw [netState_gate (bigLeg σ) ((c, place hx hy b.s1), decide (b.k = 2)) (c, place hx hy b.s1)
      (σ b c, place hx hy b.s2) (side b.k 0) (side b.k 2) hv (bigLeg_ends hx hy σ b hb c)
      (partly hx hy σ b A A' l) (partly hx hy σ b A A' (c :: l)) gate κ ?_ ?_, ih hl.2]
    · rw [List.map_cons, List.prod_cons, ← Matrix.mulVec_mulVec, Matrix.mulVec_smul, smul_smul, List.length_cons,
        pow_succ', coveringOps_on hx hy σ b hb]
      rfl
    · rintro ⟨c', s⟩ h1 h2
      unfold partly
      have e1 : (s = place hx hy b.s1 ∧ c' ∈ c :: l) ↔ (s = place hx hy b.s1 ∧ c' ∈ l) := by
        constructor
        · rintro ⟨hs, hm⟩
          refine ⟨hs, (List.mem_cons.1 hm).resolve_left fun e => h1 ?_⟩
          rw [hs, e]
        · exact fun hm => ⟨hm.1, List.mem_cons_of_mem _ hm.2⟩
      have e2 : (s = place hx hy b.s2 ∧ (σ b).symm c' ∈ c :: l) ↔ (s = place hx hy b.s2 ∧ (σ b).symm c' ∈ l) := by
        constructor
        · rintro ⟨hs, hm⟩
          refine ⟨hs, (List.mem_cons.1 hm).resolve_left fun e => h2 ?_⟩
          rw [hs, ← e, Equiv.apply_symm_apply]
        · exact fun hm => ⟨hm.1, List.mem_cons_of_mem _ hm.2⟩
      simp only [e1, e2]
    · intro w1 w2 p q
      rw [hA1 l hl.1, hA2 l hl.1, hA1' _ List.mem_cons_self, hA2' _ List.mem_cons_self]
      exact h.2 w1 w2 p q

omit [DecidableEq P] in
theorem partly_all (hx : 2 ≤ nx) (hy : 2 ≤ ny) (σ : Bond → Equiv.Perm (Fin N)) (b : Bond)
    (gate : P → P → P → P → 𝕜) (A A' : Site → B → B → B → B → P → 𝕜) (κ : 𝕜) (h : ExactBond gate b A A' κ) :
    partly hx hy σ b A A' (List.finRange N) = fun v => A' (v.2.1, v.2.2) := by
  funext v
  unfold partly
  simp only [List.mem_finRange, and_true]
  split_ifs with hv
  · rfl
  · rw [not_or] at hv
    refine (h.1 _ (fun e => hv.1 ?_) fun e => hv.2 ?_).symm
    · rw [← e]; ext <;> simp [place, Nat.mod_eq_of_lt]
    · rw [← e]; ext <;> simp [place, Nat.mod_eq_of_lt]

/-- An exact update of a bond multiplies the state by the gate, transposed, on all copies of the bond. -/
theorem latticeState_exactBond (hx : 2 ≤ nx) (hy : 2 ≤ ny) (σ : Bond → Equiv.Perm (Fin N)) (b : Bond)
    (hb : b ∈ buildBondList nx ny) (gate : P → P → P → P → 𝕜) (A A' : Site → B → B → B → B → P → 𝕜) (κ : 𝕜)
    (h : ExactBond gate b A A' κ) :
    latticeState σ A' =
      κ ^ N • ((coveringOps hx hy σ).everywhere b (gateMatrix gate).transpose).mulVec (latticeState σ A) := by
  have := netState_partly hx hy σ b hb gate A A' κ h (List.finRange N) (List.nodup_finRange N)
  rw [partly_all hx hy σ b gate A A' κ h, List.length_finRange] at this
  unfold LatticeOps.everywhere
  rw [List.ofFn_eq_map]
  exact this

end AceTN
