import Verif.Lemmas.DiagSvd
import Verif.Lemmas.SplitSvd
import Verif.Props.SimpleUpdate

/-!
Simple updates of site tensors whose four virtual indices and first physical index agree, under a gate that acts on a
second physical index only.
-/

set_option autoImplicit false

namespace AceTN

open Matrix Spec Simple Full

/-- The physical index: a pair of bits. -/
abbrev P2 := Fin 2 × Fin 2

/-- The site tensor with amplitude `v i` where all virtual indices and the first physical bit are `i` and the second
physical bit is zero. -/
def ghz (v : Fin 2 → ℝ) : ATensor (Fin 2) P2 ℝ :=
  fun l u r d p => if l = p.1 ∧ u = p.1 ∧ r = p.1 ∧ d = p.1 ∧ p.2 = 0 then v p.1 else 0

theorem ghz_same (v : Fin 2 → ℝ) (i : Fin 2) : ghz v i i i i (i, 0) = v i := by simp [ghz]

theorem bondPermute_ghz (k : ℤ) (v : Fin 2 → ℝ) : bondPermute k (ghz v) = ghz v := by
  rw [bondPermute_mod k (k % 4) (by omega)]
  have h : k % 4 = 0 ∨ k % 4 = 1 ∨ k % 4 = 2 ∨ k % 4 = 3 := by omega
  rcases h with h | h | h | h <;> rw [h]
  · rw [bondPermute_zero]
  · funext l u r d p
    rw [bondPermute_one]
    unfold ghz
    refine if_congr ?_ rfl rfl
    tauto
  · funext l u r d p
    rw [bondPermute_two]
    unfold ghz
    refine if_congr ?_ rfl rfl
    tauto
  · funext l u r d p
    rw [bondPermute_three]
    unfold ghz
    refine if_congr ?_ rfl rfl
    tauto

/-- All weights at the common index. -/
noncomputable def legProd (w : ℕ → Fin 2 → ℝ) (ex : ℕ) (i : Fin 2) : ℝ :=
  legWeight w ex 0 i * legWeight w ex 1 i * legWeight w ex 2 i * legWeight w ex 3 i

theorem mul_ghz (x : Fin 2 → Fin 2 → Fin 2 → Fin 2 → ℝ) (v : Fin 2 → ℝ) :
    (fun l u r d p => x l u r d * ghz v l u r d p) = ghz fun i => x i i i i * v i := by
  funext l u r d p
  unfold ghz
  by_cases h : l = p.1 ∧ u = p.1 ∧ r = p.1 ∧ d = p.1 ∧ p.2 = 0
  · rw [if_pos h, if_pos h, h.1, h.2.1, h.2.2.1, h.2.2.2.1]
  · rw [if_neg h, if_neg h, mul_zero]

theorem weighted_ghz (w : ℕ → Fin 2 → ℝ) (ex : ℕ) (v : Fin 2 → ℝ) :
    weighted w ex (ghz v) = ghz fun i => legProd w ex i * v i :=
  mul_ghz (fun l u r d => legWeight w ex 0 l * legWeight w ex 1 u * legWeight w ex 2 r * legWeight w ex 3 d) v

/-- The gate `1 + κ X ⊗ X` on the second bits. -/
def flipGate (κ : ℝ) : P2 → P2 → P2 → P2 → ℝ := fun p q p' q' =>
  if p.1 = p'.1 ∧ q.1 = q'.1 then
    (if p.2 = p'.2 ∧ q.2 = q'.2 then 1 else 0) + κ * (if p.2 ≠ p'.2 ∧ q.2 ≠ q'.2 then 1 else 0)
  else 0

/-- The entries of the gated pair. -/
theorem gated_ghz (κ : ℝ) (v v' : Fin 2 → ℝ) (u r d l' u' d' : Fin 2) (p q : P2) :
    gated (flipGate κ) (twoSite (ghz v) (ghz v')) u r d l' u' d' p q =
      if u = p.1 ∧ r = p.1 ∧ d = p.1 ∧ l' = p.1 ∧ u' = p.1 ∧ d' = p.1 ∧ q = p then
        v p.1 * v' p.1 * (if p.2 = 0 then 1 else κ) else 0 := by
  obtain ⟨i, j⟩ := p
  obtain ⟨i', j'⟩ := q
  have h1 : gated (flipGate κ) (twoSite (ghz v) (ghz v')) u r d l' u' d' (i, j) (i', j') =
      twoSite (ghz v) (ghz v') u r d l' u' d' (i, 0) (i', 0) * flipGate κ (i, 0) (i', 0) (i, j) (i', j') := by
    unfold gated
    rw [Finset.sum_eq_single (i, 0), Finset.sum_eq_single (i', 0)]
    · intro q _ hq
      by_cases hj : q.2 = 0
      · have : q.1 ≠ i' := fun h => hq (Prod.ext h hj)
        simp [flipGate, this]
      · simp [twoSite, ghz, hj]
    · simp
    · intro p _ hp
      refine Finset.sum_eq_zero fun q _ => ?_
      by_cases hj : p.2 = 0
      · have : p.1 ≠ i := fun h => hp (Prod.ext h hj)
        simp [flipGate, this]
      · simp [twoSite, ghz, hj]
    · simp
  have h2 : twoSite (ghz v) (ghz v') u r d l' u' d' (i, 0) (i', 0) =
      if u = i ∧ r = i ∧ d = i ∧ l' = i ∧ u' = i ∧ d' = i ∧ i' = i then v i * v' i else 0 := by
    unfold twoSite
    rw [Finset.sum_eq_single i (fun b _ hb => by simp [ghz, hb]) (by simp)]
    unfold ghz
    rw [ite_zero_mul_ite_zero]
    by_cases hc : u = i ∧ r = i ∧ d = i ∧ l' = i ∧ u' = i ∧ d' = i ∧ i' = i
    · obtain ⟨h1, h2, h3, h4, h5, h6, h7⟩ := hc
      simp [h1, h2, h3, h4, h5, h6, h7]
    · rw [if_neg hc, if_neg]
      rintro ⟨⟨_, a1, a2, a3, _⟩, a4, a5, a6, a7, _⟩
      dsimp only at a1 a2 a3 a4 a5 a6 a7
      rw [← a6] at a4 a5 a7
      exact hc ⟨a1, a2, a3, a4, a5, a7, a6.symm⟩
  rw [h1, h2]
  dsimp only
  by_cases hc : u = i ∧ r = i ∧ d = i ∧ l' = i ∧ u' = i ∧ d' = i ∧ i' = i
  · rw [if_pos hc]
    obtain ⟨rfl, rfl, rfl, rfl, rfl, rfl, rfl⟩ := hc
    fin_cases j <;> fin_cases j' <;> simp [flipGate]
  · rw [if_neg hc, zero_mul, if_neg]
    rintro ⟨a1, a2, a3, a4, a5, a6, a7⟩
    exact hc ⟨a1, a2, a3, a4, a5, a6, congrArg Prod.fst a7⟩

/-- The gated pair as a matrix. -/
theorem gated_sparse (κ : ℝ) (v v' : Fin 2 → ℝ) :
    Sparse (twoMat (gated (flipGate κ) (twoSite (ghz v) (ghz v')))) (fun c : P2 => ((c.1, c.1, c.1), c))
      (fun c : P2 => ((c.1, c.1, c.1), c)) (fun c => v c.1 * v' c.1 * (if c.2 = 0 then 1 else κ)) where
  inj1 := fun a b h => congrArg Prod.snd h
  inj2 := fun a b h => congrArg Prod.snd h
  entry := fun c => by
    show gated (flipGate κ) (twoSite (ghz v) (ghz v')) _ _ _ _ _ _ _ _ = _
    rw [gated_ghz]
    simp
  zero := fun i j h => by
    have h' : gated (flipGate κ) (twoSite (ghz v) (ghz v')) i.1.2.2 i.1.1 i.1.2.1 j.1.2.1 j.1.2.2 j.1.1 i.2 j.2 ≠ 0 := h
    rw [gated_ghz] at h'
    by_cases hc : i.1.2.2 = i.2.1 ∧ i.1.1 = i.2.1 ∧ i.1.2.1 = i.2.1 ∧ j.1.2.1 = i.2.1 ∧ j.1.2.2 = i.2.1 ∧ j.1.1 = i.2.1 ∧ j.2 = i.2
    · obtain ⟨a1, a2, a3, a4, a5, a6, a7⟩ := hc
      exact ⟨i.2, Prod.ext (Prod.ext a2 (Prod.ext a3 a1)) rfl, Prod.ext (Prod.ext a6 (Prod.ext a4 a5)) a7⟩
    · rw [if_neg hc] at h'
      exact absurd rfl h'

/-- If the second bit flips less than the first bit weighs, the split keeps the form of the tensors. -/
theorem ghz_keep (la : Lapack ℝ) (κ : ℝ) (v v' : Fin 2 → ℝ) (hκ : 0 < κ) (hκ1 : κ < 1) (h10 : |v 1 * v' 1| < |v 0 * v' 0|)
    (hk : κ * |v 0 * v' 0| < |v 1 * v' 1|) :
    ∃ x x' : Fin 2 → ℝ, (splitBond la (flipGate κ) (ghz v) (ghz v')).1 = ghz x ∧
      (splitBond la (flipGate κ) (ghz v) (ghz v')).2.1 = ghz x' ∧
      (∀ i, |x i| = (splitBond la (flipGate κ) (ghz v) (ghz v')).2.2 i) ∧
      (∀ i, |x' i| = (splitBond la (flipGate κ) (ghz v) (ghz v')).2.2 i) ∧
      (splitBond la (flipGate κ) (ghz v) (ghz v')).2.2 =
        fun i => Real.sqrt (|v i * v' i| / Real.sqrt (|v 0 * v' 0| ^ 2 + |v 1 * v' 1| ^ 2)) := by
  obtain ⟨r, hr, U, S, Vh, hsvd, hl, h1, h2⟩ := splitBond_svd la (flipGate κ) (ghz v) (ghz v')
  have hs := gated_sparse κ v v'
  have habs : ∀ i, |v i * v' i * (if (1 : Fin 2) = 0 then 1 else κ)| = κ * |v i * v' i| := fun i => by
    rw [if_neg (by decide), abs_mul, abs_of_pos hκ, mul_comm]
  have habs' : ∀ i, |v i * v' i * (if (0 : Fin 2) = 0 then 1 else κ)| = |v i * v' i| := fun i => by
    rw [if_pos rfl, mul_one]
  have hpos : 0 < |v 1 * v' 1| := lt_of_le_of_lt (by positivity) hk
  obtain ⟨e0, e1, u0, u1⟩ := hs.top hsvd (0, 0) (1, 0)
    (by dsimp only; rw [habs', habs']; exact h10) (by dsimp only; rw [habs']; exact hpos)
    (by
      rintro ⟨i, j⟩ hn0 hn1
      dsimp only
      rw [habs' 1]
      fin_cases j
      · fin_cases i <;> simp at hn0 hn1
      · simp only [Fin.mk_one, Fin.isValue]
        rw [habs]
        fin_cases i
        · exact hk
        · exact mul_lt_of_lt_one_left hpos hκ1) hr
  dsimp only at e0 e1
  rw [habs'] at e0 e1
  have hS : ∀ i : Fin 2, S (Fin.castLE hr i) = |v i * v' i| := by
    intro i; fin_cases i
    · exact e0
    · exact e1
  have hU : ∀ (i : Fin 2) (c : P2) (y : Fin 2 × Fin 2 × Fin 2), U (y, c) (Fin.castLE hr i) =
      if y = (i, i, i) ∧ c = (i, 0) then U ((i, i, i), (i, 0)) (Fin.castLE hr i) else 0 := by
    intro i c y
    by_cases hc : y = (i, i, i) ∧ c = (i, 0)
    · rw [if_pos hc, hc.1, hc.2]
    · rw [if_neg hc]
      have hne : (y, c) ≠ (((i, i, i), (i, 0)) : (Fin 2 × Fin 2 × Fin 2) × P2) := fun h =>
        hc ⟨congrArg Prod.fst h, congrArg Prod.snd h⟩
      fin_cases i
      · exact u0.1 _ hne
      · exact u1.1 _ hne
  have hV : ∀ (i : Fin 2) (c : P2) (y : Fin 2 × Fin 2 × Fin 2), Vh (Fin.castLE hr i) (y, c) =
      if y = (i, i, i) ∧ c = (i, 0) then Vh (Fin.castLE hr i) ((i, i, i), (i, 0)) else 0 := by
    intro i c y
    by_cases hc : y = (i, i, i) ∧ c = (i, 0)
    · rw [if_pos hc, hc.1, hc.2]
    · rw [if_neg hc]
      have hne : (y, c) ≠ (((i, i, i), (i, 0)) : (Fin 2 × Fin 2 × Fin 2) × P2) := fun h =>
        hc ⟨congrArg Prod.fst h, congrArg Prod.snd h⟩
      fin_cases i
      · exact u0.2.1 _ hne
      · exact u1.2.1 _ hne
  have hU1 : ∀ i : Fin 2, |U ((i, i, i), (i, 0)) (Fin.castLE hr i)| = 1 := by
    intro i; fin_cases i
    · exact u0.2.2.1
    · exact u1.2.2.1
  have hV1 : ∀ i : Fin 2, |Vh (Fin.castLE hr i) ((i, i, i), (i, 0))| = 1 := by
    intro i; fin_cases i
    · exact u0.2.2.2
    · exact u1.2.2.2
  have hnn : ∀ i, 0 ≤ (splitBond la (flipGate κ) (ghz v) (ghz v')).2.2 i := fun i => by
    rw [hl]; exact Real.sqrt_nonneg _
  refine ⟨fun i => U ((i, i, i), (i, 0)) (Fin.castLE hr i) * (splitBond la (flipGate κ) (ghz v) (ghz v')).2.2 i,
    fun i => Vh (Fin.castLE hr i) ((i, i, i), (i, 0)) * (splitBond la (flipGate κ) (ghz v) (ghz v')).2.2 i, ?_, ?_,
    fun i => ?_, fun i => ?_, ?_⟩
  · funext b u r d p
    rw [h1, hU]
    unfold ghz
    by_cases hc : b = p.1 ∧ u = p.1 ∧ r = p.1 ∧ d = p.1 ∧ p.2 = 0
    · obtain ⟨rfl, rfl, rfl, rfl, h5⟩ := hc
      rw [if_pos ⟨rfl, Prod.ext rfl h5⟩, if_pos ⟨rfl, rfl, rfl, rfl, h5⟩]
      rfl
    · rw [if_neg hc, if_neg, zero_mul]
      rintro ⟨h3, h4⟩
      rw [Prod.mk.injEq, Prod.mk.injEq] at h3
      rw [h4] at hc
      exact hc ⟨rfl, h3.2.2, h3.1, h3.2.1, rfl⟩
  · funext l u b d p
    rw [h2, hV]
    unfold ghz
    by_cases hc : l = p.1 ∧ u = p.1 ∧ b = p.1 ∧ d = p.1 ∧ p.2 = 0
    · obtain ⟨rfl, rfl, rfl, rfl, h5⟩ := hc
      rw [if_pos ⟨rfl, Prod.ext rfl h5⟩, if_pos ⟨rfl, rfl, rfl, rfl, h5⟩]
      rfl
    · rw [if_neg hc, if_neg, zero_mul]
      rintro ⟨h3, h4⟩
      rw [Prod.mk.injEq, Prod.mk.injEq] at h3
      rw [h4] at hc
      exact hc ⟨h3.2.1, h3.2.2, rfl, h3.1, rfl⟩
  · rw [abs_mul, hU1, one_mul, abs_of_nonneg (hnn i)]
  · rw [abs_mul, hV1, one_mul, abs_of_nonneg (hnn i)]
  · rw [hl]
    funext i
    simp only [hS, Fin.sum_univ_two]

/-- If the second bit flips more than the first bit weighs, the split loses the states with first bit one. -/
theorem ghz_lose (la : Lapack ℝ) (κ : ℝ) (v v' : Fin 2 → ℝ) (hκ : 0 < κ) (hκ1 : κ < 1) (h0 : 0 < |v 0 * v' 0|)
    (hk : |v 1 * v' 1| < κ * |v 0 * v' 0|) (b u r d j : Fin 2) :
    (splitBond la (flipGate κ) (ghz v) (ghz v')).1 b u r d (1, j) = 0 := by
  obtain ⟨r', hr, U, S, Vh, hsvd, hl, h1, h2⟩ := splitBond_svd la (flipGate κ) (ghz v) (ghz v')
  have hs := gated_sparse κ v v'
  have habs : ∀ i, |v i * v' i * (if (1 : Fin 2) = 0 then 1 else κ)| = κ * |v i * v' i| := fun i => by
    rw [if_neg (by decide), abs_mul, abs_of_pos hκ, mul_comm]
  have habs' : ∀ i, |v i * v' i * (if (0 : Fin 2) = 0 then 1 else κ)| = |v i * v' i| := fun i => by
    rw [if_pos rfl, mul_one]
  obtain ⟨e0, e1, u0, u1⟩ := hs.top hsvd (0, 0) (0, 1)
    (by dsimp only; rw [habs', habs]; exact mul_lt_of_lt_one_left h0 hκ1) (by dsimp only; rw [habs]; positivity)
    (by
      rintro ⟨i, j⟩ hn0 hn1
      dsimp only
      rw [habs 0]
      fin_cases i
      · fin_cases j <;> simp at hn0 hn1
      · fin_cases j
        · show |v 1 * v' 1 * (if (0 : Fin 2) = 0 then 1 else κ)| < _
          rw [habs']
          exact hk
        · simp only [Fin.mk_one, Fin.isValue]
          rw [habs]
          exact lt_of_le_of_lt (mul_le_of_le_one_left (abs_nonneg _) hκ1.le) hk) hr
  rw [h1]
  have hz : U ((r, d, u), (1, j)) (Fin.castLE hr b) = 0 := by
    fin_cases b
    · exact u0.1 _ (by simp)
    · exact u1.1 _ (by simp)
  rw [hz, zero_mul]

end AceTN
