import Verif.Lemmas.Factored
import Verif.Lemmas.LooseCut
import Verif.Spec.RandomRun

/-!
Networks whose boundary bonds have dimensions of at most `chi`, and the ranks of their environments.
-/

set_option autoImplicit false

namespace AceTN

open Matrix Spec

variable {𝕜 : Type} [RCLike 𝕜] {B P : Type} [Fintype B] [Fintype P] [DecidableEq B]

/-- The dimensions of the bonds are at most `M`. -/
def TenSmall (M : ℕ) : Ten B P 𝕜 → Prop
  | .corner m n _ => m ≤ M ∧ n ≤ M
  | .edge m n _ => m ≤ M ∧ n ≤ M
  | .quarter m n _ => m ≤ M ∧ n ≤ M
  | .proj _ z _ => z ≤ M
  | _ => True

/-- All bonds of the boundary tensors are small. -/
def SmallNet (net : Net (Ten B P 𝕜)) : Prop := ∀ s sl, TenSmall net.chi (net.B s sl)

section numops

variable (st : ProjSettings 𝕜) (ω : Draws B 𝕜) {M : ℕ}

theorem TenSmall.quarter {a c e1 e2 : Ten B P 𝕜} (h1 : TenSmall M e1) (h2 : TenSmall M e2) :
    TenSmall M ((numOps st ω).quarter a c e1 e2) := by
  cases a <;> try trivial
  cases c <;> try trivial
  cases e1 <;> try trivial
  cases e2 <;> try trivial
  rename_i a xa xb c xe xa' e1 xb' xc e2
  by_cases hd : xa' = xa ∧ xb' = xb
  · obtain ⟨rfl, rfl⟩ := hd
    rw [quarter_eq]
    exact ⟨h2.2, h1.1⟩
  · simp only [numOps, if_neg hd]
    trivial

theorem TenSmall.cj1 {c e p : Ten B P 𝕜} (he : TenSmall M e) (hp : TenSmall M p) : TenSmall M ((numOps st ω).cj1 c e p) := by
  cases c <;> try trivial
  cases e <;> try trivial
  cases p <;> try trivial
  rename_i xb xc c xa xb' e xc' z p
  by_cases hd : xb' = xb ∧ xc' = xc
  · obtain ⟨rfl, rfl⟩ := hd
    rw [cj1_eq]
    exact ⟨he.1, hp⟩
  · simp only [numOps, if_neg hd]
    trivial

theorem TenSmall.cj2 {c e p : Ten B P 𝕜} (he : TenSmall M e) (hp : TenSmall M p) : TenSmall M ((numOps st ω).cj2 c e p) := by
  cases c <;> try trivial
  cases e <;> try trivial
  cases p <;> try trivial
  rename_i xa xb c xb' xc e xa' z p
  by_cases hd : xb' = xb ∧ xa' = xa
  · obtain ⟨rfl, rfl⟩ := hd
    rw [cj2_eq]
    exact ⟨hp, he.2⟩
  · simp only [numOps, if_neg hd]
    trivial

theorem TenSmall.ej {e a p2 p1 : Ten B P 𝕜} (h2 : TenSmall M p2) (h1 : TenSmall M p1) : TenSmall M ((numOps st ω).ej e a p2 p1) := by
  cases e <;> try trivial
  cases a <;> try trivial
  cases p2 <;> try trivial
  cases p1 <;> try trivial
  rename_i xa xb e a xa' z' p2 xb' z p1
  by_cases hd : xa' = xa ∧ xb' = xb
  · obtain ⟨rfl, rfl⟩ := hd
    rw [ej_eq]
    exact ⟨h2, h1⟩
  · simp only [numOps, if_neg hd]
    trivial

theorem small_half (key : ℕ × Site) (chi : ℕ) (x y : Ten B P 𝕜) :
    TenSmall chi ((numOps st ω).half key chi x y).1 ∧ TenSmall chi ((numOps st ω).half key chi x y).2 := by
  cases x <;> try exact ⟨trivial, trivial⟩
  cases y <;> try exact ⟨trivial, trivial⟩
  rename_i m x Q1 x' n Q4
  by_cases hd : x' = x
  · subst hd
    have : (halfPair st ω key chi Q1 Q4).cD ≤ chi := by
      unfold halfPair halfFullRank halfRsvd projFromSvd
      split_ifs <;> exact Nat.min_le_left _ _
    rw [half_eq]
    exact ⟨this, this⟩
  · simp only [numOps, if_neg hd]
    exact ⟨trivial, trivial⟩

theorem small_full (key : ℕ × Site) (chi : ℕ) (x y z w : Ten B P 𝕜) :
    TenSmall chi ((numOps st ω).full key chi x y z w).1 ∧ TenSmall chi ((numOps st ω).full key chi x y z w).2 := by
  cases x <;> try exact ⟨trivial, trivial⟩
  cases y <;> try exact ⟨trivial, trivial⟩
  cases z <;> try exact ⟨trivial, trivial⟩
  cases w <;> try exact ⟨trivial, trivial⟩
  rename_i k1 x Q1 m k1' Q2 k3 n Q3 x' k3' Q4
  by_cases hd : k1' = k1 ∧ k3' = k3 ∧ x' = x
  · obtain ⟨rfl, rfl, rfl⟩ := hd
    have : (fullPair st ω key chi Q1 Q2 Q3 Q4).cD ≤ chi := by
      unfold fullPair fullFullRank fullRsvd projFromSvd
      split_ifs <;> exact Nat.min_le_left _ _
    rw [full_eq]
    exact ⟨this, this⟩
  · simp only [numOps, if_neg hd]
    exact ⟨trivial, trivial⟩

theorem small_proj (pk : ProjKind) (net : Net (Ten B P 𝕜)) (s1 s2 s3 s4 : Site) (k : ℕ) :
    TenSmall net.chi (calcProjectors (numOps st ω) pk net s1 s2 s3 s4 k).1 ∧
      TenSmall net.chi (calcProjectors (numOps st ω) pk net s1 s2 s3 s4 k).2 := by
  cases pk
  · exact small_half st ω _ _ _ _
  · exact small_full st ω _ _ _ _ _ _

theorem small_move (pk : ProjKind) (net : Net (Ten B P 𝕜)) (m : Move) (i : ℕ) :
    TenSmall net.chi (m.proj (numOps st ω) pk net i).1 ∧ TenSmall net.chi (m.proj (numOps st ω) pk net i).2 := by
  cases m <;> exact small_proj st ω _ _ _ _ _ _ _

variable {net : Net (Ten B P 𝕜)} (h : SmallNet net)

include h in
theorem SmallNet.quarter (s : Site) (k : ℕ) : TenSmall net.chi (quarterTensor (numOps st ω) net s k) := TenSmall.quarter st ω (h _ _) (h _ _)

include h in
theorem SmallNet.after (pk : ProjKind) (m : Move) : SmallNet (m.after (numOps st ω) pk net) := by
  intro s sl
  rw [(m.after_consts (numOps st ω) pk net).2.2.1]
  by_cases hh : ∃ i, i < m.n net.nx net.ny ∧ m.tgt net.nx net.ny i = s
  · obtain ⟨i, hi, rfl⟩ := hh
    rw [m.after_B_mem _ pk net hi]
    unfold newB
    split_ifs
    · exact TenSmall.cj1 st ω (h _ _) (small_move st ω pk net m _).1
    · exact TenSmall.cj2 st ω (h _ _) (small_move st ω pk net m _).2
    · exact TenSmall.ej st ω (small_move st ω pk net m _).2 (small_move st ω pk net m _).1
    · exact h _ _
  · rw [m.after_B_ne _ pk net (fun i hi he => hh ⟨i, hi, he⟩)]
    exact h s sl

include h in
/-- Environments have a rank of at most `chi * D ^ 2`. -/
theorem SmallNet.rankMove (r : ℕ) (hr : net.chi * (Fintype.card B * Fintype.card B) ≤ r) (pk : ProjKind) (m : Move) :
    RankMove st r ω pk net m := by
  intro s _ _
  have card : ∀ x : ℕ, x ≤ net.chi → Fintype.card (Fin x × B × B) ≤ r := by
    intro x hx
    rw [Fintype.card_prod, Fintype.card_prod, Fintype.card_fin]
    exact (Nat.mul_le_mul_right _ hx).trans hr
  cases pk with
  | half =>
    intro m' x n Q1 Q4 e1 e4
    have h1 := h.quarter st ω s (moveDir m)
    rw [e1] at h1
    exact rankLE_mul Q1 Q4 r (card x h1.2)
  | full =>
    intro m' x n k1 k3 Q1 Q2 Q3 Q4 e1 e2 e3 e4
    have h1 := h.quarter st ω s (moveDir m)
    rw [e1] at h1
    rw [Matrix.mul_assoc]
    exact rankLE_mul _ _ r (card x h1.2)

include h in
theorem SmallNet.rankRun (r : ℕ) (hr : net.chi * (Fintype.card B * Fintype.card B) ≤ r) (pk : ProjKind) (ω : ℕ → Draws B 𝕜)
    (ms : List Move) (t : ℕ) : RankRun st r pk ω t ms net := by
  induction ms generalizing t net with
  | nil => trivial
  | cons m ms ih =>
    refine ⟨h.rankMove st (ω t) r hr pk m, fun net' e => ?_⟩
    rw [Move.run_eq] at e
    cases e
    exact ih (h.after st (ω t) pk m) hr (t + 1)

end numops

theorem small_fresh {D : ℕ} (nx ny chi : ℕ) (A : Site → ATensor (Fin D) P 𝕜) (h : D * D ≤ chi) : SmallNet (freshNet nx ny chi A) := by
  intro s sl
  cases sl <;> exact ⟨h, h⟩

end AceTN
