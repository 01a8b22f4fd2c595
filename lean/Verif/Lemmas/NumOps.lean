import Verif.Spec.ClusterNet
import Verif.Props.Boundary

/-!
The operations of `Model/NumMover.lean` on tensors of fitting shapes, and the entries of their results.
-/

set_option autoImplicit false

namespace AceTN

open Finset Spec

section ent

variable {B 𝕜 : Type} [Zero 𝕜] {m n : ℕ}

theorem ent2_lt (c : Fin m → Fin n → 𝕜) (i : Fin m) (j : Fin n) : ent2 c i j = c i j := by
  unfold ent2
  rw [dif_pos ⟨i.isLt, j.isLt⟩]

theorem ent4_lt (e : Fin m → Fin n → B → B → 𝕜) (i : Fin m) (j : Fin n) : ent4 e i j = e i j := by
  funext l l'
  unfold ent4
  rw [dif_pos ⟨i.isLt, j.isLt⟩]

theorem entP_lt (p : Fin m → B → B → Fin n → 𝕜) (i : Fin m) (l l' : B) (j : Fin n) : entP p i l l' j = p i l l' j := by
  unfold entP
  rw [dif_pos ⟨i.isLt, j.isLt⟩]

theorem ent2_zero (c : Fin m → Fin n → 𝕜) (i j : ℕ) (h : m ≤ i ∨ n ≤ j) : ent2 c i j = 0 := by
  unfold ent2
  rw [dif_neg (by omega)]

theorem ent4_zero (e : Fin m → Fin n → B → B → 𝕜) (i j : ℕ) (l l' : B) (h : m ≤ i ∨ n ≤ j) : ent4 e i j l l' = 0 := by
  unfold ent4
  rw [dif_neg (by omega)]

theorem entP_zero (p : Fin m → B → B → Fin n → 𝕜) (i : ℕ) (l l' : B) (j : ℕ) (h : m ≤ i ∨ n ≤ j) : entP p i l l' j = 0 := by
  unfold entP
  rw [dif_neg (by omega)]

theorem as2_self (c : Fin m → Fin n → 𝕜) : as2 m n c = c := by
  funext i j
  exact ent2_lt c i j

theorem as4_self (e : Fin m → Fin n → B → B → 𝕜) : as4 m n e = e := by
  funext i j
  exact ent4_lt e i j

theorem asP_self (p : Fin m → B → B → Fin n → 𝕜) : asP m n p = p := by
  funext i l l' j
  exact entP_lt p i l l' j

theorem asQ_self (q : Matrix (Fin m × B × B) (Fin n × B × B) 𝕜) : asQ m n q = q := by
  ext i j
  unfold asQ
  rw [Matrix.of_apply, dif_pos ⟨i.1.isLt, j.1.isLt⟩]

end ent

theorem sum_fin_le {𝕜 : Type} [AddCommMonoid 𝕜] {m N : ℕ} (h : m ≤ N) (F : ℕ → 𝕜) (hF : ∀ x, m ≤ x → F x = 0) :
    ∑ x : Fin m, F x = ∑ x : Fin N, F x := by
  rw [Fin.sum_univ_eq_sum_range F m, Fin.sum_univ_eq_sum_range F N]
  refine sum_subset (range_subset_range.2 h) fun x _ hx => hF x ?_
  rw [mem_range] at hx
  omega

section ops

variable {𝕜 : Type} [RCLike 𝕜] {B P : Type} [Fintype B] [Fintype P] [DecidableEq B] (st : ProjSettings 𝕜) (ω : Draws B 𝕜)

theorem permute_eq (k : ℕ) (a : ATensor B P 𝕜) : (numOps st ω).permute k (.site a) = .site (bondPermute k a) := rfl

theorem quarter_eq {xa xb xc xe : ℕ} (a : ATensor B P 𝕜) (c : Fin xa → Fin xb → 𝕜) (e1 : Fin xe → Fin xa → B → B → 𝕜)
    (e2 : Fin xb → Fin xc → B → B → 𝕜) :
    (numOps st ω).quarter (.site a) (.corner xa xb c) (.edge xe xa e1) (.edge xb xc e2) =
      .quarter xc xe (maxNormalise (quarterCore c e1 e2 a)) := by
  simp [numOps, as4_self]

theorem cj1_eq {xa xb xc z : ℕ} (c : Fin xb → Fin xc → 𝕜) (e : Fin xa → Fin xb → B → B → 𝕜) (p : Fin xc → B → B → Fin z → 𝕜) :
    (numOps (P := P) st ω).cj1 (.corner xb xc c) (.edge xa xb e) (.proj xc z p) = .corner xa z (renormalizeCj1 c e p) := by
  simp [numOps, as4_self, asP_self]

theorem cj2_eq {xa xb xc z : ℕ} (c : Fin xa → Fin xb → 𝕜) (e : Fin xb → Fin xc → B → B → 𝕜) (p : Fin xa → B → B → Fin z → 𝕜) :
    (numOps (P := P) st ω).cj2 (.corner xa xb c) (.edge xb xc e) (.proj xa z p) = .corner z xc (renormalizeCj2 c e p) := by
  simp [numOps, as4_self, asP_self]

theorem ej_eq {xa xb z z' : ℕ} (e : Fin xa → Fin xb → B → B → 𝕜) (a : ATensor B P 𝕜) (p2 : Fin xa → B → B → Fin z' → 𝕜)
    (p1 : Fin xb → B → B → Fin z → 𝕜) :
    (numOps st ω).ej (.edge xa xb e) (.site a) (.proj xa z' p2) (.proj xb z p1) = .edge z' z (renormalizeEj e a p2 p1) := by
  simp [numOps, asP_self]

/-- The projectors of the half system. -/
noncomputable def halfPair (key : ℕ × Site) (chi : ℕ) {m x n : ℕ} (Q1 : Matrix (Fin m × B × B) (Fin x × B × B) 𝕜)
    (Q4 : Matrix (Fin x × B × B) (Fin n × B × B) 𝕜) : ProjPair (Fin x) B 𝕜 :=
  if st.fullRank then halfFullRank st.la st.cutoff chi Q1 Q4
  else halfRsvd st.la st.cutoff chi st.oversampling st.niter Q1 Q4 (ω key m n (chi + st.oversampling))

/-- The projectors of the full system. -/
noncomputable def fullPair (key : ℕ × Site) (chi : ℕ) {m x n k1 k3 : ℕ} (Q1 : Matrix (Fin k1 × B × B) (Fin x × B × B) 𝕜)
    (Q2 : Matrix (Fin m × B × B) (Fin k1 × B × B) 𝕜) (Q3 : Matrix (Fin k3 × B × B) (Fin n × B × B) 𝕜)
    (Q4 : Matrix (Fin x × B × B) (Fin k3 × B × B) 𝕜) : ProjPair (Fin x) B 𝕜 :=
  if st.fullRank then fullFullRank st.la st.cutoff chi Q1 Q2 Q3 Q4
  else fullRsvd st.la st.cutoff chi st.oversampling st.niter Q1 Q2 Q3 Q4 (ω key m n (chi + st.oversampling))

theorem half_eq (key : ℕ × Site) (chi : ℕ) {m x n : ℕ} (Q1 : Matrix (Fin m × B × B) (Fin x × B × B) 𝕜)
    (Q4 : Matrix (Fin x × B × B) (Fin n × B × B) 𝕜) :
    (numOps (P := P) st ω).half key chi (.quarter m x Q1) (.quarter x n Q4) =
      (.proj x (halfPair st ω key chi Q1 Q4).cD (halfPair st ω key chi Q1 Q4).proj1,
       .proj x (halfPair st ω key chi Q1 Q4).cD (halfPair st ω key chi Q1 Q4).proj2) := by
  unfold numOps halfPair
  dsimp only
  rw [if_pos rfl, asQ_self]

theorem full_eq (key : ℕ × Site) (chi : ℕ) {m x n k1 k3 : ℕ} (Q1 : Matrix (Fin k1 × B × B) (Fin x × B × B) 𝕜)
    (Q2 : Matrix (Fin m × B × B) (Fin k1 × B × B) 𝕜) (Q3 : Matrix (Fin k3 × B × B) (Fin n × B × B) 𝕜)
    (Q4 : Matrix (Fin x × B × B) (Fin k3 × B × B) 𝕜) :
    (numOps (P := P) st ω).full key chi (.quarter k1 x Q1) (.quarter m k1 Q2) (.quarter k3 n Q3) (.quarter x k3 Q4) =
      (.proj x (fullPair st ω key chi Q1 Q2 Q3 Q4).cD (fullPair st ω key chi Q1 Q2 Q3 Q4).proj1,
       .proj x (fullPair st ω key chi Q1 Q2 Q3 Q4).cD (fullPair st ω key chi Q1 Q2 Q3 Q4).proj2) := by
  unfold numOps fullPair
  dsimp only
  rw [if_pos ⟨rfl, rfl, rfl⟩, asQ_self, asQ_self]

end ops

section entries

variable {𝕜 : Type} [RCLike 𝕜] {B P : Type} [Fintype B] [Fintype P]

/-- The entries of a projector, 0 outside its dimensions. -/
def projEnt : Ten B P 𝕜 → ℕ → B → B → ℕ → 𝕜
  | .proj _ _ p => entP p
  | _ => fun _ _ _ _ => 0

/-- The new bond dimension of a projector. -/
def projDim : Ten B P 𝕜 → ℕ
  | .proj _ z _ => z
  | _ => 0

omit [Fintype P] in
theorem cj1_ent {xa xb xc z N : ℕ} (hb : xb ≤ N) (hc : xc ≤ N) (c : Fin xb → Fin xc → 𝕜) (e : Fin xa → Fin xb → B → B → 𝕜)
    (p : Fin xc → B → B → Fin z → 𝕜) (i j : ℕ) :
    ent2 (renormalizeCj1 c e p) i j = ((norm2 (lowerCorner c e p))⁻¹ : ℝ) *
      ∑ x : Fin N × (B × B), (∑ b : Fin N, ent4 e i b x.2.1 x.2.2 * ent2 c b x.1) * entP p x.1 x.2.1 x.2.2 j := by
  by_cases hi : xa ≤ i ∨ z ≤ j
  · rw [ent2_zero _ _ _ hi]
    symm
    rw [sum_eq_zero, mul_zero]
    intro x _
    rcases hi with hi | hj
    · rw [sum_eq_zero, zero_mul]
      intro b _
      rw [ent4_zero _ _ _ _ _ (.inl hi), zero_mul]
    · rw [entP_zero _ _ _ _ _ (.inr hj), mul_zero]
  · push Not at hi
    obtain ⟨i', rfl⟩ : ∃ i' : Fin xa, i'.val = i := ⟨⟨i, hi.1⟩, rfl⟩
    obtain ⟨j', rfl⟩ : ∃ j' : Fin z, j'.val = j := ⟨⟨j, hi.2⟩, rfl⟩
    rw [ent2_lt, renormalizeCj1_eq, normalise2, div_eq_inv_mul]
    push_cast
    congr 1
    unfold lowerCorner
    rw [Fintype.sum_prod_type, sum_comm, ← sum_fin_le hc (fun x => ∑ g : B × B,
      (∑ b : Fin N, ent4 e i' b g.1 g.2 * ent2 c b x) * entP p x g.1 g.2 j')]
    · refine sum_congr rfl fun x _ => ?_
      rw [Fintype.sum_prod_type, sum_comm]
      refine sum_congr rfl fun l _ => ?_
      rw [sum_comm]
      refine sum_congr rfl fun l' _ => ?_
      rw [← sum_fin_le hb (fun b => ent4 e i' b l l' * ent2 c b x), sum_mul]
      · refine sum_congr rfl fun b _ => ?_
        rw [ent4_lt, ent2_lt, entP_lt]
      · intro b hb'
        rw [ent4_zero _ _ _ _ _ (.inr hb'), zero_mul]
    · intro x hx
      refine sum_eq_zero fun g _ => ?_
      rw [entP_zero _ _ _ _ _ (.inl hx), mul_zero]

omit [Fintype P] in
theorem cj2_ent {xa xb xc z N : ℕ} (ha : xa ≤ N) (hb : xb ≤ N) (c : Fin xa → Fin xb → 𝕜) (e : Fin xb → Fin xc → B → B → 𝕜)
    (p : Fin xa → B → B → Fin z → 𝕜) (i j : ℕ) :
    ent2 (renormalizeCj2 c e p) i j = ((norm2 (upperCorner c e p))⁻¹ : ℝ) *
      ∑ x : Fin N × (B × B), entP p x.1 x.2.1 x.2.2 i * ∑ b : Fin N, ent2 c x.1 b * ent4 e b j x.2.1 x.2.2 := by
  by_cases hi : z ≤ i ∨ xc ≤ j
  · rw [ent2_zero _ _ _ hi]
    symm
    rw [sum_eq_zero, mul_zero]
    intro x _
    rcases hi with hi | hj
    · rw [entP_zero _ _ _ _ _ (.inr hi), zero_mul]
    · rw [sum_eq_zero, mul_zero]
      intro b _
      rw [ent4_zero _ _ _ _ _ (.inr hj), mul_zero]
  · push Not at hi
    obtain ⟨i', rfl⟩ : ∃ i' : Fin z, i'.val = i := ⟨⟨i, hi.1⟩, rfl⟩
    obtain ⟨j', rfl⟩ : ∃ j' : Fin xc, j'.val = j := ⟨⟨j, hi.2⟩, rfl⟩
    rw [ent2_lt, renormalizeCj2_eq, normalise2, div_eq_inv_mul]
    push_cast
    congr 1
    unfold upperCorner
    rw [Fintype.sum_prod_type, ← sum_fin_le ha (fun x => ∑ g : B × B,
      entP p x g.1 g.2 i' * ∑ b : Fin N, ent2 c x b * ent4 e b j' g.1 g.2)]
    · refine sum_congr rfl fun x _ => ?_
      rw [Fintype.sum_prod_type, sum_comm]
      refine sum_congr rfl fun l _ => ?_
      rw [sum_comm]
      refine sum_congr rfl fun l' _ => ?_
      rw [← sum_fin_le hb (fun b => ent2 c x b * ent4 e b j' l l'), mul_sum]
      · refine sum_congr rfl fun b _ => ?_
        rw [ent4_lt, ent2_lt, entP_lt]
        ring
      · intro b hb'
        rw [ent4_zero _ _ _ _ _ (.inl hb'), mul_zero]
    · intro x hx
      refine sum_eq_zero fun g _ => ?_
      rw [entP_zero _ _ _ _ _ (.inl hx), zero_mul]

theorem ej_ent {xa xb z z' N : ℕ} (ha : xa ≤ N) (hb : xb ≤ N) (e : Fin xa → Fin xb → B → B → 𝕜) (a : ATensor B P 𝕜)
    (p2 : Fin xa → B → B → Fin z' → 𝕜) (p1 : Fin xb → B → B → Fin z → 𝕜) (i j : ℕ) (g : B × B) :
    ent4 (renormalizeEj e a p2 p1) i j g.1 g.2 = ((norm4 (absorbedEdge e a p2 p1))⁻¹ : ℝ) *
      ∑ x : Fin N × (B × B), ∑ y : Fin N × (B × B), entP p2 x.1 x.2.1 x.2.2 i *
        (∑ g' : B × B, ent4 e x.1 y.1 g'.1 g'.2 * layer a none g' y.2 g x.2) * entP p1 y.1 y.2.1 y.2.2 j := by
  by_cases hi : z' ≤ i ∨ z ≤ j
  · rw [ent4_zero _ _ _ _ _ hi]
    symm
    rw [sum_eq_zero, mul_zero]
    intro x _
    refine sum_eq_zero fun y _ => ?_
    rcases hi with hi | hj
    · rw [entP_zero _ _ _ _ _ (.inr hi), zero_mul, zero_mul]
    · rw [entP_zero p1 _ _ _ _ (.inr hj), mul_zero]
  · push Not at hi
    obtain ⟨i', rfl⟩ : ∃ i' : Fin z', i'.val = i := ⟨⟨i, hi.1⟩, rfl⟩
    obtain ⟨j', rfl⟩ : ∃ j' : Fin z, j'.val = j := ⟨⟨j, hi.2⟩, rfl⟩
    rw [ent4_lt, renormalizeEj_eq, normalise4, div_eq_inv_mul]
    push_cast
    congr 1
    rw [Fintype.sum_prod_type, ← sum_fin_le ha (fun x => ∑ v : B × B, ∑ y : Fin N × (B × B), entP p2 x v.1 v.2 i' *
        (∑ g' : B × B, ent4 e x y.1 g'.1 g'.2 * layer a none g' y.2 g v) * entP p1 y.1 y.2.1 y.2.2 j')]
    · have h1 : ∀ (x : Fin xa) (v : B × B), ∑ y : Fin N × (B × B), entP p2 x v.1 v.2 i' *
          (∑ g' : B × B, ent4 e x y.1 g'.1 g'.2 * layer a none g' y.2 g v) * entP p1 y.1 y.2.1 y.2.2 j' =
          ∑ y : Fin xb, ∑ u : B × B, p2 x v.1 v.2 i' *
            (∑ g' : B × B, e x y g'.1 g'.2 * layer a none g' u g v) * p1 y u.1 u.2 j' := by
        intro x v
        rw [Fintype.sum_prod_type, ← sum_fin_le hb (fun y => ∑ u : B × B, entP p2 x v.1 v.2 i' *
          (∑ g' : B × B, ent4 e x y g'.1 g'.2 * layer a none g' u g v) * entP p1 y u.1 u.2 j')]
        · refine sum_congr rfl fun y _ => sum_congr rfl fun u _ => ?_
          rw [entP_lt, entP_lt]
          congr 2
          refine sum_congr rfl fun g' _ => ?_
          rw [ent4_lt]
        · intro y hy
          refine sum_eq_zero fun u _ => ?_
          rw [entP_zero p1 _ _ _ _ (.inl hy), mul_zero]
      rw [sum_congr rfl fun x _ => sum_congr rfl fun v _ => h1 x v]
      unfold absorbedEdge layer
      obtain ⟨r₀, s₀⟩ := g
      simp only [Fintype.sum_prod_type]
      einsum_ring
    · intro x hx
      refine sum_eq_zero fun v _ => sum_eq_zero fun y _ => ?_
      rw [entP_zero _ _ _ _ _ (.inl hx), zero_mul, zero_mul]

end entries

end AceTN
