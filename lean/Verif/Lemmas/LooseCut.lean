import Verif.Spec.Loose
import Verif.Lemmas.NumOps
import Verif.Props.MoveExact

/-!
The projectors of a cut without truncation resolve the identity, and the tensors absorbed through them do not vanish.
-/

set_option autoImplicit false

namespace AceTN

open Matrix Spec

variable {𝕜 : Type} [RCLike 𝕜]

section resolution

variable {m n X B : Type} [Fintype m] [Fintype n] [Fintype X] [Fintype B] [DecidableEq X] [DecidableEq B]

theorem resolution_of_inverses {k : ℕ} (L : Matrix m (X × B × B) 𝕜) (R : Matrix (X × B × B) n 𝕜) (L' : Matrix (X × B × B) m 𝕜)
    (R' : Matrix n (X × B × B) 𝕜) (hL' : L' * L = 1) (hR' : R * R' = 1)
    (p1 p2 : X → B → B → Fin k → 𝕜) (c : ℝ) (h : Reproduces L R p1 p2 c) : Resolution p1 p2 (c : 𝕜) := by
  have h1 := congrArg (fun M => L' * M * R') h
  beta_reduce at h1
  have h2 : pmat p2 * (pmat p1)ᵀ = (c : 𝕜) • (1 : Matrix _ _ 𝕜) := by
    have e1 : L' * (L * pmat p2 * (pmat p1)ᵀ * R) * R' = (L' * L) * (pmat p2 * (pmat p1)ᵀ) * (R * R') := by
      simp only [Matrix.mul_assoc]
    have e2 : L' * ((c : 𝕜) • (L * R)) * R' = (c : 𝕜) • ((L' * L) * (R * R')) := by
      simp only [Matrix.mul_assoc, Matrix.mul_smul, Matrix.smul_mul]
    rw [e1, e2, hL', hR', Matrix.one_mul, Matrix.mul_one, Matrix.mul_one] at h1
    exact h1
  intro x u u' y v v'
  have h3 := congrFun (congrFun h2 (x, u, u')) (y, v, v')
  rw [mul_apply] at h3
  refine h3.trans ?_
  rw [Matrix.smul_apply, one_apply, smul_eq_mul]
  by_cases hxy : x = y ∧ u = v ∧ u' = v'
  · obtain ⟨rfl, rfl, rfl⟩ := hxy
    simp
  · rw [if_neg hxy, if_neg (fun e => hxy (by simpa using e)), mul_zero]

omit [Fintype n] in
theorem rankLE_mul {l : Type} [Fintype l] [DecidableEq l] (L : Matrix m l 𝕜) (R : Matrix l n 𝕜) (chi : ℕ)
    (h : Fintype.card l ≤ chi) : RankLE (L * R) chi := by
  obtain ⟨Y, Z, hYZ⟩ := rankLE_of_card L chi h
  exact ⟨Y, Z * R, by rw [← Matrix.mul_assoc, ← hYZ]⟩

theorem Spec.Loose.ne_zero {q : ℕ} {fullRank : Bool} {cutoff : ℝ} {chi : ℕ} {L : Matrix m (X × B × B) 𝕜}
    {R : Matrix (X × B × B) n 𝕜} {Ω : Matrix n (Fin q) 𝕜} (h : Loose fullRank cutoff chi L R Ω) : L * R ≠ 0 := by
  obtain ⟨L', hL⟩ := h.left
  obtain ⟨R', hR⟩ := h.right
  have := h.pos
  intro h0
  have h1 : L' * (L * R) * R' = (L' * L) * (R * R') := by simp only [Matrix.mul_assoc]
  rw [h0, hL, hR, Matrix.mul_zero, Matrix.zero_mul, Matrix.mul_one] at h1
  exact zero_ne_one h1

theorem Spec.Loose.resolution {q : ℕ} {fullRank : Bool} {cutoff : ℝ} {chi : ℕ} {L : Matrix m (X × B × B) 𝕜}
    {R : Matrix (X × B × B) n 𝕜} {Ω : Matrix n (Fin q) 𝕜} (h : Loose fullRank cutoff chi L R Ω) (p : ProjPair X B 𝕜)
    (hg : GoodCut L R cutoff chi p) : ∃ c : ℝ, 0 < c ∧ Resolution p.proj1 p.proj2 (c : 𝕜) := by
  obtain ⟨L', hL⟩ := h.left
  obtain ⟨R', hR⟩ := h.right
  obtain ⟨-, -, c, ⟨hc, -⟩, -, hrep⟩ := hg
  exact ⟨c, hc, resolution_of_inverses L R L' R' hL hR _ _ c (hrep (rankLE_mul _ _ _ h.large) h.gap)⟩

theorem Spec.Loose.chi_pos {q : ℕ} {fullRank : Bool} {cutoff : ℝ} {chi : ℕ} {L : Matrix m (X × B × B) 𝕜}
    {R : Matrix (X × B × B) n 𝕜} {Ω : Matrix n (Fin q) 𝕜} (h : Loose fullRank cutoff chi L R Ω) : 0 < chi := by
  have := h.pos
  exact lt_of_lt_of_le Fintype.card_pos h.large

end resolution

section pairs

variable {B : Type} [Fintype B] [DecidableEq B] (st : ProjSettings 𝕜)

namespace Spec

/-- Whenever a cut needs no truncation, its projectors resolve the identity. -/
def CutsResolve (B : Type) [Fintype B] [DecidableEq B] (st : ProjSettings 𝕜) : ProjKind → Prop
  | .half => ∀ (ω : Draws B 𝕜) (key : ℕ × Site) (chi m x n : ℕ) (Q1 : Matrix (Fin m × B × B) (Fin x × B × B) 𝕜)
      (Q4 : Matrix (Fin x × B × B) (Fin n × B × B) 𝕜),
      Loose st.fullRank st.cutoff chi Q1 Q4 (ω key m n (chi + st.oversampling)) →
      ∃ c : ℝ, 0 < c ∧ Resolution (halfPair st ω key chi Q1 Q4).proj1 (halfPair st ω key chi Q1 Q4).proj2 (c : 𝕜)
  | .full => ∀ (ω : Draws B 𝕜) (key : ℕ × Site) (chi m x n k1 k3 : ℕ) (Q1 : Matrix (Fin k1 × B × B) (Fin x × B × B) 𝕜)
      (Q2 : Matrix (Fin m × B × B) (Fin k1 × B × B) 𝕜) (Q3 : Matrix (Fin k3 × B × B) (Fin n × B × B) 𝕜)
      (Q4 : Matrix (Fin x × B × B) (Fin k3 × B × B) 𝕜),
      Loose st.fullRank st.cutoff chi (Q2 * Q1) (Q4 * Q3) (ω key m n (chi + st.oversampling)) →
      ∃ c : ℝ, 0 < c ∧
        Resolution (fullPair st ω key chi Q1 Q2 Q3 Q4).proj1 (fullPair st ω key chi Q1 Q2 Q3 Q4).proj2 (c : 𝕜)

/-- The projectors of a cut that needs no truncation are good ones. -/
def CutsGood (B : Type) [Fintype B] [DecidableEq B] (st : ProjSettings 𝕜) : ProjKind → Prop
  | .half => ∀ (ω : Draws B 𝕜) (key : ℕ × Site) (chi m x n : ℕ) (Q1 : Matrix (Fin m × B × B) (Fin x × B × B) 𝕜)
      (Q4 : Matrix (Fin x × B × B) (Fin n × B × B) 𝕜),
      Loose st.fullRank st.cutoff chi Q1 Q4 (ω key m n (chi + st.oversampling)) →
      GoodCut Q1 Q4 st.cutoff chi (halfPair st ω key chi Q1 Q4)
  | .full => ∀ (ω : Draws B 𝕜) (key : ℕ × Site) (chi m x n k1 k3 : ℕ) (Q1 : Matrix (Fin k1 × B × B) (Fin x × B × B) 𝕜)
      (Q2 : Matrix (Fin m × B × B) (Fin k1 × B × B) 𝕜) (Q3 : Matrix (Fin k3 × B × B) (Fin n × B × B) 𝕜)
      (Q4 : Matrix (Fin x × B × B) (Fin k3 × B × B) 𝕜),
      Loose st.fullRank st.cutoff chi (Q2 * Q1) (Q4 * Q3) (ω key m n (chi + st.oversampling)) →
      GoodCut (Q2 * Q1) (Q4 * Q3) st.cutoff chi (fullPair st ω key chi Q1 Q2 Q3 Q4)

end Spec

theorem Spec.CutsGood.resolve {st : ProjSettings 𝕜} {pk : ProjKind} (h : CutsGood B st pk) : CutsResolve B st pk := by
  cases pk with
  | half => exact fun ω key chi m x n Q1 Q4 hl => hl.resolution _ (h ω key chi m x n Q1 Q4 hl)
  | full => exact fun ω key chi m x n k1 k3 Q1 Q2 Q3 Q4 hl => hl.resolution _ (h ω key chi m x n k1 k3 Q1 Q2 Q3 Q4 hl)

theorem cutsGood_half (hcut : 0 ≤ st.cutoff) (hcut1 : st.cutoff < 1) : CutsGood B st .half := by
  intro ω key chi m x n Q1 Q4 h
  unfold halfPair
  split_ifs with hf
  · exact C45_half_full_rank st.la st.cutoff hcut hcut1 chi h.chi_pos Q1 Q4 h.ne_zero
  · have hf : st.fullRank = false := by simpa using hf
    exact (C45_half_rsvd st.la st.cutoff hcut hcut1 chi h.chi_pos st.oversampling st.niter Q1 Q4 _ (h.draw hf).1).2 (h.draw hf).2

theorem cutsGood_full (hf : st.fullRank = true) (hcut : 0 ≤ st.cutoff) (hcut1 : st.cutoff < 1) : CutsGood B st .full := by
  intro ω key chi m x n k1 k3 Q1 Q2 Q3 Q4 h
  unfold fullPair
  rw [if_pos hf]
  exact C45_full_full_rank st.la st.cutoff hcut hcut1 chi h.chi_pos Q1 Q2 Q3 Q4 h.ne_zero

theorem cutsGood_full_real (st : ProjSettings ℝ) (hcut : 0 ≤ st.cutoff) (hcut1 : st.cutoff < 1) : CutsGood B st .full := by
  by_cases hf : st.fullRank = true
  · exact cutsGood_full st hf hcut hcut1
  intro ω key chi m x n k1 k3 Q1 Q2 Q3 Q4 h
  unfold fullPair
  rw [if_neg hf]
  have hf : st.fullRank = false := by simpa using hf
  exact (C45_full_rsvd_real_partial st.la st.cutoff hcut hcut1 chi h.chi_pos st.oversampling st.niter Q1 Q2 Q3 Q4 _
    (h.draw hf).1).2 (h.draw hf).2

end pairs

section pick

theorem resolution_pick {X B Z : Type} [Fintype X] [Fintype B] [Fintype Z] [DecidableEq X] [DecidableEq B]
    (p1 p2 : X → B → B → Z → 𝕜) (c : 𝕜) (h : Resolution p1 p2 c) (v : X → B → B → 𝕜) (x : X) (u u' : B) :
    ∑ z, p2 x u u' z * (∑ y, ∑ w, ∑ w', v y w w' * p1 y w w' z) = c * v x u u' := by
  have e : ∑ z, p2 x u u' z * (∑ y, ∑ w, ∑ w', v y w w' * p1 y w w' z) =
      ∑ y, ∑ w, ∑ w', v y w w' * ∑ z, p2 x u u' z * p1 y w w' z := by
    simp only [Finset.mul_sum]
    rw [Finset.sum_comm]
    refine Finset.sum_congr rfl fun y _ => ?_
    rw [Finset.sum_comm]
    refine Finset.sum_congr rfl fun w _ => ?_
    rw [Finset.sum_comm]
    refine Finset.sum_congr rfl fun w' _ => Finset.sum_congr rfl fun z _ => ?_
    ring
  rw [e, Finset.sum_eq_single x, Finset.sum_eq_single u, Finset.sum_eq_single u', h]
  · simp [mul_comm]
  · intro v' _ hv'
    rw [h, if_neg (fun e => hv' e.2.2.symm), mul_zero]
  · simp
  · intro v _ hv
    refine Finset.sum_eq_zero fun v' _ => ?_
    rw [h, if_neg (fun e => hv e.2.1.symm), mul_zero]
  · simp
  · intro y _ hy
    refine Finset.sum_eq_zero fun v _ => Finset.sum_eq_zero fun v' _ => ?_
    rw [h, if_neg (fun e => hy e.1.symm), mul_zero]
  · simp

theorem Spec.Resolution.symm {X B Z : Type} [Fintype Z] [DecidableEq X] [DecidableEq B] {p1 p2 : X → B → B → Z → 𝕜} {c : 𝕜}
    (h : Resolution p1 p2 c) : Resolution p2 p1 c := by
  intro x u u' y v v'
  have := h y v v' x u u'
  simp only [mul_comm (p1 x u u' _)]
  rw [this]
  congr 1
  simp only [eq_comm]

end pick

section nonzero

variable {xa xb xc xe L U R D P Z Z' : Type} [Fintype xa] [Fintype xb] [Fintype xc] [Fintype L] [Fintype U] [Fintype R]
  [Fintype D] [Fintype P] [Fintype Z] [Fintype Z']

omit [Fintype xc] [Fintype R] [Fintype D] in
theorem quarterCore_lower (c : xa → xb → 𝕜) (e1 : xe → xa → L → L → 𝕜) (e2 : xb → xc → U → U → 𝕜) (a : L → U → R → D → P → 𝕜)
    (h : ∀ y b l l', ∑ i, e1 y i l l' * c i b = 0) : quarterCore c e1 e2 a = 0 := by
  ext ⟨x, t, t'⟩ ⟨y, m, m'⟩
  have e : quarterCore c e1 e2 a (x, t, t') (y, m, m') = ∑ b, ∑ l, ∑ l', (∑ i, e1 y i l l' * c i b) *
      ∑ u, ∑ u', ∑ p, e2 b x u u' * a l u t m p * star (a l' u' t' m' p) := by
    unfold quarterCore
    dsimp only [of_apply]
    einsum_ring
  rw [e]
  simp only [h, zero_mul, Finset.sum_const_zero]
  rfl

omit [Fintype xc] [Fintype R] [Fintype D] in
theorem quarterCore_upper (c : xa → xb → 𝕜) (e1 : xe → xa → L → L → 𝕜) (e2 : xb → xc → U → U → 𝕜) (a : L → U → R → D → P → 𝕜)
    (h : ∀ i x u u', ∑ b, c i b * e2 b x u u' = 0) : quarterCore c e1 e2 a = 0 := by
  ext ⟨x, t, t'⟩ ⟨y, m, m'⟩
  have e : quarterCore c e1 e2 a (x, t, t') (y, m, m') = ∑ i, ∑ u, ∑ u', (∑ b, c i b * e2 b x u u') *
      ∑ l, ∑ l', ∑ p, e1 y i l l' * a l u t m p * star (a l' u' t' m' p) := by
    unfold quarterCore
    dsimp only [of_apply]
    einsum_ring
  rw [e]
  simp only [h, zero_mul, Finset.sum_const_zero]
  rfl

omit [Fintype xc] [Fintype R] [Fintype D] in
theorem quarterCore_edge (c : xa → xb → 𝕜) (e1 : xe → xa → L → L → 𝕜) (e2 : xb → xc → U → U → 𝕜) (a : L → U → R → D → P → 𝕜)
    (h : ∀ y i u u' t t' m m', ∑ l, ∑ l', ∑ p, e1 y i l l' * (a l u t m p * star (a l' u' t' m' p)) = 0) :
    quarterCore c e1 e2 a = 0 := by
  ext ⟨x, t, t'⟩ ⟨y, m, m'⟩
  have e : quarterCore c e1 e2 a (x, t, t') (y, m, m') = ∑ i, ∑ u, ∑ u', (∑ b, c i b * e2 b x u u') *
      ∑ l, ∑ l', ∑ p, e1 y i l l' * (a l u t m p * star (a l' u' t' m' p)) := by
    unfold quarterCore
    dsimp only [of_apply]
    einsum_ring
  rw [e]
  simp only [h, mul_zero, Finset.sum_const_zero]
  rfl

omit [Fintype xc] [Fintype R] [Fintype D] in
theorem lowerCorner_ne [DecidableEq xb] [DecidableEq L] (C₀ : xa → xb → 𝕜) (e1 : xe → xa → L → L → 𝕜) (e2 : xb → xc → U → U → 𝕜)
    (A₀ : L → U → R → D → P → 𝕜) (p1 p2 : xb → L → L → Z → 𝕜) (s : 𝕜) (hs : s ≠ 0) (hr : Resolution p1 p2 s)
    (h : quarterCore C₀ e1 e2 A₀ ≠ 0) : lowerCorner C₀ e1 p1 ≠ 0 := by
  intro h0
  refine h (quarterCore_lower C₀ e1 e2 A₀ fun y b l l' => ?_)
  have e : ∀ z, ∑ b, ∑ l, ∑ l', (∑ i, e1 y i l l' * C₀ i b) * p1 b l l' z = lowerCorner C₀ e1 p1 y z := by
    intro z
    unfold lowerCorner
    einsum_ring
  have hp := resolution_pick p1 p2 s hr (fun b l l' => ∑ i, e1 y i l l' * C₀ i b) b l l'
  simp only [e, h0, Pi.zero_apply, mul_zero, Finset.sum_const_zero] at hp
  exact (mul_eq_zero.1 hp.symm).resolve_left hs

omit [Fintype xc] [Fintype R] [Fintype D] in
theorem upperCorner_ne [DecidableEq xa] [DecidableEq U] (C₀ : xa → xb → 𝕜) (e1 : xe → xa → L → L → 𝕜) (e2 : xb → xc → U → U → 𝕜)
    (A₀ : L → U → R → D → P → 𝕜) (p1 p2 : xa → U → U → Z → 𝕜) (s : 𝕜) (hs : s ≠ 0) (hr : Resolution p1 p2 s)
    (h : quarterCore C₀ e1 e2 A₀ ≠ 0) : upperCorner C₀ e2 p2 ≠ 0 := by
  intro h0
  refine h (quarterCore_upper C₀ e1 e2 A₀ fun i x u u' => ?_)
  have e : ∀ z, ∑ i, ∑ u, ∑ u', (∑ b, C₀ i b * e2 b x u u') * p2 i u u' z = upperCorner C₀ e2 p2 z x := by
    intro z
    unfold upperCorner
    einsum_ring
  have hp := resolution_pick p2 p1 s hr.symm (fun i u u' => ∑ b, C₀ i b * e2 b x u u') i u u'
  simp only [e, h0, Pi.zero_apply, mul_zero, Finset.sum_const_zero] at hp
  exact (mul_eq_zero.1 hp.symm).resolve_left hs

omit [Fintype xc] [Fintype R] in
theorem absorbedEdge_ne [Fintype xe] [DecidableEq xe] [DecidableEq xa] [DecidableEq U] [DecidableEq D] (C₀ : xa → xb → 𝕜)
    (e1 : xe → xa → L → L → 𝕜) (e2 : xb → xc → U → U → 𝕜)
    (A₀ : L → U → R → D → P → 𝕜) (q1 q2 : xe → D → D → Z' → 𝕜) (p1 p2 : xa → U → U → Z → 𝕜) (s s' : 𝕜) (hs : s ≠ 0)
    (hs' : s' ≠ 0) (hr : Resolution p1 p2 s) (hr' : Resolution q1 q2 s')
    (h : quarterCore C₀ e1 e2 A₀ ≠ 0) : absorbedEdge e1 A₀ q2 p1 ≠ 0 := by
  intro h0
  refine h (quarterCore_edge C₀ e1 e2 A₀ fun y i u u' t t' m m' => ?_)
  have e : ∀ z z', ∑ y, ∑ m, ∑ m', (∑ i, ∑ u, ∑ u', (∑ l, ∑ l', ∑ p, e1 y i l l' * (A₀ l u t m p * star (A₀ l' u' t' m' p))) *
      p1 i u u' z) * q2 y m m' z' = absorbedEdge e1 A₀ q2 p1 z' z t t' := by
    intro z z'
    unfold absorbedEdge
    einsum_ring
  have hp : ∀ z, ∑ i, ∑ u, ∑ u', (∑ l, ∑ l', ∑ p, e1 y i l l' * (A₀ l u t m p * star (A₀ l' u' t' m' p))) * p1 i u u' z = 0 := by
    intro z
    have hp := resolution_pick q2 q1 s' hr'.symm (fun y m m' => ∑ i, ∑ u, ∑ u',
      (∑ l, ∑ l', ∑ p, e1 y i l l' * (A₀ l u t m p * star (A₀ l' u' t' m' p))) * p1 i u u' z) y m m'
    simp only [e, h0, Pi.zero_apply, mul_zero, Finset.sum_const_zero] at hp
    exact (mul_eq_zero.1 hp.symm).resolve_left hs'
  have hq := resolution_pick p1 p2 s hr (fun i u u' => ∑ l, ∑ l', ∑ p, e1 y i l l' * (A₀ l u t m p * star (A₀ l' u' t' m' p)))
    i u u'
  simp only [hp, mul_zero, Finset.sum_const_zero] at hq
  exact (mul_eq_zero.1 hq.symm).resolve_left hs

end nonzero

end AceTN
