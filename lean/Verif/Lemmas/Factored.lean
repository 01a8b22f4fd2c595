import Verif.Lemmas.LinkFresh

/-!
Networks whose tensors are products of vectors: their environments have rank one, whatever the dimensions of the bonds are, so
the singular values drop where they are cut off.
-/

set_option autoImplicit false

namespace AceTN

open Matrix Spec Finset SumTac

variable {𝕜 : Type} [RCLike 𝕜] {B P : Type} [Fintype B] [Fintype P] [DecidableEq B]

omit [DecidableEq B] [Fintype B] in
/-- The tensor is a product of vectors, one for each leg. -/
def TenProd : Ten B P 𝕜 → Prop
  | .site a => ∃ g0 g1 g2 g3 : B × B → 𝕜, ∀ l u r d, layer a none l u r d = g0 l * g1 u * g2 r * g3 d
  | .corner m n c => ∃ (v : Fin m → 𝕜) (w : Fin n → 𝕜), ∀ i j, c i j = v i * w j
  | .edge m n e => ∃ (v : Fin m → 𝕜) (w : Fin n → 𝕜) (f : B × B → 𝕜), ∀ i j g g', e i j g g' = v i * w j * f (g, g')
  | .quarter m n q => ∃ (v : Fin m × B × B → 𝕜) (w : Fin n × B × B → 𝕜), ∀ i j, q i j = v i * w j
  | _ => True

/-- All tensors are products of vectors. -/
def Factored (net : Net (Ten B P 𝕜)) : Prop := (∀ s, TenProd (net.A s)) ∧ ∀ s sl, TenProd (net.B s sl)

omit [Fintype B] [Fintype P] [DecidableEq B] in
/-- The singular values of a matrix of rank one. -/
theorem drop_rankOne {m n : Type} [Fintype m] [Fintype n] {r : ℕ} {M : Matrix m n 𝕜} {U : Matrix m (Fin r) 𝕜} {S : Fin r → ℝ}
    {Vh : Matrix (Fin r) n 𝕜} (h : IsSVD M U S Vh) (v : m → 𝕜) (w : n → 𝕜) (hM : ∀ i j, M i j = v i * w j) (cutoff : ℝ) (h0 : 0 ≤ cutoff)
    (chi : ℕ) : Drop cutoff chi S := by
  have e : Uᴴ * M * Vhᴴ = diagonal fun i => (S i : 𝕜) := by
    rw [h.mul, show Uᴴ * (U * diagonal (fun i => (S i : 𝕜)) * Vh) * Vhᴴ = (Uᴴ * U) * diagonal (fun i => (S i : 𝕜)) * (Vh * Vhᴴ) by
      simp only [Matrix.mul_assoc], h.left, h.right, Matrix.one_mul, Matrix.mul_one]
  have e1 : ∀ i j : Fin r, (diagonal fun i => (S i : 𝕜) : Matrix (Fin r) (Fin r) 𝕜) i j = (∑ x, Uᴴ i x * v x) * ∑ y, w y * Vhᴴ y j := by
    intro i j
    rw [← e]
    simp only [mul_apply, hM]
    simp only [sum_mul, mul_sum]
    refine sum_congr rfl fun _ _ => sum_congr rfl fun _ _ => ?_
    ring
  have e2 : ∀ i j, i ≠ j → S i = 0 ∨ S j = 0 := by
    intro i j hij
    have h1 := e1 i j
    have h2 := e1 i i
    have h3 := e1 j j
    rw [diagonal_apply_ne _ hij] at h1
    rw [diagonal_apply_eq] at h2 h3
    rcases mul_eq_zero.1 h1.symm with h | h
    · left
      rw [h, zero_mul] at h2
      exact RCLike.ofReal_eq_zero.1 h2
    · right
      rw [h, mul_zero] at h3
      exact RCLike.ofReal_eq_zero.1 h3
  intro i j hi hj
  have hr : 0 < r := i.pos
  have e3 : ∀ x : Fin r, x.val ≠ 0 → S x = 0 := by
    intro x hx
    rcases e2 ⟨0, hr⟩ x (fun h => hx (by rw [← h])) with h' | h'
    · exact le_antisymm (h' ▸ h.sorted ⟨0, hr⟩ x (Fin.le_def.2 (Nat.zero_le _))) (h.nonneg x)
    · exact h'
  have hF : (univ.filter fun x => cutoff < S x / firstS S) ⊆ {⟨0, hr⟩} := by
    intro x hx
    rw [mem_filter] at hx
    rw [mem_singleton]
    by_contra hne
    have : S x = 0 := e3 x fun h => hne (Fin.ext h)
    rw [this, zero_div] at hx
    exact absurd hx.2 (not_lt.2 h0)
  have hc := card_le_card hF
  rw [card_singleton] at hc
  have hk : keep cutoff chi S ≤ 1 := (Nat.min_le_right _ _).trans hc
  have hne : (univ.filter fun x => cutoff < S x / firstS S).Nonempty := by
    rw [← card_pos]
    have hkc : keep cutoff chi S ≤ (univ.filter fun x => cutoff < S x / firstS S).card := Nat.min_le_right _ _
    omega
  obtain ⟨x, hx⟩ := hne
  have hx0 := mem_singleton.1 (hF hx)
  subst hx0
  have hpos : 0 < S ⟨0, hr⟩ := by
    rcases (h.nonneg ⟨0, hr⟩).lt_or_eq with h' | h'
    · exact h'
    · rw [mem_filter, ← h', zero_div] at hx
      exact absurd hx.2 (not_lt.2 h0)
  have hi0 : i = ⟨0, hr⟩ := Fin.ext (by show i.val = 0; omega)
  rw [hi0, e3 j (by omega)]
  exact hpos

section ops

omit [DecidableEq B] [Fintype B] in
theorem prod_permute (k : ℤ) (a : ATensor B P 𝕜) (h : TenProd (Ten.site a)) : TenProd (Ten.site (bondPermute k a)) := by
  obtain ⟨g0, g1, g2, g3, e⟩ := h
  have h : ∀ b : ℤ, k % 4 = b % 4 → TenProd (Ten.site (bondPermute b a)) → TenProd (Ten.site (bondPermute k a)) := fun b h1 h2 =>
    (bondPermute_mod k b h1 a) ▸ h2
  have hk : k % 4 = 0 ∨ k % 4 = 1 ∨ k % 4 = 2 ∨ k % 4 = 3 := by omega
  rcases hk with hk | hk | hk | hk
  · exact h 0 hk ⟨g0, g1, g2, g3, e⟩
  · refine h 1 hk ⟨g1, g2, g3, g0, fun l u r d => (e d l u r).trans (by ring)⟩
  · refine h 2 hk ⟨g2, g3, g0, g1, fun l u r d => (e r d l u).trans (by ring)⟩
  · refine h 3 hk ⟨g3, g0, g1, g2, fun l u r d => (e u r d l).trans (by ring)⟩

omit [DecidableEq B] [Fintype B] [Fintype P] in
theorem quarter_shuffle {xa xb G : Type} [Fintype xa] [Fintype xb] [Fintype G] (v : xa → 𝕜) (w : xb → 𝕜) (w1 : xa → 𝕜) (f1 : G → 𝕜) (v2 : xb → 𝕜)
    (f2 g0 g1 : G → 𝕜) (y₀ x₀ r₀ d₀ : 𝕜) :
    ∑ i, ∑ j, ∑ l, ∑ u, v i * w j * (y₀ * w1 i * f1 l) * (v2 j * x₀ * f2 u) * (g0 l * g1 u * r₀ * d₀) =
      (x₀ * r₀) * (y₀ * d₀ * ((∑ i, v i * w1 i) * (∑ j, w j * v2 j) * (∑ l, f1 l * g0 l) * ∑ u, f2 u * g1 u)) := by
  einsum_ring

omit [DecidableEq B] in
theorem prod_quarter {xa xb xc xe : ℕ} (a : ATensor B P 𝕜) (c : Fin xa → Fin xb → 𝕜) (e1 : Fin xe → Fin xa → B → B → 𝕜)
    (e2 : Fin xb → Fin xc → B → B → 𝕜) (ha : TenProd (Ten.site a)) (hc : TenProd (Ten.corner (B := B) (P := P) xa xb c))
    (h1 : TenProd (Ten.edge (P := P) xe xa e1)) (h2 : TenProd (Ten.edge (P := P) xb xc e2)) :
    TenProd (Ten.quarter (P := P) xc xe (maxNormalise (quarterCore c e1 e2 a))) := by
  obtain ⟨g0, g1, g2, g3, ea⟩ := ha
  obtain ⟨v, w, ec⟩ := hc
  obtain ⟨v1, w1, f1, ee1⟩ := h1
  obtain ⟨v2, w2, f2, ee2⟩ := h2
  obtain ⟨s, -, hs⟩ := maxNormalise_scale (quarterCore c e1 e2 a)
  refine ⟨fun x => (s : 𝕜) * (w2 x.1 * g2 x.2), fun y => v1 y.1 * g3 y.2 *
    ((∑ i, v i * w1 i) * (∑ j, w j * v2 j) * (∑ l, f1 l * g0 l) * ∑ u, f2 u * g1 u), fun x y => ?_⟩
  rw [hs, Matrix.smul_apply, smul_eq_mul, mul_assoc]
  congr 1
  obtain ⟨x, g⟩ := x
  obtain ⟨y, h⟩ := y
  rw [quarterCore_entry]
  simp only [ec, ee1, ee2, ea]
  exact quarter_shuffle v w w1 f1 v2 f2 g0 g1 (v1 y) (w2 x) (g2 g) (g3 h)

omit [DecidableEq B] [Fintype B] [Fintype P] in
theorem corner_shuffle {xb xc G : Type} [Fintype xb] [Fintype xc] [Fintype G] (v : xb → 𝕜) (w : xc → 𝕜) (w1 : xb → 𝕜) (f : G → 𝕜)
    (p₀ : xc → G → 𝕜) (y₀ : 𝕜) :
    ∑ b, ∑ k, ∑ g, y₀ * w1 b * f g * (v b * w k) * p₀ k g = y₀ * ((∑ b, w1 b * v b) * ∑ k, ∑ g, w k * f g * p₀ k g) := by
  einsum_ring

omit [DecidableEq B] in
theorem prod_cj1 {xa xb xc z : ℕ} (c : Fin xb → Fin xc → 𝕜) (e : Fin xa → Fin xb → B → B → 𝕜) (p : Fin xc → B → B → Fin z → 𝕜)
    (hc : TenProd (Ten.corner (B := B) (P := P) xb xc c)) (he : TenProd (Ten.edge (P := P) xa xb e)) :
    TenProd (Ten.corner (B := B) (P := P) xa z (renormalizeCj1 c e p)) := by
  obtain ⟨v, w, ec⟩ := hc
  obtain ⟨v1, w1, f, ee⟩ := he
  rw [renormalizeCj1_eq]
  obtain ⟨s, -, hs⟩ := normalise2_scale (lowerCorner c e p)
  refine ⟨fun i => (s : 𝕜) * v1 i, fun j => (∑ b, w1 b * v b) * ∑ k, ∑ g : B × B, w k * f g * p k g.1 g.2 j, fun i j => ?_⟩
  rw [hs, mul_assoc, lowerCorner_entry]
  simp only [ec, ee]
  rw [corner_shuffle v w w1 f (fun k g => p k g.1 g.2 j) (v1 i)]

omit [DecidableEq B] in
theorem prod_cj2 {xa xb xc z : ℕ} (c : Fin xa → Fin xb → 𝕜) (e : Fin xb → Fin xc → B → B → 𝕜) (p : Fin xa → B → B → Fin z → 𝕜)
    (hc : TenProd (Ten.corner (B := B) (P := P) xa xb c)) (he : TenProd (Ten.edge (P := P) xb xc e)) :
    TenProd (Ten.corner (B := B) (P := P) z xc (renormalizeCj2 c e p)) := by
  obtain ⟨v, w, ec⟩ := hc
  obtain ⟨v1, w1, f, ee⟩ := he
  rw [renormalizeCj2_eq]
  obtain ⟨s, -, hs⟩ := normalise2_scale (upperCorner c e p)
  refine ⟨fun i => (∑ b, v1 b * w b) * ∑ k, ∑ g : B × B, v k * f g * p k g.1 g.2 i, fun j => (s : 𝕜) * w1 j, fun i j => ?_⟩
  rw [hs, upperCorner_entry]
  simp only [ec, ee]
  have := corner_shuffle w v v1 f (fun k g => p k g.1 g.2 i) (w1 j)
  rw [show (∑ b, v1 b * w b) * (∑ k, ∑ g : B × B, v k * f g * p k g.1 g.2 i) * ((s : 𝕜) * w1 j) = (s : 𝕜) *
    (w1 j * ((∑ b, v1 b * w b) * (∑ k, ∑ g : B × B, v k * f g * p k g.1 g.2 i))) by ring, ← this, sum_comm]
  congr 1
  refine sum_congr rfl fun _ _ => sum_congr rfl fun _ _ => sum_congr rfl fun _ _ => ?_
  ring

omit [DecidableEq B] [Fintype B] [Fintype P] in
theorem edge_shuffle {xa xb G : Type} [Fintype xa] [Fintype xb] [Fintype G] (v : xa → 𝕜) (w : xb → 𝕜) (f g0 g1 g3 : G → 𝕜) (r₀ : 𝕜)
    (p₀ : xb → G → 𝕜) (q₀ : xa → G → 𝕜) :
    ∑ x, ∑ y, ∑ l, ∑ u, ∑ d, v x * w y * f l * (g0 l * g1 u * r₀ * g3 d) * p₀ y u * q₀ x d =
      (∑ x, ∑ d, v x * g3 d * q₀ x d) * (∑ y, ∑ u, w y * g1 u * p₀ y u) * (r₀ * ∑ l, f l * g0 l) := by
  einsum_ring

omit [DecidableEq B] in
theorem prod_ej {xa xb z z' : ℕ} (e : Fin xa → Fin xb → B → B → 𝕜) (a : ATensor B P 𝕜) (p2 : Fin xa → B → B → Fin z' → 𝕜)
    (p1 : Fin xb → B → B → Fin z → 𝕜) (he : TenProd (Ten.edge (P := P) xa xb e)) (ha : TenProd (Ten.site a)) :
    TenProd (Ten.edge (P := P) z' z (renormalizeEj e a p2 p1)) := by
  obtain ⟨g0, g1, g2, g3, ea⟩ := ha
  obtain ⟨v, w, f, ee⟩ := he
  rw [renormalizeEj_eq]
  obtain ⟨s, -, hs⟩ := normalise4_scale (absorbedEdge e a p2 p1)
  refine ⟨fun i => (s : 𝕜) * ∑ x, ∑ d : B × B, v x * g3 d * p2 x d.1 d.2 i, fun j => ∑ y, ∑ u : B × B, w y * g1 u * p1 y u.1 u.2 j,
    fun g => g2 g * ∑ l, f l * g0 l, fun i j g g' => ?_⟩
  rw [hs, mul_assoc, mul_assoc]
  congr 1
  have := absorbedEdge_entry e a p2 p1 i j (g, g')
  dsimp only at this
  rw [this]
  simp only [ee, ea]
  rw [edge_shuffle v w f g0 g1 g3 (g2 (g, g')) (fun y u => p1 y u.1 u.2 j) (fun x d => p2 x d.1 d.2 i), mul_assoc]

end ops

section numops

variable (st : ProjSettings 𝕜) (ω : Draws B 𝕜)

theorem TenProd.permute (k : ℕ) {x : Ten B P 𝕜} (h : TenProd x) : TenProd ((numOps st ω).permute k x) := by
  cases x
  case site a => exact prod_permute k a h
  all_goals trivial

theorem TenProd.quarter {a c e1 e2 : Ten B P 𝕜} (ha : TenProd a) (hc : TenProd c) (h1 : TenProd e1) (h2 : TenProd e2) :
    TenProd ((numOps st ω).quarter a c e1 e2) := by
  cases a <;> try trivial
  cases c <;> try trivial
  cases e1 <;> try trivial
  cases e2 <;> try trivial
  rename_i a xa xb c xe xa' e1 xb' xc e2
  by_cases hd : xa' = xa ∧ xb' = xb
  · obtain ⟨rfl, rfl⟩ := hd
    rw [quarter_eq]
    exact prod_quarter a c e1 e2 ha hc h1 h2
  · simp only [numOps, if_neg hd]
    trivial

theorem TenProd.cj1 {c e p : Ten B P 𝕜} (hc : TenProd c) (he : TenProd e) : TenProd ((numOps st ω).cj1 c e p) := by
  cases c <;> try trivial
  cases e <;> try trivial
  cases p <;> try trivial
  rename_i xb xc c xa xb' e xc' z p
  by_cases hd : xb' = xb ∧ xc' = xc
  · obtain ⟨rfl, rfl⟩ := hd
    rw [cj1_eq]
    exact prod_cj1 c e p hc he
  · simp only [numOps, if_neg hd]
    trivial

theorem TenProd.cj2 {c e p : Ten B P 𝕜} (hc : TenProd c) (he : TenProd e) : TenProd ((numOps st ω).cj2 c e p) := by
  cases c <;> try trivial
  cases e <;> try trivial
  cases p <;> try trivial
  rename_i xa xb c xb' xc e xa' z p
  by_cases hd : xb' = xb ∧ xa' = xa
  · obtain ⟨rfl, rfl⟩ := hd
    rw [cj2_eq]
    exact prod_cj2 c e p hc he
  · simp only [numOps, if_neg hd]
    trivial

theorem TenProd.ej {e a p2 p1 : Ten B P 𝕜} (he : TenProd e) (ha : TenProd a) : TenProd ((numOps st ω).ej e a p2 p1) := by
  cases e <;> try trivial
  cases a <;> try trivial
  cases p2 <;> try trivial
  cases p1 <;> try trivial
  rename_i xa xb e a xa' z' p2 xb' z p1
  by_cases hd : xa' = xa ∧ xb' = xb
  · obtain ⟨rfl, rfl⟩ := hd
    rw [ej_eq]
    exact prod_ej e a p2 p1 he ha
  · simp only [numOps, if_neg hd]
    trivial

variable {net : Net (Ten B P 𝕜)} (h : Factored net)

include h in
theorem Factored.quarter (s : Site) (k : ℕ) : TenProd (quarterTensor (numOps st ω) net s k) :=
  TenProd.quarter st ω ((h.1 s).permute st ω k) (h.2 _ _) (h.2 _ _) (h.2 _ _)

include h in
theorem Factored.after (pk : ProjKind) (m : Move) : Factored (m.after (numOps st ω) pk net) := by
  refine ⟨fun s => ?_, fun s sl => ?_⟩
  · rw [(m.after_consts (numOps st ω) pk net).2.2.2]
    exact h.1 s
  · by_cases hh : ∃ i, i < m.n net.nx net.ny ∧ m.tgt net.nx net.ny i = s
    · obtain ⟨i, hi, rfl⟩ := hh
      rw [m.after_B_mem _ pk net hi]
      unfold newB
      split_ifs
      · exact TenProd.cj1 st ω (h.2 _ _) (h.2 _ _)
      · exact TenProd.cj2 st ω (h.2 _ _) (h.2 _ _)
      · exact TenProd.ej st ω (h.2 _ _) ((h.1 _).permute st ω _)
      · exact h.2 _ _
    · rw [m.after_B_ne _ pk net (fun i hi he => hh ⟨i, hi, he⟩)]
      exact h.2 s sl

omit [DecidableEq B] in
theorem rankOne_mul {a b c : Type} [Fintype a] [Fintype b] [Fintype c] (M : Matrix a b 𝕜) (N : Matrix b c 𝕜)
    (hM : ∃ (v : a → 𝕜) (w : b → 𝕜), ∀ i j, M i j = v i * w j) (hN : ∃ (v : b → 𝕜) (w : c → 𝕜), ∀ i j, N i j = v i * w j) :
    ∃ (v : a → 𝕜) (w : c → 𝕜), ∀ i j, maxNormalise (M * N) i j = v i * w j := by
  obtain ⟨v, w, e⟩ := hM
  obtain ⟨v', w', e'⟩ := hN
  obtain ⟨s, -, hs⟩ := maxNormalise_scale (M * N)
  refine ⟨fun i => (s : 𝕜) * v i, fun j => (∑ b, w b * v' b) * w' j, fun i j => ?_⟩
  rw [hs, Matrix.smul_apply, smul_eq_mul, mul_apply, mul_assoc]
  dsimp only
  simp only [e, e', sum_mul, mul_sum]
  refine sum_congr rfl fun _ _ => ?_
  ring

include h in
theorem Factored.dropMove (h0 : 0 ≤ st.cutoff) (pk : ProjKind) (m : Move) : DropMove st ω pk net m := by
  intro s _ _
  cases pk with
  | half =>
    intro m' x n Q1 Q4 e1 e4
    have h1 := h.quarter st ω s (moveDir m)
    have h4 := h.quarter st ω (neighbour net.nx net.ny s ((moveDir m + 3) % 4)) (moveDir m + 3)
    rw [e1] at h1
    rw [e4] at h4
    obtain ⟨v, w, e⟩ := rankOne_mul Q1 Q4 h1 h4
    exact drop_rankOne (st.la.svd_ok _) v w e _ h0 _
  | full =>
    intro m' x n k1 k3 Q1 Q2 Q3 Q4 e1 e2 e3 e4
    have h1 := h.quarter st ω s (moveDir m)
    have h2 := h.quarter st ω (neighbour net.nx net.ny s ((moveDir m + 2) % 4)) (moveDir m + 1)
    have h3 := h.quarter st ω
      (neighbour net.nx net.ny (neighbour net.nx net.ny s ((moveDir m + 2) % 4)) ((moveDir m + 3) % 4)) (moveDir m + 2)
    have h4 := h.quarter st ω (neighbour net.nx net.ny s ((moveDir m + 3) % 4)) (moveDir m + 3)
    rw [e1] at h1
    rw [e2] at h2
    rw [e3] at h3
    rw [e4] at h4
    obtain ⟨v, w, e⟩ := rankOne_mul _ _ (rankOne_mul Q2 Q1 h2 h1) (rankOne_mul Q4 Q3 h4 h3)
    exact drop_rankOne (st.la.svd_ok _) v w e _ h0 _

/-- All moves of a run. -/
theorem Factored.dropRun (h0 : 0 ≤ st.cutoff) (pk : ProjKind) (ω : ℕ → Draws B 𝕜) (ms : List Move) (t : ℕ) {net : Net (Ten B P 𝕜)}
    (h : Factored net) : DropRun st pk ω t ms net := by
  induction ms generalizing t net with
  | nil => trivial
  | cons m ms ih =>
    refine ⟨h.dropMove st (ω t) h0 pk m, fun net' e => ?_⟩
    rw [Move.run_eq] at e
    cases e
    exact ih (t + 1) (h.after st (ω t) pk m)

/-- All moves of a list of steps. -/
theorem Factored.dropSteps (h0 : 0 ≤ st.cutoff) (pk : ProjKind) (ω : ℕ → Draws B 𝕜) (ss : List (NetStep B P 𝕜)) (t : ℕ)
    (hs : ∀ s a, NetStep.write s a ∈ ss → TenProd (.site a)) {net : Net (Ten B P 𝕜)} (h : Factored net) : DropSteps st pk ω t ss net := by
  induction ss generalizing t net with
  | nil => trivial
  | cons x ss ih =>
    have hs' : ∀ s a, NetStep.write s a ∈ ss → TenProd (.site a) := fun s a h => hs s a (by simp [h])
    cases x with
    | write s a =>
      refine ih t hs' ⟨fun s' => ?_, h.2⟩
      show TenProd (if s' = s then .site a else net.A s')
      split_ifs
      · exact hs s a (by simp)
      · exact h.1 s'
    | move m =>
      refine ⟨h.dropMove st (ω t) h0 pk m, fun net' e => ?_⟩
      rw [Move.run_eq] at e
      cases e
      exact ih (t + 1) hs' (h.after st (ω t) pk m)

end numops

/-- Sites that are products of vectors. -/
def prodSite (g0 g1 g2 g3 : B → 𝕜) (v : P → 𝕜) : ATensor B P 𝕜 := fun l u r d p => g0 l * g1 u * g2 r * g3 d * v p

omit [Fintype B] [DecidableEq B] in
theorem prodSite_prod (g0 g1 g2 g3 : B → 𝕜) (v : P → 𝕜) : TenProd (Ten.site (prodSite g0 g1 g2 g3 v)) := by
  refine ⟨fun l => (∑ p, v p * star (v p)) * (g0 l.1 * star (g0 l.2)), fun u => g1 u.1 * star (g1 u.2), fun r => g2 r.1 * star (g2 r.2),
    fun d => g3 d.1 * star (g3 d.2), fun l u r d => ?_⟩
  unfold layer prodSite
  simp only [star_mul', sum_mul]
  refine sum_congr rfl fun p _ => ?_
  ring

/-- A fresh network of such sites. -/
theorem factored_fresh {D : ℕ} (nx ny chi : ℕ) (A : Site → ATensor (Fin D) P 𝕜) (hA : ∀ s, TenProd (Ten.site (A s))) :
    Factored (freshNet nx ny chi A) := by
  refine ⟨hA, fun s sl => ?_⟩
  cases sl with
  | C k =>
    obtain ⟨g0, g1, g2, g3, e⟩ := prod_permute (k : ℤ) (A s) (hA s)
    obtain ⟨c, -, hc⟩ := normalise2_scale fun d r => ∑ l, ∑ u, layer (bondPermute k (A s)) none (l, l) (u, u) r d
    refine ⟨fun i => (c : 𝕜) * g3 (finProdFinEquiv.symm i), fun j => (∑ l, g0 (l, l)) * (∑ u, g1 (u, u)) * g2 (finProdFinEquiv.symm j),
      fun i j => ?_⟩
    show initialCorner (A s) k _ _ = _
    rw [initialCorner_entry, hc, mul_assoc]
    congr 1
    simp only [e, sum_mul, mul_sum]
    rw [sum_comm]
    refine sum_congr rfl fun _ _ => sum_congr rfl fun _ _ => ?_
    ring
  | E k =>
    obtain ⟨g0, g1, g2, g3, e⟩ := prod_permute (k : ℤ) (A s) (hA s)
    obtain ⟨c, -, hc⟩ := normalise4_scale fun l r d d' => ∑ u, layer (bondPermute k (A s)) none l (u, u) r (d, d')
    refine ⟨fun i => (c : 𝕜) * g0 (finProdFinEquiv.symm i), fun j => (∑ u, g1 (u, u)) * g2 (finProdFinEquiv.symm j), g3,
      fun i j g g' => ?_⟩
    show initialEdge (A s) k _ _ g g' = _
    rw [initialEdge_entry, hc, mul_assoc, mul_assoc]
    congr 1
    simp only [e, sum_mul, mul_sum]
    refine sum_congr rfl fun _ _ => ?_
    ring

end AceTN
