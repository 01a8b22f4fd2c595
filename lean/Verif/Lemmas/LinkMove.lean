import Verif.Lemmas.SvdPad

/-!
Two related networks under one move.
-/

set_option autoImplicit false

namespace AceTN

open Matrix Spec Finset SumTac

variable {𝕜 : Type} [RCLike 𝕜] {B P : Type} [Fintype B] [Fintype P] [DecidableEq B]

section tensors

omit [Fintype B] [Fintype P] [DecidableEq B] in
theorem normalise2_scale {a b : Type} [Fintype a] [Fintype b] (c : a → b → 𝕜) :
    ∃ s : ℝ, 0 < s ∧ ∀ i j, normalise2 c i j = s * c i j := by
  by_cases h : c = fun _ _ => 0
  · refine ⟨1, one_pos, fun i j => ?_⟩
    unfold normalise2
    rw [h]
    simp
  · refine ⟨(norm2 c)⁻¹, inv_pos.2 (norm2_pos c ?_), fun i j => ?_⟩
    · exact fun h' => h h'
    · unfold normalise2
      push_cast
      rw [div_eq_mul_inv, mul_comm]

omit [Fintype B] [Fintype P] [DecidableEq B] in
theorem normalise4_scale {a b c d : Type} [Fintype a] [Fintype b] [Fintype c] [Fintype d] (e : a → b → c → d → 𝕜) :
    ∃ s : ℝ, 0 < s ∧ ∀ i j k l, normalise4 e i j k l = s * e i j k l := by
  by_cases h : e = fun _ _ _ _ => 0
  · refine ⟨1, one_pos, fun i j k l => ?_⟩
    unfold normalise4
    rw [h]
    simp
  · refine ⟨(norm4 e)⁻¹, inv_pos.2 (norm4_pos e ?_), fun i j k l => ?_⟩
    · exact fun h' => h h'
    · unfold normalise4
      push_cast
      rw [div_eq_mul_inv, mul_comm]

omit [DecidableEq B] [Fintype P] in
theorem lowerCorner_entry {xa xb xc z : Type} [Fintype xb] [Fintype xc] (c₀ : xb → xc → 𝕜) (e₀ : xa → xb → B → B → 𝕜)
    (p₀ : xc → B → B → z → 𝕜) (i₀ : xa) (j₀ : z) :
    lowerCorner c₀ e₀ p₀ i₀ j₀ = ∑ b, ∑ k, ∑ g : B × B, e₀ i₀ b g.1 g.2 * c₀ b k * p₀ k g.1 g.2 j₀ := by
  unfold lowerCorner
  einsum_ring

omit [DecidableEq B] [Fintype P] in
theorem upperCorner_entry {xa xb xc z : Type} [Fintype xa] [Fintype xb] (c : xa → xb → 𝕜) (e : xb → xc → B → B → 𝕜)
    (p : xa → B → B → z → 𝕜) (i : z) (j : xc) :
    upperCorner c e p i j = ∑ b, ∑ k, ∑ g : B × B, c b k * e k j g.1 g.2 * p b g.1 g.2 i := by
  unfold upperCorner
  einsum_ring

omit [DecidableEq B] in
theorem absorbedEdge_entry {xa xb z w : Type} [Fintype xa] [Fintype xb] (e : xa → xb → B → B → 𝕜) (A₀ : ATensor B P 𝕜)
    (p2 : xa → B → B → w → 𝕜) (p1 : xb → B → B → z → 𝕜) (i : w) (j : z) (g : B × B) :
    absorbedEdge e A₀ p2 p1 i j g.1 g.2 =
      ∑ x, ∑ y, ∑ l : B × B, ∑ u : B × B, ∑ d : B × B, e x y l.1 l.2 * layer A₀ none l u g d * p1 y u.1 u.2 j * p2 x d.1 d.2 i := by
  obtain ⟨g, g'⟩ := g
  unfold absorbedEdge layer
  dsimp only
  einsum_ring

variable (σ : ScalarMap 𝕜)

theorem lower_rel (A Bl C L : Link 𝕜) {Γ : Matrix (B × B) (B × B) 𝕜} (hΓ : Unit2 Γ) {c : Fin Bl.m → Fin C.m → 𝕜}
    {c' : Fin Bl.m' → Fin C.m' → 𝕜} {e : Fin A.m → Fin Bl.m → B → B → 𝕜} {e' : Fin A.m' → Fin Bl.m' → B → B → 𝕜}
    {p : Fin C.m → B → B → Fin L.m → 𝕜} {p' : Fin C.m' → B → B → Fin L.m' → 𝕜} {tc te tp : ℝ} (htc : 0 < tc) (hte : 0 < te)
    (htp : 0 < tp)
    (hc : ∀ i j, c' i j = tc * ∑ x, ∑ y, star (Bl.J i x) * C.J j y * σ.f (c x y))
    (he : ∀ i j g, e' i j g.1 g.2 = te * ∑ x, ∑ y, ∑ h, star (A.J i x) * Bl.J j y * star (Γ g h) * σ.f (e x y h.1 h.2))
    (hp : ProjRel σ tp C L Γ p p') :
    ∃ t : ℝ, 0 < t ∧ ∀ i j, renormalizeCj1 c' e' p' i j = t * ∑ x, ∑ y, star (A.J i x) * L.J j y * σ.f (renormalizeCj1 c e p x y) := by
  rw [renormalizeCj1_eq, renormalizeCj1_eq]
  obtain ⟨s, hs, es⟩ := normalise2_scale (lowerCorner c e p)
  obtain ⟨s', hs', es'⟩ := normalise2_scale (lowerCorner c' e' p')
  refine ⟨s' * tc * te * tp / s, by positivity, fun i j => ?_⟩
  have key := lower_change A.J L.J Bl.unit C.unit hΓ (fun x y => σ.f (c x y)) (fun x y h => σ.f (e x y h.1 h.2))
    (fun x h z => σ.f (p x h.1 h.2 z)) i j
  have e1 : lowerCorner c' e' p' i j = ((tc * te * tp : ℝ) : 𝕜) * ∑ x, ∑ z, star (A.J i x) * L.J j z * σ.f (lowerCorner c e p x z) := by
    simp only [lowerCorner_entry, map_sum, map_mul]
    rw [← key]
    rw [mul_sum]
    refine sum_congr rfl fun _ _ => ?_
    rw [mul_sum]
    refine sum_congr rfl fun _ _ => ?_
    rw [mul_sum]
    refine sum_congr rfl fun _ _ => ?_
    rw [hc, he, hp]
    ring
  rw [es', e1]
  simp only [es, map_mul, σ.real]
  have f : ∀ X Y Z : 𝕜, X * Y * ((s : 𝕜) * Z) = s * (X * Y * Z) := by
    intro X Y Z
    ring
  simp only [f, ← mul_sum]
  have : (s : 𝕜) ≠ 0 := RCLike.ofReal_ne_zero.2 hs.ne'
  push_cast
  field_simp

theorem upper_rel (A Bl C L : Link 𝕜) {Γ Γ' : Matrix (B × B) (B × B) 𝕜} (hΓ : Unit2 Γ) (hΓ' : Γ' = Γ.map star) {c : Fin A.m → Fin Bl.m → 𝕜}
    {c' : Fin A.m' → Fin Bl.m' → 𝕜} {e : Fin Bl.m → Fin C.m → B → B → 𝕜} {e' : Fin Bl.m' → Fin C.m' → B → B → 𝕜}
    {p : Fin A.m → B → B → Fin L.m → 𝕜} {p' : Fin A.m' → B → B → Fin L.m' → 𝕜} {tc te tp : ℝ} (htc : 0 < tc) (hte : 0 < te)
    (htp : 0 < tp)
    (hc : ∀ i j, c' i j = tc * ∑ x, ∑ y, star (A.J i x) * Bl.J j y * σ.f (c x y))
    (he : ∀ i j g, e' i j g.1 g.2 = te * ∑ x, ∑ y, ∑ h, star (Bl.J i x) * C.J j y * star (Γ g h) * σ.f (e x y h.1 h.2))
    (hp : ProjRel2 σ tp A L Γ' p p') :
    ∃ t : ℝ, 0 < t ∧ ∀ i j, renormalizeCj2 c' e' p' i j = t * ∑ x, ∑ y, star (L.J i x) * C.J j y * σ.f (renormalizeCj2 c e p x y) := by
  subst hΓ'
  rw [renormalizeCj2_eq, renormalizeCj2_eq]
  obtain ⟨s, hs, es⟩ := normalise2_scale (upperCorner c e p)
  obtain ⟨s', hs', es'⟩ := normalise2_scale (upperCorner c' e' p')
  refine ⟨s' * tc * te * tp / s, by positivity, fun i j => ?_⟩
  have key := upper_change C.J L.J A.unit Bl.unit hΓ (fun x y => σ.f (c x y)) (fun x y h => σ.f (e x y h.1 h.2))
    (fun x h z => σ.f (p x h.1 h.2 z)) j i
  have e1 : upperCorner c' e' p' i j = ((tc * te * tp : ℝ) : 𝕜) * ∑ x, ∑ z, star (L.J i x) * C.J j z * σ.f (upperCorner c e p x z) := by
    simp only [upperCorner_entry, map_sum, map_mul]
    rw [← key]
    rw [mul_sum]
    refine sum_congr rfl fun _ _ => ?_
    rw [mul_sum]
    refine sum_congr rfl fun _ _ => ?_
    rw [mul_sum]
    refine sum_congr rfl fun _ _ => ?_
    rw [hc, he, hp]
    simp only [Matrix.map_apply, star_star]
    ring
  rw [es', e1]
  simp only [es, map_mul, σ.real]
  have f : ∀ X Y Z : 𝕜, X * Y * ((s : 𝕜) * Z) = s * (X * Y * Z) := by
    intro X Y Z
    ring
  simp only [f, ← mul_sum]
  have : (s : 𝕜) ≠ 0 := RCLike.ofReal_ne_zero.2 hs.ne'
  push_cast
  field_simp

theorem edge_rel (A Bl L M : Link 𝕜) {Γ0 Γ1 Γ2 Γ3 Γ1' Γ2' : Matrix (B × B) (B × B) 𝕜} (g0 : Unit2 Γ0) (g1 : Unit2 Γ1) (g3 : Unit2 Γ3)
    (hΓ1 : Γ1' = Γ1.map star) (hΓ2 : Γ2 = Γ2'.map star)
    {e : Fin A.m → Fin Bl.m → B → B → 𝕜} {e' : Fin A.m' → Fin Bl.m' → B → B → 𝕜}
    {p2 : Fin A.m → B → B → Fin L.m → 𝕜} {p2' : Fin A.m' → B → B → Fin L.m' → 𝕜}
    {p1 : Fin Bl.m → B → B → Fin M.m → 𝕜} {p1' : Fin Bl.m' → B → B → Fin M.m' → 𝕜} {a a' : ATensor B P 𝕜} {te t1 t2 ta : ℝ}
    (hte : 0 < te) (ht1 : 0 < t1) (ht2 : 0 < t2) (hta : 0 < ta)
    (he : ∀ i j g, e' i j g.1 g.2 = te * ∑ x, ∑ y, ∑ h, star (A.J i x) * Bl.J j y * star (Γ0 g h) * σ.f (e x y h.1 h.2))
    (ha : LayRel σ ta Γ0 Γ1 Γ2 Γ3 (layer a none) (layer a' none))
    (h1 : ProjRel σ t1 Bl M Γ1' p1 p1') (h2 : ProjRel2 σ t2 A L Γ3 p2 p2') :
    ∃ t : ℝ, 0 < t ∧ ∀ i j g, renormalizeEj e' a' p2' p1' i j g.1 g.2 =
      t * ∑ x, ∑ y, ∑ h : B × B, star (L.J i x) * M.J j y * star (Γ2' g h) * σ.f (renormalizeEj e a p2 p1 x y h.1 h.2) := by
  subst hΓ1 hΓ2
  rw [renormalizeEj_eq, renormalizeEj_eq]
  obtain ⟨s, hs, es⟩ := normalise4_scale (absorbedEdge e a p2 p1)
  obtain ⟨s', hs', es'⟩ := normalise4_scale (absorbedEdge e' a' p2' p1')
  refine ⟨s' * te * ta * t1 * t2 / s, by positivity, fun i j g => ?_⟩
  have key := edge_change M.J L.J (Γ2'.map star) A.unit Bl.unit g0 g1 g3 (fun x y h => σ.f (e x y h.1 h.2))
    (fun l u r d => σ.f (layer a none l u r d)) (fun x h z => σ.f (p2 x h.1 h.2 z)) (fun x h z => σ.f (p1 x h.1 h.2 z)) j i g
  have e1 : absorbedEdge e' a' p2' p1' i j g.1 g.2 = ((te * ta * t1 * t2 : ℝ) : 𝕜) *
      ∑ x, ∑ y, ∑ h : B × B, star (L.J i x) * M.J j y * (Γ2'.map star) g h * σ.f (absorbedEdge e a p2 p1 x y h.1 h.2) := by
    simp only [absorbedEdge_entry, map_sum, map_mul]
    rw [← key]
    rw [mul_sum]
    refine sum_congr rfl fun _ _ => ?_
    rw [mul_sum]
    refine sum_congr rfl fun _ _ => ?_
    rw [mul_sum]
    refine sum_congr rfl fun _ _ => ?_
    rw [mul_sum]
    refine sum_congr rfl fun _ _ => ?_
    rw [mul_sum]
    refine sum_congr rfl fun _ _ => ?_
    rw [he, h1, h2, ha]
    simp only [Matrix.map_apply]
    ring
  rw [es', e1]
  simp only [es, map_mul, σ.real, Matrix.map_apply]
  have f : ∀ X Y Z W : 𝕜, X * Y * W * ((s : 𝕜) * Z) = s * (X * Y * W * Z) := by
    intro X Y Z W
    ring
  simp only [f, ← mul_sum]
  have : (s : 𝕜) ≠ 0 := RCLike.ofReal_ne_zero.2 hs.ne'
  push_cast
  field_simp

end tensors

section network

variable [DecidableEq P] {σ : ScalarMap 𝕜} {Φ : ℤ × ℤ → Matrix (P × P) (P × P) 𝕜} {Γ : ℤ × ℤ → Fin 4 → Matrix (B × B) (B × B) 𝕜}
  {ℓ : ℤ × ℤ → Fin 4 → Link 𝕜} {net net' : Net (Ten B P 𝕜)} (hR : Related σ Φ Γ ℓ net net') (st st' : ProjSettings 𝕜)
  (ω ω' : Draws B 𝕜) (pk : ProjKind) (m : Move)

include hR

/-- The layers of a site in the frame of direction `k`. -/
theorem site_link (p : ℤ × ℤ) (k : Fin 4) :
    ∃ (a a' : ATensor B P 𝕜) (t : ℝ), 0 < t ∧ net.A (cellSite net.nx net.ny p) = .site a ∧ net'.A (cellSite net.nx net.ny p) = .site a' ∧
      LayRel σ t (Γ p k) (Γ p (k + 1)) (Γ p (k + 2)) (Γ p (k + 3)) (layer (bondPermute k.val a) none)
        (layer (bondPermute k.val a') none) := by
  obtain ⟨a, a', t, h1, h2, ht, h⟩ := hR.site p
  exact ⟨a, a', t, ht, h1, h2, open_closed (hR.trace p) (open_turn h k)⟩

/-- The quarter tensors. -/
theorem quarter_link (p q2 : ℤ × ℤ) (k j : Fin 4) (kk : ℕ) (hkk : kk % 4 = k.val) (hj : j = k + 3) (h2 : q2 = p + dir (k + 2)) :
    ∃ (Q : Matrix (Fin (ℓ q2 k).m × B × B) (Fin (ℓ p j).m × B × B) 𝕜)
      (Q' : Matrix (Fin (ℓ q2 k).m' × B × B) (Fin (ℓ p j).m' × B × B) 𝕜) (t : ℝ), 0 < t ∧
      quarterTensor (numOps st ω) net (cellSite net.nx net.ny p) kk = .quarter _ _ Q ∧
      quarterTensor (numOps st' ω') net' (cellSite net.nx net.ny p) kk = .quarter _ _ Q' ∧
      Q' = (t : 𝕜) • (pairMat (ℓ q2 k).J (Γ p (k + 2)) * Q.map σ.f * (pairMat (ℓ p j).J ((Γ p j).map star))ᴴ) := by
  subst hj h2
  obtain ⟨i11, i12, i13, i21, i22, i23, i31, i32, i33⟩ := fin4 k
  obtain ⟨a, a', ta, hta, ha, ha', hl⟩ := site_link hR p k
  obtain ⟨c, c', tc, hc, hc', htc, hcv⟩ := hR.corner p k
  have h1 := hR.edge p (k + 3)
  rw [i31, i32] at h1
  obtain ⟨e1, e1', t1, he1, he1', ht1, h1v⟩ := h1
  obtain ⟨e2, e2', t2, he2, he2', ht2, h2v⟩ := hR.edge p k
  have m0 : (0 + kk) % 4 = k.val := by omega
  have m3 : (3 + kk) % 4 = (k + 3).val := by
    have : ∀ k : Fin 4, (3 + k.val) % 4 = (k + 3).val := by decide
    rw [← this]
    omega
  have hq : quarterTensor (numOps st ω) net (cellSite net.nx net.ny p) kk =
      .quarter _ _ (maxNormalise (quarterCore c e1 e2 (bondPermute k.val a))) := by
    unfold quarterTensor
    rw [m0, m3, ha, hc, he1, he2, permute_eq, quarter_eq, bondPermute_mod kk k.val (by have := k.isLt; omega)]
  have hq' : quarterTensor (numOps st' ω') net' (cellSite net.nx net.ny p) kk =
      .quarter _ _ (maxNormalise (quarterCore c' e1' e2' (bondPermute k.val a'))) := by
    unfold quarterTensor
    rw [m0, m3, ha', hc', he1', he2', permute_eq, quarter_eq, bondPermute_mod kk k.val (by have := k.isLt; omega)]
  have core := quarterCore_rel σ _ _ _ _ (hR.unit p k) (hR.unit p (k + 1)) hcv h1v h2v hl
  obtain ⟨s, hs, es⟩ := maxNormalise_scale (quarterCore c e1 e2 (bondPermute k.val a))
  obtain ⟨s', hs', es'⟩ := maxNormalise_scale (quarterCore c' e1' e2' (bondPermute k.val a'))
  refine ⟨_, _, s' * (tc * t1 * t2 * ta) / s, by positivity, hq, hq', ?_⟩
  rw [es, es', core]
  have hσ : ((s : 𝕜) • quarterCore c e1 e2 (bondPermute k.val a)).map σ.f =
      (s : 𝕜) • (quarterCore c e1 e2 (bondPermute k.val a)).map σ.f := by
    ext i j
    simp only [Matrix.map_apply, Matrix.smul_apply, smul_eq_mul, map_mul, σ.real]
  rw [hσ]
  simp only [Matrix.smul_mul, Matrix.mul_smul, smul_smul]
  congr 1
  have : (s : 𝕜) ≠ 0 := RCLike.ofReal_ne_zero.2 hs.ne'
  push_cast
  field_simp

omit hR [Fintype P] in
theorem mul_link {m m' x x' n n' : Type} [Fintype m] [Fintype m'] [Fintype x] [Fintype x'] [Fintype n] [Fintype n'] [DecidableEq x]
    [DecidableEq x'] (σ : ScalarMap 𝕜) {J : Matrix m' m 𝕜} {G : Matrix x' x 𝕜} {K : Matrix n' n 𝕜} (hG : Unit2 G) {Q1 : Matrix m x 𝕜}
    {Q1' : Matrix m' x' 𝕜} {Q2 : Matrix x n 𝕜} {Q2' : Matrix x' n' 𝕜} {t1 t2 : ℝ}
    (h1 : Q1' = (t1 : 𝕜) • (J * Q1.map σ.f * Gᴴ)) (h2 : Q2' = (t2 : 𝕜) • (G * Q2.map σ.f * Kᴴ)) {s s' : ℝ} (hs : 0 < s) :
    (s' : 𝕜) • (Q1' * Q2') = ((s' * t1 * t2 / s : ℝ) : 𝕜) • (J * ((s : 𝕜) • (Q1 * Q2)).map σ.f * Kᴴ) := by
  have hσ : ((s : 𝕜) • (Q1 * Q2)).map σ.f = (s : 𝕜) • (Q1.map σ.f * Q2.map σ.f) := by
    rw [← Matrix.map_mul]
    ext i j
    simp only [Matrix.map_apply, Matrix.smul_apply, smul_eq_mul, map_mul, σ.real]
  rw [hσ, h1, h2]
  simp only [Matrix.smul_mul, Matrix.mul_smul, smul_smul]
  have e1 : J * Q1.map σ.f * Gᴴ * (G * Q2.map σ.f * Kᴴ) = J * (Q1.map σ.f * Q2.map σ.f) * Kᴴ := by
    calc _ = J * Q1.map σ.f * (Gᴴ * G) * Q2.map σ.f * Kᴴ := by simp only [Matrix.mul_assoc]
      _ = _ := by
          rw [hG.left, Matrix.mul_one]
          simp only [Matrix.mul_assoc]
  rw [e1]
  congr 1
  have : (s : 𝕜) ≠ 0 := RCLike.ofReal_ne_zero.2 hs.ne'
  push_cast
  field_simp

omit hR [Fintype P] [DecidableEq P] [Fintype B] [DecidableEq B] in
theorem cell_card {a b c d : Type} [Fintype a] [Fintype b] [Fintype c] [Fintype d] [DecidableEq a] [DecidableEq b] [DecidableEq c]
    [DecidableEq d] {J : Matrix b a 𝕜} {K : Matrix d c 𝕜} (hJ : Unit2 J) (hK : Unit2 K) :
    min (Fintype.card b) (Fintype.card d) = min (Fintype.card a) (Fintype.card c) := by rw [hJ.card, hK.card]

variable (hx : 0 < net.nx) (hy : 0 < net.ny) (hcut : st'.cutoff = st.cutoff) (h0 : 0 ≤ st.cutoff)

include hx hy hcut h0

/-- The projectors of a cut. -/
theorem cut_link (q : ℤ × ℤ) (hq : m.OnLine (cellSite net.nx net.ny q))
    (hd : DropCut st ω pk net (cellSite net.nx net.ny q)
        (cellSite net.nx net.ny (q + dir (m.dirn + 2))) (cellSite net.nx net.ny (q + dir (m.dirn + 2) + dir (m.dirn + 3)))
        (cellSite net.nx net.ny (q + dir (m.dirn + 3))) m.dirn.val)
    (hf : SvdCut st ω pk net (cellSite net.nx net.ny q)
        (cellSite net.nx net.ny (q + dir (m.dirn + 2))) (cellSite net.nx net.ny (q + dir (m.dirn + 2) + dir (m.dirn + 3)))
        (cellSite net.nx net.ny (q + dir (m.dirn + 3))) m.dirn.val)
    (hf' : SvdCut st' ω' pk net' (cellSite net.nx net.ny q)
        (cellSite net.nx net.ny (q + dir (m.dirn + 2))) (cellSite net.nx net.ny (q + dir (m.dirn + 2) + dir (m.dirn + 3)))
        (cellSite net.nx net.ny (q + dir (m.dirn + 3))) m.dirn.val) :
    ∃ (L : Link 𝕜) (p1 p2 : Fin (ℓ q (m.dirn + 3)).m → B → B → Fin L.m → 𝕜)
      (p1' p2' : Fin (ℓ q (m.dirn + 3)).m' → B → B → Fin L.m' → 𝕜) (t1 t2 : ℝ), 0 < t1 ∧ 0 < t2 ∧
      m.cut (numOps st ω) pk net q = (.proj _ L.m p1, .proj _ L.m p2) ∧
      m.cut (numOps st' ω') pk net' q = (.proj _ L.m' p1', .proj _ L.m' p2') ∧
      ProjRel σ t1 (ℓ q (m.dirn + 3)) L (Γ q (m.dirn + 3)) p1 p1' ∧ ProjRel2 σ t2 (ℓ q (m.dirn + 3)) L (Γ q (m.dirn + 3)) p2 p2' := by
  obtain ⟨v0, v1, v2, v3⟩ := fin4_val m.dirn
  obtain ⟨i11, i12, i13, i21, i22, i23, i31, i32, i33⟩ := fin4 m.dirn
  have c1 : q = q + dir (m.dirn + 3) + dir (m.dirn + 3 + 2) := (dir_cancel q _).symm
  obtain ⟨Q1, Q1', t1, ht1, hq1, hq1', r1⟩ := quarter_link hR st st' ω ω' q _ m.dirn (m.dirn + 3) _ v0 rfl rfl
  obtain ⟨Q4, Q4', t4, ht4, hq4, hq4', r4⟩ := quarter_link hR st st' ω ω' (q + dir (m.dirn + 3)) q (m.dirn + 3) (m.dirn + 2) _ v3
    i33.symm c1
  rw [hR.bond] at r4
  unfold Move.cut
  rw [hR.nx, hR.ny, m.proj_idx hx hy (numOps st ω) pk net rfl rfl q hq, m.proj_idx hx hy (numOps st' ω') pk net' hR.nx hR.ny q hq]
  cases pk with
  | half =>
    unfold calcProjectors
    dsimp only
    rw [hq1, hq4, half_eq, hq1', hq4', half_eq]
    obtain ⟨y, hy1, hy2⟩ := halfPair_svd st ω h0 (m.dirn.val, cellSite net.nx net.ny q) net.chi Q1 Q4 (hf.imp_right fun h => h _ _ _ _ _ hq1 hq4)
    obtain ⟨y', hy1', hy2'⟩ := halfPair_svd st' ω' (hcut ▸ h0) (m.dirn.val, cellSite net.nx net.ny q) net'.chi Q1' Q4'
      (hf'.imp_right fun h => h _ _ _ _ _ hq1' hq4')
    rw [hy2, hy2', hR.chi, hcut]
    have hgap := hd _ _ _ _ _ hq1 hq4
    rw [svd_values (st.la.svd_ok _) hy1] at hgap
    obtain ⟨s, hs, es⟩ := maxNormalise_scale (Q1 * Q4)
    obtain ⟨s', hs', es'⟩ := maxNormalise_scale (Q1' * Q4')
    rw [es] at hy1
    rw [es'] at hy1'
    have hJ := (ℓ (q + dir (m.dirn + 2)) m.dirn).unit.pair (hR.unit q (m.dirn + 2))
    have hK := (ℓ (q + dir (m.dirn + 3)) (m.dirn + 2)).unit.pair (hR.unit (q + dir (m.dirn + 3)) (m.dirn + 2)).star
    obtain ⟨L, p1, p2, p1', p2', g, g', k1, k2⟩ := projFromSvd_rel σ st.cutoff h0 net.chi (ℓ q (m.dirn + 3))
      (Γ q (m.dirn + 3)) (hR.unit _ _) ((ℓ _ m.dirn).unit.pair (hR.unit _ _)) ((ℓ _ (m.dirn + 2)).unit.pair (hR.unit _ _).star)
      Q1 Q4 Q1' Q4' t1 t4 ht1 ht4 r1 r4 (cell_card hJ hK) y y' hs hs' hy1 hy1' hgap
    rw [g, g']
    exact ⟨L, p1, p2, p1', p2', t1, t4, ht1, ht4, rfl, rfl, k1, k2⟩
  | full =>
    have star2 : ∀ M : Matrix (B × B) (B × B) 𝕜, (M.map star).map star = M := by
      intro M
      ext i j
      simp
    obtain ⟨Q2, Q2', t2, ht2, hq2, hq2', r2⟩ := quarter_link hR st st' ω ω' (q + dir (m.dirn + 2)) _ (m.dirn + 1) m.dirn _ v1 i13.symm rfl
    obtain ⟨Q3, Q3', t3, ht3, hq3, hq3', r3⟩ := quarter_link hR st st' ω ω' (q + dir (m.dirn + 2) + dir (m.dirn + 3))
      (q + dir (m.dirn + 3)) (m.dirn + 2) (m.dirn + 1) _ v2 i23.symm (by
        rw [add_right_comm, add_right_comm, ← dir_cancel (q + dir (m.dirn + 3)) (m.dirn + 2)]
        abel)
    have b2 : (Γ (q + dir (m.dirn + 2)) m.dirn).map star = Γ q (m.dirn + 2) := by
      have := hR.bond q (m.dirn + 2)
      rw [i22] at this
      rw [this, star2]
    have b3 : Γ (q + dir (m.dirn + 2) + dir (m.dirn + 3)) (m.dirn + 2 + 2) = (Γ (q + dir (m.dirn + 3)) (m.dirn + 2)).map star := by
      have := hR.bond (q + dir (m.dirn + 3)) (m.dirn + 2)
      rwa [add_right_comm] at this
    rw [b2] at r2
    rw [b3] at r3
    unfold calcProjectors
    dsimp only
    rw [hq1, hq2, hq3, hq4, full_eq, hq1', hq2', hq3', hq4', full_eq]
    obtain ⟨u1, u2, y, hu1, hu2, hy1, hy2⟩ := fullPair_svd st ω h0 (m.dirn.val, cellSite net.nx net.ny q) net.chi Q1 Q2 Q3 Q4
      (hf.imp_right fun h => ⟨h.1, h.2 _ _ _ _ _ _ _ _ _ hq1 hq2 hq3 hq4⟩)
    obtain ⟨u1', u2', y', hu1', hu2', hy1', hy2'⟩ := fullPair_svd st' ω' (hcut ▸ h0) (m.dirn.val, cellSite net.nx net.ny q) net'.chi
      Q1' Q2' Q3' Q4' (hf'.imp_right fun h => ⟨h.1, h.2 _ _ _ _ _ _ _ _ _ hq1' hq2' hq3' hq4'⟩)
    rw [hy2, hy2', hR.chi, hcut]
    have hgap := hd _ _ _ _ _ _ _ _ _ hq1 hq2 hq3 hq4
    rw [svd_values (st.la.svd_ok _) hy1] at hgap
    have w1 := mul_link (s' := u1') σ ((ℓ (q + dir (m.dirn + 2)) m.dirn).unit.pair (hR.unit q (m.dirn + 2))) r2 r1 hu1
    have w2 := mul_link (s' := u2') σ ((ℓ (q + dir (m.dirn + 3)) (m.dirn + 2)).unit.pair
      (hR.unit (q + dir (m.dirn + 3)) (m.dirn + 2)).star) r4 r3 hu2
    obtain ⟨s, hs, es⟩ := envScale Q1 Q2 Q3 Q4 hu1 hu2
    obtain ⟨s', hs', es'⟩ := envScale Q1' Q2' Q3' Q4' hu1' hu2'
    rw [es] at hy1
    rw [es'] at hy1'
    have hJ := (ℓ (q + dir (m.dirn + 2) + dir (m.dirn + 1 + 2)) (m.dirn + 1)).unit.pair (hR.unit q 0)
    have hK := (ℓ (q + dir (m.dirn + 2) + dir (m.dirn + 3)) (m.dirn + 1)).unit.pair (hR.unit q 0)
    obtain ⟨L, p1, p2, p1', p2', g, g', k1, k2⟩ := projFromSvd_rel σ st.cutoff h0 net.chi (ℓ q (m.dirn + 3))
      (Γ q (m.dirn + 3)) (hR.unit _ _) ((ℓ _ (m.dirn + 1)).unit.pair (hR.unit _ _)) ((ℓ _ (m.dirn + 1)).unit.pair (hR.unit _ _).star)
      _ _ _ _ _ _ (by positivity) (by positivity) w1 w2 (cell_card hJ hK) y y' hs hs' hy1 hy1' hgap
    rw [g, g']
    exact ⟨L, p1, p2, p1', p2', _, _, by positivity, by positivity, rfl, rfl, k1, k2⟩

omit hR hcut h0 [DecidableEq P] in
theorem dropCut_at (q : ℤ × ℤ) (hq : m.OnLine (cellSite net.nx net.ny q)) (hl : DropMove st ω pk net m) :
    DropCut st ω pk net (cellSite net.nx net.ny q)
        (cellSite net.nx net.ny (q + dir (m.dirn + 2))) (cellSite net.nx net.ny (q + dir (m.dirn + 2) + dir (m.dirn + 3)))
        (cellSite net.nx net.ny (q + dir (m.dirn + 3))) m.dirn.val := by
  obtain ⟨v0, v1, v2, v3⟩ := fin4_val m.dirn
  have := hl _ (cellSite_inCell _ _ hx hy q) ((absorbed_iff m _).2 hq)
  rwa [moveDir_eq, v2, v3, neighbour_cellSite _ _ hx hy, neighbour_cellSite _ _ hx hy, neighbour_cellSite _ _ hx hy] at this

omit hR hcut h0 [DecidableEq P] in
theorem svdCut_at (q : ℤ × ℤ) (hq : m.OnLine (cellSite net.nx net.ny q)) (hl : SvdMove st ω pk net m) :
    SvdCut st ω pk net (cellSite net.nx net.ny q)
        (cellSite net.nx net.ny (q + dir (m.dirn + 2))) (cellSite net.nx net.ny (q + dir (m.dirn + 2) + dir (m.dirn + 3)))
        (cellSite net.nx net.ny (q + dir (m.dirn + 3))) m.dirn.val := by
  obtain ⟨v0, v1, v2, v3⟩ := fin4_val m.dirn
  have := hl _ (cellSite_inCell _ _ hx hy q) ((absorbed_iff m _).2 hq)
  rwa [moveDir_eq, v2, v3, neighbour_cellSite _ _ hx hy, neighbour_cellSite _ _ hx hy, neighbour_cellSite _ _ hx hy] at this

/-- Two related networks stay related in a move. -/
theorem related_after (hm : m.Valid net.nx net.ny) (hd : DropMove st ω pk net m) (hf : SvdMove st ω pk net m)
    (hf' : SvdMove st' ω' pk net' m) : ∃ ℓ', Related σ Φ Γ ℓ' (m.after (numOps st ω) pk net) (m.after (numOps st' ω') pk net') := by
  have cut := fun (q : ℤ × ℤ) (hq : m.OnLine (cellSite net.nx net.ny q)) =>
    cut_link hR st st' ω ω' pk m hx hy hcut h0 q hq (dropCut_at st ω pk m hx hy q hq hd) (svdCut_at st ω pk m hx hy q hq hf) (by
      have := svdCut_at st' ω' pk m (hR.nx ▸ hx) (hR.ny ▸ hy) q (by rwa [hR.nx, hR.ny]) hf'
      rwa [hR.nx, hR.ny] at this)
  choose L p1 p2 p1' p2' t1 t2 ht1 ht2 hc hc' r1 r2 using cut
  obtain ⟨i11, i12, i13, i21, i22, i23, i31, i32, i33⟩ := fin4 m.dirn
  have hne : ∀ k : Fin 4, k ≠ k + 3 ∧ k + 2 ≠ k + 3 ∧ k ≠ k + 2 := by decide
  have along : ∀ p, m.OnLine (cellSite net.nx net.ny (p + dir (m.dirn + 1) + dir m.dirn)) ↔
      m.OnLine (cellSite net.nx net.ny (p + dir m.dirn)) := by
    intro p
    have := m.onLine_along (nx := net.nx) (ny := net.ny) (p + dir m.dirn) 1
    rwa [one_smul, add_right_comm] at this
  classical
  let ℓ' : ℤ × ℤ → Fin 4 → Link 𝕜 := fun p k =>
    if h : k = m.dirn + 3 ∧ m.OnLine (cellSite net.nx net.ny (p + dir m.dirn)) then L _ h.2 else ℓ p k
  have hit : ∀ p (h : m.OnLine (cellSite net.nx net.ny (p + dir m.dirn))), ℓ' p (m.dirn + 3) = L _ h := fun p h => dif_pos ⟨rfl, h⟩
  have miss : ∀ p (h : ¬ m.OnLine (cellSite net.nx net.ny (p + dir m.dirn))) k, ℓ' p k = ℓ p k := fun p h k => dif_neg fun h' => h h'.2
  have other : ∀ p k, k ≠ m.dirn + 3 → ℓ' p k = ℓ p k := fun p k h => dif_neg fun h' => h h'.1
  clear_value ℓ'
  have hA := (m.after_consts (numOps st ω) pk net).2.2.2
  have hA' := (m.after_consts (numOps st' ω') pk net').2.2.2
  have nx' := hR.nx
  have ny' := hR.ny
  have hx' : 0 < net'.nx := nx' ▸ hx
  have hy' : 0 < net'.ny := ny' ▸ hy
  have hm' : m.Valid net'.nx net'.ny := by rw [nx', ny']; exact hm
  have ah' := m.after_hit (numOps st' ω') pk net' hx' hy' hm'
  have am' := m.after_miss (numOps st' ω') pk net' hm'
  rw [nx', ny'] at ah' am'
  refine ⟨ℓ', ?_⟩
  refine ⟨hR.nx, hR.ny, hR.chi, hR.trace, hR.unit, hR.bond, ?_, ?_, ?_⟩
  · intro p
    rw [hA, hA']
    exact hR.site p
  · intro p k
    change CornerRel σ _ _ ((m.after (numOps st ω) pk net).B (cellSite net.nx net.ny p) (.C k.val))
      ((m.after (numOps st' ω') pk net').B (cellSite net.nx net.ny p) (.C k.val))
    by_cases h : m.OnLine (cellSite net.nx net.ny (p + dir m.dirn))
    · rw [m.after_hit (numOps st ω) pk net hx hy hm p h, ah' p h]
      by_cases hk : k = m.dirn + 3
      · subst hk
        rw [if_pos rfl, if_pos rfl, i31, i33, other _ _ (hne _).2.1, hit p h]
        have h1 := hR.corner (p + dir m.dirn) (m.dirn + 3)
        have h2 := hR.edge (p + dir m.dirn) (m.dirn + 2)
        rw [i31, i33] at h1
        rw [i22, i21] at h2
        obtain ⟨c, c', tc, ec, ec', htc, hcv⟩ := h1
        obtain ⟨e, e', te, ee, ee', hte, hev⟩ := h2
        rw [ec, ec', ee, ee', hc _ h, hc' _ h, cj1_eq, cj1_eq]
        obtain ⟨t, ht, hv⟩ := lower_rel σ _ _ _ _ (hR.unit _ _) htc hte (ht1 _ h) hcv hev (r1 _ h)
        exact ⟨_, _, t, rfl, rfl, ht, hv⟩
      by_cases hk' : k = m.dirn
      · subst hk'
        have hC : Slot.C m.dirn.val ≠ Slot.C (m.dirn + 3).val := fun h => (hne m.dirn).1 (Fin.ext (Slot.C.inj h))
        have h' : m.OnLine (cellSite net.nx net.ny (p + dir m.dirn + dir (m.dirn + 1))) := by
          rw [add_right_comm]
          exact (along p).2 h
        have hl' : ℓ' (p + dir (m.dirn + 1)) (m.dirn + 3) = L _ h' := by
          rw [hit _ ((along p).2 h)]
          congr 1
          rw [add_right_comm]
        rw [if_neg hC, if_neg hC, if_pos rfl, if_pos rfl, hl', other _ _ (hne _).1]
        have h1 := hR.corner (p + dir m.dirn) m.dirn
        have h2 := hR.edge (p + dir m.dirn) m.dirn
        rw [dir_cancel] at h2
        obtain ⟨c, c', tc, ec, ec', htc, hcv⟩ := h1
        obtain ⟨e, e', te, ee, ee', hte, hev⟩ := h2
        have hb := hR.bond (p + dir m.dirn) (m.dirn + 1)
        rw [i12] at hb
        rw [ec, ec', ee, ee', hc _ h', hc' _ h', cj2_eq, cj2_eq]
        obtain ⟨t, ht, hv⟩ := upper_rel σ _ _ _ _ (hR.unit _ _) hb htc hte (ht2 _ h') hcv hev (r2 _ h')
        exact ⟨_, _, t, rfl, rfl, ht, hv⟩
      have hC1 : Slot.C k.val ≠ Slot.C (m.dirn + 3).val := fun h => hk (Fin.ext (Slot.C.inj h))
      have hC2 : Slot.C k.val ≠ Slot.C m.dirn.val := fun h => hk' (Fin.ext (Slot.C.inj h))
      rw [other _ _ hk, other _ _ (fun h => hk' (by simpa using h)), if_neg hC1, if_neg hC1, if_neg hC2, if_neg hC2, if_neg (by simp),
        if_neg (by simp)]
      exact hR.corner p k
    · rw [m.after_miss (numOps st ω) pk net hm p h, am' p h, miss p h]
      by_cases hk' : k = m.dirn
      · subst hk'
        rw [miss _ (fun h' => h ((along p).1 h'))]
        exact hR.corner p _
      · rw [other _ _ (fun h => hk' (by simpa using h))]
        exact hR.corner p k
  · intro p k
    change EdgeRel σ _ _ _ ((m.after (numOps st ω) pk net).B (cellSite net.nx net.ny p) (.E k.val))
      ((m.after (numOps st' ω') pk net').B (cellSite net.nx net.ny p) (.E k.val))
    by_cases hk : k = m.dirn + 3
    · subst hk
      rw [i32, i31]
      by_cases h : m.OnLine (cellSite net.nx net.ny (p + dir m.dirn))
      · have h' : m.OnLine (cellSite net.nx net.ny (p + dir m.dirn + dir (m.dirn + 1))) := by
          rw [add_right_comm]
          exact (along p).2 h
        have hl' : ℓ' (p + dir (m.dirn + 1)) (m.dirn + 3) = L _ h' := by
          rw [hit _ ((along p).2 h)]
          congr 1
          rw [add_right_comm]
        rw [hl', hit p h, m.after_hit (numOps st ω) pk net hx hy hm p h, ah' p h]
        simp only [reduceCtorEq, if_false, if_true]
        have h2 := hR.edge (p + dir m.dirn) (m.dirn + 3)
        rw [i32, i31] at h2
        obtain ⟨e, e', te, ee, ee', hte, hev⟩ := h2
        obtain ⟨a, a', ta, hta, ea, ea', hl⟩ := site_link hR (p + dir m.dirn) m.dirn
        have hb := hR.bond (p + dir m.dirn) (m.dirn + 1)
        rw [i12] at hb
        rw [ea, ea', ee, ee', hc _ h', hc' _ h', hc _ h, hc' _ h, permute_eq, permute_eq, ej_eq, ej_eq]
        obtain ⟨t, ht, hv⟩ := edge_rel σ _ _ _ _ (hR.unit _ _) (hR.unit _ _) (hR.unit _ _) hb (hR.bond p m.dirn) hte (ht1 _ h') (ht2 _ h) hta
          hev hl (r1 _ h') (r2 _ h)
        exact ⟨_, _, t, rfl, rfl, ht, hv⟩
      · rw [miss p h, miss _ (fun h' => h ((along p).1 h')), m.after_miss (numOps st ω) pk net hm p h, am' p h]
        have := hR.edge p (m.dirn + 3)
        rwa [i32, i31] at this
    · have hE : Slot.E k.val ≠ Slot.E (m.dirn + 3).val := fun h => hk (Fin.ext (Slot.E.inj h))
      rw [other _ _ hk, other _ _ hk]
      by_cases h : m.OnLine (cellSite net.nx net.ny (p + dir m.dirn))
      · rw [m.after_hit (numOps st ω) pk net hx hy hm p h, ah' p h]
        simp only [reduceCtorEq, if_false, if_neg hE]
        exact hR.edge p k
      · rw [m.after_miss (numOps st ω) pk net hm p h, am' p h]
        exact hR.edge p k

end network

end AceTN
