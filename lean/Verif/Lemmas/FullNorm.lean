import Verif.Lemmas.TurnNorm
import Verif.Model.FullRun
import Verif.Spec.NormalNet
import Verif.Props.Hermitian

/-!
The norm tensor of a bond in two equivalent networks, read from the boundary tensors.
-/

set_option autoImplicit false
set_option linter.unusedSectionVars false

namespace AceTN

open Matrix Spec Full Finset SumTac

variable {𝕜 : Type} [RCLike 𝕜]

section scale

variable {B P : Type} [Fintype B] [Fintype P] [DecidableEq B]

/-- `CornerRel` with a condition on the factor. -/
def CornerRelS (S : ℝ → Prop) (σ : ScalarMap 𝕜) (a b : Link 𝕜) (T T' : Ten B P 𝕜) : Prop :=
  ∃ (c : Fin a.m → Fin b.m → 𝕜) (c' : Fin a.m' → Fin b.m' → 𝕜) (t : ℝ),
    T = .corner a.m b.m c ∧ T' = .corner a.m' b.m' c' ∧ S t ∧
    ∀ i j, c' i j = t * ∑ x, ∑ y, star (a.J i x) * b.J j y * σ.f (c x y)

/-- `EdgeRel` with a condition on the factor. -/
def EdgeRelS (S : ℝ → Prop) (σ : ScalarMap 𝕜) (a b : Link 𝕜) (Γ : Matrix (B × B) (B × B) 𝕜) (T T' : Ten B P 𝕜) : Prop :=
  ∃ (e : Fin a.m → Fin b.m → B → B → 𝕜) (e' : Fin a.m' → Fin b.m' → B → B → 𝕜) (t : ℝ),
    T = .edge a.m b.m e ∧ T' = .edge a.m' b.m' e' ∧ S t ∧
    ∀ i j g, e' i j g.1 g.2 = t * ∑ x, ∑ y, ∑ h, star (a.J i x) * b.J j y * star (Γ g h) * σ.f (e x y h.1 h.2)

theorem factor_one {X Y : Type} [Fintype X] [Fintype Y] {v : X → 𝕜} {v' w : Y → 𝕜} {t : ℝ} (ht : 0 < t) (hv : ∀ i, v' i = t * w i) {a b : ℝ}
    (e : ∑ i, ‖w i‖ ^ 2 = ∑ i, ‖v i‖ ^ 2) (ha : ∑ i, ‖v i‖ ^ 2 = a) (hb : ∑ i, ‖v' i‖ ^ 2 = b) (h1 : a = 0 ∨ a = 1) (h2 : b = 0 ∨ b = 1) :
    ∀ i, v' i = ((1 : ℝ) : 𝕜) * w i := by
  have hb' : b = t ^ 2 * a := by
    rw [← hb, ← ha, ← e, mul_sum]
    refine sum_congr rfl fun i _ => ?_
    rw [hv, norm_mul, RCLike.norm_ofReal, mul_pow, sq_abs]
  rcases h1 with h1 | h1
  · have : ∀ i, w i = 0 := by
      rw [← e, h1] at ha
      intro i
      have := (sum_eq_zero_iff_of_nonneg (fun i _ => by positivity)).1 ha i (mem_univ i)
      simpa using this
    intro i
    rw [hv, this, mul_zero, mul_zero]
  · have ht1 : t = 1 := by
      rw [h1, mul_one] at hb'
      rcases h2 with h2 | h2
      · rw [h2] at hb'
        nlinarith
      · rw [h2] at hb'
        nlinarith
    rw [ht1] at hv
    exact hv

theorem corner_norm_one {a b : Link 𝕜} {T T' : Ten B P 𝕜} (h : CornerRel (ScalarMap.id 𝕜) a b T T') (h1 : tenSq T = 0 ∨ tenSq T = 1)
    (h2 : tenSq T' = 0 ∨ tenSq T' = 1) : CornerRelS (· = 1) (ScalarMap.id 𝕜) a b T T' := by
  obtain ⟨c, c', t, rfl, rfl, ht, hv⟩ := h
  refine ⟨c, c', 1, rfl, rfl, rfl, fun i j => ?_⟩
  have hJ := unit_sq (a.unit.star.pair b.unit) fun i : Fin a.m × Fin b.m => c i.1 i.2
  have e1 : tenSq (Ten.corner (B := B) (P := P) a.m b.m c) = ∑ i : Fin a.m × Fin b.m, ‖c i.1 i.2‖ ^ 2 := by
    rw [Fintype.sum_prod_type]
    rfl
  have e2 : tenSq (Ten.corner (B := B) (P := P) a.m' b.m' c') = ∑ i : Fin a.m' × Fin b.m', ‖c' i.1 i.2‖ ^ 2 := by
    rw [Fintype.sum_prod_type]
    rfl
  refine factor_one (v := fun i : Fin a.m × Fin b.m => c i.1 i.2) (v' := fun i : Fin a.m' × Fin b.m' => c' i.1 i.2)
    (w := fun i => ∑ x, ∑ y, star (a.J i.1 x) * b.J i.2 y * (ScalarMap.id 𝕜).f (c x y)) ht (fun i => hv i.1 i.2) ?_ e1.symm e2.symm h1 h2 (i, j)
  rw [← hJ]
  refine sum_congr rfl fun i _ => ?_
  rw [Fintype.sum_prod_type]
  rfl

theorem edge_norm_one {a b : Link 𝕜} {Γ : Matrix (B × B) (B × B) 𝕜} (hΓ : Unit2 Γ) {T T' : Ten B P 𝕜}
    (h : EdgeRel (ScalarMap.id 𝕜) a b Γ T T') (h1 : tenSq T = 0 ∨ tenSq T = 1) (h2 : tenSq T' = 0 ∨ tenSq T' = 1) :
    EdgeRelS (· = 1) (ScalarMap.id 𝕜) a b Γ T T' := by
  obtain ⟨e, e', t, rfl, rfl, ht, hv⟩ := h
  refine ⟨e, e', 1, rfl, rfl, rfl, fun i j g => ?_⟩
  have hJ := unit_sq (a.unit.star.pair (b.unit.pair hΓ.star)) fun i : Fin a.m × Fin b.m × B × B => e i.1 i.2.1 i.2.2.1 i.2.2.2
  have e1 : tenSq (Ten.edge (B := B) (P := P) a.m b.m e) = ∑ i : Fin a.m × Fin b.m × B × B, ‖e i.1 i.2.1 i.2.2.1 i.2.2.2‖ ^ 2 := by
    simp only [Fintype.sum_prod_type]
    rfl
  have e2 : tenSq (Ten.edge (B := B) (P := P) a.m' b.m' e') = ∑ i : Fin a.m' × Fin b.m' × B × B, ‖e' i.1 i.2.1 i.2.2.1 i.2.2.2‖ ^ 2 := by
    simp only [Fintype.sum_prod_type]
    rfl
  refine factor_one (v := fun i : Fin a.m × Fin b.m × B × B => e i.1 i.2.1 i.2.2.1 i.2.2.2)
    (v' := fun i : Fin a.m' × Fin b.m' × B × B => e' i.1 i.2.1 i.2.2.1 i.2.2.2)
    (w := fun i => ∑ x, ∑ y, ∑ h, star (a.J i.1 x) * b.J i.2.1 y * star (Γ i.2.2 h) * (ScalarMap.id 𝕜).f (e x y h.1 h.2)) ht
    (fun i => hv i.1 i.2.1 i.2.2) ?_ e1.symm e2.symm h1 h2 (i, j, g)
  rw [← hJ]
  refine sum_congr rfl fun i _ => ?_
  rw [Fintype.sum_prod_type]
  congr 2
  refine sum_congr rfl fun x _ => ?_
  rw [Fintype.sum_prod_type]
  refine sum_congr rfl fun y _ => sum_congr rfl fun h _ => ?_
  show _ = star (a.J i.1 x) * (b.J i.2.1 y * star (Γ i.2.2 h)) * e x y h.1 h.2
  rw [← mul_assoc]
  rfl

end scale

section read

variable {B P N : Type} [Fintype B] [Fintype P] [DecidableEq B] [DecidableEq P] [Nonempty B] [Fintype N] [DecidableEq N] {σ : ScalarMap 𝕜}
  {Γ : ℤ × ℤ → Fin 4 → Matrix (B × B) (B × B) 𝕜}
  {ℓ : ℤ × ℤ → Fin 4 → Link 𝕜} {net net' : Net (Ten B P 𝕜)} {nx ny : ℕ}

/-- The norm tensors of a bond of two networks with related boundary tensors. -/
theorem norm_read {S : ℝ → Prop} (hmul : ∀ x y, S x → S y → S (x * y))
    (corner : ∀ p k, CornerRelS S σ (ℓ (p + dir (k + 1)) (k + 3)) (ℓ p k) (net.B (cellSite nx ny p) (.C k.val))
      (net'.B (cellSite nx ny p) (.C k.val)))
    (edge : ∀ p k, EdgeRelS S σ (ℓ p k) (ℓ (p + dir (k + 2)) k) (Γ p (k + 1)) (net.B (cellSite nx ny p) (.E k.val))
      (net'.B (cellSite nx ny p) (.E k.val))) (unit : ∀ p k, Unit2 (Γ p k)) (p : ℤ × ℤ) (K : Fin 4) {Φ Ψ : Matrix (N × N) (N × N) 𝕜}
    {ΓM : Matrix (B × B) (B × B) 𝕜} (gm : Unit2 ΓM) {a1q a1q' a2q a2q' : B → B → B → N → 𝕜} {ta tb : ℝ} (hta : S ta) (htb : S tb)
    (ha : OpenRel σ ta Φ ΓM (Γ p (K + 1)) (Γ p (K + 2)) (Γ p (K + 3)) (fun o => layer (cutSite1 unitVec a1q) (some o))
      (fun o => layer (cutSite1 unitVec a1q') (some o)))
    (hb : OpenRel σ tb Ψ (Γ (p + dir K) K) (Γ (p + dir K) (K + 1)) (ΓM.map star) (Γ (p + dir K) (K + 3))
      (fun o => layer (cutSite2 unitVec a2q) (some o)) (fun o => layer (cutSite2 unitVec a2q') (some o))) :
    ∃ n n', numNorm net ⟨cellSite nx ny p, cellSite nx ny (p + dir K), K.val⟩ a1q a2q = .ok n ∧
      numNorm net' ⟨cellSite nx ny p, cellSite nx ny (p + dir K), K.val⟩ a1q' a2q' = .ok n' ∧
      ∃ t : ℝ, S t ∧ ∀ y x Y X, n' y x Y X = t * ∑ q : N × N, ∑ q' : N × N, Φ (Y, y) q * Ψ (X, x) q' * σ.f (n q.2 q'.2 q.1 q'.1) := by
  obtain ⟨i11, i12, i13, i21, i22, i23, i31, i32, i33⟩ := fin4 K
  have m0 : (K.val + 0) % 4 = K.val := (fin4_val K).1
  have m1 : (K.val + 1) % 4 = (K + 1).val := (fin4_val K).2.1
  have m2 : (K.val + 2) % 4 = (K + 2).val := (fin4_val K).2.2.1
  have m3 : (K.val + 3) % 4 = (K + 3).val := (fin4_val K).2.2.2
  have h12 := corner p (K + 1)
  have g12 := edge p (K + 1)
  have g11 := edge p K
  have h13 := corner p (K + 2)
  have g13 := edge p (K + 2)
  have h21 := corner (p + dir K) K
  have g21 := edge (p + dir K) K
  have g24 := edge (p + dir K) (K + 3)
  have h24 := corner (p + dir K) (K + 3)
  have g23 := edge (p + dir K) (K + 2)
  rw [i11, i13] at h12
  rw [i11, i12] at g12
  rw [i21, i23] at h13
  rw [i21, i22] at g13
  rw [dir_cancel] at g21
  rw [i31, i32] at g24
  rw [i31, i33] at h24
  rw [i21, i22] at g23
  obtain ⟨c12, c12', t3, hc12, hc12', ht3, h12⟩ := h12
  obtain ⟨e12, e12', t4, he12, he12', ht4, g12⟩ := g12
  obtain ⟨e11, e11', t2, he11, he11', ht2, g11⟩ := g11
  obtain ⟨c13, c13', t5, hc13, hc13', ht5, h13⟩ := h13
  obtain ⟨e13, e13', t6, he13, he13', ht6, g13⟩ := g13
  obtain ⟨c21, c21', t0, hc21, hc21', ht0, h21⟩ := h21
  obtain ⟨e21, e21', t1, he21, he21', ht1, g21⟩ := g21
  obtain ⟨e24, e24', t9, he24, he24', ht9, g24⟩ := g24
  obtain ⟨c24, c24', t8, hc24, hc24', ht8, h24⟩ := h24
  obtain ⟨e23, e23', t7, he23, he23', ht7, g23⟩ := g23
  have hS : S (t0 * t1 * t2 * t3 * t4 * t5 * t6 * t7 * t8 * t9 * ta * tb) :=
    hmul _ _ (hmul _ _ (hmul _ _ (hmul _ _ (hmul _ _ (hmul _ _ (hmul _ _ (hmul _ _ (hmul _ _ (hmul _ _ (hmul _ _ ht0 ht1) ht2) ht3) ht4) ht5)
      ht6) ht7) ht8) ht9) hta) htb
  refine ⟨normCore c12 e12 e11 c13 e13 a1q c21 e21 e24 c24 e23 a2q, normCore c12' e12' e11' c13' e13' a1q' c21' e21' e24' c24' e23' a2q',
    ?_, ?_, _, hS, fun y x Y X => ?_⟩
  · unfold numNorm
    dsimp only
    rw [m0, m1, m2, m3, hc12, he12, he11, hc13, he13, hc21, he21, he24, hc24, he23]
    dsimp only
    rw [if_pos ⟨rfl, rfl, rfl, rfl, rfl, rfl, rfl, rfl, rfl, rfl⟩]
    simp only [as4_self, as2_self]
  · unfold numNorm
    dsimp only
    rw [m0, m1, m2, m3, hc12', he12', he11', hc13', he13', hc21', he21', he24', hc24', he23']
    dsimp only
    rw [if_pos ⟨rfl, rfl, rfl, rfl, rfl, rfl, rfl, rfl, rfl, rfl⟩]
    simp only [as4_self, as2_self]
  · have := bondRdm_rel σ _ _ _ _ _ _ _ _ _ _ _ _ gm (unit _ _) (unit _ _) (unit _ _) (unit _ _) (unit _ _)
      (unit _ _) rfl h21 g21 g11 h12 g12 h13 g13 g23 h24 g24 ha hb Y X y x
    rw [normCore_rdm, this]
    simp only [normCore_rdm]

end read

section apply

variable {P N : Type} [Fintype P] [DecidableEq P] [Fintype N] [DecidableEq N]
  {B : Type} [Fintype B] [DecidableEq B] [Nonempty B]
  {ℓ : ℤ × ℤ → Fin 4 → Link 𝕜} {net net' : Net (Ten B P 𝕜)}

/-- Two networks in other bases. -/
theorem norm_turn (hs : ∀ a : 𝕜, star a = a) {Φ : ℤ × ℤ → Matrix (P × P) (P × P) 𝕜} {G : ℤ × ℤ → Fin 4 → Matrix B B 𝕜}
    (hR : Related (ScalarMap.id 𝕜) Φ (fun p k => ketBra (G p k)) ℓ net net') (n1 : NormalNet net) (n2 : NormalNet net')
    (p : ℤ × ℤ) (K : Fin 4) {a1q a1q' a2q a2q' : B → B → B → N → 𝕜} {W T : Matrix N N 𝕜}
    (h1 : Turned4q (G p (K + 2)) (G p (K + 3)) (G p (K + 1)) W a1q a1q')
    (h2 : Turned4q (G (p + dir K) (K + 3)) (G (p + dir K) K) (G (p + dir K) (K + 1)) T a2q a2q') :
    ∃ n n', numNorm net ⟨cellSite net.nx net.ny p, cellSite net.nx net.ny (p + dir K), K.val⟩ a1q a2q = .ok n ∧
      numNorm net' ⟨cellSite net.nx net.ny p, cellSite net.nx net.ny (p + dir K), K.val⟩ a1q' a2q' = .ok n' ∧ TurnedN W T n n' := by
  have u1 : Unit2 (ketBra (1 : Matrix B B 𝕜)) := ketBra_unit ⟨by simp, by simp⟩
  have e1 : (ketBra (1 : Matrix B B 𝕜)).map star = ketBra 1 := by rw [ketBra_map, map_star_one]
  have r1 := openRel_turn (cutSite1_turn h1 unitVec)
  have r2 := openRel_turn (cutSite2_turn h2 unitVec)
  obtain ⟨n, n', hn, hn', t, rfl, h⟩ := norm_read (S := (· = 1)) (σ := ScalarMap.id 𝕜)
    (Γ := fun p k => ketBra (G p k)) (ℓ := ℓ) (net := net) (net' := net') (nx := net.nx) (ny := net.ny) (fun x y hx hy => by rw [hx, hy, one_mul])
    (fun p k => corner_norm_one (hR.corner p k) (n1 _ _) (n2 _ _)) (fun p k => edge_norm_one (hR.unit p (k + 1)) (hR.edge p k) (n1 _ _) (n2 _ _)) hR.unit p K
    u1 (one_mul 1) (one_mul 1) r1 (by rw [e1]; exact r2)
  refine ⟨n, n', hn, hn', fun y₀ x₀ Y₀ X₀ => ?_⟩
  rw [h, RCLike.ofReal_one, one_mul]
  show ∑ q : N × N, ∑ q' : N × N, star (W Y₀ q.1) * W y₀ q.2 * (star (T X₀ q'.1) * T x₀ q'.2) * n q.2 q'.2 q.1 q'.1 = _
  simp only [hs]
  have key : ∀ W₁ W₂ T₁ T₂ : Matrix N N 𝕜, ∑ q : N × N, ∑ q' : N × N, W₁ Y₀ q.1 * W₂ y₀ q.2 * (T₁ X₀ q'.1 * T₂ x₀ q'.2) * n q.2 q'.2 q.1 q'.1 =
      ∑ y', ∑ x', ∑ Y', ∑ X', W₂ y₀ y' * T₂ x₀ x' * (W₁ Y₀ Y' * T₁ X₀ X') * n y' x' Y' X' := by
    intro W₁ W₂ T₁ T₂
    einsum_ring
  exact key W W T T

/-- The norm tensor of a network that exchanging its layers leaves alone. -/
theorem norm_herm {pD : ℕ} {net : Net (Ten B (Fin pD) 𝕜)} (hM : Mirror net) (p : ℤ × ℤ) (K : Fin 4)
    (a1q a2q : B → B → B → N → 𝕜) {n : N → N → N → N → 𝕜}
    (hn : numNorm net ⟨cellSite net.nx net.ny p, cellSite net.nx net.ny (p + dir K), K.val⟩ a1q a2q = .ok n) : (normMat n).IsHermitian := by
  obtain ⟨ℓ, hR⟩ := hM
  obtain ⟨a, a', t1, ea, ea', ht1, r1⟩ := siteRel_swap (cutSite1 (unitVec (𝕜 := 𝕜)) a1q)
  obtain rfl := Ten.site.inj ea
  obtain rfl := Ten.site.inj ea'
  obtain ⟨b, b', t2, eb, eb', ht2, r2⟩ := siteRel_swap (cutSite2 (unitVec (𝕜 := 𝕜)) a2q)
  obtain rfl := Ten.site.inj eb
  obtain rfl := Ten.site.inj eb'
  obtain ⟨n1, n2, h1, h2, c, hc, e⟩ := norm_read (S := (0 < ·)) (σ := ScalarMap.conj 𝕜)
    (Γ := fun _ _ => swapMat B) (ℓ := ℓ) (net := net) (net' := net) (nx := net.nx) (ny := net.ny) (fun x y hx hy => mul_pos hx hy) hR.corner hR.edge hR.unit p K
    (swapMat_unit (𝕜 := 𝕜)) ht1 ht2 r1 (by rw [swapMat_star]; exact r2)
  rw [hn] at h1 h2
  obtain rfl := Except.ok.inj h1
  obtain rfl := Except.ok.inj h2
  simp only [mul_assoc, ← Finset.mul_sum, sum_swapMat] at e
  ext ⟨y, x⟩ ⟨Y, X⟩
  show star (n Y X y x) = n y x Y X
  exact (star_of_scale hc (e y x Y X) (e Y X y x)).symm

end apply

end AceTN
