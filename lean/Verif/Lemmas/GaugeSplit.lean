import Verif.Spec.Gauge
import Verif.Lemmas.SvdGauge
import Verif.Lemmas.SimpleSplit
import Verif.Lemmas.LegChange

/-!
The split of a bond in the simple update, in two equivalent networks.
-/

set_option autoImplicit false

namespace AceTN

open Matrix Spec SumTac Simple Full

variable {𝕜 : Type} [RCLike 𝕜] {B P : Type} [Fintype B] [Fintype P] [DecidableEq B] [DecidableEq P]

namespace Spec

/-- The change of basis on the outer indices and the physical index of one site of a bond. -/
def outerTurn (Ga Gb Gc : Matrix B B 𝕜) (U : Matrix P P 𝕜) : Matrix ((B × B × B) × P) ((B × B × B) × P) 𝕜 :=
  kroneckerMap (· * ·) (kroneckerMap (· * ·) Ga (kroneckerMap (· * ·) Gb Gc)) U

end Spec

theorem outerTurn_unit {Ga Gb Gc : Matrix B B 𝕜} {U : Matrix P P 𝕜} (ha : Unit2 Ga) (hb : Unit2 Gb) (hc : Unit2 Gc) (hU : Unit2 U) :
    Unit2 (outerTurn Ga Gb Gc U) := (ha.kron (hb.kron hc)).kron hU

section pair

omit [DecidableEq B] [DecidableEq P] in
/-- A pair of neighbouring tensors in other bases. -/
theorem twoSite_turn [DecidableEq B] {σ : ScalarMap 𝕜} {t1 t2 : ℝ} {G0 G1 G2 G3 K0 K1 K3 : Matrix B B 𝕜} {U V : Matrix P P 𝕜}
    {a1 a1' a2 a2' : ATensor B P 𝕜} (h0 : Unit2 G0)
    (h1 : TenRel σ t1 G0 G1 G2 G3 U a1 a1') (h2 : TenRel σ t2 K0 K1 (G0.map star) K3 V a2 a2') (u₀ r₀ d₀ l₁ u₁ d₁ : B) (p₀ q₀ : P) :
    twoSite a1' a2' u₀ r₀ d₀ l₁ u₁ d₁ p₀ q₀ = ((t1 * t2 : ℝ) : 𝕜) * ∑ u, ∑ r, ∑ d, ∑ l', ∑ u', ∑ d', ∑ p, ∑ q,
      G1 u₀ u * G2 r₀ r * G3 d₀ d * K0 l₁ l' * K1 u₁ u' * K3 d₁ d' * U p₀ p * V q₀ q *
        σ.f (twoSite a1 a2 u r d l' u' d' p q) := by
  unfold twoSite
  simp only [h1 _ _ _ _ _, h2 _ _ _ _ _, map_sum σ.f, map_mul σ.f, map_apply]
  have key := unit_sum h0 fun a b => ∑ u, ∑ r, ∑ d, ∑ l', ∑ u', ∑ d', ∑ p, ∑ q,
      G1 u₀ u * G2 r₀ r * G3 d₀ d * K0 l₁ l' * K1 u₁ u' * K3 d₁ d' * U p₀ p * V q₀ q *
        (σ.f (a1 b u r d p) * σ.f (a2 l' u' a d' q))
  have e : ∀ F : B → B → B → B → P → 𝕜, ∀ F' : B → B → B → B → P → 𝕜,
      ∑ b, (∑ l, ∑ u, ∑ r, ∑ d, ∑ p, G0 b l * G1 u₀ u * G2 r₀ r * G3 d₀ d * U p₀ p * F l u r d p) *
        (∑ l, ∑ u, ∑ r, ∑ d, ∑ p, K0 l₁ l * K1 u₁ u * star (G0 b r) * K3 d₁ d * V q₀ p * F' l u r d p) =
      ∑ a, ∑ b, (∑ x, star (G0 x a) * G0 x b) * ∑ u, ∑ r, ∑ d, ∑ l', ∑ u', ∑ d', ∑ p, ∑ q,
        G1 u₀ u * G2 r₀ r * G3 d₀ d * K0 l₁ l' * K1 u₁ u' * K3 d₁ d' * U p₀ p * V q₀ q * (F b u r d p * F' l' u' a d' q) := by
    intro F F'
    einsum_ring
  have f : ∀ X Y : 𝕜, (t1 : 𝕜) * X * (t2 * Y) = ((t1 * t2 : ℝ) : 𝕜) * (X * Y) := by
    intro X Y
    push_cast
    ring
  simp only [f, ← Finset.mul_sum]
  rw [e (fun l u r d p => σ.f (a1 l u r d p)) fun l u r d p => σ.f (a2 l u r d p), key]
  congr 1
  einsum_ring

omit [Fintype B] [DecidableEq B] in
/-- A gate in other bases. -/
theorem gate_turn {σ : ScalarMap 𝕜} {U V : Matrix P P 𝕜} (hU : Unit2 U) (hV : Unit2 V) {gate gate' : P → P → P → P → 𝕜}
    (hg : TurnedOp2 σ U V gate gate') (F : P → P → 𝕜) (p₀ q₀ : P) :
    ∑ p, ∑ q, (∑ a, ∑ b, U p a * V q b * F a b) * gate' p q p₀ q₀ =
      ∑ a, ∑ b, U p₀ a * V q₀ b * ∑ p, ∑ q, F p q * σ.f (gate p q a b) := by
  have hm : (of fun i j : P × P => σ.f (gate i.1 i.2 j.1 j.2)) =
      (kroneckerMap (· * ·) U V)ᵀ * (of fun i j : P × P => gate' i.1 i.2 j.1 j.2) * (kroneckerMap (· * ·) U V).map star := by
    ext ⟨p, q⟩ ⟨r, s⟩
    simp only [of_apply, hg _ _ _ _, mul_apply, transpose_apply, map_apply, kroneckerMap_apply]
    einsum_ring
  have h1 : (kroneckerMap (· * ·) U V).map star * (kroneckerMap (· * ·) U V)ᵀ = 1 := by
    have := congrArg Matrix.transpose (hU.kron hV).right
    rw [transpose_mul, transpose_one] at this
    exact this
  have h2 : (of fun i j : P × P => σ.f (gate i.1 i.2 j.1 j.2)) * (kroneckerMap (· * ·) U V)ᵀ =
      (kroneckerMap (· * ·) U V)ᵀ * (of fun i j : P × P => gate' i.1 i.2 j.1 j.2) := by
    rw [hm, Matrix.mul_assoc, h1, Matrix.mul_one]
  have h3 : ∀ p q, ∑ a, ∑ b, σ.f (gate p q a b) * (U p₀ a * V q₀ b) = ∑ a, ∑ b, U a p * V b q * gate' a b p₀ q₀ := by
    intro p q
    have := congrFun (congrFun h2 (p, q)) (p₀, q₀)
    simpa only [mul_apply, transpose_apply, kroneckerMap_apply, of_apply, Fintype.sum_prod_type] using this
  calc _ = ∑ p, ∑ q, F p q * ∑ a, ∑ b, U a p * V b q * gate' a b p₀ q₀ := by einsum_ring
    _ = ∑ p, ∑ q, F p q * ∑ a, ∑ b, σ.f (gate p q a b) * (U p₀ a * V q₀ b) := by simp only [h3]
    _ = _ := by
      have e : ∀ g : P → P → P → P → 𝕜, ∑ p, ∑ q, F p q * ∑ a, ∑ b, g p q a b * (U p₀ a * V q₀ b) =
          ∑ a, ∑ b, U p₀ a * V q₀ b * ∑ p, ∑ q, F p q * g p q a b := by
        intro g
        einsum_ring
      exact e fun p q a b => σ.f (gate p q a b)

omit [DecidableEq B] [DecidableEq P] in
theorem outerTurn_sandwich (Ga Gb Gc Ka Kb Kc : Matrix B B 𝕜) (U V : Matrix P P 𝕜) (T₀ : B → B → B → B → B → B → P → P → 𝕜)
    (r₀ d₀ u₀ d₁ l₁ u₁ : B) (p₀ q₀ : P) :
    (outerTurn Ga Gb Gc U * twoMat T₀ * (outerTurn Ka Kb Kc V)ᵀ) ((r₀, d₀, u₀), p₀) ((d₁, l₁, u₁), q₀) =
      ∑ r, ∑ d, ∑ u, ∑ a, ∑ d', ∑ l', ∑ u', ∑ b, Ga r₀ r * (Gb d₀ d * Gc u₀ u) * U p₀ a * T₀ u r d l' u' d' a b *
        (Ka d₁ d' * (Kb l₁ l' * Kc u₁ u') * V q₀ b) := by
  simp only [mul_apply, transpose_apply, outerTurn, kroneckerMap_apply, twoMat, of_apply]
  einsum_ring

/-- The matrix that is decomposed. -/
theorem gated_turn {σ : ScalarMap 𝕜} {t1 t2 : ℝ} {G0 G1 G2 G3 K0 K1 K3 : Matrix B B 𝕜} {U V : Matrix P P 𝕜}
    {a1 a1' a2 a2' : ATensor B P 𝕜} (h0 : Unit2 G0) (hU : Unit2 U) (hV : Unit2 V)
    (h1 : TenRel σ t1 G0 G1 G2 G3 U a1 a1') (h2 : TenRel σ t2 K0 K1 (G0.map star) K3 V a2 a2') {gate gate' : P → P → P → P → 𝕜}
    (hg : TurnedOp2 σ U V gate gate') :
    twoMat (gated gate' (twoSite a1' a2')) = ((t1 * t2 : ℝ) : 𝕜) •
      (outerTurn G2 G3 G1 U * (twoMat (gated gate (twoSite a1 a2))).map σ.f * (outerTurn K3 K0 K1 V)ᵀ) := by
  ext ⟨⟨r₀, d₀, u₀⟩, p₀⟩ ⟨⟨d₁, l₁, u₁⟩, q₀⟩
  have hl : twoMat (gated gate' (twoSite a1' a2')) ((r₀, d₀, u₀), p₀) ((d₁, l₁, u₁), q₀) =
      ∑ p, ∑ q, twoSite a1' a2' u₀ r₀ d₀ l₁ u₁ d₁ p q * gate' p q p₀ q₀ := rfl
  rw [hl]
  simp only [twoSite_turn h0 h1 h2]
  have key := gate_turn hU hV hg (fun p q => ∑ u, ∑ r, ∑ d, ∑ l', ∑ u', ∑ d',
      G1 u₀ u * G2 r₀ r * G3 d₀ d * K0 l₁ l' * K1 u₁ u' * K3 d₁ d' * σ.f (twoSite a1 a2 u r d l' u' d' p q)) p₀ q₀
  have e : ∀ F : B → B → B → B → B → B → P → P → 𝕜, ∑ p, ∑ q, (((t1 * t2 : ℝ) : 𝕜) * ∑ u, ∑ r, ∑ d, ∑ l', ∑ u', ∑ d', ∑ a, ∑ b,
      G1 u₀ u * G2 r₀ r * G3 d₀ d * K0 l₁ l' * K1 u₁ u' * K3 d₁ d' * U p a * V q b * F u r d l' u' d' a b) * gate' p q p₀ q₀ =
      ((t1 * t2 : ℝ) : 𝕜) * ∑ p, ∑ q, (∑ a, ∑ b, U p a * V q b * ∑ u, ∑ r, ∑ d, ∑ l', ∑ u', ∑ d',
      G1 u₀ u * G2 r₀ r * G3 d₀ d * K0 l₁ l' * K1 u₁ u' * K3 d₁ d' * F u r d l' u' d' a b) * gate' p q p₀ q₀ := by
    intro F
    generalize ((t1 * t2 : ℝ) : 𝕜) = c
    rw [Finset.mul_sum]
    refine Finset.sum_congr rfl fun p _ => ?_
    rw [Finset.mul_sum]
    refine Finset.sum_congr rfl fun q _ => ?_
    rw [mul_assoc]
    congr 2
    einsum_ring
  rw [e fun u r d l' u' d' p q => σ.f (twoSite a1 a2 u r d l' u' d' p q), key, Matrix.smul_apply, smul_eq_mul]
  congr 1
  have e2 : ∀ F : B → B → B → B → B → B → P → P → 𝕜, ∀ g : P → P → P → P → 𝕜,
      ∑ a, ∑ b, U p₀ a * V q₀ b * ∑ p, ∑ q, (∑ u, ∑ r, ∑ d, ∑ l', ∑ u', ∑ d',
      G1 u₀ u * G2 r₀ r * G3 d₀ d * K0 l₁ l' * K1 u₁ u' * K3 d₁ d' * F u r d l' u' d' p q) * g p q a b =
      ∑ r, ∑ d, ∑ u, ∑ a, ∑ d', ∑ l', ∑ u', ∑ b, G2 r₀ r * (G3 d₀ d * G1 u₀ u) * U p₀ a * (∑ p, ∑ q, F u r d l' u' d' p q * g p q a b) *
        (K3 d₁ d' * (K0 l₁ l' * K1 u₁ u') * V q₀ b) := by
    intro F g
    einsum_ring
  rw [e2 (fun u r d l' u' d' p q => σ.f (twoSite a1 a2 u r d l' u' d' p q)) fun p q a b => σ.f (gate p q a b)]
  have e3 : (twoMat (gated gate (twoSite a1 a2))).map σ.f = twoMat fun u r d l' u' d' a b =>
      ∑ p, ∑ q, σ.f (twoSite a1 a2 u r d l' u' d' p q) * σ.f (gate p q a b) := by
    ext i j
    simp only [map_apply, twoMat, of_apply, gated, map_sum, map_mul]
  rw [e3, outerTurn_sandwich]

end pair

section split

variable {bD : ℕ} [NeZero bD] [Nonempty P]

/-- The bond weights that go with singular values, of which `bD` are kept. -/
noncomputable def keptWeights {r : ℕ} (hb : bD ≤ r) (S : Fin r → ℝ) (a : Fin bD) : ℝ :=
  Real.sqrt (S (Fin.castLE hb a) / Real.sqrt (∑ b, S (Fin.castLE hb b) ^ 2))

omit [NeZero bD] in
theorem keptWeights_scale {r : ℕ} (hb : bD ≤ r) (S : Fin r → ℝ) {t : ℝ} (ht : 0 < t) :
    keptWeights hb (fun i => t * S i) = keptWeights hb S := by
  funext a
  unfold keptWeights
  congr 1
  simp only [mul_pow, ← Finset.mul_sum]
  rw [Real.sqrt_mul (by positivity), Real.sqrt_sq ht.le, mul_div_mul_left _ _ ht.ne']

/-- The split of a bond is a decomposition of the gate-applied pair. -/
theorem splitBond_gaugeSvd (la : Lapack 𝕜) (gate : P → P → P → P → 𝕜) (a1 a2 : ATensor (Fin bD) P 𝕜) :
    ∃ U S Vh, IsSVD (twoMat (gated gate (twoSite a1 a2))) U S Vh ∧
      (∀ l u r d p, (splitBond la gate a1 a2).1 l u r d p = U ((r, d, u), p) (Fin.castLE (Simple.bD_le (P := P)) l) * (keptWeights (Simple.bD_le (P := P)) S l : 𝕜)) ∧
      (∀ l u r d p, (splitBond la gate a1 a2).2.1 l u r d p = Vh (Fin.castLE (Simple.bD_le (P := P)) r) ((d, l, u), p) * (keptWeights (Simple.bD_le (P := P)) S r : 𝕜)) ∧
      (splitBond la gate a1 a2).2.2 = keptWeights (Simple.bD_le (P := P)) S := by
  have hg := C30_gate la a1 a2 gate
  have hiso := C30_isometric la a1 a2
  have hs : splitBond la gate a1 a2 = ((recompose (decompose la a1 a2).a1q (splitReduced la Simple.bD_le (decompose la a1 a2).a1r (decompose la a1 a2).a2r gate).1
    (decompose la a1 a2).a2q (splitReduced la Simple.bD_le (decompose la a1 a2).a1r (decompose la a1 a2).a2r gate).2.1).1,
    (recompose (decompose la a1 a2).a1q (splitReduced la Simple.bD_le (decompose la a1 a2).a1r (decompose la a1 a2).a2r gate).1
    (decompose la a1 a2).a2q (splitReduced la Simple.bD_le (decompose la a1 a2).a1r (decompose la a1 a2).a2r gate).2.1).2,
    (splitReduced la Simple.bD_le (decompose la a1 a2).a1r (decompose la a1 a2).a2r gate).2.2) := rfl
  rw [hs]
  revert hg hiso
  generalize decompose la a1 a2 = d
  intro hg hiso
  dsimp only
  have i1 := outer_iso (P := P) d.a1q fun x y => (hiso x y).1
  have i2 := outer_iso (P := P) d.a2q fun x y => (hiso x y).2
  have hsvd := la.svd_ok (siteMat (gateReduced d.a1r d.a2r gate))
  have hr1 : ∀ y a p, (splitReduced la Simple.bD_le d.a1r d.a2r gate).1 y a p = (la.svd (siteMat (gateReduced d.a1r d.a2r gate))).1 (y, p)
      (Fin.castLE Simple.bD_le a) * (keptWeights Simple.bD_le (la.svd (siteMat (gateReduced d.a1r d.a2r gate))).2.1 a : 𝕜) := fun _ _ _ => rfl
  have hr2 : ∀ x a q, (splitReduced la Simple.bD_le d.a1r d.a2r gate).2.1 x a q = (la.svd (siteMat (gateReduced d.a1r d.a2r gate))).2.2
      (Fin.castLE Simple.bD_le a) (x, q) * (keptWeights Simple.bD_le (la.svd (siteMat (gateReduced d.a1r d.a2r gate))).2.1 a : 𝕜) := fun _ _ _ => rfl
  have hr3 : (splitReduced la Simple.bD_le d.a1r d.a2r gate).2.2 = keptWeights Simple.bD_le (la.svd (siteMat (gateReduced d.a1r d.a2r gate))).2.1 := rfl
  generalize la.svd (siteMat (gateReduced d.a1r d.a2r gate)) = sv at hsvd hr1 hr2 hr3
  have hsvd' := outer_svd d.a1q d.a2q i1 i2 _ _ _ _ hsvd
  rw [← twoMat_assembled, hg] at hsvd'
  refine ⟨_, _, _, hsvd', fun l₀ u₀ r₀ d₀ p₀ => ?_, fun l₀ u₀ r₀ d₀ p₀ => ?_, hr3⟩
  · show ∑ x, d.a1q r₀ d₀ u₀ x * _ = _
    rw [mul_apply, Fintype.sum_prod_type, Finset.sum_mul]
    refine Finset.sum_congr rfl fun x _ => ?_
    simp only [outer, of_apply, ite_mul, zero_mul, Finset.sum_ite_eq, Finset.mem_univ, if_true]
    rw [hr1]
    ring
  · show ∑ x, d.a2q d₀ l₀ u₀ x * _ = _
    rw [mul_apply, Fintype.sum_prod_type, Finset.sum_mul]
    refine Finset.sum_congr rfl fun x _ => ?_
    simp only [outer, transpose_apply, of_apply, mul_ite, mul_zero, Finset.sum_ite_eq, Finset.mem_univ, if_true]
    rw [hr2]
    ring

/-- The splits of a bond of two equivalent networks are equivalent, and give the same weights. -/
theorem splitBond_turn (la la' : Lapack 𝕜) {σ : ScalarMap 𝕜} {t1 t2 : ℝ} (ht1 : 0 < t1) (ht2 : 0 < t2)
    {G0 G1 G2 G3 K0 K1 K3 : Matrix (Fin bD) (Fin bD) 𝕜} {U V : Matrix P P 𝕜}
    {a1 a1' a2 a2' : ATensor (Fin bD) P 𝕜} (h0 : Unit2 G0) (g1 : Unit2 G1) (g2 : Unit2 G2) (g3 : Unit2 G3) (k0 : Unit2 K0)
    (k1 : Unit2 K1) (k3 : Unit2 K3) (hU : Unit2 U) (hV : Unit2 V)
    (h1 : TenRel σ t1 G0 G1 G2 G3 U a1 a1') (h2 : TenRel σ t2 K0 K1 (G0.map star) K3 V a2 a2') {gate gate' : P → P → P → P → 𝕜}
    (hg : TurnedOp2 σ U V gate gate') (hcut : NoTie bD (twoMat (gated gate (twoSite a1 a2)))) :
    (splitBond la' gate' a1' a2').2.2 = (splitBond la gate a1 a2).2.2 ∧
    ∃ W : Matrix (Fin bD) (Fin bD) 𝕜, Unit2 W ∧
      (∀ a b, W a b ≠ 0 → (splitBond la gate a1 a2).2.2 a = (splitBond la gate a1 a2).2.2 b) ∧
      TenRel σ 1 W G1 G2 G3 U (splitBond la gate a1 a2).1 (splitBond la' gate' a1' a2').1 ∧
      TenRel σ 1 K0 K1 (W.map star) K3 V (splitBond la gate a1 a2).2.1 (splitBond la' gate' a1' a2').2.1 := by
  obtain ⟨X, S, Y, hsvd, e1, e2, e3⟩ := splitBond_gaugeSvd la gate a1 a2
  obtain ⟨X', S', Y', hsvd', e1', e2', e3'⟩ := splitBond_gaugeSvd la' gate' a1' a2'
  have hcut := hcut _ _ _ _ hsvd
  rw [gated_turn h0 hU hV h1 h2 hg] at hsvd'
  have ht : 0 < t1 * t2 := mul_pos ht1 ht2
  have hsvd := svd_turned hsvd σ (outerTurn_unit g2 g3 g1 hU) (outerTurn_unit k3 k0 k1 hV).transpose ht
  obtain rfl := svd_values hsvd' hsvd
  rw [keptWeights_scale _ _ ht] at e3'
  simp only [keptWeights_scale _ _ ht] at e1' e2'
  obtain ⟨W, hW, hWS, w1, w2⟩ := svd_weighted hsvd hsvd' bD Simple.bD_le (fun i j hi hj => by
    rcases hcut i j hi hj with h | h
    · left
      rw [h, mul_zero]
    · right
      exact mul_lt_mul_of_pos_left h ht) (fun s => ((Real.sqrt (s / (t1 * t2) / Real.sqrt (∑ b, S (Fin.castLE (Simple.bD_le (P := P)) b) ^ 2)) : ℝ) : 𝕜))
    (by simp)
  have hf : ∀ a, Real.sqrt (t1 * t2 * S (Fin.castLE (Simple.bD_le (P := P)) a) / (t1 * t2) / Real.sqrt (∑ b, S (Fin.castLE (Simple.bD_le (P := P)) b) ^ 2)) =
      keptWeights (Simple.bD_le (P := P)) S a := by
    intro a
    rw [mul_div_cancel_left₀ _ ht.ne']
    rfl
  simp only [hf] at w1 w2
  refine ⟨e3'.trans e3.symm, Wᵀ, hW.transpose, ?_, ?_, ?_⟩
  · intro a b hab
    rw [e3]
    have := mul_left_cancel₀ ht.ne' (hWS b a hab)
    unfold keptWeights
    rw [this]
  · intro l₀ u₀ r₀ d₀ p₀
    rw [e1', w1]
    simp only [e1, map_mul σ.f, σ.real]
    rw [RCLike.ofReal_one, one_mul]
    have e : ∀ F : Fin bD → Fin bD → Fin bD → P → Fin bD → 𝕜, ∀ w : Fin bD → 𝕜,
        ∑ b, W b l₀ * ((∑ i : (Fin bD × Fin bD × Fin bD) × P, G2 r₀ i.1.1 * (G3 d₀ i.1.2.1 * G1 u₀ i.1.2.2) * U p₀ i.2 *
          F i.1.1 i.1.2.1 i.1.2.2 i.2 b) * w b) =
        ∑ l, ∑ u, ∑ r, ∑ d, ∑ p, W l l₀ * G1 u₀ u * G2 r₀ r * G3 d₀ d * U p₀ p * (F r d u p l * w l) := by
      intro F w
      einsum_ring
    exact e (fun r d u p b => σ.f (X ((r, d, u), p) (Fin.castLE Simple.bD_le b))) fun a => (keptWeights Simple.bD_le S a : 𝕜)
  · intro l₀ u₀ r₀ d₀ p₀
    rw [e2', w2]
    simp only [e2, map_mul σ.f, σ.real]
    rw [RCLike.ofReal_one, one_mul]
    have e : ∀ F : Fin bD → Fin bD → Fin bD → P → Fin bD → 𝕜, ∀ w : Fin bD → 𝕜,
        ∑ b, star (W b r₀) * ((∑ i : (Fin bD × Fin bD × Fin bD) × P, F i.1.1 i.1.2.1 i.1.2.2 i.2 b *
          (K3 d₀ i.1.1 * (K0 l₀ i.1.2.1 * K1 u₀ i.1.2.2) * V p₀ i.2)) * w b) =
        ∑ l, ∑ u, ∑ r, ∑ d, ∑ p, K0 l₀ l * K1 u₀ u * star (W r r₀) * K3 d₀ d * V p₀ p * (F d l u p r * w r) := by
      intro F w
      einsum_ring
    exact e (fun d l u p b => σ.f (Y (Fin.castLE Simple.bD_le b) ((d, l, u), p))) fun a => (keptWeights Simple.bD_le S a : 𝕜)

end split

end AceTN
