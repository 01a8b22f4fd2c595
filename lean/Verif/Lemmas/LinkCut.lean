import Verif.Lemmas.LegChange
import Verif.Lemmas.WiredMove

/-!
Quarter tensors and projectors of two related networks.
-/

set_option autoImplicit false

namespace AceTN

open Matrix Spec Finset SumTac

variable {𝕜 : Type} [RCLike 𝕜] {B P : Type} [Fintype B] [Fintype P] [DecidableEq B]

section norms

omit [Fintype B] [Fintype P] [DecidableEq B] in
theorem maxNormalise_scale {m n : Type} [Fintype m] [Fintype n] (A : Matrix m n 𝕜) :
    ∃ s : ℝ, 0 < s ∧ maxNormalise A = (s : 𝕜) • A := by
  by_cases h : A = 0
  · exact ⟨1, one_pos, by rw [h, maxNormalise_zero, smul_zero]⟩
  · exact ⟨(maxAbs A)⁻¹, inv_pos.2 (maxAbs_pos A h), rfl⟩

end norms

omit [DecidableEq B] in
theorem quarterCore_entry {xa xb xc xe : Type} [Fintype xa] [Fintype xb] (c : xa → xb → 𝕜) (e1 : xe → xa → B → B → 𝕜)
    (e2 : xb → xc → B → B → 𝕜) (A₀ : ATensor B P 𝕜) (x : xc) (g : B × B) (y : xe) (h : B × B) :
    quarterCore c e1 e2 A₀ (x, g) (y, h) = ∑ i, ∑ j, ∑ l : B × B, ∑ u : B × B,
      c i j * e1 y i l.1 l.2 * e2 j x u.1 u.2 * layer A₀ none l u g h := by
  obtain ⟨g, g'⟩ := g
  obtain ⟨h, h'⟩ := h
  unfold quarterCore layer
  dsimp only [of_apply]
  einsum_ring

theorem pair_sandwich {G xa xb ya yb : Type} [Fintype G] [Fintype xa] [Fintype xb] (J : Matrix ya xa 𝕜) (K : Matrix yb xb 𝕜)
    (Γ Λ : Matrix G G 𝕜) (M : Matrix (xa × G) (xb × G) 𝕜) (y : ya) (g : G) (z : yb) (h : G) :
    (pairMat J Γ * M * (pairMat K (Λ.map star))ᴴ) (y, g) (z, h) =
      ∑ k, ∑ r, ∑ e, ∑ d, J y k * Γ g r * (star (K z e) * Λ h d) * M (k, r) (e, d) := by
  simp only [mul_apply, pairMat, of_apply, conjTranspose_apply, map_apply, star_mul', star_star]
  einsum_ring

/-- Two tensors with four legs are the same up to a factor and changes of basis. -/
def LayRel {G : Type} [Fintype G] (σ : ScalarMap 𝕜) (t : ℝ) (Γ0 Γ1 Γ2 Γ3 : Matrix G G 𝕜) (lay lay' : G → G → G → G → 𝕜) : Prop :=
  ∀ l u r d, lay' l u r d = t * ∑ l', ∑ u', ∑ r', ∑ d', Γ0 l l' * Γ1 u u' * Γ2 r r' * Γ3 d d' * σ.f (lay l' u' r' d')

omit [DecidableEq B] in
theorem quarterCore_rel (σ : ScalarMap 𝕜) (A Bl C E : Link 𝕜) {Γ0 Γ1 Γ2 Γ3 : Matrix (B × B) (B × B) 𝕜} [DecidableEq B] (g0 : Unit2 Γ0)
    (g1 : Unit2 Γ1) {c : Fin A.m → Fin Bl.m → 𝕜} {c' : Fin A.m' → Fin Bl.m' → 𝕜} {e1 : Fin E.m → Fin A.m → B → B → 𝕜}
    {e1' : Fin E.m' → Fin A.m' → B → B → 𝕜} {e2 : Fin Bl.m → Fin C.m → B → B → 𝕜} {e2' : Fin Bl.m' → Fin C.m' → B → B → 𝕜}
    {a a' : ATensor B P 𝕜} {tc t1 t2 ta : ℝ}
    (hc : ∀ i j, c' i j = tc * ∑ x, ∑ y, star (A.J i x) * Bl.J j y * σ.f (c x y))
    (h1 : ∀ i j g, e1' i j g.1 g.2 = t1 * ∑ x, ∑ y, ∑ h, star (E.J i x) * A.J j y * star (Γ0 g h) * σ.f (e1 x y h.1 h.2))
    (h2 : ∀ i j g, e2' i j g.1 g.2 = t2 * ∑ x, ∑ y, ∑ h, star (Bl.J i x) * C.J j y * star (Γ1 g h) * σ.f (e2 x y h.1 h.2))
    (ha : LayRel σ ta Γ0 Γ1 Γ2 Γ3 (layer a none) (layer a' none)) :
    quarterCore c' e1' e2' a' = ((tc * t1 * t2 * ta : ℝ) : 𝕜) •
      (pairMat C.J Γ2 * (quarterCore c e1 e2 a).map σ.f * (pairMat E.J (Γ3.map star))ᴴ) := by
  ext ⟨γ, ρ⟩ ⟨ε, δ⟩
  rw [quarterCore_entry, Matrix.smul_apply, pair_sandwich, smul_eq_mul]
  have key := quarter_change C.J E.J Γ2 Γ3 A.unit Bl.unit g0 g1 (fun x y => σ.f (c x y)) (fun x y h => σ.f (e1 x y h.1 h.2))
    (fun x y h => σ.f (e2 x y h.1 h.2)) (fun l u r d => σ.f (layer a none l u r d)) γ ε ρ δ
  have e : ∀ (k : Fin C.m) (r : B × B) (y : Fin E.m) (d : B × B), (quarterCore c e1 e2 a).map σ.f (k, r) (y, d) =
      ∑ i, ∑ j, ∑ l : B × B, ∑ u : B × B, σ.f (c i j) * σ.f (e1 y i l.1 l.2) * σ.f (e2 j k u.1 u.2) * σ.f (layer a none l u r d) := by
    intro k r y d
    rw [map_apply, quarterCore_entry]
    simp only [map_sum, map_mul]
  simp only [e]
  rw [← key]
  simp only [hc, h1, h2, ha _ _ _ _]
  have f : ∀ X Y Z T : 𝕜, (tc : 𝕜) * X * (t1 * Y) * (t2 * Z) * (ta * T) = ((tc * t1 * t2 * ta : ℝ) : 𝕜) * (X * Y * Z * T) := by
    intro X Y Z T
    push_cast
    ring
  simp only [f, ← mul_sum]

/-- The same with a pair of physical indices. -/
def OpenRel {G O : Type} [Fintype G] [Fintype O] (σ : ScalarMap 𝕜) (t : ℝ) (Φ : Matrix O O 𝕜) (Γ0 Γ1 Γ2 Γ3 : Matrix G G 𝕜)
    (lay lay' : O → G → G → G → G → 𝕜) : Prop :=
  ∀ o l u r d, lay' o l u r d =
    t * ∑ q, ∑ l', ∑ u', ∑ r', ∑ d', Φ o q * (Γ0 l l' * Γ1 u u' * Γ2 r r' * Γ3 d d') * σ.f (lay q l' u' r' d')

theorem open_rotate {G O : Type} [Fintype G] [Fintype O] {σ : ScalarMap 𝕜} {t : ℝ} {Φ : Matrix O O 𝕜} {Γ0 Γ1 Γ2 Γ3 : Matrix G G 𝕜}
    {lay lay' : O → G → G → G → G → 𝕜} (h : OpenRel σ t Φ Γ0 Γ1 Γ2 Γ3 lay lay') :
    OpenRel σ t Φ Γ1 Γ2 Γ3 Γ0 (fun o l u r d => lay o d l u r) (fun o l u r d => lay' o d l u r) := by
  intro o l u r d
  have e : ∀ F : O → G → G → G → G → 𝕜,
      ∑ q, ∑ d', ∑ l', ∑ u', ∑ r', Φ o q * (Γ0 d d' * Γ1 l l' * Γ2 u u' * Γ3 r r') * F q d' l' u' r' =
      ∑ q, ∑ l', ∑ u', ∑ r', ∑ d', Φ o q * (Γ1 l l' * Γ2 u u' * Γ3 r r' * Γ0 d d') * F q d' l' u' r' := by
    intro F
    einsum_ring
  show lay' o d l u r = _
  rw [h, e fun q l u r d => σ.f (lay q l u r d)]

omit [DecidableEq B] in
theorem open_turn {σ : ScalarMap 𝕜} {t : ℝ} {Φ : Matrix (P × P) (P × P) 𝕜} {Γ : Fin 4 → Matrix (B × B) (B × B) 𝕜} {a a' : ATensor B P 𝕜}
    (h : OpenRel σ t Φ (Γ 0) (Γ 1) (Γ 2) (Γ 3) (fun o => layer a (some o)) (fun o => layer a' (some o))) (K : Fin 4) :
    OpenRel σ t Φ (Γ K) (Γ (K + 1)) (Γ (K + 2)) (Γ (K + 3)) (fun o => layer (bondPermute K.val a) (some o))
      (fun o => layer (bondPermute K.val a') (some o)) := by
  have step : ∀ K : Fin 4, OpenRel σ t Φ (Γ K) (Γ (K + 1)) (Γ (K + 2)) (Γ (K + 3)) (fun o => layer (bondPermute K.val a) (some o))
      (fun o => layer (bondPermute K.val a') (some o)) →
      OpenRel σ t Φ (Γ (K + 1)) (Γ (K + 2)) (Γ (K + 3)) (Γ K) (fun o => layer (bondPermute (K + 1).val a) (some o))
      (fun o => layer (bondPermute (K + 1).val a') (some o)) := by
    intro K h
    simp only [layer_turn]
    exact open_rotate h
  have h0 : OpenRel σ t Φ (Γ 0) (Γ 1) (Γ 2) (Γ 3) (fun o => layer (bondPermute ((0 : Fin 4).val : ℤ) a) (some o))
      (fun o => layer (bondPermute ((0 : Fin 4).val : ℤ) a') (some o)) := by
    have e : ∀ b : ATensor B P 𝕜, bondPermute ((0 : Fin 4).val : ℤ) b = b := fun b => bondPermute_zero b
    rw [e, e]
    exact h
  have h1 := step 0 h0
  have h2 := step 1 h1
  have h3 := step 2 h2
  match K with
  | 0 => exact h0
  | 1 => exact h1
  | 2 => exact h2
  | 3 => exact h3

omit [Fintype B] [DecidableEq B] in
theorem layer_trace (a : ATensor B P 𝕜) (l u r d : B × B) : layer a none l u r d = ∑ p, layer a (some (p, p)) l u r d := rfl

omit [DecidableEq B] in
theorem open_closed [DecidableEq P] {σ : ScalarMap 𝕜} {t : ℝ} {Φ : Matrix (P × P) (P × P) 𝕜} {Γ0 Γ1 Γ2 Γ3 : Matrix (B × B) (B × B) 𝕜}
    {a a' : ATensor B P 𝕜} (hΦ : KeepsTrace Φ)
    (h : OpenRel σ t Φ Γ0 Γ1 Γ2 Γ3 (fun o => layer a (some o)) (fun o => layer a' (some o))) :
    LayRel σ t Γ0 Γ1 Γ2 Γ3 (layer a none) (layer a' none) := by
  intro l u r d
  rw [layer_trace, sum_congr rfl fun p _ => h (p, p) l u r d, ← mul_sum]
  congr 1
  have e : ∀ F : P × P → B × B → B × B → B × B → B × B → 𝕜,
      ∑ p, ∑ q, ∑ l', ∑ u', ∑ r', ∑ d', Φ (p, p) q * (Γ0 l l' * Γ1 u u' * Γ2 r r' * Γ3 d d') * F q l' u' r' d' =
      ∑ l', ∑ u', ∑ r', ∑ d', Γ0 l l' * Γ1 u u' * Γ2 r r' * Γ3 d d' * ∑ p, F (p, p) l' u' r' d' := by
    intro F
    rw [sum_comm]
    have e1 : ∀ q : P × P, ∑ p, ∑ l', ∑ u', ∑ r', ∑ d', Φ (p, p) q * (Γ0 l l' * Γ1 u u' * Γ2 r r' * Γ3 d d') * F q l' u' r' d' =
        if q.1 = q.2 then ∑ l', ∑ u', ∑ r', ∑ d', (Γ0 l l' * Γ1 u u' * Γ2 r r' * Γ3 d d') * F q l' u' r' d' else 0 := by
      intro q
      have := hΦ q
      calc _ = ∑ p, Φ (p, p) q * ∑ l', ∑ u', ∑ r', ∑ d', (Γ0 l l' * Γ1 u u' * Γ2 r r' * Γ3 d d') * F q l' u' r' d' := by
            simp only [mul_sum, mul_assoc]
        _ = _ := by
            rw [← sum_mul, this, ite_mul, one_mul, zero_mul]
    rw [sum_congr rfl fun q _ => e1 q, Fintype.sum_prod_type]
    simp only [sum_ite_eq, mem_univ, if_true]
    simp only [mul_sum]
    rw [sum_comm]
    refine sum_congr rfl fun _ _ => ?_
    rw [sum_comm]
    refine sum_congr rfl fun _ _ => ?_
    rw [sum_comm]
    refine sum_congr rfl fun _ _ => ?_
    rw [sum_comm]
  rw [e fun q l u r d => σ.f (layer a (some q) l u r d)]
  refine sum_congr rfl fun _ _ => sum_congr rfl fun _ _ => sum_congr rfl fun _ _ => sum_congr rfl fun _ _ => ?_
  rw [layer_trace, map_sum]

section pair

variable {m n m' n' : Type} [Fintype m] [Fintype n] [Fintype m'] [Fintype n'] [DecidableEq m] [DecidableEq n] [DecidableEq m']
  [DecidableEq n']

/-- Two projectors up to a factor and changes of basis: `J` on the old bond, `Γ` on the two layers, `L` on the new bond. -/
def ProjRel (σ : ScalarMap 𝕜) (t : ℝ) (A L : Link 𝕜) (Γ : Matrix (B × B) (B × B) 𝕜) (p : Fin A.m → B → B → Fin L.m → 𝕜)
    (p' : Fin A.m' → B → B → Fin L.m' → 𝕜) : Prop :=
  ∀ x g z, p' x g.1 g.2 z = t * ∑ i, ∑ h, ∑ w, star (A.J x i) * Γ g h * L.J z w * σ.f (p i h.1 h.2 w)

/-- The second projector has the complex conjugate changes of basis. -/
def ProjRel2 (σ : ScalarMap 𝕜) (t : ℝ) (A L : Link 𝕜) (Γ : Matrix (B × B) (B × B) 𝕜) (p : Fin A.m → B → B → Fin L.m → 𝕜)
    (p' : Fin A.m' → B → B → Fin L.m' → 𝕜) : Prop :=
  ∀ x g z, p' x g.1 g.2 z = t * ∑ i, ∑ h, ∑ w, A.J x i * star (Γ g h) * star (L.J z w) * σ.f (p i h.1 h.2 w)

omit [Fintype m] [DecidableEq m] [DecidableEq n] [DecidableEq m'] [DecidableEq n'] [DecidableEq B] in
theorem pair_left {a : Type} (J : Matrix m n 𝕜) (K : Matrix (B × B) (B × B) 𝕜) (M : Matrix (n × B × B) n' 𝕜) (N : Matrix n' a 𝕜)
    (x : m) (g : B × B) (z : a) :
    (pairMat J K * M * N) (x, g) z = ∑ i, ∑ h, ∑ w, J x i * K g h * N w z * M (i, h) w := by
  rw [Matrix.mul_apply]
  simp only [Matrix.mul_apply, Finset.sum_mul]
  rw [Finset.sum_comm, Fintype.sum_prod_type]
  refine Finset.sum_congr rfl fun i _ => Finset.sum_congr rfl fun h _ => Finset.sum_congr rfl fun w _ => ?_
  change J x i * K g h * M (i, h) w * N w z = _
  ring

omit [Fintype P] in
theorem projFromSvd_rel (σ : ScalarMap 𝕜) (cutoff : ℝ) (hc : 0 ≤ cutoff) (chi : ℕ) (A : Link 𝕜)
    (Γ : Matrix (B × B) (B × B) 𝕜) (hΓ : Unit2 Γ) {J : Matrix m' m 𝕜} {K : Matrix n' n 𝕜} (hJ : Unit2 J) (hK : Unit2 K)
    (R1 : Matrix m (Fin A.m × B × B) 𝕜) (R2 : Matrix (Fin A.m × B × B) n 𝕜) (R1' : Matrix m' (Fin A.m' × B × B) 𝕜)
    (R2' : Matrix (Fin A.m' × B × B) n' 𝕜) (t1 t2 : ℝ) (ht1 : 0 < t1) (ht2 : 0 < t2)
    (h1 : R1' = (t1 : 𝕜) • (J * R1.map σ.f * (pairMat A.J (Γ.map star))ᴴ))
    (h2 : R2' = (t2 : 𝕜) • (pairMat A.J (Γ.map star) * R2.map σ.f * Kᴴ)) {r r' : ℕ} (hr : r' = r)
    (x : LowRank m n r 𝕜) (x' : LowRank m' n' r' 𝕜) {s s' : ℝ} (hs : 0 < s) (hs' : 0 < s')
    (hx : IsSVD ((s : 𝕜) • (R1 * R2)) x.U x.S x.Vᴴ) (hx' : IsSVD ((s' : 𝕜) • (R1' * R2')) x'.U x'.S x'.Vᴴ)
    (hgap : Drop cutoff chi x.S) :
    ∃ (L : Link 𝕜) (p1 p2 : Fin A.m → B → B → Fin L.m → 𝕜) (p1' p2' : Fin A.m' → B → B → Fin L.m' → 𝕜),
      projFromSvd cutoff chi R1 R2 x = ⟨L.m, p1, p2⟩ ∧ projFromSvd cutoff chi R1' R2' x' = ⟨L.m', p1', p2'⟩ ∧
      ProjRel σ t1 A L Γ p1 p1' ∧ ProjRel2 σ t2 A L Γ p2 p2' := by
  have hG : Unit2 (pairMat A.J (Γ.map star)) := A.unit.pair hΓ.star
  have hA : (s' : 𝕜) • (R1' * R2') = ((s' * t1 * t2 / s : ℝ) : 𝕜) • (J * ((s : 𝕜) • (R1 * R2)).map σ.f * Kᴴ) := by
    have hσ : ((s : 𝕜) • (R1 * R2)).map σ.f = (s : 𝕜) • (R1.map σ.f * R2.map σ.f) := by
      rw [← Matrix.map_mul]
      ext i j
      simp only [Matrix.map_apply, Matrix.smul_apply, smul_eq_mul, map_mul, σ.real]
    rw [hσ, h1, h2]
    simp only [Matrix.smul_mul, Matrix.mul_smul, smul_smul]
    have e1 : J * R1.map σ.f * (pairMat A.J (Γ.map star))ᴴ * (pairMat A.J (Γ.map star) * R2.map σ.f * Kᴴ) =
        J * (R1.map σ.f * R2.map σ.f) * Kᴴ := by
      calc _ = J * R1.map σ.f * ((pairMat A.J (Γ.map star))ᴴ * pairMat A.J (Γ.map star)) * R2.map σ.f * Kᴴ := by
            simp only [Matrix.mul_assoc]
        _ = _ := by
            rw [hG.left, Matrix.mul_one]
            simp only [Matrix.mul_assoc]
    rw [e1]
    congr 1
    have : (s : 𝕜) ≠ 0 := RCLike.ofReal_ne_zero.2 hs.ne'
    push_cast
    field_simp
  obtain ⟨W, hW, w1, w2⟩ := proj_equiv σ cutoff hc chi hx hx' hJ hK _ (by positivity) hr hA hgap R1 R2 R1' R2' _ t1 t2 h1 h2
  rw [conjTranspose_conjTranspose, conjTranspose_conjTranspose] at w2
  refine ⟨⟨_, _, W, hW⟩, _, _, _, _, rfl, rfl, ?_, ?_⟩
  · intro x g z
    refine (congrFun (congrFun w1 (x, g)) z).trans ?_
    have e : (pairMat A.J (Γ.map star)).map star = pairMat (A.J.map star) Γ := by
      ext i j
      simp [pairMat]
    rw [e, Matrix.smul_apply, pair_left]
    rfl
  · intro x g z
    refine (congrFun (congrFun w2 (x, g)) z).trans ?_
    rw [Matrix.smul_apply, pair_left]
    rfl

end pair

end AceTN
