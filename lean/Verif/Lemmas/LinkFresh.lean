import Verif.Lemmas.LinkRead

/-!
Networks that are related at the start: a network and itself, and networks with freshly initialised boundary tensors.
-/

set_option autoImplicit false

namespace AceTN

open Matrix Spec Finset SumTac

variable {𝕜 : Type} [RCLike 𝕜]

theorem Unit2.one {n : Type} [Fintype n] [DecidableEq n] : Unit2 (1 : Matrix n n 𝕜) := ⟨by simp, by simp⟩

/-- The bond on which nothing is changed. -/
def idLink (𝕜 : Type) [RCLike 𝕜] (m : ℕ) : Link 𝕜 := ⟨m, m, 1, Unit2.one⟩

theorem keepsTrace_one {P : Type} [Fintype P] [DecidableEq P] : KeepsTrace (1 : Matrix (P × P) (P × P) 𝕜) := by
  intro q
  simp only [one_apply, Prod.ext_iff]
  by_cases h : q.1 = q.2
  · rw [if_pos h, sum_eq_single q.1]
    · rw [if_pos ⟨rfl, h⟩]
    · exact fun b _ hb => if_neg fun h' => hb h'.1
    · exact fun h' => absurd (mem_univ _) h'
  · rw [if_neg h]
    exact sum_eq_zero fun p _ => if_neg fun h' => h (h'.1.symm.trans h'.2)

section self

variable {B P : Type} [Fintype B] [Fintype P] [DecidableEq B] [DecidableEq P]

theorem one_star {n : Type} [DecidableEq n] (i j : n) : star ((1 : Matrix n n 𝕜) i j) = (1 : Matrix n n 𝕜) i j := by
  by_cases h : i = j
  · rw [h, one_apply_eq, star_one]
  · rw [one_apply_ne h, star_zero]

theorem siteRel_self (a : ATensor B P 𝕜) : SiteRel (ScalarMap.id 𝕜) 1 (fun _ => 1) (Ten.site a) (.site a) := by
  refine ⟨a, a, 1, rfl, rfl, one_pos, fun o l u r d => ?_⟩
  show _ = _ * ∑ q, ∑ l', ∑ u', ∑ r', ∑ d', _ * _ * layer a (some q) l' u' r' d'
  simp only [one_apply, ite_mul, mul_ite, one_mul, mul_one, zero_mul, mul_zero, sum_ite_eq, mem_univ, if_true,
    RCLike.ofReal_one]

omit [Fintype B] [Fintype P] [DecidableEq B] [DecidableEq P] in
theorem cornerRel_self {m n : ℕ} (c : Fin m → Fin n → 𝕜) :
    CornerRel (ScalarMap.id 𝕜) (idLink 𝕜 m) (idLink 𝕜 n) (Ten.corner m n c : Ten B P 𝕜) (.corner m n c) := by
  refine ⟨c, c, 1, rfl, rfl, one_pos, fun (i : Fin m) (j : Fin n) => ?_⟩
  show c i j = _ * ∑ x : Fin m, ∑ y : Fin n, star ((1 : Matrix (Fin m) (Fin m) 𝕜) i x) * (1 : Matrix (Fin n) (Fin n) 𝕜) j y * c x y
  simp only [one_star]
  simp only [one_apply, ite_mul, mul_ite, one_mul, mul_one, zero_mul, mul_zero, sum_ite_eq, mem_univ, if_true, RCLike.ofReal_one]

omit [Fintype P] [DecidableEq P] in
theorem edgeRel_self {m n : ℕ} (e : Fin m → Fin n → B → B → 𝕜) :
    EdgeRel (ScalarMap.id 𝕜) (idLink 𝕜 m) (idLink 𝕜 n) 1 (Ten.edge m n e : Ten B P 𝕜) (.edge m n e) := by
  refine ⟨e, e, 1, rfl, rfl, one_pos, fun (i : Fin m) (j : Fin n) g => ?_⟩
  show e i j g.1 g.2 = _ * ∑ x : Fin m, ∑ y : Fin n, ∑ h : B × B, star ((1 : Matrix (Fin m) (Fin m) 𝕜) i x) *
    (1 : Matrix (Fin n) (Fin n) 𝕜) j y * star ((1 : Matrix (B × B) (B × B) 𝕜) g h) * e x y h.1 h.2
  simp only [one_star]
  simp only [one_apply, ite_mul, mul_ite, one_mul, mul_one, zero_mul, mul_zero, sum_ite_eq, mem_univ, if_true, RCLike.ofReal_one]

/-- A network is related to itself. -/
theorem related_self {net : Net (Ten B P 𝕜)} {f : Site → ℕ → ℕ} (hw : Wired net f) (hx : 0 < net.nx) (hy : 0 < net.ny) :
    Related (ScalarMap.id 𝕜) (fun _ => 1) (fun _ _ => 1) (fun p k => idLink 𝕜 (f (cellSite net.nx net.ny p) k.val)) net net where
  nx := rfl
  ny := rfl
  chi := rfl
  trace _ := keepsTrace_one
  unit _ _ := Unit2.one
  bond _ _ := by
    ext i j
    exact (one_star i j).symm
  site p := by
    obtain ⟨a, ha⟩ := wired_site hw hx hy p
    rw [ha]
    exact siteRel_self a
  corner p k := by
    obtain ⟨c, hc⟩ := wired_corner hw hx hy p _ k _ rfl rfl
    rw [hc]
    exact cornerRel_self c
  edge p k := by
    obtain ⟨e, he⟩ := wired_edge hw hx hy p _ k rfl
    rw [he]
    exact edgeRel_self e

end self

section fresh

variable {B P : Type} [Fintype B] [Fintype P]

theorem trace_sum {G : Type} [Fintype G] [DecidableEq G] {Γ : Matrix (G × G) (G × G) 𝕜} (h : KeepsTrace Γ) (F : G × G → 𝕜) :
    ∑ q, (∑ b, Γ (b, b) q) * F q = ∑ b, F (b, b) := by
  simp only [h _, ite_mul, one_mul, zero_mul]
  rw [Fintype.sum_prod_type]
  simp only [sum_ite_eq, mem_univ, if_true]

theorem initialCorner_entry (a : ATensor B P 𝕜) (k : ℤ) :
    initialCorner a k = normalise2 fun d r => ∑ l, ∑ u, layer (bondPermute k a) none (l, l) (u, u) r d := by
  unfold initialCorner layer
  dsimp only
  congr 1

theorem initialEdge_entry (a : ATensor B P 𝕜) (k : ℤ) :
    initialEdge a k = normalise4 fun l r d d' => ∑ u, layer (bondPermute k a) none l (u, u) r (d, d') := by
  unfold initialEdge layer
  dsimp only
  congr 1

theorem corner_legs {G O : Type} [Fintype G] [Fintype O] (T0 T1 : O → G → 𝕜) (r0 d0 : G → 𝕜) (F : G → G → G → G → 𝕜) :
    ∑ b, ∑ b', ∑ l, ∑ u, ∑ r, ∑ d, T0 b l * T1 b' u * r0 r * d0 d * F l u r d =
      ∑ l, (∑ b, T0 b l) * ∑ u, (∑ b, T1 b u) * ∑ d, ∑ r, d0 d * r0 r * F l u r d := by
  einsum_ring

theorem edge_legs {G O : Type} [Fintype G] [Fintype O] (T1 : O → G → 𝕜) (l0 r0 d0 : G → 𝕜) (F : G → G → G → G → 𝕜) :
    ∑ b', ∑ l, ∑ u, ∑ r, ∑ d, l0 l * T1 b' u * r0 r * d0 d * F l u r d =
      ∑ u, (∑ b, T1 b u) * ∑ l, ∑ r, ∑ d, l0 l * r0 r * d0 d * F l u r d := by
  einsum_ring

theorem corner_out {G O : Type} [Fintype G] [Fintype O] (r0 d0 : G → 𝕜) (F : O → O → G → G → 𝕜) :
    ∑ l, ∑ u, ∑ d, ∑ r, d0 d * r0 r * F l u r d = ∑ d, ∑ r, d0 d * r0 r * ∑ l, ∑ u, F l u r d := by
  einsum_ring

theorem edge_out {G O : Type} [Fintype G] [Fintype O] (l0 r0 d0 : G → 𝕜) (F : G → O → G → G → 𝕜) :
    ∑ u, ∑ l, ∑ r, ∑ d, l0 l * r0 r * d0 d * F l u r d = ∑ l, ∑ r, ∑ d, l0 l * r0 r * d0 d * ∑ u, F l u r d := by
  einsum_ring

theorem initialCorner_rel [DecidableEq B] {σ : ScalarMap 𝕜} {t : ℝ} {Γ0 Γ1 Γ2 Γ3 : Matrix (B × B) (B × B) 𝕜} {a a' : ATensor B P 𝕜} {k : ℤ}
    (ht : 0 < t) (g0 : KeepsTrace Γ0) (g1 : KeepsTrace Γ1)
    (h : LayRel σ t Γ0 Γ1 Γ2 Γ3 (layer (bondPermute k a) none) (layer (bondPermute k a') none)) :
    ∃ s : ℝ, 0 < s ∧ ∀ d r, initialCorner a' k d r = s * ∑ d', ∑ r', Γ3 d d' * Γ2 r r' * σ.f (initialCorner a k d' r') := by
  rw [initialCorner_entry, initialCorner_entry]
  obtain ⟨s, hs, es⟩ := normalise2_scale fun d r => ∑ l, ∑ u, layer (bondPermute k a) none (l, l) (u, u) r d
  obtain ⟨s', hs', es'⟩ := normalise2_scale fun d r => ∑ l, ∑ u, layer (bondPermute k a') none (l, l) (u, u) r d
  refine ⟨s' * t / s, by positivity, fun d r => ?_⟩
  rw [es']
  have hsn : (s : 𝕜) ≠ 0 := RCLike.ofReal_ne_zero.2 hs.ne'
  have e1 : ∑ l, ∑ u, layer (bondPermute k a') none (l, l) (u, u) r d =
      t * ∑ d', ∑ r', Γ3 d d' * Γ2 r r' * σ.f (∑ l, ∑ u, layer (bondPermute k a) none (l, l) (u, u) r' d') := by
    simp only [h _ _ _ _, ← mul_sum]
    congr 1
    rw [corner_legs (fun b l => Γ0 (b, b) l) (fun b u => Γ1 (b, b) u) (fun r' => Γ2 r r') (fun d' => Γ3 d d')
      (fun l u r d => σ.f (layer (bondPermute k a) none l u r d)), trace_sum g0, sum_congr rfl fun b _ => trace_sum g1 _]
    rw [corner_out (fun r' => Γ2 r r') (fun d' => Γ3 d d')
      (fun l u r d => σ.f (layer (bondPermute k a) none (l, l) (u, u) r d))]
    simp only [map_sum]
  rw [e1, mul_sum, mul_sum, mul_sum]
  refine sum_congr rfl fun d' _ => ?_
  rw [mul_sum, mul_sum, mul_sum]
  refine sum_congr rfl fun r' _ => ?_
  rw [es, map_mul, σ.real]
  push_cast
  field_simp

theorem initialEdge_rel [DecidableEq B] {σ : ScalarMap 𝕜} {t : ℝ} {Γ0 Γ1 Γ2 Γ3 : Matrix (B × B) (B × B) 𝕜} {a a' : ATensor B P 𝕜} {k : ℤ}
    (ht : 0 < t) (g1 : KeepsTrace Γ1)
    (h : LayRel σ t Γ0 Γ1 Γ2 Γ3 (layer (bondPermute k a) none) (layer (bondPermute k a') none)) :
    ∃ s : ℝ, 0 < s ∧ ∀ l r d, initialEdge a' k l r d.1 d.2 =
      s * ∑ l', ∑ r', ∑ d' : B × B, Γ0 l l' * Γ2 r r' * Γ3 d d' * σ.f (initialEdge a k l' r' d'.1 d'.2) := by
  rw [initialEdge_entry, initialEdge_entry]
  obtain ⟨s, hs, es⟩ := normalise4_scale fun l r d d' => ∑ u, layer (bondPermute k a) none l (u, u) r (d, d')
  obtain ⟨s', hs', es'⟩ := normalise4_scale fun l r d d' => ∑ u, layer (bondPermute k a') none l (u, u) r (d, d')
  refine ⟨s' * t / s, by positivity, fun l r d => ?_⟩
  rw [es']
  have hsn : (s : 𝕜) ≠ 0 := RCLike.ofReal_ne_zero.2 hs.ne'
  have e1 : ∑ u, layer (bondPermute k a') none l (u, u) r d =
      t * ∑ l', ∑ r', ∑ d', Γ0 l l' * Γ2 r r' * Γ3 d d' * σ.f (∑ u, layer (bondPermute k a) none l' (u, u) r' d') := by
    simp only [h _ _ _ _, ← mul_sum]
    congr 1
    rw [edge_legs (fun b u => Γ1 (b, b) u) (fun l' => Γ0 l l') (fun r' => Γ2 r r') (fun d' => Γ3 d d')
      (fun l u r d => σ.f (layer (bondPermute k a) none l u r d)), trace_sum g1]
    rw [edge_out (fun l' => Γ0 l l') (fun r' => Γ2 r r') (fun d' => Γ3 d d')
      (fun l u r d => σ.f (layer (bondPermute k a) none l (u, u) r d))]
    simp only [map_sum]
  rw [show (d.1, d.2) = d from rfl, e1, mul_sum, mul_sum, mul_sum]
  refine sum_congr rfl fun l' _ => ?_
  rw [mul_sum, mul_sum, mul_sum]
  refine sum_congr rfl fun r' _ => ?_
  rw [mul_sum, mul_sum, mul_sum]
  refine sum_congr rfl fun d' _ => ?_
  rw [es, map_mul, σ.real]
  push_cast
  field_simp

/-- The bond of freshly initialised boundary tensors: both layers of a bond of the network. -/
noncomputable def freshLink {D : ℕ} (Γ : Matrix (Fin D × Fin D) (Fin D × Fin D) 𝕜) (h : Unit2 Γ) : Link 𝕜 where
  m := D * D
  m' := D * D
  J := Γ.submatrix finProdFinEquiv.symm finProdFinEquiv.symm
  unit := ⟨by rw [conjTranspose_submatrix, submatrix_mul_equiv, h.left, submatrix_one_equiv],
    by rw [conjTranspose_submatrix, submatrix_mul_equiv, h.right, submatrix_one_equiv]⟩

/-- Networks with freshly initialised boundary tensors are related if their site tensors are, with the same unitaries
everywhere. -/
theorem related_fresh [DecidableEq P] {D : ℕ} {σ : ScalarMap 𝕜} {Φ : ℤ × ℤ → Matrix (P × P) (P × P) 𝕜}
    {Γ : Fin 4 → Matrix (Fin D × Fin D) (Fin D × Fin D) 𝕜} (nx ny chi : ℕ) (A A' : Site → ATensor (Fin D) P 𝕜)
    (hΦ : ∀ p, KeepsTrace (Φ p)) (hΓ : ∀ k, Unit2 (Γ k)) (hT : ∀ k, KeepsTrace (Γ k)) (hop : ∀ k, Γ (k + 2) = (Γ k).map star)
    (hs : ∀ p, SiteRel σ (Φ p) Γ (Ten.site (A (cellSite nx ny p))) (.site (A' (cellSite nx ny p)))) :
    Related σ Φ (fun _ => Γ) (fun _ k => freshLink (Γ (k + 2)) (hΓ (k + 2))) (freshNet nx ny chi A) (freshNet nx ny chi A') where
  nx := rfl
  ny := rfl
  chi := rfl
  trace := hΦ
  unit _ := hΓ
  bond _ := hop
  site := hs
  corner p k := by
    obtain ⟨a, a', t, ha, ha', ht, h⟩ := hs p
    cases ha
    cases ha'
    obtain ⟨s, hs, e⟩ := initialCorner_rel ht (hT k) (hT (k + 1)) (open_closed (hΦ p) (open_turn h k))
    refine ⟨_, _, s, rfl, rfl, hs, fun i j => ?_⟩
    show initialCorner (A' (cellSite nx ny p)) _ _ _ = _ * ∑ x : Fin (D * D), ∑ y : Fin (D * D), star (Γ (k + 3 + 2) (finProdFinEquiv.symm i) (finProdFinEquiv.symm x)) *
      Γ (k + 2) (finProdFinEquiv.symm j) (finProdFinEquiv.symm y) *
      σ.f (initialCorner (A (cellSite nx ny p)) k.val (finProdFinEquiv.symm x) (finProdFinEquiv.symm y))
    rw [e, hop (k + 3), Equiv.sum_comp finProdFinEquiv.symm fun d' => ∑ y : Fin (D * D),
      star ((Γ (k + 3)).map star (finProdFinEquiv.symm i) d') * Γ (k + 2) (finProdFinEquiv.symm j) (finProdFinEquiv.symm y) *
      σ.f (initialCorner (A (cellSite nx ny p)) k.val d' (finProdFinEquiv.symm y))]
    congr 1
    refine sum_congr rfl fun d' _ => ?_
    rw [Equiv.sum_comp finProdFinEquiv.symm fun r' => star ((Γ (k + 3)).map star (finProdFinEquiv.symm i) d') *
      Γ (k + 2) (finProdFinEquiv.symm j) r' * σ.f (initialCorner (A (cellSite nx ny p)) k.val d' r')]
    simp only [map_apply, star_star]
  edge p k := by
    obtain ⟨a, a', t, ha, ha', ht, h⟩ := hs p
    cases ha
    cases ha'
    obtain ⟨s, hs, e⟩ := initialEdge_rel ht (hT (k + 1)) (open_closed (hΦ p) (open_turn h k))
    refine ⟨_, _, s, rfl, rfl, hs, fun i j g => ?_⟩
    show initialEdge (A' (cellSite nx ny p)) _ _ _ _ _ = _ * ∑ x : Fin (D * D), ∑ y : Fin (D * D), ∑ h : Fin D × Fin D,
      star (Γ (k + 2) (finProdFinEquiv.symm i) (finProdFinEquiv.symm x)) * Γ (k + 2) (finProdFinEquiv.symm j) (finProdFinEquiv.symm y) *
      star (Γ (k + 1) g h) *
      σ.f (initialEdge (A (cellSite nx ny p)) k.val (finProdFinEquiv.symm x) (finProdFinEquiv.symm y) h.1 h.2)
    have h3 : ∀ d d', Γ (k + 3) d d' = star (Γ (k + 1) d d') := fun d d' => by
      rw [show k + 3 = k + 1 + 2 by rw [add_assoc]; rfl, hop (k + 1), map_apply]
    have h2 : ∀ d d', star (Γ (k + 2) d d') = Γ k d d' := fun d d' => by
      rw [hop k, map_apply, star_star]
    simp only [h2]
    rw [e, Equiv.sum_comp finProdFinEquiv.symm fun l' => ∑ y : Fin (D * D), ∑ h : Fin D × Fin D,
      Γ k (finProdFinEquiv.symm i) l' * Γ (k + 2) (finProdFinEquiv.symm j) (finProdFinEquiv.symm y) *
      star (Γ (k + 1) g h) * σ.f (initialEdge (A (cellSite nx ny p)) k.val l' (finProdFinEquiv.symm y) h.1 h.2)]
    congr 1
    refine sum_congr rfl fun l' _ => ?_
    rw [Equiv.sum_comp finProdFinEquiv.symm fun r' => ∑ h : Fin D × Fin D,
      Γ k (finProdFinEquiv.symm i) l' * Γ (k + 2) (finProdFinEquiv.symm j) r' *
      star (Γ (k + 1) g h) * σ.f (initialEdge (A (cellSite nx ny p)) k.val l' r' h.1 h.2)]
    simp only [h3]

end fresh

section swap

variable {B P : Type} [Fintype B] [Fintype P] [DecidableEq B] [DecidableEq P]

/-- The matrix that exchanges the two layers. -/
def swapMat (n : Type) [DecidableEq n] : Matrix (n × n) (n × n) 𝕜 := (1 : Matrix (n × n) (n × n) 𝕜).submatrix Prod.swap id

omit [Fintype B] [DecidableEq B] in
theorem sum_swapMat {n : Type} [Fintype n] [DecidableEq n] (x : n × n) (F : n × n → 𝕜) :
    ∑ y, swapMat (𝕜 := 𝕜) n x y * F y = F x.swap := by
  simp only [swapMat, submatrix_apply, id, one_apply, ite_mul, one_mul, zero_mul, sum_ite_eq, mem_univ, if_true]

theorem swapMat_unit {n : Type} [Fintype n] [DecidableEq n] : Unit2 (swapMat (𝕜 := 𝕜) n) := by
  have e : swapMat (𝕜 := 𝕜) n = (1 : Matrix (n × n) (n × n) 𝕜).submatrix (Equiv.prodComm n n) (Equiv.refl _) := rfl
  constructor
  · rw [e, conjTranspose_submatrix, submatrix_mul_equiv, conjTranspose_one, one_mul, submatrix_one_equiv]
  · rw [e, conjTranspose_submatrix, submatrix_mul_equiv, conjTranspose_one, one_mul, submatrix_one_equiv]

theorem swapMat_star {n : Type} [DecidableEq n] : (swapMat (𝕜 := 𝕜) n).map star = swapMat n := by
  ext i j
  exact one_star _ _

theorem swapMat_trace {n : Type} [Fintype n] [DecidableEq n] : KeepsTrace (swapMat (𝕜 := 𝕜) n) := keepsTrace_one

/-- The two layers of every site tensor are complex conjugates of each other. -/
theorem siteRel_swap (a : ATensor B P 𝕜) : SiteRel (ScalarMap.conj 𝕜) (swapMat P) (fun _ => swapMat B) (Ten.site a) (.site a) := by
  refine ⟨a, a, 1, rfl, rfl, one_pos, fun o l u r d => ?_⟩
  simp only [mul_assoc, ← mul_sum, sum_swapMat]
  obtain ⟨bra, ket⟩ := o
  show a _ _ _ _ _ * star (a _ _ _ _ _) = _ * star (a _ _ _ _ _ * star (a _ _ _ _ _))
  rw [RCLike.ofReal_one, one_mul, star_mul', star_star, mul_comm]
  rfl

theorem related_swap {D : ℕ} (nx ny chi : ℕ) (A : Site → ATensor (Fin D) P 𝕜) :
    ∃ ℓ, Related (ScalarMap.conj 𝕜) (fun _ => swapMat P) (fun _ _ => swapMat (Fin D)) ℓ (freshNet nx ny chi A) (freshNet nx ny chi A) :=
  ⟨_, related_fresh nx ny chi A A (fun _ => swapMat_trace) (fun _ => swapMat_unit) (fun _ => swapMat_trace) (fun _ => swapMat_star.symm)
    fun _ => siteRel_swap _⟩

end swap

end AceTN
