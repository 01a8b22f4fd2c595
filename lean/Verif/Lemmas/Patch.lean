import Verif.Spec.PatchTrial
import Verif.Lemmas.ClusterFrame
import Verif.Props.Boundary

/-!
Clusters inside freshly initialised boundary tensors are overlaps of patches.
-/

set_option autoImplicit false

namespace AceTN

open Spec Finset

section double

variable {𝕜 : Type} [RCLike 𝕜] {b : Type} [Fintype b] {w h : ℕ}

/-- All labels of a rectangle. -/
abbrev Labels (X G : Type) (w h : ℕ) :=
  (Fin (w + 1) → Fin h → G) × (Fin w → Fin (h + 1) → G) × (Fin (w + 1) → X) × (Fin (h + 1) → X) × (Fin (w + 1) → X) × (Fin (h + 1) → X)

def weightL {X G : Type} (F : Frame X G 𝕜 w h) (l : Labels X G w h) : 𝕜 := F.weight l.1 l.2.1 l.2.2.1 l.2.2.2.1 l.2.2.2.2.1 l.2.2.2.2.2

theorem value_labels {X G : Type} [Fintype X] [Fintype G] (F : Frame X G 𝕜 w h) : F.value = ∑ l, weightL F l := by
  unfold Frame.value weightL
  simp only [Fintype.sum_prod_type]

/-- Labels of both layers are pairs of labels. -/
def splitLabels : Labels (b × b) (b × b) w h ≃ Labels b b w h × Labels b b w h where
  toFun l := ((fun i j => (l.1 i j).1, fun i j => (l.2.1 i j).1, fun i => (l.2.2.1 i).1, fun i => (l.2.2.2.1 i).1,
      fun i => (l.2.2.2.2.1 i).1, fun i => (l.2.2.2.2.2 i).1),
    (fun i j => (l.1 i j).2, fun i j => (l.2.1 i j).2, fun i => (l.2.2.1 i).2, fun i => (l.2.2.2.1 i).2,
      fun i => (l.2.2.2.2.1 i).2, fun i => (l.2.2.2.2.2 i).2))
  invFun l := (fun i j => (l.1.1 i j, l.2.1 i j), fun i j => (l.1.2.1 i j, l.2.2.1 i j), fun i => (l.1.2.2.1 i, l.2.2.2.1 i),
    fun i => (l.1.2.2.2.1 i, l.2.2.2.2.1 i), fun i => (l.1.2.2.2.2.1 i, l.2.2.2.2.2.1 i), fun i => (l.1.2.2.2.2.2 i, l.2.2.2.2.2.2 i))
  left_inv _ := rfl
  right_inv _ := rfl

theorem mul_sums {α β : Type} [Fintype α] [Fintype β] (f : α → 𝕜) (g : β → 𝕜) :
    (∑ a, f a) * (∑ b, g b) = ∑ x : α × β, f x.1 * g x.2 := by
  rw [Fintype.sum_prod_type, Finset.sum_mul_sum]

theorem prod_sums {α ι : Type} [Fintype α] [Fintype ι] [DecidableEq ι] (f : ι → α → 𝕜) :
    ∏ i, ∑ a, f i a = ∑ x : ι → α, ∏ i, f i (x i) := by
  rw [Finset.prod_univ_sum, Fintype.piFinset_univ]

/-- A frame of both layers, every tensor of which is a sum of products of a ket and a bra tensor over the legs `e` of the
place, times a factor. -/
structure Doubles {p q c : Type} [Fintype p] [Fintype q] [Fintype c] (F : Frame (b × b) (b × b) 𝕜 w h)
    (K K' : ((((((Fin w → Fin h → p) × (Fin w → q)) × (Fin h → q)) × (Fin w → q)) × (Fin h → q))) × (((c × c) × c) × c) →
      Frame b b 𝕜 w h)
    (sD : Fin w → Fin h → ℝ) (su sd : Fin w → ℝ) (sr sl : Fin h → ℝ) (s0 s1 s2 s3 : ℝ) : Prop where
  D : ∃ k k' : Fin w → Fin h → p → b → b → b → b → 𝕜, (∀ e i j, (K e).D i j = k i j (e.1.1.1.1.1 i j)) ∧
    (∀ e i j, (K' e).D i j = k' i j (e.1.1.1.1.1 i j)) ∧ ∀ i j x y z t, F.D i j x y z t =
      sD i j * ∑ e, k i j e x.1 y.1 z.1 t.1 * star (k' i j e x.2 y.2 z.2 t.2)
  Eu : ∃ k : Fin w → q → b → b → b → 𝕜, (∀ e i, (K e).Eu i = k i (e.1.1.1.1.2 i)) ∧ (∀ e i, (K' e).Eu i = k i (e.1.1.1.1.2 i)) ∧
    ∀ i x y g, F.Eu i x y g = su i * ∑ e, k i e x.1 y.1 g.1 * star (k i e x.2 y.2 g.2)
  Er : ∃ k : Fin h → q → b → b → b → 𝕜, (∀ e i, (K e).Er i = k i (e.1.1.1.2 i)) ∧ (∀ e i, (K' e).Er i = k i (e.1.1.1.2 i)) ∧
    ∀ i x y g, F.Er i x y g = sr i * ∑ e, k i e x.1 y.1 g.1 * star (k i e x.2 y.2 g.2)
  Ed : ∃ k : Fin w → q → b → b → b → 𝕜, (∀ e i, (K e).Ed i = k i (e.1.1.2 i)) ∧ (∀ e i, (K' e).Ed i = k i (e.1.1.2 i)) ∧
    ∀ i x y g, F.Ed i x y g = sd i * ∑ e, k i e x.1 y.1 g.1 * star (k i e x.2 y.2 g.2)
  El : ∃ k : Fin h → q → b → b → b → 𝕜, (∀ e i, (K e).El i = k i (e.1.2 i)) ∧ (∀ e i, (K' e).El i = k i (e.1.2 i)) ∧
    ∀ i x y g, F.El i x y g = sl i * ∑ e, k i e x.1 y.1 g.1 * star (k i e x.2 y.2 g.2)
  C0 : ∃ k : c → b → b → 𝕜, (∀ e, (K e).C0 = k e.2.1.1.1) ∧ (∀ e, (K' e).C0 = k e.2.1.1.1) ∧
    ∀ x y, F.C0 x y = s0 * ∑ e, k e x.1 y.1 * star (k e x.2 y.2)
  C1 : ∃ k : c → b → b → 𝕜, (∀ e, (K e).C1 = k e.2.1.1.2) ∧ (∀ e, (K' e).C1 = k e.2.1.1.2) ∧
    ∀ x y, F.C1 x y = s1 * ∑ e, k e x.1 y.1 * star (k e x.2 y.2)
  C2 : ∃ k : c → b → b → 𝕜, (∀ e, (K e).C2 = k e.2.1.2) ∧ (∀ e, (K' e).C2 = k e.2.1.2) ∧
    ∀ x y, F.C2 x y = s2 * ∑ e, k e x.1 y.1 * star (k e x.2 y.2)
  C3 : ∃ k : c → b → b → 𝕜, (∀ e, (K e).C3 = k e.2.2) ∧ (∀ e, (K' e).C3 = k e.2.2) ∧
    ∀ x y, F.C3 x y = s3 * ∑ e, k e x.1 y.1 * star (k e x.2 y.2)

theorem Doubles.value {p q c : Type} [Fintype p] [Fintype q] [Fintype c] {F : Frame (b × b) (b × b) 𝕜 w h}
    {K K' : ((((((Fin w → Fin h → p) × (Fin w → q)) × (Fin h → q)) × (Fin w → q)) × (Fin h → q))) × (((c × c) × c) × c) →
      Frame b b 𝕜 w h}
    {sD : Fin w → Fin h → ℝ} {su sd : Fin w → ℝ} {sr sl : Fin h → ℝ} {s0 s1 s2 s3 : ℝ}
    (hd : Doubles F K K' sD su sd sr sl s0 s1 s2 s3) :
    F.value = (((∏ i, ∏ j, sD i j) * (∏ i, su i) * (∏ j, sr j) * (∏ i, sd i) * (∏ j, sl j) * (s0 * s1 * s2 * s3) : ℝ) : 𝕜) *
      ∑ e, (K e).value * star (K' e).value := by
  obtain ⟨⟨kD, kD', d1, d2, hD⟩, ⟨ku, u1, u2, hu⟩, ⟨kr, r1, r2, hr⟩, ⟨kd, dd1, dd2, hdd⟩, ⟨kl, l1, l2, hl⟩, ⟨k0, a1, a2, h0⟩,
    ⟨k1, b1, b2, h1⟩, ⟨k2, c1, c2, h2⟩, ⟨k3, e1, e2, h3⟩⟩ := hd
  have key : ∀ l : Labels (b × b) (b × b) w h, weightL F l =
      (((∏ i, ∏ j, sD i j) * (∏ i, su i) * (∏ j, sr j) * (∏ i, sd i) * (∏ j, sl j) * (s0 * s1 * s2 * s3) : ℝ) : 𝕜) *
        ∑ e, weightL (K e) (splitLabels l).1 * star (weightL (K' e) (splitLabels l).2) := by
    intro l
    unfold weightL Frame.weight
    simp only [hD, hu, hr, hdd, hl, h0, h1, h2, h3]
    simp only [d1, d2, u1, u2, r1, r2, dd1, dd2, l1, l2, a1, a2, b1, b2, c1, c2, e1, e2]
    simp only [prod_mul_distrib, prod_sums]
    have alg : ∀ D u r d l a b c e D' u' r' d' l' a' b' c' e' : 𝕜,
        (D * D') * (u * u') * (r * r') * (d * d') * (l * l') * ((a * a') * (b * b') * (c * c') * (e * e')) =
        (D * u * r * d * l * (a * b * c * e)) * (D' * u' * r' * d' * l' * (a' * b' * c' * e')) := by intros; ring
    rw [alg]
    congr 1
    · push_cast
      rfl
    · simp only [mul_sums]
      refine sum_congr rfl fun e _ => ?_
      simp only [star_mul', star_prod]
      rw [← alg]
      rfl
  rw [value_labels]
  simp only [key]
  rw [← mul_sum]
  congr 1
  rw [sum_comm]
  refine sum_congr rfl fun e _ => ?_
  rw [splitLabels.sum_comp (fun l => weightL (K e) l.1 * star (weightL (K' e) l.2)), value_labels, value_labels, star_sum, mul_sums]

end double

section fresh

variable {𝕜 : Type} [RCLike 𝕜] {P : Type} [Fintype P] {dB nx ny chi : ℕ}

/-- The rectangle inside fresh boundary tensors, with pairs of bond labels as the labels of the boundary. -/
noncomputable def freshFrame (nx ny : ℕ) (A : Site → ATensor (Fin dB) P 𝕜)
    (D : ℤ × ℤ → Fin dB × Fin dB → Fin dB × Fin dB → Fin dB × Fin dB → Fin dB × Fin dB → 𝕜) (r : Rect) :
    Frame (Fin dB × Fin dB) (Fin dB × Fin dB) 𝕜 r.w r.h where
  D i j := D (r.x + i, r.y + j)
  Eu i z z' g := initialEdge (A (cellSite nx ny (r.x + i, r.y + r.h - 1))) 0 z z' g.1 g.2
  Er j z z' g := initialEdge (A (cellSite nx ny (r.x + r.w - 1, r.y + j))) 1 z z' g.1 g.2
  Ed i z z' g := initialEdge (A (cellSite nx ny (r.x + i, r.y))) 2 z z' g.1 g.2
  El j z z' g := initialEdge (A (cellSite nx ny (r.x, r.y + j))) 3 z z' g.1 g.2
  C0 z z' := initialCorner (A (cellSite nx ny (r.x, r.y + r.h - 1))) 0 z z'
  C1 z z' := initialCorner (A (cellSite nx ny (r.x + r.w - 1, r.y + r.h - 1))) 1 z z'
  C2 z z' := initialCorner (A (cellSite nx ny (r.x + r.w - 1, r.y))) 2 z z'
  C3 z z' := initialCorner (A (cellSite nx ny (r.x, r.y))) 3 z z'

omit [Fintype P] in
theorem ent2_pair (c : Fin dB × Fin dB → Fin dB × Fin dB → 𝕜) (x y : Fin dB × Fin dB) :
    ent2 (fun i j => c (finProdFinEquiv.symm i) (finProdFinEquiv.symm j)) (finProdFinEquiv x : Fin (dB * dB)) (finProdFinEquiv y : Fin (dB * dB)) = c x y := by
  unfold ent2
  rw [dif_pos ⟨(finProdFinEquiv x).isLt, (finProdFinEquiv y).isLt⟩]
  dsimp only [Fin.eta]
  rw [Equiv.symm_apply_apply, Equiv.symm_apply_apply]

omit [Fintype P] in
theorem ent4_pair (c : Fin dB × Fin dB → Fin dB × Fin dB → Fin dB → Fin dB → 𝕜) (x y : Fin dB × Fin dB) (l l' : Fin dB) :
    ent4 (fun i j => c (finProdFinEquiv.symm i) (finProdFinEquiv.symm j)) (finProdFinEquiv x : Fin (dB * dB)) (finProdFinEquiv y : Fin (dB * dB)) l l' = c x y l l' := by
  unfold ent4
  rw [dif_pos ⟨(finProdFinEquiv x).isLt, (finProdFinEquiv y).isLt⟩]
  dsimp only [Fin.eta]
  rw [Equiv.symm_apply_apply, Equiv.symm_apply_apply]

theorem freshFrame_value (hx : 0 < nx) (hy : 0 < ny) (A : Site → ATensor (Fin dB) P 𝕜)
    (D : ℤ × ℤ → Fin dB × Fin dB → Fin dB × Fin dB → Fin dB × Fin dB → Fin dB × Fin dB → 𝕜) (r : Rect) :
    clusterWith (freshNet nx ny chi A) D r = (freshFrame nx ny A D r).value := by
  have hd : netDim (freshNet nx ny chi A) ≤ dB * dB := by
    refine Finset.sup_le fun i _ => ?_
    show max (max (dB * dB) (dB * dB)) (max (dB * dB) (dB * dB)) ≤ dB * dB
    simp
  rw [← clusterWith_eq (freshNet nx ny chi A) hx hy D r _ hd]
  have hz : ∀ y : Fin (dB * dB), y ∉ Set.range (finProdFinEquiv : Fin dB × Fin dB → Fin (dB * dB)) → False :=
    fun y h => h (finProdFinEquiv.surjective y)
  refine Extends.value (e := finProdFinEquiv) finProdFinEquiv.injective ?_
  exact ⟨rfl,
    fun i x y g => ent4_pair (initialEdge (A (cellSite nx ny (r.x + i, r.y + r.h - 1))) 0) x y g.1 g.2,
    fun i x y g => ent4_pair (initialEdge (A (cellSite nx ny (r.x + r.w - 1, r.y + i))) 1) x y g.1 g.2,
    fun i x y g => ent4_pair (initialEdge (A (cellSite nx ny (r.x + i, r.y))) 2) x y g.1 g.2,
    fun i x y g => ent4_pair (initialEdge (A (cellSite nx ny (r.x, r.y + i))) 3) x y g.1 g.2,
    fun x y => ent2_pair (initialCorner (A (cellSite nx ny (r.x, r.y + r.h - 1))) 0) x y,
    fun x y => ent2_pair (initialCorner (A (cellSite nx ny (r.x + r.w - 1, r.y + r.h - 1))) 1) x y,
    fun x y => ent2_pair (initialCorner (A (cellSite nx ny (r.x + r.w - 1, r.y))) 2) x y,
    fun x y => ent2_pair (initialCorner (A (cellSite nx ny (r.x, r.y))) 3) x y,
    fun _ _ y _ h => (hz y h).elim, fun _ _ y _ h => (hz y h).elim, fun _ _ y _ h => (hz y h).elim, fun _ _ y _ h => (hz y h).elim, fun _ y h => (hz y h).elim, fun _ y h => (hz y h).elim, fun _ y h => (hz y h).elim, fun _ y h => (hz y h).elim⟩

/-- The double layers made of the tensors `bra` and `ket`, and of the site tensors where there are none. -/
def pairLayers (D : ℤ × ℤ → Fin dB × Fin dB → Fin dB × Fin dB → Fin dB × Fin dB → Fin dB × Fin dB → 𝕜)
    (bra ket : ℤ × ℤ → Option (Fin dB → Fin dB → Fin dB → Fin dB → 𝕜)) (q : ℤ × ℤ) (l u r d : Fin dB × Fin dB) : 𝕜 :=
  match bra q, ket q with
  | some b, some k => k l.1 u.1 r.1 d.1 * star (b l.2 u.2 r.2 d.2)
  | _, _ => D q l u r d

/-- The number of times a fixed site is counted in an overlap of patches. -/
theorem layer_pair (a : ATensor (Fin dB) P 𝕜) (bra ket : ℤ × ℤ → Option (Fin dB → Fin dB → Fin dB → Fin dB → 𝕜)) (q : ℤ × ℤ) (F : Bool)
    (hb : (bra q).isSome = F) (hk : (ket q).isSome = F) (hP : 0 < Fintype.card P)
    (D : ℤ × ℤ → Fin dB × Fin dB → Fin dB × Fin dB → Fin dB × Fin dB → Fin dB × Fin dB → 𝕜) (hD : D q = layer a none)
    (l u r d : Fin dB × Fin dB) :
    pairLayers D bra ket q l u r d =
      (((if F then (Fintype.card P : ℝ)⁻¹ else 1) : ℝ) : 𝕜) * ∑ p, (ket q).getD (fun l u r d => a l u r d p) l.1 u.1 r.1 d.1 *
        star ((bra q).getD (fun l u r d => a l u r d p) l.2 u.2 r.2 d.2) := by
  unfold pairLayers
  rw [hD]
  cases F with
  | false =>
    rw [Option.isSome_eq_false_iff, Option.isNone_iff_eq_none] at hb hk
    rw [hb, hk]
    simp [layer]
  | true =>
    obtain ⟨b, hb⟩ := Option.isSome_iff_exists.1 hb
    obtain ⟨k, hk⟩ := Option.isSome_iff_exists.1 hk
    rw [hb, hk]
    have : (Fintype.card P : 𝕜) ≠ 0 := by exact_mod_cast hP.ne'
    simp [this]

/-- **Clusters of fresh networks are overlaps**, with any tensors put in. -/
theorem clusterWith_fresh (hx : 0 < nx) (hy : 0 < ny) (A : Site → ATensor (Fin dB) P 𝕜) (hA : ∀ s, InCell nx ny s → A s ≠ 0) (r : Rect)
    (F : ℤ × ℤ → Bool) : ∃ c : ℝ, 0 < c ∧ ∀ bra ket : ℤ × ℤ → Option (Fin dB → Fin dB → Fin dB → Fin dB → 𝕜),
      (∀ q, (bra q).isSome = F q) → (∀ q, (ket q).isSome = F q) →
      clusterWith (freshNet nx ny chi A) (pairLayers (siteLayers (freshNet nx ny chi A) fun _ => none) bra ket) r =
        c * ∑ e, (patchFrameWith (fun q => A (cellSite nx ny q)) ket r e).value *
          star (patchFrameWith (fun q => A (cellSite nx ny q)) bra r e).value := by
  have hA' : ∀ q, A (cellSite nx ny q) ≠ 0 := fun q => hA _ (cellSite_inCell nx ny hx hy q)
  have hP : 0 < Fintype.card P := by
    by_contra hc
    have : IsEmpty P := Fintype.card_eq_zero_iff.1 (by omega)
    exact hA' (0, 0) (by funext _ _ _ _ p; exact this.elim p)
  have hC := fun (q : ℤ × ℤ) (k : ℤ) => (C53_corner _ (hA' q) k).2
  have hE := fun (q : ℤ × ℤ) (k : ℤ) => (C53_edge _ (hA' q) k).2
  choose c hc0 hc using hC
  choose e he0 he using hE
  have hcc : ∀ q k x y, initialCorner (A (cellSite nx ny q)) k x y = (((c q k)⁻¹ : ℝ) : 𝕜) * ∑ h : Fin dB × Fin dB × P,
      bondPermute k (A (cellSite nx ny q)) h.1 h.2.1 y.1 x.1 h.2.2 * star (bondPermute k (A (cellSite nx ny q)) h.1 h.2.1 y.2 x.2 h.2.2) := by
    intro q k x y
    have hne : (c q k : 𝕜) ≠ 0 := RCLike.ofReal_ne_zero.2 (hc0 q k).ne'
    rw [RCLike.ofReal_inv, eq_inv_mul_iff_mul_eq₀ hne, ← hc q k x y]
    simp only [Fintype.sum_prod_type]
  have hee : ∀ q k x y d d', initialEdge (A (cellSite nx ny q)) k x y d d' = (((e q k)⁻¹ : ℝ) : 𝕜) * ∑ h : Fin dB × P,
      bondPermute k (A (cellSite nx ny q)) x.1 h.1 y.1 d h.2 * star (bondPermute k (A (cellSite nx ny q)) x.2 h.1 y.2 d' h.2) := by
    intro q k x y d d'
    have hne : (e q k : 𝕜) ≠ 0 := RCLike.ofReal_ne_zero.2 (he0 q k).ne'
    rw [RCLike.ofReal_inv, eq_inv_mul_iff_mul_eq₀ hne, ← he q k x y d d']
    simp only [Fintype.sum_prod_type]
  refine ⟨(∏ i : Fin r.w, ∏ j : Fin r.h, if F (r.x + i, r.y + j) then (Fintype.card P : ℝ)⁻¹ else 1) *
    (∏ i : Fin r.w, (e (r.x + i, r.y + r.h - 1) 0)⁻¹) * (∏ j : Fin r.h, (e (r.x + r.w - 1, r.y + j) 1)⁻¹) *
    (∏ i : Fin r.w, (e (r.x + i, r.y) 2)⁻¹) * (∏ j : Fin r.h, (e (r.x, r.y + j) 3)⁻¹) *
    ((c (r.x, r.y + r.h - 1) 0)⁻¹ * (c (r.x + r.w - 1, r.y + r.h - 1) 1)⁻¹ * (c (r.x + r.w - 1, r.y) 2)⁻¹ * (c (r.x, r.y) 3)⁻¹), ?_, ?_⟩
  · have g1 : ∀ q k, 0 < (e q k)⁻¹ := fun q k => inv_pos.2 (he0 q k)
    have g2 : ∀ q k, 0 < (c q k)⁻¹ := fun q k => inv_pos.2 (hc0 q k)
    have g3 : ∀ q, 0 < (if F q then (Fintype.card P : ℝ)⁻¹ else 1) := by
      intro q
      split_ifs
      · exact inv_pos.2 (by exact_mod_cast hP)
      · exact one_pos
    refine mul_pos (mul_pos (mul_pos (mul_pos (mul_pos ?_ ?_) ?_) ?_) ?_) (mul_pos (mul_pos (mul_pos (g2 _ _) (g2 _ _)) (g2 _ _)) (g2 _ _))
    · exact prod_pos fun i _ => prod_pos fun j _ => g3 _
    all_goals exact prod_pos fun i _ => g1 _ _
  intro bra ket hb hk
  rw [freshFrame_value hx hy]
  refine Doubles.value (K := patchFrameWith (fun q => A (cellSite nx ny q)) ket r) (K' := patchFrameWith (fun q => A (cellSite nx ny q)) bra r) ?_
  constructor
  · exact ⟨fun i j p => (ket (r.x + i, r.y + j)).getD fun l u r' d => A (cellSite nx ny (r.x + i, r.y + j)) l u r' d p,
      fun i j p => (bra (r.x + i, r.y + j)).getD fun l u r' d => A (cellSite nx ny (r.x + i, r.y + j)) l u r' d p,
      fun _ _ _ => rfl, fun _ _ _ => rfl, fun i j l u r' d => layer_pair _ bra ket _ _ (hb _) (hk _) hP _ rfl l u r' d⟩
  · exact ⟨fun i h x y g => bondPermute 0 (A (cellSite nx ny (r.x + i, r.y + r.h - 1))) x h.1 y g h.2, fun _ _ => rfl, fun _ _ => rfl,
      fun i x y g => hee _ _ _ _ _ _⟩
  · exact ⟨fun i h x y g => bondPermute 1 (A (cellSite nx ny (r.x + r.w - 1, r.y + i))) x h.1 y g h.2, fun _ _ => rfl, fun _ _ => rfl,
      fun i x y g => hee _ _ _ _ _ _⟩
  · exact ⟨fun i h x y g => bondPermute 2 (A (cellSite nx ny (r.x + i, r.y))) x h.1 y g h.2, fun _ _ => rfl, fun _ _ => rfl,
      fun i x y g => hee _ _ _ _ _ _⟩
  · exact ⟨fun i h x y g => bondPermute 3 (A (cellSite nx ny (r.x, r.y + i))) x h.1 y g h.2, fun _ _ => rfl, fun _ _ => rfl,
      fun i x y g => hee _ _ _ _ _ _⟩
  · exact ⟨fun h x y => bondPermute 0 (A (cellSite nx ny (r.x, r.y + r.h - 1))) h.1 h.2.1 y x h.2.2, fun _ => rfl, fun _ => rfl,
      fun x y => hcc _ _ _ _⟩
  · exact ⟨fun h x y => bondPermute 1 (A (cellSite nx ny (r.x + r.w - 1, r.y + r.h - 1))) h.1 h.2.1 y x h.2.2, fun _ => rfl, fun _ => rfl,
      fun x y => hcc _ _ _ _⟩
  · exact ⟨fun h x y => bondPermute 2 (A (cellSite nx ny (r.x + r.w - 1, r.y))) h.1 h.2.1 y x h.2.2, fun _ => rfl, fun _ => rfl,
      fun x y => hcc _ _ _ _⟩
  · exact ⟨fun h x y => bondPermute 3 (A (cellSite nx ny (r.x, r.y))) h.1 h.2.1 y x h.2.2, fun _ => rfl, fun _ => rfl,
      fun x y => hcc _ _ _ _⟩

omit [Fintype P] [RCLike 𝕜] in
/-- A patch with fixed labels has the tensors with these labels put in. -/
theorem patchFrame_with {B : Type} (A : ℤ × ℤ → ATensor B P 𝕜) (fix : ℤ × ℤ → Option P) (r : Rect) (e : PatchLegs B P r.w r.h) :
    patchFrame A fix r e = patchFrameWith A (fun q => (fix q).map fun k l u r d => A q l u r d k) r e := by
  unfold patchFrameWith patchFrame
  congr 1
  funext i j
  dsimp only
  cases h : fix (r.x + i, r.y + j) <;> rfl

/-- **Clusters of fresh networks are overlaps.** -/
theorem cluster_fresh (hx : 0 < nx) (hy : 0 < ny) (A : Site → ATensor (Fin dB) P 𝕜) (hA : ∀ s, InCell nx ny s → A s ≠ 0) (r : Rect)
    (F : ℤ × ℤ → Bool) : ∃ c : ℝ, 0 < c ∧ ∀ bra ket : ℤ × ℤ → Option P, (∀ q, (bra q).isSome = F q) → (∀ q, (ket q).isSome = F q) →
      cluster (freshNet nx ny chi A) (fun q => (bra q).bind fun b => (ket q).map fun k => (b, k)) r =
        c * patchOverlap (fun q => A (cellSite nx ny q)) r bra ket := by
  obtain ⟨c, hc, e⟩ := clusterWith_fresh (chi := chi) hx hy A hA r F
  refine ⟨c, hc, fun bra ket hb hk => ?_⟩
  unfold patchOverlap patchAmp
  simp only [patchFrame_with]
  rw [← e _ _ (fun q => by rw [Option.isSome_map, hb]) (fun q => by rw [Option.isSome_map, hk]), cluster_with]
  congr 1
  funext q l u r d
  unfold pairLayers siteLayers
  dsimp only
  cases hb' : bra q <;> cases hk' : ket q <;> rfl

end fresh

end AceTN
