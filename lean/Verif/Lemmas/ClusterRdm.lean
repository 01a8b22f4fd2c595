import Verif.Lemmas.ClusterTurn
import Verif.Lemmas.NumOps
import Verif.Spec.Rdm
import Mathlib.Algebra.BigOperators.Fin

/-!
Density matrices as the smallest clusters.
-/

set_option autoImplicit false

namespace AceTN

open Finset Spec SumTac

section small

variable {α 𝕜 : Type} [Fintype α] [CommRing 𝕜]

theorem sum_f1 (F : (Fin 1 → α) → 𝕜) : ∑ f, F f = ∑ a, F fun _ => a :=
  ((Equiv.funUnique (Fin 1) α).symm.sum_comp F).symm

theorem sum_f2 (F : (Fin 2 → α) → 𝕜) : ∑ f, F f = ∑ a, ∑ b, F ![a, b] := by
  rw [← (finTwoArrowEquiv α).symm.sum_comp, Fintype.sum_prod_type]
  rfl

theorem sum_f3 (F : (Fin 3 → α) → 𝕜) : ∑ f, F f = ∑ a, ∑ b, ∑ c, F ![a, b, c] := by
  rw [← (Fin.consEquiv fun _ : Fin 3 => α).sum_comp, Fintype.sum_prod_type]
  refine sum_congr rfl fun a _ => ?_
  refine (sum_f2 fun f : Fin 2 → α => F (Fin.cons a f)).trans ?_
  rfl

theorem bind2 (F : (Fin 2 → α) → 𝕜) (F' : α → α → 𝕜) (h : ∀ a b, F ![a, b] = F' a b) : ∑ f, F f = ∑ a, ∑ b, F' a b :=
  (sum_f2 F).trans (sum_congr rfl fun a _ => sum_congr rfl fun b _ => h a b)

theorem bind3 (F : (Fin 3 → α) → 𝕜) (F' : α → α → α → 𝕜) (h : ∀ a b c, F ![a, b, c] = F' a b c) :
    ∑ f, F f = ∑ a, ∑ b, ∑ c, F' a b c :=
  (sum_f3 F).trans (sum_congr rfl fun a _ => sum_congr rfl fun b _ => sum_congr rfl fun c _ => h a b c)

theorem sumP (F : α × α → 𝕜) : ∑ g, F g = ∑ a, ∑ b, F (a, b) := Fintype.sum_prod_type F

theorem bind12P (F : (Fin 1 → Fin 2 → α × α) → 𝕜) (F' : α → α → α → α → 𝕜) (h : ∀ a a' b b', F (fun _ => ![(a, a'), (b, b')]) = F' a a' b b') :
    ∑ f, F f = ∑ a, ∑ a', ∑ b, ∑ b', F' a a' b b' := by
  rw [sum_f1, sum_f2, sumP]
  refine sum_congr rfl fun a _ => sum_congr rfl fun a' _ => ?_
  rw [sumP]
  exact sum_congr rfl fun b _ => sum_congr rfl fun b' _ => h a a' b b'

theorem bind21P (F : (Fin 2 → Fin 1 → α × α) → 𝕜) (F' : α → α → α → α → 𝕜)
    (h : ∀ a a' b b', F ![fun _ => (a, a'), fun _ => (b, b')] = F' a a' b b') :
    ∑ f, F f = ∑ a, ∑ a', ∑ b, ∑ b', F' a a' b b' := by
  rw [sum_f2, sum_f1, sumP]
  refine sum_congr rfl fun a _ => sum_congr rfl fun a' _ => ?_
  rw [sum_f1, sumP]
  exact sum_congr rfl fun b _ => sum_congr rfl fun b' _ => h a a' b b'

theorem bind31P (F : (Fin 3 → Fin 1 → α × α) → 𝕜) (F' : α → α → α → α → α → α → 𝕜)
    (h : ∀ a a' b b' c c', F ![fun _ => (a, a'), fun _ => (b, b'), fun _ => (c, c')] = F' a a' b b' c c') :
    ∑ f, F f = ∑ a, ∑ a', ∑ b, ∑ b', ∑ c, ∑ c', F' a a' b b' c c' := by
  rw [sum_f3, sum_f1, sumP]
  refine sum_congr rfl fun a _ => sum_congr rfl fun a' _ => ?_
  rw [sum_f1, sumP]
  refine sum_congr rfl fun b _ => sum_congr rfl fun b' _ => ?_
  rw [sum_f1, sumP]
  exact sum_congr rfl fun c _ => sum_congr rfl fun c' _ => h a a' b b' c c'

theorem bind22P (F : (Fin 2 → Fin 2 → α × α) → 𝕜) (F' : α → α → α → α → α → α → α → α → 𝕜)
    (h : ∀ a a' b b' c c' d d', F ![![(a, a'), (b, b')], ![(c, c'), (d, d')]] = F' a a' b b' c c' d d') :
    ∑ f, F f = ∑ a, ∑ a', ∑ b, ∑ b', ∑ c, ∑ c', ∑ d, ∑ d', F' a a' b b' c c' d d' := by
  rw [sum_f2, sum_f2, sumP]
  refine sum_congr rfl fun a _ => sum_congr rfl fun a' _ => ?_
  rw [sumP]
  refine sum_congr rfl fun b _ => sum_congr rfl fun b' _ => ?_
  rw [sum_f2, sumP]
  refine sum_congr rfl fun c _ => sum_congr rfl fun c' _ => ?_
  rw [sumP]
  exact sum_congr rfl fun d _ => sum_congr rfl fun d' _ => h a a' b b' c c' d d'

theorem sum_pad {m N : ℕ} (h : m ≤ N) (F : Fin m → 𝕜) (F' : Fin N → 𝕜) (he : ∀ x : Fin m, F x = F' (Fin.castLE h x))
    (hz : ∀ x : Fin N, m ≤ x.val → F' x = 0) : ∑ x, F x = ∑ x, F' x := by
  refine sum_of_injOn (Fin.castLE h) (Fin.castLE_injective h).injOn (by simp) ?_ (fun x _ => he x)
  intro x _ hx
  refine hz x ?_
  by_contra hc
  exact hx ⟨⟨x.val, by omega⟩, by simp, rfl⟩

end small

variable {𝕜 : Type} [RCLike 𝕜] {B P : Type}

theorem weight_11 {X G : Type} (F : Frame X G 𝕜 1 1) (l r u d : G) (t0 t1 r0 r1 b0 b1 l0 l1 : X) :
    F.weight ![fun _ => l, fun _ => r] (fun _ => ![d, u]) ![t0, t1] ![r0, r1] ![b0, b1] ![l0, l1] =
      F.D 0 0 l u r d * F.Eu 0 t0 t1 u * F.Er 0 r1 r0 r * F.Ed 0 b1 b0 d * F.El 0 l0 l1 l *
        (F.C0 l1 t0 * F.C1 t1 r1 * F.C2 r0 b1 * F.C3 b0 l0) := by
  unfold Frame.weight
  simp only [Fin.prod_univ_one]
  rfl

theorem weight_21 {X G : Type} (F : Frame X G 𝕜 2 1) (l m r u d u' d' : G) (t0 t1 t2 r0 r1 b0 b1 b2 l0 l1 : X) :
    F.weight ![fun _ => l, fun _ => m, fun _ => r] ![![d, u], ![d', u']] ![t0, t1, t2] ![r0, r1] ![b0, b1, b2] ![l0, l1] =
      F.D 0 0 l u m d * F.D 1 0 m u' r d' * (F.Eu 0 t0 t1 u * F.Eu 1 t1 t2 u') * F.Er 0 r1 r0 r *
        (F.Ed 0 b1 b0 d * F.Ed 1 b2 b1 d') * F.El 0 l0 l1 l *
        (F.C0 l1 t0 * F.C1 t2 r1 * F.C2 r0 b2 * F.C3 b0 l0) := by
  unfold Frame.weight
  simp only [Fin.prod_univ_one, Fin.prod_univ_two]
  rfl

/-- The smallest cluster is the network of a site density matrix. -/
theorem value_11 {X : Type} [Fintype X] [Fintype B] [Fintype P] (F : Frame X (B × B) 𝕜 1 1) (A₀ : ATensor B P 𝕜) (bra ket : P)
    (hD : F.D 0 0 = layer A₀ (some (bra, ket))) :
    F.value = siteRdm F.C0 (fun x y g g' => F.Eu 0 x y (g, g')) F.C1 (fun x y g g' => F.Er 0 x y (g, g')) F.C2
      (fun x y g g' => F.Ed 0 x y (g, g')) F.C3 (fun x y g g' => F.El 0 x y (g, g')) A₀ bra ket := by
  have e : F.value = ∑ l, ∑ l', ∑ r, ∑ r', ∑ d, ∑ d', ∑ u, ∑ u', ∑ t0, ∑ t1, ∑ r0, ∑ r1, ∑ b0, ∑ b1, ∑ l0, ∑ l1,
      A₀ l u r d ket * star (A₀ l' u' r' d' bra) * F.Eu 0 t0 t1 (u, u') * F.Er 0 r1 r0 (r, r') * F.Ed 0 b1 b0 (d, d') *
        F.El 0 l0 l1 (l, l') * (F.C0 l1 t0 * F.C1 t1 r1 * F.C2 r0 b1 * F.C3 b0 l0) :=
    bind21P _ _ fun l l' r r' => bind12P _ _ fun d d' u u' => bind2 _ _ fun t0 t1 => bind2 _ _ fun r0 r1 =>
      bind2 _ _ fun b0 b1 => bind2 _ _ fun l0 l1 => by
        rw [weight_11, hD]
        rfl
  rw [e]
  unfold siteRdm
  einsum_ring

/-- The cluster of two sites is the network of a bond density matrix. -/
theorem value_21 {X : Type} [Fintype X] [Fintype B] [Fintype P] (F : Frame X (B × B) 𝕜 2 1) (A₁ A₂ : ATensor B P 𝕜) (bra₁ ket₁ bra₂ ket₂ : P)
    (hD1 : F.D 1 0 = layer A₁ (some (bra₁, ket₁))) (hD2 : F.D 0 0 = layer A₂ (some (bra₂, ket₂))) :
    F.value = bondRdm F.C1 (fun x y g g' => F.Er 0 x y (g, g')) (fun x y g g' => F.Eu 1 x y (g, g')) F.C2
      (fun x y g g' => F.Ed 1 x y (g, g')) A₁ F.C0 (fun x y g g' => F.Eu 0 x y (g, g')) (fun x y g g' => F.El 0 x y (g, g'))
      F.C3 (fun x y g g' => F.Ed 0 x y (g, g')) A₂ bra₁ bra₂ ket₁ ket₂ := by
  have e : F.value = ∑ l, ∑ l', ∑ m, ∑ m', ∑ r, ∑ r', ∑ d, ∑ d', ∑ u, ∑ u', ∑ e, ∑ e', ∑ v, ∑ v', ∑ t0, ∑ t1, ∑ t2, ∑ r0, ∑ r1,
      ∑ b0, ∑ b1, ∑ b2, ∑ l0, ∑ l1,
      A₂ l u m d ket₂ * star (A₂ l' u' m' d' bra₂) * (A₁ m v r e ket₁ * star (A₁ m' v' r' e' bra₁)) *
        (F.Eu 0 t0 t1 (u, u') * F.Eu 1 t1 t2 (v, v')) * F.Er 0 r1 r0 (r, r') *
        (F.Ed 0 b1 b0 (d, d') * F.Ed 1 b2 b1 (e, e')) * F.El 0 l0 l1 (l, l') *
        (F.C0 l1 t0 * F.C1 t2 r1 * F.C2 r0 b2 * F.C3 b0 l0) :=
    bind31P _ _ fun l l' m m' r r' => bind22P _ _ fun d d' u u' e e' v v' => bind3 _ _ fun t0 t1 t2 => bind2 _ _ fun r0 r1 =>
      bind3 _ _ fun b0 b1 b2 => bind2 _ _ fun l0 l1 => by
        rw [weight_21, hD1, hD2]
        rfl
  rw [e]
  unfold bondRdm
  einsum_ring

section pad

variable {N : ℕ}

/-- Tensors on more labels. -/
def pad2 {m n : ℕ} (c : Fin m → Fin n → 𝕜) (x y : Fin N) : 𝕜 := ent2 c x y
def pad4 {m n : ℕ} (e : Fin m → Fin n → B → B → 𝕜) (x y : Fin N) (g g' : B) : 𝕜 := ent4 e x y g g'

theorem pad2_lt {m n : ℕ} (hm : m ≤ N) (hn : n ≤ N) (c : Fin m → Fin n → 𝕜) (x : Fin m) (y : Fin n) :
    pad2 c (Fin.castLE hm x) (Fin.castLE hn y) = c x y := ent2_lt c x y

theorem pad4_lt {m n : ℕ} (hm : m ≤ N) (hn : n ≤ N) (e : Fin m → Fin n → B → B → 𝕜) (x : Fin m) (y : Fin n) (g g' : B) :
    pad4 e (Fin.castLE hm x) (Fin.castLE hn y) g g' = e x y g g' := congrFun (congrFun (ent4_lt e x y) g) g'

theorem siteRdm_pad [Fintype B] {x0 x1 x2 x3 x4 x5 x6 x7 : ℕ} (h0 : x0 ≤ N) (h1 : x1 ≤ N) (h2 : x2 ≤ N) (h3 : x3 ≤ N) (h4 : x4 ≤ N)
    (h5 : x5 ≤ N) (h6 : x6 ≤ N) (h7 : x7 ≤ N) (C0 : Fin x0 → Fin x1 → 𝕜) (E0 : Fin x1 → Fin x2 → B → B → 𝕜) (C1 : Fin x2 → Fin x3 → 𝕜)
    (E1 : Fin x3 → Fin x4 → B → B → 𝕜) (C2 : Fin x4 → Fin x5 → 𝕜) (E2 : Fin x5 → Fin x6 → B → B → 𝕜) (C3 : Fin x6 → Fin x7 → 𝕜)
    (E3 : Fin x7 → Fin x0 → B → B → 𝕜) (a : ATensor B P 𝕜) (bra ket : P) :
    siteRdm C0 E0 C1 E1 C2 E2 C3 E3 a bra ket =
      siteRdm (pad2 (N := N) C0) (pad4 (N := N) E0) (pad2 (N := N) C1) (pad4 (N := N) E1) (pad2 (N := N) C2) (pad4 (N := N) E2)
        (pad2 (N := N) C3) (pad4 (N := N) E3) a bra ket := by
  have l2 : ∀ {m n : ℕ} (c : Fin m → Fin n → 𝕜) (x y : Fin N), m ≤ x.val → pad2 c x y = 0 := fun c x y h => ent2_zero _ _ _ (.inl h)
  have l4 : ∀ {m n : ℕ} (c : Fin m → Fin n → B → B → 𝕜) (x y : Fin N) (g g' : B), m ≤ x.val → pad4 c x y g g' = 0 :=
    fun c x y g g' h => ent4_zero _ _ _ _ _ (.inl h)
  unfold siteRdm
  refine sum_pad h0 _ _ (fun i0 => sum_pad h1 _ _ (fun i1 => sum_pad h2 _ _ (fun i2 => sum_pad h3 _ _ (fun i3 =>
    sum_pad h4 _ _ (fun i4 => sum_pad h5 _ _ (fun i5 => sum_pad h6 _ _ (fun i6 => sum_pad h7 _ _ (fun i7 => ?_) ?_) ?_) ?_) ?_) ?_)
    ?_) ?_) ?_
  · simp only [pad2_lt h0 h1, pad2_lt h2 h3, pad2_lt h4 h5, pad2_lt h6 h7, pad4_lt h1 h2, pad4_lt h3 h4, pad4_lt h5 h6, pad4_lt h7 h0]
  all_goals
    intro x hx
    repeat refine sum_eq_zero fun _ _ => ?_
    simp only [l2 _ x _ hx, l4 _ x _ _ _ hx, mul_zero, zero_mul]

theorem bondRdm_pad [Fintype B] {y0 y1 y2 y3 y4 y5 y6 y7 y8 y9 : ℕ} (h0 : y0 ≤ N) (h1 : y1 ≤ N) (h2 : y2 ≤ N) (h3 : y3 ≤ N) (h4 : y4 ≤ N)
    (h5 : y5 ≤ N) (h6 : y6 ≤ N) (h7 : y7 ≤ N) (h8 : y8 ≤ N) (h9 : y9 ≤ N) (c12 : Fin y2 → Fin y3 → 𝕜) (e12 : Fin y3 → Fin y4 → B → B → 𝕜)
    (e11 : Fin y1 → Fin y2 → B → B → 𝕜) (c13 : Fin y4 → Fin y5 → 𝕜) (e13 : Fin y5 → Fin y6 → B → B → 𝕜) (a1 : ATensor B P 𝕜)
    (c21 : Fin y9 → Fin y0 → 𝕜) (e21 : Fin y0 → Fin y1 → B → B → 𝕜) (e24 : Fin y8 → Fin y9 → B → B → 𝕜)
    (c24 : Fin y7 → Fin y8 → 𝕜) (e23 : Fin y6 → Fin y7 → B → B → 𝕜) (a2 : ATensor B P 𝕜) (bra1 bra2 ket1 ket2 : P) :
    bondRdm c12 e12 e11 c13 e13 a1 c21 e21 e24 c24 e23 a2 bra1 bra2 ket1 ket2 =
      bondRdm (pad2 (N := N) c12) (pad4 (N := N) e12) (pad4 (N := N) e11) (pad2 (N := N) c13) (pad4 (N := N) e13) a1 (pad2 (N := N) c21)
        (pad4 (N := N) e21) (pad4 (N := N) e24) (pad2 (N := N) c24) (pad4 (N := N) e23) a2 bra1 bra2 ket1 ket2 := by
  have l2 : ∀ {m n : ℕ} (c : Fin m → Fin n → 𝕜) (x y : Fin N), m ≤ x.val → pad2 c x y = 0 := fun c x y h => ent2_zero _ _ _ (.inl h)
  have l4 : ∀ {m n : ℕ} (c : Fin m → Fin n → B → B → 𝕜) (x y : Fin N) (g g' : B), m ≤ x.val → pad4 c x y g g' = 0 :=
    fun c x y g g' h => ent4_zero _ _ _ _ _ (.inl h)
  unfold bondRdm
  refine sum_pad h0 _ _ (fun i0 => sum_pad h1 _ _ (fun i1 => sum_pad h2 _ _ (fun i2 => sum_pad h3 _ _ (fun i3 =>
    sum_pad h4 _ _ (fun i4 => sum_pad h5 _ _ (fun i5 => sum_pad h6 _ _ (fun i6 => sum_pad h7 _ _ (fun i7 => sum_pad h8 _ _ (fun i8 =>
    sum_pad h9 _ _ (fun i9 => ?_) ?_) ?_) ?_) ?_) ?_) ?_) ?_) ?_) ?_) ?_
  · repeat refine sum_congr rfl fun _ _ => ?_
    simp only [pad2_lt h2 h3, pad4_lt h3 h4, pad4_lt h1 h2, pad2_lt h4 h5, pad4_lt h5 h6, pad2_lt h9 h0, pad4_lt h0 h1, pad4_lt h8 h9,
      pad2_lt h7 h8, pad4_lt h6 h7]
  all_goals
    intro x hx
    repeat refine sum_eq_zero fun _ _ => ?_
    simp only [l2 _ x _ hx, l4 _ x _ _ _ hx, mul_zero, zero_mul]

end pad

end AceTN
