import Verif.Lemmas.EdgeState
import Mathlib.Algebra.BigOperators.Pi
import Mathlib.Algebra.BigOperators.Ring.Finset
import Mathlib.Tactic.Linarith
import Mathlib.Tactic.Positivity
import Mathlib.Tactic.GCongr

/-!
The state of a network as a function of the two-site tensors of many disjoint edges.
-/

set_option autoImplicit false
set_option linter.unusedSectionVars false

namespace AceTN.Trot

open Spec

variable {𝕜 : Type} [RCLike 𝕜] {B P : Type} [Fintype B]
variable {V E C : Type} [Fintype V] [DecidableEq V] [Fintype E] [DecidableEq E] [Fintype C] [DecidableEq C]

/-- Disjoint edges `e c` from leg `k1` of `v1 c` to leg `k2` of `v2 c`. -/
structure Edges (leg : V → Fin 4 → E) (e : C → E) (v1 v2 : C → V) (k1 k2 : Fin 4) : Prop where
  inj1 : Function.Injective v1
  inj2 : Function.Injective v2
  apart : ∀ c c', v1 c ≠ v2 c'
  ends : ∀ c v k, leg v k = e c ↔ (v = v1 c ∧ k = k1) ∨ (v = v2 c ∧ k = k2)

variable {leg : V → Fin 4 → E} {e : C → E} {v1 v2 : C → V} {k1 k2 : Fin 4}

theorem Edges.inj (h : Edges leg e v1 v2 k1 k2) : Function.Injective e := by
  intro c c' hc
  have h1 := (h.ends c (v1 c) k1).2 (.inl ⟨rfl, rfl⟩)
  rw [hc] at h1
  rcases (h.ends c' (v1 c) k1).1 h1 with h2 | h2
  · exact h.inj1 h2.1
  · exact absurd h2.1 (h.apart c c')

/-- The other edges. -/
abbrev OtherEdge (e : C → E) := {x : E // ∀ c, x ≠ e c}

/-- The other vertices. -/
abbrev OtherVertex (v1 v2 : C → V) := {v : V // ∀ c, v ≠ v1 c ∧ v ≠ v2 c}

theorem Edges.edges_bij (h : Edges leg e v1 v2 k1 k2) : Function.Bijective (Sum.elim Subtype.val e : OtherEdge e ⊕ C → E) := by
  constructor
  · rintro (⟨x, hx⟩ | c) (⟨y, hy⟩ | c') hxy
    · exact congrArg Sum.inl (Subtype.ext hxy)
    · exact absurd hxy (hx c')
    · exact absurd hxy.symm (hy c)
    · exact congrArg Sum.inr (h.inj hxy)
  · intro x
    by_cases hx : ∃ c, x = e c
    · obtain ⟨c, hc⟩ := hx
      exact ⟨.inr c, hc.symm⟩
    · exact ⟨.inl ⟨x, fun c hc => hx ⟨c, hc⟩⟩, rfl⟩

theorem Edges.vertices_bij (h : Edges leg e v1 v2 k1 k2) :
    Function.Bijective (Sum.elim Subtype.val (Sum.elim v1 v2) : OtherVertex v1 v2 ⊕ (C ⊕ C) → V) := by
  constructor
  · rintro (⟨x, hx⟩ | c | c) (⟨y, hy⟩ | c' | c') hxy
    · exact congrArg Sum.inl (Subtype.ext hxy)
    · exact absurd hxy (hx c').1
    · exact absurd hxy (hx c').2
    · exact absurd hxy.symm (hy c).1
    · exact congrArg (Sum.inr ∘ Sum.inl) (h.inj1 hxy)
    · exact absurd hxy (h.apart c c')
    · exact absurd hxy.symm (hy c).2
    · exact absurd hxy.symm (h.apart c' c)
    · exact congrArg (Sum.inr ∘ Sum.inr) (h.inj2 hxy)
  · intro x
    by_cases hx : ∃ c, x = v1 c ∨ x = v2 c
    · obtain ⟨c, hc | hc⟩ := hx
      · exact ⟨.inr (.inl c), hc.symm⟩
      · exact ⟨.inr (.inr c), hc.symm⟩
    · refine ⟨.inl ⟨x, fun c => ⟨fun hc => hx ⟨c, .inl hc⟩, fun hc => hx ⟨c, .inr hc⟩⟩⟩, rfl⟩

/-- The product over the vertices. -/
theorem Edges.prod_vertices (h : Edges leg e v1 v2 k1 k2) (f : V → 𝕜) :
    ∏ v, f v = (∏ c, f (v1 c) * f (v2 c)) * ∏ v : OtherVertex v1 v2, f v := by
  rw [← (Equiv.ofBijective _ h.vertices_bij).prod_comp, Fintype.prod_sum_type, Fintype.prod_sum_type, Finset.prod_mul_distrib]
  simp only [Equiv.ofBijective_apply, Sum.elim_inl, Sum.elim_inr]
  exact mul_comm _ _

/-- The indices at the legs of a vertex, `b0` at the given edges. -/
def legsAt (leg : V → Fin 4 → E) (e : C → E) (b0 : B) (γ : OtherEdge e → B) (v : V) (k : Fin 4) : B :=
  if h : ∀ c, leg v k ≠ e c then γ ⟨leg v k, h⟩ else b0

/-- The state of the network with two-site tensor `X c` at the edge `e c` and the tensors `T` at the other vertices. -/
def pairState (leg : V → Fin 4 → E) (e : C → E) (v1 v2 : C → V) (b0 : B) (X : C → (Fin 4 → B) → (Fin 4 → B) → P → P → 𝕜)
    (T : V → B → B → B → B → P → 𝕜) (p : V → P) : 𝕜 :=
  ∑ γ : OtherEdge e → B, (∏ c, X c (legsAt leg e b0 γ (v1 c)) (legsAt leg e b0 γ (v2 c)) (p (v1 c)) (p (v2 c))) *
    ∏ v : OtherVertex v1 v2, atLegs (T v) (legsAt leg e b0 γ v) (p v)

/-- The state only depends on the two-site tensors of the edges. -/
theorem netState_pairs (h : Edges leg e v1 v2 k1 k2) (b0 : B) (T : V → B → B → B → B → P → 𝕜) (p : V → P) :
    netState leg T p = pairState leg e v1 v2 b0 (fun c w1 w2 p q =>
      ∑ b, atLegs (T (v1 c)) (Function.update w1 k1 b) p * atLegs (T (v2 c)) (Function.update w2 k2 b) q) T p := by
  let φ := Equiv.ofBijective _ h.edges_bij
  let ψ : ((OtherEdge e → B) × (C → B)) ≃ (E → B) := (Equiv.sumArrowEquivProdArrow _ _ _).symm.trans (Equiv.arrowCongr φ (Equiv.refl B))
  have hψ1 : ∀ γ s c, ψ (γ, s) (e c) = s c := by
    intro γ s c
    have : φ.symm (e c) = .inr c := φ.symm_apply_eq.2 rfl
    show Sum.elim γ s (φ.symm (e c)) = s c
    rw [this]
    rfl
  have hψ2 : ∀ γ s (x : OtherEdge e), ψ (γ, s) x = γ x := by
    intro γ s x
    have : φ.symm x = .inl x := φ.symm_apply_eq.2 rfl
    show Sum.elim γ s (φ.symm x) = γ x
    rw [this]
    rfl
  unfold netState pairState
  rw [← ψ.sum_comp, Fintype.sum_prod_type]
  refine Finset.sum_congr rfl fun γ _ => ?_
  dsimp only
  rw [Finset.prod_univ_sum, Fintype.piFinset_univ, Finset.sum_mul]
  refine Finset.sum_congr rfl fun s _ => ?_
  rw [h.prod_vertices]
  have h1 : ∀ c, (fun k => ψ (γ, s) (leg (v1 c) k)) = Function.update (legsAt leg e b0 γ (v1 c)) k1 (s c) := by
    intro c
    funext k
    by_cases hk : k = k1
    · rw [hk, Function.update_self, (h.ends c _ _).2 (.inl ⟨rfl, rfl⟩), hψ1]
    · have : ∀ c', leg (v1 c) k ≠ e c' := by
        intro c' hc
        rcases (h.ends c' _ _).1 hc with h2 | h2
        · exact hk h2.2
        · exact h.apart _ _ h2.1
      rw [Function.update_of_ne hk, legsAt, dif_pos this]
      exact hψ2 γ s ⟨_, this⟩
  have h2 : ∀ c, (fun k => ψ (γ, s) (leg (v2 c) k)) = Function.update (legsAt leg e b0 γ (v2 c)) k2 (s c) := by
    intro c
    funext k
    by_cases hk : k = k2
    · rw [hk, Function.update_self, (h.ends c _ _).2 (.inr ⟨rfl, rfl⟩), hψ1]
    · have : ∀ c', leg (v2 c) k ≠ e c' := by
        intro c' hc
        rcases (h.ends c' _ _).1 hc with h2 | h2
        · exact h.apart _ _ h2.1.symm
        · exact hk h2.2
      rw [Function.update_of_ne hk, legsAt, dif_pos this]
      exact hψ2 γ s ⟨_, this⟩
  have h3 : ∀ v : OtherVertex v1 v2, (fun k => ψ (γ, s) (leg v k)) = legsAt leg e b0 γ v := by
    intro v
    funext k
    have : ∀ c', leg v k ≠ e c' := by
      intro c' hc
      rcases (h.ends c' _ _).1 hc with h2 | h2
      · exact (v.2 c').1 h2.1
      · exact (v.2 c').2 h2.1
    rw [legsAt, dif_pos this]
    exact hψ2 γ s ⟨_, this⟩
  simp only [h1, h2, h3]

/-- The tensors at the given edges do not matter otherwise. -/
theorem pairState_congr (b0 : B) (X : C → (Fin 4 → B) → (Fin 4 → B) → P → P → 𝕜) (T T' : V → B → B → B → B → P → 𝕜)
    (hT : ∀ v, (∀ c, v ≠ v1 c ∧ v ≠ v2 c) → T' v = T v) : pairState leg e v1 v2 b0 X T' = pairState leg e v1 v2 b0 X T := by
  funext p
  unfold pairState
  refine Finset.sum_congr rfl fun γ _ => ?_
  congr 1
  exact Finset.prod_congr rfl fun v _ => by rw [hT v v.2]

variable [Fintype P] [DecidableEq P]

/-- A gate on one of the edges. -/
theorem pairState_gate (h : Edges leg e v1 v2 k1 k2) (b0 : B) (X : C → (Fin 4 → B) → (Fin 4 → B) → P → P → 𝕜)
    (T : V → B → B → B → B → P → 𝕜) (gate : P → P → P → P → 𝕜) (c : C) :
    (pairMat (v1 c) (v2 c) (Matrix.of fun x y => gate y.1 y.2 x.1 x.2)).mulVec (pairState leg e v1 v2 b0 X T) =
      pairState leg e v1 v2 b0 (Function.update X c fun w1 w2 p q => ∑ p', ∑ q', X c w1 w2 p' q' * gate p' q' p q) T := by
  funext p
  rw [pairMat_mulVec _ _ (h.apart c c)]
  unfold pairState
  simp only [Matrix.of_apply]
  have hrest : ∀ (γ : OtherEdge e → B) (a b : P), (∏ v : OtherVertex v1 v2, atLegs (T v) (legsAt leg e b0 γ v)
      (Function.update (Function.update p (v1 c) a) (v2 c) b v)) = ∏ v : OtherVertex v1 v2, atLegs (T v) (legsAt leg e b0 γ v) (p v) := by
    intro γ a b
    refine Finset.prod_congr rfl fun v _ => ?_
    rw [Function.update_of_ne (v.2 c).2, Function.update_of_ne (v.2 c).1]
  simp only [hrest]
  have hpair : ∀ (γ : OtherEdge e → B) (a b : P),
      (∏ c', X c' (legsAt leg e b0 γ (v1 c')) (legsAt leg e b0 γ (v2 c')) (Function.update (Function.update p (v1 c) a) (v2 c) b (v1 c'))
        (Function.update (Function.update p (v1 c) a) (v2 c) b (v2 c'))) =
      X c (legsAt leg e b0 γ (v1 c)) (legsAt leg e b0 γ (v2 c)) a b *
        ∏ c' ∈ Finset.univ.erase c, X c' (legsAt leg e b0 γ (v1 c')) (legsAt leg e b0 γ (v2 c')) (p (v1 c')) (p (v2 c')) := by
    intro γ a b
    rw [← Finset.mul_prod_erase Finset.univ _ (Finset.mem_univ c)]
    congr 1
    · rw [Function.update_of_ne (h.apart c c), Function.update_self, Function.update_self]
    · refine Finset.prod_congr rfl fun c' hc' => ?_
      have hne := (Finset.mem_erase.1 hc').1
      rw [Function.update_of_ne (h.apart c' c), Function.update_of_ne fun he => hne (h.inj1 he),
        Function.update_of_ne fun he => hne (h.inj2 he), Function.update_of_ne (h.apart c c').symm]
  simp only [hpair]
  have hnew : ∀ γ : OtherEdge e → B, (∏ c', Function.update X c (fun w1 w2 p q => ∑ p', ∑ q', X c w1 w2 p' q' * gate p' q' p q) c'
        (legsAt leg e b0 γ (v1 c')) (legsAt leg e b0 γ (v2 c')) (p (v1 c')) (p (v2 c'))) =
      (∑ p', ∑ q', X c (legsAt leg e b0 γ (v1 c)) (legsAt leg e b0 γ (v2 c)) p' q' * gate p' q' (p (v1 c)) (p (v2 c))) *
        ∏ c' ∈ Finset.univ.erase c, X c' (legsAt leg e b0 γ (v1 c')) (legsAt leg e b0 γ (v2 c')) (p (v1 c')) (p (v2 c')) := by
    intro γ
    rw [← Finset.mul_prod_erase Finset.univ _ (Finset.mem_univ c)]
    congr 1
    · rw [Function.update_self]
    · refine Finset.prod_congr rfl fun c' hc' => ?_
      rw [Function.update_of_ne (Finset.mem_erase.1 hc').1]
  simp only [hnew, Finset.mul_sum, Finset.sum_mul]
  conv_rhs => rw [Finset.sum_comm]
  refine Finset.sum_congr rfl fun a _ => ?_
  conv_rhs => rw [Finset.sum_comm]
  refine Finset.sum_congr rfl fun b _ => Finset.sum_congr rfl fun γ _ => ?_
  ring

/-- A gate on several edges. -/
theorem pairState_gates (h : Edges leg e v1 v2 k1 k2) (b0 : B) (X : C → (Fin 4 → B) → (Fin 4 → B) → P → P → 𝕜)
    (T : V → B → B → B → B → P → 𝕜) (gate : P → P → P → P → 𝕜) (l : List C) (hl : l.Nodup) :
    ((l.map fun c => pairMat (v1 c) (v2 c) (Matrix.of fun x y => gate y.1 y.2 x.1 x.2)).prod).mulVec (pairState leg e v1 v2 b0 X T) =
      pairState leg e v1 v2 b0 (fun c w1 w2 p q => if c ∈ l then ∑ p', ∑ q', X c w1 w2 p' q' * gate p' q' p q else X c w1 w2 p q) T := by
  induction l with
  | nil => simp
  | cons c l ih =>
    rw [List.nodup_cons] at hl
    rw [List.map_cons, List.prod_cons, ← Matrix.mulVec_mulVec, ih hl.2, pairState_gate h]
    congr 1
    funext c' w1 w2 p q
    by_cases hc : c' = c
    · subst hc
      rw [Function.update_self]
      simp [hl.1]
    · rw [Function.update_of_ne hc]
      simp [hc]

/-- Products of numbers that are close to each other are close. -/
theorem norm_prod_sub_le {R η : ℝ} (hη : 0 ≤ η) (s : Finset C) (x y : C → 𝕜) (hy : ∀ c ∈ s, ‖y c‖ ≤ R)
    (hxy : ∀ c ∈ s, ‖x c - y c‖ ≤ η) (hR : 0 ≤ R) : ‖∏ c ∈ s, x c - ∏ c ∈ s, y c‖ ≤ (R + η) ^ s.card - R ^ s.card := by
  induction s using Finset.induction_on with
  | empty => simp
  | insert c s hc ih =>
    have ih := ih (fun c hc => hy c (Finset.mem_insert_of_mem hc)) fun c hc => hxy c (Finset.mem_insert_of_mem hc)
    rw [Finset.prod_insert hc, Finset.prod_insert hc, Finset.card_insert_of_notMem hc]
    have h1 := hy c (Finset.mem_insert_self _ _)
    have h2 := hxy c (Finset.mem_insert_self _ _)
    have h3 : ‖x c‖ ≤ R + η := by
      have := norm_add_le (y c) (x c - y c)
      rw [add_sub_cancel] at this
      linarith
    have h4 : ‖∏ c ∈ s, y c‖ ≤ R ^ s.card := by
      rw [norm_prod]
      exact (Finset.prod_le_prod (fun _ _ => norm_nonneg _) fun c hc => hy c (Finset.mem_insert_of_mem hc)).trans (le_of_eq (by simp))
    have e : x c * ∏ c ∈ s, x c - y c * ∏ c ∈ s, y c = x c * (∏ c ∈ s, x c - ∏ c ∈ s, y c) + (x c - y c) * ∏ c ∈ s, y c := by ring
    rw [e]
    calc _ ≤ ‖x c‖ * ‖∏ c ∈ s, x c - ∏ c ∈ s, y c‖ + ‖x c - y c‖ * ‖∏ c ∈ s, y c‖ := by
          rw [← norm_mul, ← norm_mul]
          exact norm_add_le _ _
      _ ≤ (R + η) * ((R + η) ^ s.card - R ^ s.card) + η * R ^ s.card := by gcongr
      _ = _ := by ring

/-- States with close two-site tensors are close. -/
theorem pairState_close (b0 : B) (T : V → B → B → B → B → P → 𝕜) : ∃ M : ℝ, 0 ≤ M ∧
    ∀ (X Y : C → (Fin 4 → B) → (Fin 4 → B) → P → P → 𝕜) (R η : ℝ), 0 ≤ R → 0 ≤ η → (∀ c w1 w2 p q, ‖Y c w1 w2 p q‖ ≤ R) →
      (∀ c w1 w2 p q, ‖X c w1 w2 p q - Y c w1 w2 p q‖ ≤ η) → ∀ p,
      ‖pairState leg e v1 v2 b0 X T p - pairState leg e v1 v2 b0 Y T p‖ ≤ M * ((R + η) ^ Fintype.card C - R ^ Fintype.card C) := by
  let w : (V → P) → (OtherEdge e → B) → ℝ := fun p γ => ‖∏ v : OtherVertex v1 v2, atLegs (T v) (legsAt leg e b0 γ v) (p v)‖
  refine ⟨∑ p, ∑ γ, w p γ, by positivity, fun X Y R η hR hη hY hXY p => ?_⟩
  unfold pairState
  rw [← Finset.sum_sub_distrib]
  have hpos : 0 ≤ (R + η) ^ Fintype.card C - R ^ Fintype.card C := sub_nonneg.2 (pow_le_pow_left₀ hR (by linarith) _)
  have h1 : ∑ γ, w p γ ≤ ∑ p, ∑ γ, w p γ :=
    Finset.single_le_sum (f := fun p => ∑ γ, w p γ) (fun p _ => Finset.sum_nonneg fun γ _ => norm_nonneg _) (Finset.mem_univ p)
  refine le_trans ?_ (mul_le_mul_of_nonneg_right h1 hpos)
  refine (norm_sum_le _ _).trans ?_
  rw [Finset.sum_mul]
  gcongr with γ _
  rw [← sub_mul, norm_mul, mul_comm]
  gcongr
  exact norm_prod_sub_le hη Finset.univ _ _ (fun c _ => hY c _ _ _ _) (fun c _ => hXY c _ _ _ _) hR

end AceTN.Trot
