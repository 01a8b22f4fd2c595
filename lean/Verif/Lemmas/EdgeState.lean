import Verif.Spec.LatticeState
import Verif.Lemmas.PlaceTwo
import Mathlib.Logic.Equiv.Basic
import Mathlib.Data.Matrix.Mul

/-!
Changing the two tensors at the ends of one edge of a network changes its state by a two-site operator.
-/

set_option autoImplicit false

namespace AceTN.Trot

open Spec

variable {𝕜 : Type} [RCLike 𝕜] {B P : Type} [Fintype B]
variable {V E : Type} [Fintype V] [DecidableEq V] [Fintype E] [DecidableEq E]

/-- The edges other than `e` first. -/
theorem sum_edge (e : E) (f : (E → B) → 𝕜) :
    ∑ β, f β = ∑ γ : {x // x ≠ e} → B, ∑ b, f ((Equiv.funSplitAt e B).symm (b, γ)) := by
  rw [← Equiv.sum_comp (Equiv.funSplitAt e B).symm f, Fintype.sum_prod_type, Finset.sum_comm]

omit [Fintype B] [Fintype E] in
theorem glue_same (e : E) (b : B) (γ : {x // x ≠ e} → B) : (Equiv.funSplitAt e B).symm (b, γ) e = b := by
  simp [Equiv.funSplitAt, Equiv.piSplitAt]

omit [Fintype B] [Fintype E] in
theorem glue_other (e : E) (b : B) (γ : {x // x ≠ e} → B) (x : E) (h : x ≠ e) :
    (Equiv.funSplitAt e B).symm (b, γ) x = γ ⟨x, h⟩ := by
  simp [Equiv.funSplitAt, Equiv.piSplitAt, h]

theorem prod_two (f : V → 𝕜) (v1 v2 : V) (h : v1 ≠ v2) :
    ∏ v, f v = f v1 * f v2 * ∏ v ∈ (Finset.univ.erase v1).erase v2, f v := by
  rw [← Finset.mul_prod_erase Finset.univ f (Finset.mem_univ v1),
    ← Finset.mul_prod_erase (Finset.univ.erase v1) f (Finset.mem_erase.2 ⟨h.symm, Finset.mem_univ v2⟩), mul_assoc]

/-- The state as a sum of the tensor of an edge times the rest. -/
theorem netState_edge (leg : V → Fin 4 → E) (e : E) (v1 v2 : V) (k1 k2 : Fin 4) (hv : v1 ≠ v2)
    (hleg : ∀ v k, leg v k = e ↔ (v = v1 ∧ k = k1) ∨ (v = v2 ∧ k = k2)) (b0 : B)
    (T : V → B → B → B → B → P → 𝕜) (p : V → P) :
    netState leg T p = ∑ γ : {x // x ≠ e} → B,
      (∑ b, atLegs (T v1) (Function.update (fun k => (Equiv.funSplitAt e B).symm (b0, γ) (leg v1 k)) k1 b) (p v1) *
        atLegs (T v2) (Function.update (fun k => (Equiv.funSplitAt e B).symm (b0, γ) (leg v2 k)) k2 b) (p v2)) *
      ∏ v ∈ (Finset.univ.erase v1).erase v2,
        atLegs (T v) (fun k => (Equiv.funSplitAt e B).symm (b0, γ) (leg v k)) (p v) := by
  unfold netState
  rw [sum_edge e]
  refine Finset.sum_congr rfl fun γ _ => ?_
  rw [Finset.sum_mul]
  refine Finset.sum_congr rfl fun b _ => ?_
  rw [prod_two _ v1 v2 hv]
  have hend : ∀ v k0, (∀ k, leg v k = e ↔ k = k0) →
      (fun k => (Equiv.funSplitAt e B).symm (b, γ) (leg v k)) =
        Function.update (fun k => (Equiv.funSplitAt e B).symm (b0, γ) (leg v k)) k0 b := by
    intro v k0 h
    funext k
    by_cases hk : k = k0
    · rw [hk, Function.update_self, (h k0).2 rfl, glue_same]
    · rw [Function.update_of_ne hk, glue_other _ _ _ _ (mt (h k).1 hk), glue_other _ _ _ _ (mt (h k).1 hk)]
  rw [hend v1 k1 fun k => by rw [hleg]; simp [hv], hend v2 k2 fun k => by rw [hleg]; simp [hv.symm]]
  congr 1
  refine Finset.prod_congr rfl fun v hv' => ?_
  rw [Finset.mem_erase, Finset.mem_erase] at hv'
  congr 1
  funext k
  have : leg v k ≠ e := fun h => by
    rcases (hleg v k).1 h with h | h
    · exact hv'.2.1 h.1
    · exact hv'.1 h.1
  rw [glue_other _ _ _ _ this, glue_other _ _ _ _ this]

variable [Fintype P] [DecidableEq P]

/-- A two-site operator acting on a vector. -/
theorem pairMat_mulVec (i j : V) (hij : i ≠ j) (A : Matrix (P × P) (P × P) 𝕜) (ψ : (V → P) → 𝕜) (s : V → P) :
    (pairMat i j A).mulVec ψ s =
      ∑ a, ∑ b, A (s i, s j) (a, b) * ψ (Function.update (Function.update s i a) j b) := by
  let e : P × P → (V → P) := fun a => Function.update (Function.update s i a.1) j a.2
  have ei : ∀ a, e a i = a.1 := fun a => by simp [e, Function.update_of_ne hij]
  have ej : ∀ a, e a j = a.2 := fun a => by simp [e]
  have eo : ∀ a l, l ≠ i → l ≠ j → e a l = s l := fun a l h1 h2 => by
    simp only [e]; rw [Function.update_of_ne h2, Function.update_of_ne h1]
  have hinj : Function.Injective e := fun a a' h => Prod.ext
    (by rw [← ei a, ← ei a', h]) (by rw [← ej a, ← ej a', h])
  have hsum : (∑ a, pairMat i j A s (e a) * ψ (e a)) = ∑ u, pairMat i j A s u * ψ u := by
    refine Finset.sum_of_injOn e hinj.injOn (fun _ _ => Finset.mem_univ _) (fun u _ hu => ?_) (fun _ _ => rfl)
    have : ¬ ∀ l, l ≠ i → l ≠ j → s l = u l := by
      intro h
      refine hu ⟨(u i, u j), by simp, funext fun l => ?_⟩
      by_cases h1 : l = i
      · rw [h1, ei]
      by_cases h2 : l = j
      · rw [h2, ej]
      rw [eo _ l h1 h2, h l h1 h2]
    rw [pairMat, if_neg this, zero_mul]
  show ∑ u, pairMat i j A s u * ψ u = _
  rw [← hsum, Fintype.sum_prod_type]
  refine Finset.sum_congr rfl fun a _ => Finset.sum_congr rfl fun b _ => ?_
  rw [pairMat, if_pos (fun l h1 h2 => (eo (a, b) l h1 h2).symm), ei, ej]

/-- If the tensor of the edge is replaced by `κ` times a gate applied to it and the other tensors stay, the state is
multiplied by `κ` times the transposed gate on the two vertices. -/
theorem netState_gate (leg : V → Fin 4 → E) (e : E) (v1 v2 : V) (k1 k2 : Fin 4) (hv : v1 ≠ v2)
    (hleg : ∀ v k, leg v k = e ↔ (v = v1 ∧ k = k1) ∨ (v = v2 ∧ k = k2))
    (T T' : V → B → B → B → B → P → 𝕜) (gate : P → P → P → P → 𝕜) (κ : 𝕜)
    (hT : ∀ v, v ≠ v1 → v ≠ v2 → T' v = T v)
    (hpair : ∀ (w1 w2 : Fin 4 → B) (p q : P),
      ∑ b, atLegs (T' v1) (Function.update w1 k1 b) p * atLegs (T' v2) (Function.update w2 k2 b) q =
        κ * ∑ p', ∑ q', (∑ b, atLegs (T v1) (Function.update w1 k1 b) p' * atLegs (T v2) (Function.update w2 k2 b) q') *
          gate p' q' p q) :
    netState leg T' = κ • (pairMat v1 v2 (Matrix.of fun x y => gate y.1 y.2 x.1 x.2)).mulVec (netState leg T) := by
  funext p
  rcases isEmpty_or_nonempty B with hB | ⟨⟨b0⟩⟩
  · have h0 : ∀ T₀ : V → B → B → B → B → P → 𝕜, netState leg T₀ = 0 := by
      intro T₀
      funext p
      unfold netState
      have : IsEmpty (E → B) := ⟨fun β => hB.false (β e)⟩
      simp
    rw [h0, h0, Matrix.mulVec_zero, smul_zero]
  · rw [Pi.smul_apply, smul_eq_mul, pairMat_mulVec _ _ hv, netState_edge leg e v1 v2 k1 k2 hv hleg b0]
    simp only [netState_edge leg e v1 v2 k1 k2 hv hleg b0 T]
    simp only [hpair, Matrix.of_apply, Function.update_self, Function.update_of_ne hv]
    have hrest : ∀ (γ : {x // x ≠ e} → B) (a c : P), ∏ v ∈ (Finset.univ.erase v1).erase v2,
          atLegs (T v) (fun k => (Equiv.funSplitAt e B).symm (b0, γ) (leg v k))
            (Function.update (Function.update p v1 a) v2 c v) =
        ∏ v ∈ (Finset.univ.erase v1).erase v2,
          atLegs (T' v) (fun k => (Equiv.funSplitAt e B).symm (b0, γ) (leg v k)) (p v) := by
      intro γ a c
      refine Finset.prod_congr rfl fun v hv' => ?_
      rw [Finset.mem_erase, Finset.mem_erase] at hv'
      rw [hT v hv'.2.1 hv'.1, Function.update_of_ne hv'.1, Function.update_of_ne hv'.2.1]
    simp only [hrest]
    simp only [Finset.mul_sum, Finset.sum_mul]
    rw [Finset.sum_comm]
    refine Finset.sum_congr rfl fun a _ => ?_
    rw [Finset.sum_comm]
    refine Finset.sum_congr rfl fun c _ => ?_
    refine Finset.sum_congr rfl fun γ _ => ?_
    refine Finset.sum_congr rfl fun b _ => ?_
    ring

end AceTN.Trot
