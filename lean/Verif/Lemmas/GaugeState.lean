import Verif.Spec.Gauge
import Verif.Lemmas.LatticeState
import Mathlib.Algebra.BigOperators.Ring.Finset

/-!
The many-body states of two networks that are the same in other bases.
-/

set_option autoImplicit false

namespace AceTN

open Spec Matrix

variable {𝕜 : Type} [RCLike 𝕜] {B P : Type} [Fintype B] [Fintype P]

/-- Four indices and a family of four. -/
def legsEquiv (B : Type) : B × B × B × B ≃ (Fin 4 → B) where
  toFun x := ![x.1, x.2.1, x.2.2.1, x.2.2.2]
  invFun x := (x 0, x 1, x 2, x 3)
  left_inv _ := rfl
  right_inv x := by
    funext k
    match k with
    | 0 | 1 | 2 | 3 => rfl

theorem sum_legs (f : (Fin 4 → B) → 𝕜) : ∑ x, f x = ∑ l, ∑ u, ∑ r, ∑ d, f ![l, u, r, d] := by
  rw [← Equiv.sum_comp (legsEquiv B) f]
  simp only [Fintype.sum_prod_type]
  rfl

theorem tenRel_legs {σ : ScalarMap 𝕜} {t : ℝ} {Γ : Fin 4 → Matrix B B 𝕜} {U : Matrix P P 𝕜} {a a' : ATensor B P 𝕜}
    (h : TenRel σ t (Γ 0) (Γ 1) (Γ 2) (Γ 3) U a a') (w : Fin 4 → B) (p : P) :
    atLegs a' w p = t * ∑ x : Fin 4 → B, ∑ q, (∏ k, Γ k (w k) (x k)) * U p q * σ.f (atLegs a x q) := by
  have e := h (w 0) (w 1) (w 2) (w 3) p
  unfold atLegs
  rw [e, sum_legs]
  simp only [Fin.prod_univ_four]
  rfl

section net

variable {V E : Type} [Fintype V] [DecidableEq V] [Fintype E] [DecidableEq E] [DecidableEq B]

omit [DecidableEq V] in
/-- Summing over the labels of all edges joins the two ends of every edge. -/
theorem edges_join (leg : V → Fin 4 → E) (fl : Fin 4 → Bool) (φ : V × Fin 4 ≃ E × Bool)
    (hφ : ∀ v k, φ (v, k) = (leg v k, fl k)) (G : V → Fin 4 → Matrix B B 𝕜)
    (hG : ∀ v k v' k', leg v k = leg v' k' → fl k = false → fl k' = true →
      ∀ x y, ∑ b, G v k b x * G v' k' b y = if x = y then 1 else 0) (X : V → Fin 4 → B) :
    ∑ β : E → B, ∏ v, ∏ k, G v k (β (leg v k)) (X v k) =
      if ∀ e, X (φ.symm (e, false)).1 (φ.symm (e, false)).2 = X (φ.symm (e, true)).1 (φ.symm (e, true)).2 then 1 else 0 := by
  have hleg : ∀ e i, leg (φ.symm (e, i)).1 (φ.symm (e, i)).2 = e ∧ fl (φ.symm (e, i)).2 = i := by
    intro e i
    have := hφ (φ.symm (e, i)).1 (φ.symm (e, i)).2
    rw [Prod.mk.eta, Equiv.apply_symm_apply, Prod.mk.injEq] at this
    exact ⟨this.1.symm, this.2.symm⟩
  have e1 : ∀ β : E → B, ∏ v, ∏ k, G v k (β (leg v k)) (X v k) =
      ∏ e, (G (φ.symm (e, false)).1 (φ.symm (e, false)).2 (β e) (X (φ.symm (e, false)).1 (φ.symm (e, false)).2) *
        G (φ.symm (e, true)).1 (φ.symm (e, true)).2 (β e) (X (φ.symm (e, true)).1 (φ.symm (e, true)).2)) := by
    intro β
    rw [← Fintype.prod_prod_type' (f := fun v k => G v k (β (leg v k)) (X v k)), ← Equiv.prod_comp φ.symm, Fintype.prod_prod_type]
    refine Finset.prod_congr rfl fun e _ => ?_
    rw [Fintype.prod_bool, (hleg e true).1, (hleg e false).1, mul_comm]
  simp only [e1]
  rw [← Fintype.piFinset_univ, ← Finset.prod_univ_sum (fun _ => Finset.univ) (fun e b =>
    G (φ.symm (e, false)).1 (φ.symm (e, false)).2 b (X (φ.symm (e, false)).1 (φ.symm (e, false)).2) *
        G (φ.symm (e, true)).1 (φ.symm (e, true)).2 b (X (φ.symm (e, true)).1 (φ.symm (e, true)).2))]
  rw [Finset.prod_congr rfl fun e _ => hG _ _ _ _ ((hleg e false).1.trans (hleg e true).1.symm) (hleg e false).2 (hleg e true).2 _ _,
    Finset.prod_ite_zero]
  simp

/-- The states of two networks on any graph. -/
theorem netState_turn (leg : V → Fin 4 → E) (fl : Fin 4 → Bool) (φ : V × Fin 4 ≃ E × Bool)
    (hφ : ∀ v k, φ (v, k) = (leg v k, fl k)) (σ : ScalarMap 𝕜) (t : V → ℝ) (G : V → Fin 4 → Matrix B B 𝕜) (U : V → Matrix P P 𝕜)
    (hG : ∀ v k v' k', leg v k = leg v' k' → fl k = false → fl k' = true →
      ∀ x y, ∑ b, G v k b x * G v' k' b y = if x = y then 1 else 0) (T T' : V → ATensor B P 𝕜)
    (h : ∀ v, TenRel σ (t v) (G v 0) (G v 1) (G v 2) (G v 3) (U v) (T v) (T' v)) (p : V → P) :
    netState leg T' p = ((∏ v, t v : ℝ) : 𝕜) * ∑ q : V → P, (∏ v, U v (p v) (q v)) * σ.f (netState leg T q) := by
  have hleg : ∀ e i, leg (φ.symm (e, i)).1 (φ.symm (e, i)).2 = e := by
    intro e i
    have := hφ (φ.symm (e, i)).1 (φ.symm (e, i)).2
    rw [Prod.mk.eta, Equiv.apply_symm_apply, Prod.mk.injEq] at this
    exact this.1.symm
  unfold netState
  have e1 : ∀ β : E → B, ∏ v, atLegs (T' v) (fun k => β (leg v k)) (p v) = ((∏ v, t v : ℝ) : 𝕜) *
      ∑ X : V → Fin 4 → B, ∑ q : V → P, (∏ v, ∏ k, G v k (β (leg v k)) (X v k)) * (∏ v, U v (p v) (q v)) *
        ∏ v, σ.f (atLegs (T v) (X v) (q v)) := by
    intro β
    simp only [tenRel_legs (h _), Finset.prod_mul_distrib, Finset.prod_univ_sum, Fintype.piFinset_univ]
    push_cast
    rfl
  simp only [e1]
  rw [← Finset.mul_sum, Finset.sum_comm]
  congr 1
  have e2 : ∀ X : V → Fin 4 → B, ∑ β : E → B, ∑ q : V → P, (∏ v, ∏ k, G v k (β (leg v k)) (X v k)) * (∏ v, U v (p v) (q v)) *
        ∏ v, σ.f (atLegs (T v) (X v) (q v)) =
      if ∀ e, X (φ.symm (e, false)).1 (φ.symm (e, false)).2 = X (φ.symm (e, true)).1 (φ.symm (e, true)).2 then
        ∑ q : V → P, (∏ v, U v (p v) (q v)) * ∏ v, σ.f (atLegs (T v) (X v) (q v)) else 0 := by
    intro X
    simp only [mul_assoc, ← Finset.mul_sum]
    rw [← Finset.sum_mul, edges_join leg fl φ hφ G hG X]
    split_ifs
    · rw [one_mul]
    · rw [zero_mul]
  simp only [e2]
  rw [← Finset.sum_filter]
  have e3 : ∀ β : E → B, (fun v k => β (leg v k)) ∈ Finset.univ.filter (fun X : V → Fin 4 → B =>
      ∀ e, X (φ.symm (e, false)).1 (φ.symm (e, false)).2 = X (φ.symm (e, true)).1 (φ.symm (e, true)).2) := by
    intro β
    rw [Finset.mem_filter]
    refine ⟨Finset.mem_univ _, fun e => ?_⟩
    dsimp only
    rw [hleg, hleg]
  rw [Finset.sum_nbij' (t := Finset.univ) (fun X e => X (φ.symm (e, false)).1 (φ.symm (e, false)).2) (fun β v k => β (leg v k))
    (g := fun β : E → B => ∑ q : V → P, (∏ v, U v (p v) (q v)) * ∏ v, σ.f (atLegs (T v) (fun k => β (leg v k)) (q v)))]
  · rw [Finset.sum_comm]
    refine Finset.sum_congr rfl fun q _ => ?_
    rw [← Finset.mul_sum, map_sum]
    simp only [map_prod]
  · intro X _
    exact Finset.mem_univ _
  · intro β _
    exact e3 β
  · intro X hX
    rw [Finset.mem_filter] at hX
    funext v k
    dsimp only
    cases hf : fl k with
    | false =>
      have : φ.symm (leg v k, false) = (v, k) := by rw [Equiv.symm_apply_eq, hφ, hf]
      rw [this]
    | true =>
      have : φ.symm (leg v k, true) = (v, k) := by rw [Equiv.symm_apply_eq, hφ, hf]
      rw [hX.2, this]
  · intro β _
    funext e
    dsimp only
    rw [hleg]
  · intro X hX
    rw [Finset.mem_filter] at hX
    refine Finset.sum_congr rfl fun q _ => ?_
    congr 1
    refine Finset.prod_congr rfl fun v _ => ?_
    congr 2
    funext k
    dsimp only
    cases hf : fl k with
    | false =>
      have : φ.symm (leg v k, false) = (v, k) := by rw [Equiv.symm_apply_eq, hφ, hf]
      rw [this]
    | true =>
      have : φ.symm (leg v k, true) = (v, k) := by rw [Equiv.symm_apply_eq, hφ, hf]
      rw [hX.2, this]

end net

section lattice

variable {nx ny N : ℕ}

/-- The second ends of the edges are their left and lower sides. -/
def secondEnd (k : Fin 4) : Bool := decide (k = 0 ∨ k = 3)

theorem before_injective {n : ℕ} : Function.Injective (before (n := n)) := by
  intro i j h
  exact Fin.ext (((before_eq i _ (before i).isLt).1 rfl).trans ((before_eq j _ (before i).isLt).1 (congrArg Fin.val h.symm)).symm)

theorem bigLeg_injective (ρ : Bond → Equiv.Perm (Fin N)) :
    Function.Injective fun h : BigSite nx ny N × Fin 4 => (bigLeg ρ h.1 h.2, secondEnd h.2) := by
  rintro ⟨⟨c, i, j⟩, k⟩ ⟨⟨c', i', j'⟩, k'⟩ h
  rw [Prod.mk.injEq] at h
  obtain ⟨h1, h2⟩ := h
  dsimp only at h1 h2
  have key0 : bigLeg ρ (c, i, j) 0 = bigLeg ρ (c', i', j') 0 → (c, i, j) = (c', i', j') := by
    intro h
    simp only [bigLeg, Prod.mk.injEq] at h
    obtain ⟨⟨hc, hi, hj⟩, -⟩ := h
    have hi := before_injective hi
    subst hi hj
    rw [(ρ _).symm.injective hc]
  have key3 : bigLeg ρ (c, i, j) 3 = bigLeg ρ (c', i', j') 3 → (c, i, j) = (c', i', j') := by
    intro h
    simp only [bigLeg, Prod.mk.injEq] at h
    obtain ⟨⟨hc, hi, hj⟩, -⟩ := h
    have hj := before_injective hj
    subst hi hj
    rw [(ρ _).symm.injective hc]
  match k, k' with
  | 0, 0 => exact Prod.ext (key0 h1) rfl
  | 1, 1 => exact Prod.ext (congrArg (fun e : BigEdge nx ny N => e.1) h1) rfl
  | 2, 2 => exact Prod.ext (congrArg (fun e : BigEdge nx ny N => e.1) h1) rfl
  | 3, 3 => exact Prod.ext (key3 h1) rfl
  | 0, 1 => exact absurd h2 (by decide)
  | 0, 2 => exact absurd h2 (by decide)
  | 0, 3 => exact absurd (congrArg Prod.snd h1) (by simp [bigLeg])
  | 1, 0 => exact absurd h2 (by decide)
  | 1, 2 => exact absurd (congrArg Prod.snd h1) (by simp [bigLeg])
  | 1, 3 => exact absurd h2 (by decide)
  | 2, 0 => exact absurd h2 (by decide)
  | 2, 1 => exact absurd (congrArg Prod.snd h1) (by simp [bigLeg])
  | 2, 3 => exact absurd h2 (by decide)
  | 3, 0 => exact absurd (congrArg Prod.snd h1) (by simp [bigLeg])
  | 3, 1 => exact absurd h2 (by decide)
  | 3, 2 => exact absurd h2 (by decide)

/-- The ends of the edges of a lattice. -/
noncomputable def bigEnds (ρ : Bond → Equiv.Perm (Fin N)) : BigSite nx ny N × Fin 4 ≃ BigEdge nx ny N × Bool :=
  Equiv.ofBijective (fun h => (bigLeg ρ h.1 h.2, secondEnd h.2))
    ((Fintype.bijective_iff_injective_and_card _).2 ⟨bigLeg_injective ρ, by simp [mul_assoc]⟩)

/-- The site beyond an edge in the cell. -/
theorem bigLeg_neighbour (ρ : Bond → Equiv.Perm (Fin N)) (v v' : BigSite nx ny N) (k k' : Fin 4) (h : bigLeg ρ v k = bigLeg ρ v' k')
    (hk : secondEnd k = false) (hk' : secondEnd k' = true) :
    k' = k + 2 ∧ ((v'.2.1 : ℕ), (v'.2.2 : ℕ)) = neighbour nx ny (v.2.1, v.2.2) k.val := by
  obtain ⟨c, i, j⟩ := v
  obtain ⟨c', i', j'⟩ := v'
  match k, k' with
  | 2, 0 =>
    simp only [bigLeg, Prod.mk.injEq] at h
    obtain ⟨⟨-, hi, hj⟩, -⟩ := h
    refine ⟨rfl, ?_⟩
    show _ = (((((i : ℕ) : ℤ) + 1) % nx).toNat, _)
    rw [int_mod_toNat_succ, ← (before_eq i' i i.isLt).1 (congrArg Fin.val hi.symm), hj]
  | 1, 3 =>
    simp only [bigLeg, Prod.mk.injEq] at h
    obtain ⟨⟨-, hi, hj⟩, -⟩ := h
    refine ⟨rfl, ?_⟩
    show _ = (_, ((((j : ℕ) : ℤ) + 1) % ny).toNat)
    rw [int_mod_toNat_succ, ← (before_eq j' j j.isLt).1 (congrArg Fin.val hj.symm), hi]
  | 1, 0 => exact absurd (congrArg Prod.snd h) (by simp [bigLeg])
  | 2, 3 => exact absurd (congrArg Prod.snd h) (by simp [bigLeg])
  | 0, 0 => exact absurd hk (by decide)
  | 0, 1 => exact absurd hk (by decide)
  | 0, 2 => exact absurd hk (by decide)
  | 0, 3 => exact absurd hk (by decide)
  | 3, 0 => exact absurd hk (by decide)
  | 3, 1 => exact absurd hk (by decide)
  | 3, 2 => exact absurd hk (by decide)
  | 3, 3 => exact absurd hk (by decide)
  | 1, 1 => exact absurd hk' (by decide)
  | 1, 2 => exact absurd hk' (by decide)
  | 2, 1 => exact absurd hk' (by decide)
  | 2, 2 => exact absurd hk' (by decide)

variable [DecidableEq B] [DecidableEq P]

/-- The states of two networks that are the same in other bases, on every finite lattice that covers the cell. -/
theorem latticeState_turn (ρ : Bond → Equiv.Perm (Fin N)) (σ : ScalarMap 𝕜) (g : Gauge B P 𝕜) (hj : g.Joined nx ny)
    (A A' : Site → ATensor B P 𝕜) (h : g.Equiv σ nx ny A A') (p : BigSite nx ny N → P) :
    latticeState ρ A' p = ((∏ v : BigSite nx ny N, g.t (v.2.1, v.2.2) : ℝ) : 𝕜) *
      ∑ q : BigSite nx ny N → P, (∏ v, g.U (v.2.1, v.2.2) (p v) (q v)) * σ.f (latticeState ρ A q) := by
  unfold latticeState
  refine netState_turn (bigLeg ρ) secondEnd (bigEnds ρ) (fun _ _ => rfl) σ _ (fun v => g.G (v.2.1, v.2.2)) _ ?_ _ _
    (fun v => h _ ⟨v.2.1.isLt, v.2.2.isLt⟩) p
  intro v k v' k' e h1 h2 x y
  obtain ⟨e1, e2⟩ := bigLeg_neighbour ρ v v' k k' e h1 h2
  show ∑ b, g.G (v.2.1, v.2.2) k b x * g.G (v'.2.1, v'.2.2) k' b y = _
  rw [e2, e1, hj _ ⟨v.2.1.isLt, v.2.2.isLt⟩ k]
  have hu := congrFun (congrFun (g.unitG (v.2.1, v.2.2) k).left y) x
  rw [Matrix.mul_apply, Matrix.one_apply] at hu
  simp only [Matrix.conjTranspose_apply] at hu
  simp only [Matrix.map_apply]
  rw [Finset.sum_congr rfl fun b _ => mul_comm _ _, hu]
  by_cases hxy : x = y
  · rw [if_pos hxy, if_pos hxy.symm]
  · rw [if_neg hxy, if_neg (Ne.symm hxy)]

end lattice

end AceTN
