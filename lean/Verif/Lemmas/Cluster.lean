import Verif.Spec.Cluster
import Verif.Lemmas.Chain
import Mathlib.Tactic.LinearCombination

/-!
Rotating a rectangle, and absorbing its left column into the left boundary.
-/

set_option autoImplicit false

namespace AceTN

open Finset Spec

variable {X G 𝕜 : Type} [CommRing 𝕜] {w h : ℕ}

/-- The rectangle turned by a quarter so that its upper side is on the left. -/
def Spec.Frame.turn (F : Frame X G 𝕜 w h) : Frame X G 𝕜 h w where
  D i j l u r d := F.D j i.rev d l u r
  Eu i := F.Er i.rev
  Er := F.Ed
  Ed i := F.El i.rev
  El := F.Eu
  C0 := F.C1
  C1 := F.C2
  C2 := F.C3
  C3 := F.C0

theorem Spec.Frame.turn_weight (F : Frame X G 𝕜 w h) (H : Fin (w + 1) → Fin h → G) (V : Fin w → Fin (h + 1) → G)
    (T : Fin (w + 1) → X) (R : Fin (h + 1) → X) (B : Fin (w + 1) → X) (L : Fin (h + 1) → X) :
    F.weight H V T R B L = F.turn.weight (fun i j => V j i.rev) (fun i j => H j i.rev) (fun i => R i.rev) B (fun i => L i.rev) T := by
  unfold Frame.weight Frame.turn
  dsimp only
  have r1 : ∀ i : Fin h, i.castSucc.rev = i.rev.succ := fun i => Fin.rev_castSucc i
  have r2 : ∀ i : Fin h, i.succ.rev = i.rev.castSucc := fun i => Fin.rev_succ i
  have q : ∀ (f : Fin h → 𝕜), ∏ i : Fin h, f i.rev = ∏ i, f i := fun f => Equiv.prod_comp Fin.revPerm f
  simp only [r1, r2, Fin.rev_last, Fin.rev_zero]
  rw [q fun i => F.Er i (R i.succ) (R i.castSucc) (H (Fin.last w) i), q fun i => F.El i (L i.castSucc) (L i.succ) (H 0 i),
    q fun i => ∏ j, F.D j i (H j.castSucc i) (V j i.succ) (H j.succ i) (V j i.castSucc), prod_comm]
  ring

theorem Spec.Frame.turn_value [Fintype X] [Fintype G] (F : Frame X G 𝕜 w h) : F.turn.value = F.value := by
  unfold Frame.value
  have e1 : ∀ (n : ℕ) (f : (Fin n → X) → 𝕜), ∑ l : Fin n → X, f (fun i => l i.rev) = ∑ l, f l :=
    fun n f => (Equiv.arrowCongr Fin.revPerm (Equiv.refl X)).sum_comp f
  have e2 : ∀ (n m : ℕ) (f : (Fin n → Fin m → G) → 𝕜), ∑ l : Fin m → Fin n → G, f (fun i j => l j i.rev) = ∑ l, f l := by
    intro n m f
    exact (Fintype.sum_equiv ((Equiv.piComm fun _ _ => G).trans (Equiv.arrowCongr Fin.revPerm (Equiv.refl (Fin m → G)))) _ _
      fun l => rfl)
  calc _ = ∑ V : Fin w → Fin (h + 1) → G, ∑ H : Fin (w + 1) → Fin h → G, ∑ R : Fin (h + 1) → X, ∑ B : Fin (w + 1) → X,
        ∑ L : Fin (h + 1) → X, ∑ T : Fin (w + 1) → X,
        F.turn.weight (fun i j => V j i.rev) (fun i j => H j i.rev) (fun i => R i.rev) B (fun i => L i.rev) T := by
        rw [← e2 (h + 1) w]
        refine sum_congr rfl fun V _ => ?_
        rw [← e2 h (w + 1)]
        refine sum_congr rfl fun H _ => ?_
        rw [← e1 (h + 1)]
        refine sum_congr rfl fun R _ => sum_congr rfl fun B _ => ?_
        rw [← e1 (h + 1)]
    _ = _ := by
        rw [sum_comm]
        refine sum_congr rfl fun H _ => sum_congr rfl fun V _ => ?_
        simp only [Frame.turn_weight F]
        rw [sum_congr rfl fun R _ => sum_congr rfl fun B _ => sum_comm, sum_congr rfl fun R _ => sum_comm, sum_comm]

/-- The rectangle `F'` is `F` with its left column absorbed into the left boundary through the projectors `p1 j`, `p2 j` of
the cut below row `j` (above the last row for `j = h`), with normalisation factors. -/
structure Absorbs [Fintype X] [Fintype G] (F : Frame X G 𝕜 (w + 1) h) (F' : Frame X G 𝕜 w h)
    (p1 p2 : Fin (h + 1) → X × G → X → 𝕜) (n0 n3 : 𝕜) (n : Fin h → 𝕜) : Prop where
  D : ∀ i j, F'.D i j = F.D i.succ j
  Eu : ∀ i, F'.Eu i = F.Eu i.succ
  Er : F'.Er = F.Er
  Ed : ∀ i, F'.Ed i = F.Ed i.succ
  C1 : F'.C1 = F.C1
  C2 : F'.C2 = F.C2
  El : ∀ j z z' g, F'.El j z z' g = n j * ∑ x : X × G, ∑ y : X × G,
    p2 j.castSucc x z * (∑ g', F.El j x.1 y.1 g' * F.D 0 j g' y.2 g x.2) * p1 j.succ y z'
  C0 : ∀ z t, F'.C0 z t = n0 * ∑ x : X × G, p2 (Fin.last h) x z * ∑ t', F.C0 x.1 t' * F.Eu 0 t' t x.2
  C3 : ∀ b z, F'.C3 b z = n3 * ∑ x : X × G, (∑ b', F.Ed 0 b b' x.2 * F.C3 b' x.1) * p1 0 x z

/-- The labels in use on the left boundary of a rectangle. -/
structure LeftSupport (F : Frame X G 𝕜 w h) (S : Fin (h + 1) → X → Prop) : Prop where
  low : ∀ j x y g, ¬ S j.castSucc x → F.El j x y g = 0
  high : ∀ j x y g, ¬ S j.succ y → F.El j x y g = 0
  C0 : ∀ x t, ¬ S (Fin.last h) x → F.C0 x t = 0
  C3 : ∀ b x, ¬ S 0 x → F.C3 b x = 0

section split

variable [Fintype X] [Fintype G]

/-- The product of all tensors that are not in the left column or on its boundary. -/
def restWeight (F : Frame X G 𝕜 (w + 1) h) (H : Fin (w + 1) → Fin h → G) (V : Fin w → Fin (h + 1) → G) (T : Fin (w + 1) → X)
    (R : Fin (h + 1) → X) (B : Fin (w + 1) → X) : 𝕜 :=
  (∏ i : Fin w, ∏ j, F.D i.succ j (H i.castSucc j) (V i j.succ) (H i.succ j) (V i j.castSucc)) *
  (∏ i : Fin w, F.Eu i.succ (T i.castSucc) (T i.succ) (V i (Fin.last h))) *
  (∏ j, F.Er j (R j.succ) (R j.castSucc) (H (Fin.last w) j)) *
  (∏ i : Fin w, F.Ed i.succ (B i.succ) (B i.castSucc) (V i 0)) *
  (F.C1 (T (Fin.last w)) (R (Fin.last h)) * F.C2 (R 0) (B (Fin.last w)))

/-- The left column as a chain: its lower end, its links and its upper end. -/
def lowEnd (F : Frame X G 𝕜 (w + 1) h) (b : X) (x : X × G) : 𝕜 := ∑ b', F.Ed 0 b b' x.2 * F.C3 b' x.1
def link (F : Frame X G 𝕜 (w + 1) h) (g : Fin h → G) (j : Fin h) (x y : X × G) : 𝕜 :=
  ∑ g', F.El j x.1 y.1 g' * F.D 0 j g' y.2 (g j) x.2
def highEnd (F : Frame X G 𝕜 (w + 1) h) (t : X) (x : X × G) : 𝕜 := ∑ t', F.C0 x.1 t' * F.Eu 0 t' t x.2

omit [Fintype X] [Fintype G] in
theorem cons_weight (F : Frame X G 𝕜 (w + 1) h) (H : Fin (w + 1) → Fin h → G) (V : Fin w → Fin (h + 1) → G)
    (T : Fin (w + 1) → X) (R : Fin (h + 1) → X) (B : Fin (w + 1) → X) (L : Fin (h + 1) → X) (g : Fin h → G)
    (v : Fin (h + 1) → G) (t b : X) :
    F.weight (Fin.cons g H : Fin (w + 2) → Fin h → G) (Fin.cons v V : Fin (w + 1) → Fin (h + 1) → G)
      (Fin.cons t T : Fin (w + 2) → X) R (Fin.cons b B : Fin (w + 2) → X) L =
    restWeight F H V T R B * ((F.Ed 0 (B 0) b (v 0) * F.C3 b (L 0)) *
      (∏ j : Fin h, F.El j (L j.castSucc) (L j.succ) (g j) * F.D 0 j (g j) (v j.succ) (H 0 j) (v j.castSucc)) *
      (F.C0 (L (Fin.last h)) t * F.Eu 0 t (T 0) (v (Fin.last h)))) := by
  unfold Frame.weight restWeight
  simp only [Fin.prod_univ_succ (n := w), Fin.cons_succ, Fin.cons_zero, Fin.castSucc_zero, ← Fin.succ_castSucc,
    ← Fin.succ_last, prod_mul_distrib]
  ring

/-- The sum over the labels of the left column. -/
theorem sum_column (F : Frame X G 𝕜 (w + 1) h) (H0 : Fin h → G) (t0 b0 : X) :
    ∑ g : Fin h → G, ∑ v : Fin (h + 1) → G, ∑ t, ∑ b, ∑ L : Fin (h + 1) → X, (F.Ed 0 b0 b (v 0) * F.C3 b (L 0)) *
      (∏ j : Fin h, F.El j (L j.castSucc) (L j.succ) (g j) * F.D 0 j (g j) (v j.succ) (H0 j) (v j.castSucc)) *
      (F.C0 (L (Fin.last h)) t * F.Eu 0 t t0 (v (Fin.last h))) =
    ∑ l : Fin (h + 1) → X × G, lowEnd F b0 (l 0) * (∏ j : Fin h, link F H0 j (l j.castSucc) (l j.succ)) *
      highEnd F t0 (l (Fin.last h)) := by
  rw [← (Equiv.arrowProdEquivProdArrow (Fin (h + 1)) (fun _ => X) (fun _ => G)).symm.sum_comp, Fintype.sum_prod_type]
  have e : ∀ (L : Fin (h + 1) → X) (v : Fin (h + 1) → G) (j : Fin (h + 1)),
      (Equiv.arrowProdEquivProdArrow (Fin (h + 1)) (fun _ => X) (fun _ => G)).symm (L, v) j = (L j, v j) := fun _ _ _ => rfl
  simp only [e, lowEnd, link, highEnd, prod_univ_sum, Fintype.piFinset_univ]
  calc _ = ∑ L : Fin (h + 1) → X, ∑ v : Fin (h + 1) → G, ∑ g : Fin h → G, ∑ t, ∑ b, (F.Ed 0 b0 b (v 0) * F.C3 b (L 0)) *
      (∏ j : Fin h, F.El j (L j.castSucc) (L j.succ) (g j) * F.D 0 j (g j) (v j.succ) (H0 j) (v j.castSucc)) *
      (F.C0 (L (Fin.last h)) t * F.Eu 0 t t0 (v (Fin.last h))) := by
        rw [sum_congr rfl fun g _ => sum_congr rfl fun v _ => sum_congr rfl fun t _ => sum_comm,
          sum_congr rfl fun g _ => sum_congr rfl fun v _ => sum_comm, sum_congr rfl fun g _ => sum_comm, sum_comm]
        exact sum_congr rfl fun L _ => sum_comm
    _ = _ := by
        refine sum_congr rfl fun L _ => sum_congr rfl fun v _ => ?_
        simp only [sum_mul, mul_sum]
        rw [sum_comm]

theorem split_value (F : Frame X G 𝕜 (w + 1) h) :
    F.value = ∑ H : Fin (w + 1) → Fin h → G, ∑ V : Fin w → Fin (h + 1) → G, ∑ T : Fin (w + 1) → X, ∑ R : Fin (h + 1) → X,
      ∑ B : Fin (w + 1) → X, restWeight F H V T R B *
        ∑ l : Fin (h + 1) → X × G, lowEnd F (B 0) (l 0) * (∏ j : Fin h, link F (H 0) j (l j.castSucc) (l j.succ)) *
          highEnd F (T 0) (l (Fin.last h)) := by
  have c1 : ∀ {Y : Type} [Fintype Y] (n : ℕ) (f : (Fin (n + 1) → Y) → 𝕜), ∑ l : Fin (n + 1) → Y, f l =
      ∑ l : Fin n → Y, ∑ y, f (Fin.cons y l : Fin (n + 1) → Y) := by
    intro Y _ n f
    rw [← (Fin.consEquiv fun _ : Fin (n + 1) => Y).sum_comp, Fintype.sum_prod_type, sum_comm]
    rfl
  have p2 : ∀ {a b c : Type} [Fintype a] [Fintype b] [Fintype c] (f : a → b → c → 𝕜),
      ∑ x, ∑ y, ∑ z, f x y z = ∑ z, ∑ x, ∑ y, f x y z := by
    intro a b c _ _ _ f
    rw [sum_congr rfl fun x _ => sum_comm, sum_comm]
  have p3 : ∀ {a b c d : Type} [Fintype a] [Fintype b] [Fintype c] [Fintype d] (f : a → b → c → d → 𝕜),
      ∑ x, ∑ y, ∑ z, ∑ u, f x y z u = ∑ u, ∑ x, ∑ y, ∑ z, f x y z u := by
    intro a b c d _ _ _ _ f
    rw [sum_congr rfl fun x _ => p2 _, sum_comm]
  unfold Frame.value
  rw [c1 (w + 1)]
  refine sum_congr rfl fun H _ => ?_
  rw [sum_congr rfl fun g _ => c1 w _, sum_comm]
  refine sum_congr rfl fun V _ => ?_
  rw [sum_congr rfl fun g _ => sum_congr rfl fun v _ => c1 (w + 1) _, p2]
  refine sum_congr rfl fun T _ => ?_
  rw [p3]
  refine sum_congr rfl fun R _ => ?_
  rw [sum_congr rfl fun g _ => sum_congr rfl fun v _ => sum_congr rfl fun t _ => c1 (w + 1) _, p3]
  refine sum_congr rfl fun B _ => ?_
  simp only [cons_weight, ← mul_sum, sum_column]

/-- Absorbing the left column through projectors that resolve the identity multiplies the value by a factor. -/
theorem Absorbs.value [DecidableEq X] [DecidableEq G] {F : Frame X G 𝕜 (w + 1) h} {F' : Frame X G 𝕜 w h}
    {p1 p2 : Fin (h + 1) → X × G → X → 𝕜} {n0 n3 : 𝕜} {n : Fin h → 𝕜} (ha : Absorbs F F' p1 p2 n0 n3 n)
    {S : Fin (h + 1) → X → Prop} (hs : LeftSupport F S) {c : Fin (h + 1) → 𝕜} (hr : Resolving h p1 p2 (fun j x => S j x.1) c) :
    F'.value = n3 * (∏ j, n j) * n0 * (∏ j, c j) * F.value := by
  rw [split_value, Frame.value]
  simp only [mul_sum]
  refine sum_congr rfl fun H _ => sum_congr rfl fun V _ => sum_congr rfl fun T _ => sum_congr rfl fun R _ =>
    sum_congr rfl fun B _ => ?_
  have hw : ∀ L, F'.weight H V T R B L = n3 * (∏ j, n j) * n0 * restWeight F H V T R B *
      ((∑ x, lowEnd F (B 0) x * p1 0 x (L 0)) *
      (∏ j : Fin h, ∑ x, ∑ y, p2 j.castSucc x (L j.castSucc) * link F (H 0) j x y * p1 j.succ y (L j.succ)) *
      (∑ x, p2 (Fin.last h) x (L (Fin.last h)) * highEnd F (T 0) x)) := by
    intro L
    unfold Frame.weight restWeight lowEnd link highEnd
    simp only [ha.D, ha.Eu, ha.Er, ha.Ed, ha.C1, ha.C2, ha.El, ha.C0, ha.C3, prod_mul_distrib]
    ring
  simp only [hw, ← mul_sum]
  rw [chain_insert_closed h p1 p2 (fun j x => S j x.1) c hr (lowEnd F (B 0)) ?_ (link F (H 0)) ?_ ?_ (highEnd F (T 0)) ?_]
  · ring
  · intro x hx
    exact sum_eq_zero fun b _ => by rw [hs.C3 _ _ hx, mul_zero]
  · intro j x y hx
    exact sum_eq_zero fun b _ => by rw [hs.low _ _ _ _ hx, zero_mul]
  · intro j x y hx
    exact sum_eq_zero fun b _ => by rw [hs.high _ _ _ _ hx, zero_mul]
  · intro x hx
    exact sum_eq_zero fun b _ => by rw [hs.C0 _ _ hx, zero_mul]

end split

end AceTN
