import Verif.Lemmas.EdgeState
import Verif.Props.GroundState
import Verif.Spec.QForm

/-! Energies of product states on a finite lattice. -/

set_option autoImplicit false
set_option linter.unusedSectionVars false

namespace AceTN

open Spec Trot Matrix Finset
open scoped Kronecker

variable {𝕜 V P : Type} [RCLike 𝕜] [Fintype V] [DecidableEq V] [Fintype P] [DecidableEq P]

/-- The product of a vector for each site. -/
def Spec.productState (w : V → P → 𝕜) (p : V → P) : 𝕜 := ∏ v, w v (p v)

theorem sum_prod_fun (f : V → P → 𝕜) : ∑ p : V → P, ∏ v, f v (p v) = ∏ v, ∑ x, f v x := by
  rw [prod_univ_sum, Fintype.piFinset_univ]

/-- A product with two sites set apart. -/
theorem prod_apart {M : Type} [CommMonoid M] {i j : V} (hij : i ≠ j) (f : V → M) : ∏ v, f v = f i * f j * ∏ v ∈ (univ.erase i).erase j, f v := by
  rw [mul_assoc, mul_prod_erase _ f (mem_erase.2 ⟨hij.symm, mem_univ j⟩), mul_prod_erase _ f (mem_univ i)]

theorem sum_two {i j : V} (hij : i ≠ j) (g : P → P → 𝕜) (h : V → P → 𝕜) :
    ∑ p : V → P, g (p i) (p j) * ∏ v ∈ (univ.erase i).erase j, h v (p v) = (∑ x, ∑ y, g x y) * ∏ v ∈ (univ.erase i).erase j, ∑ z, h v z := by
  have key : ∀ x y, ∑ p : V → P, (if p i = x then 1 else 0) * (if p j = y then 1 else 0) * ∏ v ∈ (univ.erase i).erase j, h v (p v) =
      ∏ v ∈ (univ.erase i).erase j, ∑ z, h v z := by
    intro x y
    let f : V → P → 𝕜 := fun v z => if v = i then (if z = x then 1 else 0) else if v = j then (if z = y then 1 else 0) else h v z
    have f1 : f i = fun z => if z = x then 1 else 0 := by
      funext z
      simp [f]
    have f2 : f j = fun z => if z = y then 1 else 0 := by
      funext z
      simp [f, hij.symm]
    have f3 : ∀ v ∈ (univ.erase i).erase j, f v = h v := by
      intro v hv
      rw [mem_erase, mem_erase] at hv
      funext z
      simp [f, hv.1, hv.2.1]
    have h1 := sum_prod_fun f
    rw [prod_apart hij, f1, f2] at h1
    rw [prod_congr rfl fun v hv => by rw [f3 v hv]] at h1
    simp only [sum_ite_eq', mem_univ, if_true, one_mul] at h1
    rw [← h1]
    refine sum_congr rfl fun p _ => ?_
    rw [prod_apart hij fun v => f v (p v), f1, f2]
    congr 1
    exact prod_congr rfl fun v hv => by rw [f3 v hv]
  have e : ∀ p : V → P, g (p i) (p j) * ∏ v ∈ (univ.erase i).erase j, h v (p v) =
      ∑ x, ∑ y, g x y * ((if p i = x then 1 else 0) * (if p j = y then 1 else 0) * ∏ v ∈ (univ.erase i).erase j, h v (p v)) := by
    intro p
    rw [sum_eq_single (p i) (fun x _ hx => ?_) (by simp), sum_eq_single (p j) (fun y _ hy => ?_) (by simp)]
    · simp
    · simp [hy.symm]
    · simp [hx.symm]
  rw [sum_congr rfl fun p _ => e p, sum_comm, sum_mul]
  refine sum_congr rfl fun x _ => ?_
  rw [sum_comm, sum_mul]
  refine sum_congr rfl fun y _ => ?_
  rw [← mul_sum, key]

theorem self_normSq (w : P → 𝕜) : ∑ z, star (w z) * w z = ((normSq w : ℝ) : 𝕜) := by
  unfold normSq
  push_cast
  exact sum_congr rfl fun z _ => RCLike.conj_mul _

theorem normSq_pair (v w : P → 𝕜) : normSq (fun p : P × P => v p.1 * w p.2) = normSq v * normSq w := by
  unfold normSq
  rw [Fintype.sum_prod_type, sum_mul_sum]
  exact sum_congr rfl fun i _ => sum_congr rfl fun j _ => by rw [norm_mul, mul_pow]

theorem normSq_pos {v : P → 𝕜} (h : v ≠ 0) : 0 < normSq v := by
  unfold normSq
  refine lt_of_le_of_ne (sum_nonneg fun _ _ => sq_nonneg _) fun h0 => h ?_
  rw [eq_comm, sum_eq_zero_iff_of_nonneg fun _ _ => sq_nonneg _] at h0
  funext p
  exact norm_eq_zero.1 (pow_eq_zero_iff two_ne_zero |>.1 (h0 p (mem_univ _)))

theorem stateNorm_product (w : V → P → 𝕜) : stateNorm (productState w) ^ 2 = ∏ v, normSq (w v) := by
  have h := overlap_self (productState w)
  have e : overlap (productState w) (productState w) = ((∏ v, normSq (w v) : ℝ) : 𝕜) := by
    unfold overlap productState
    push_cast
    rw [prod_congr rfl fun v _ => (self_normSq (w v)).symm, ← sum_prod_fun]
    refine sum_congr rfl fun p _ => ?_
    rw [star_prod, prod_mul_distrib]
  rw [e] at h
  exact_mod_cast h.symm

/-- A two-site operator. -/
theorem overlap_pair {i j : V} (hij : i ≠ j) (O : Matrix (P × P) (P × P) 𝕜) (w : V → P → 𝕜) :
    overlap (productState w) ((pairMat i j O).mulVec (productState w)) =
      qform O (fun p => w i p.1 * w j p.2) * ((∏ v ∈ (univ.erase i).erase j, normSq (w v) : ℝ) : 𝕜) := by
  unfold overlap
  have e : ∀ p : V → P, star (productState w p) * (pairMat i j O).mulVec (productState w) p =
      (∑ a, ∑ b, star (w i (p i) * w j (p j)) * O (p i, p j) (a, b) * (w i a * w j b)) *
        ∏ v ∈ (univ.erase i).erase j, star (w v (p v)) * w v (p v) := by
    intro p
    rw [pairMat_mulVec i j hij]
    unfold productState
    rw [prod_apart hij, star_mul', star_prod, mul_sum, sum_mul]
    refine sum_congr rfl fun a _ => ?_
    rw [mul_sum, sum_mul]
    refine sum_congr rfl fun b _ => ?_
    rw [prod_apart hij fun v => w v (Function.update (Function.update p i a) j b v), Function.update_self, Function.update_of_ne hij,
      Function.update_self, prod_mul_distrib]
    have : ∏ v ∈ (univ.erase i).erase j, w v (Function.update (Function.update p i a) j b v) = ∏ v ∈ (univ.erase i).erase j, w v (p v) := by
      refine prod_congr rfl fun v hv => ?_
      rw [mem_erase, mem_erase] at hv
      rw [Function.update_of_ne hv.1, Function.update_of_ne hv.2.1]
    rw [this]
    ring
  rw [sum_congr rfl fun p _ => e p, sum_two hij (fun x y => ∑ a, ∑ b, star (w i x * w j y) * O (x, y) (a, b) * (w i a * w j b))
    (fun v z => star (w v z) * w v z)]
  unfold qform
  simp only [Fintype.sum_prod_type]
  congr 1
  push_cast
  exact prod_congr rfl fun v _ => self_normSq _

theorem energy_pair {i j : V} (hij : i ≠ j) (O : Matrix (P × P) (P × P) 𝕜) (w : V → P → 𝕜) (hw : ∀ v, w v ≠ 0) :
    energyOf (pairMat i j O) (productState w) = RCLike.re (qform O fun p => w i p.1 * w j p.2) / normSq fun p : P × P => w i p.1 * w j p.2 := by
  unfold energyOf
  rw [overlap_pair hij, stateNorm_product, prod_apart hij, normSq_pair, RCLike.re_mul_ofReal]
  have : 0 < ∏ v ∈ (univ.erase i).erase j, normSq (w v) := prod_pos fun v _ => normSq_pos (hw v)
  rw [mul_div_mul_right _ _ this.ne']

/-- A one-site operator. -/
theorem energy_site {i j : V} (hij : i ≠ j) (O : Matrix P P 𝕜) (w : V → P → 𝕜) (hw : ∀ v, w v ≠ 0) :
    energyOf (siteMatAt i O) (productState w) = RCLike.re (qform O (w i)) / normSq (w i) := by
  have e : siteMatAt i O = pairMat i j (O ⊗ₖ (1 : Matrix P P 𝕜)) := (placeTwo_left i j hij O).symm
  rw [e, energy_pair hij _ w hw, normSq_pair]
  have q : qform (O ⊗ₖ (1 : Matrix P P 𝕜)) (fun p => w i p.1 * w j p.2) = qform O (w i) * ((normSq (w j) : ℝ) : 𝕜) := by
    rw [← self_normSq]
    unfold qform
    simp only [Fintype.sum_prod_type, kroneckerMap_apply, one_apply, mul_ite, mul_one, mul_zero, ite_mul, zero_mul, sum_ite_eq, mem_univ, if_true,
      sum_mul]
    refine sum_congr rfl fun x _ => ?_
    rw [sum_comm]
    refine sum_congr rfl fun y _ => ?_
    rw [mul_sum]
    refine sum_congr rfl fun z _ => ?_
    rw [star_mul']
    ring
  rw [q, RCLike.re_mul_ofReal, mul_div_mul_right _ _ (normSq_pos (hw j)).ne']

section linear

variable {ι : Type} [Fintype ι] [DecidableEq ι]

theorem energyOf_add (A B : Matrix ι ι 𝕜) (ψ : ι → 𝕜) : energyOf (A + B) ψ = energyOf A ψ + energyOf B ψ := by
  unfold energyOf overlap
  rw [Matrix.add_mulVec, ← add_div, ← map_add, ← sum_add_distrib]
  congr 2
  exact sum_congr rfl fun p _ => by rw [Pi.add_apply, mul_add]

theorem energyOf_zero (ψ : ι → 𝕜) : energyOf (0 : Matrix ι ι 𝕜) ψ = 0 := by
  unfold energyOf overlap
  simp

theorem energyOf_sum {κ : Type} [Fintype κ] (f : κ → Matrix ι ι 𝕜) (ψ : ι → 𝕜) : energyOf (∑ c, f c) ψ = ∑ c, energyOf (f c) ψ := by
  classical
  induction (univ : Finset κ) using Finset.induction_on with
  | empty => rw [sum_empty, sum_empty, energyOf_zero]
  | insert a s h ih => rw [sum_insert h, sum_insert h, energyOf_add, ih]

theorem energyOf_listSum (l : List (Matrix ι ι 𝕜)) (ψ : ι → 𝕜) : energyOf l.sum ψ = (l.map fun A => energyOf A ψ).sum := by
  induction l with
  | nil => exact energyOf_zero ψ
  | cons A l ih => rw [List.sum_cons, energyOf_add, ih, List.map_cons, List.sum_cons]

end linear

end AceTN
