import Mathlib.Analysis.RCLike.Basic
import Mathlib.LinearAlgebra.Matrix.Kronecker
import Mathlib.Algebra.BigOperators.Group.Finset.Basic

/-!
Operators on two sites of a finite set of sites, acting as the identity elsewhere.
-/

set_option autoImplicit false

namespace AceTN.Trot

open scoped Kronecker

variable {ι P 𝕜 : Type*} [Fintype ι] [DecidableEq ι] [Fintype P] [DecidableEq P] [RCLike 𝕜]

/-- The matrix of `A` acting on sites `i` and `j`. -/
def pairMat (i j : ι) (A : Matrix (P × P) (P × P) 𝕜) : Matrix (ι → P) (ι → P) 𝕜 := fun s t =>
  if ∀ l, l ≠ i → l ≠ j → s l = t l then A (s i, s j) (t i, t j) else 0

/-- The matrix of `h` acting on site `i`. -/
def siteMatAt (i : ι) (h : Matrix P P 𝕜) : Matrix (ι → P) (ι → P) 𝕜 := fun s t =>
  if ∀ l, l ≠ i → s l = t l then h (s i) (t i) else 0

omit [Fintype P] in
theorem pairMat_one (i j : ι) : pairMat i j (1 : Matrix (P × P) (P × P) 𝕜) = 1 := by
  ext s t
  unfold pairMat
  by_cases h : s = t
  · subst h; simp
  · rw [Matrix.one_apply_ne h]
    split_ifs with hst
    · refine Matrix.one_apply_ne fun e => h (funext fun l => ?_)
      rw [Prod.mk.injEq] at e
      by_cases h1 : l = i
      · rw [h1]; exact e.1
      by_cases h2 : l = j
      · rw [h2]; exact e.2
      exact hst l h1 h2
    · rfl

theorem pairMat_mul (i j : ι) (hij : i ≠ j) (A B : Matrix (P × P) (P × P) 𝕜) :
    pairMat i j (A * B) = pairMat i j A * pairMat i j B := by
  ext s t
  rw [Matrix.mul_apply]
  let e : P × P → (ι → P) := fun a => Function.update (Function.update s i a.1) j a.2
  have ei : ∀ a, e a i = a.1 := fun a => by simp [e, Function.update_of_ne hij]
  have ej : ∀ a, e a j = a.2 := fun a => by simp [e]
  have eo : ∀ a l, l ≠ i → l ≠ j → e a l = s l := fun a l h1 h2 => by
    simp only [e]; rw [Function.update_of_ne h2, Function.update_of_ne h1]
  have hinj : Function.Injective e := fun a a' h => Prod.ext
    (by rw [← ei a, ← ei a', h]) (by rw [← ej a, ← ej a', h])
  have hsum : (∑ a, pairMat i j A s (e a) * pairMat i j B (e a) t) =
      ∑ u, pairMat i j A s u * pairMat i j B u t := by
    refine Finset.sum_of_injOn e hinj.injOn (fun _ _ => Finset.mem_univ _) (fun u _ hu => ?_) (fun _ _ => rfl)
    have : ¬ ∀ l, l ≠ i → l ≠ j → s l = u l := by
      intro h
      refine hu ⟨(u i, u j), by simp, funext fun l => ?_⟩
      by_cases h1 : l = i
      · rw [h1, ei]
      by_cases h2 : l = j
      · rw [h2, ej]
      rw [eo _ l h1 h2, h l h1 h2]
    rw [pairMat, if_neg this, zero_mul]
  rw [← hsum]
  unfold pairMat
  by_cases hst : ∀ l, l ≠ i → l ≠ j → s l = t l
  · rw [if_pos hst, Matrix.mul_apply]
    refine Finset.sum_congr rfl fun a _ => ?_
    rw [if_pos (fun l h1 h2 => (eo a l h1 h2).symm), if_pos (fun l h1 h2 => by rw [eo a l h1 h2, hst l h1 h2]), ei, ej]
  · rw [if_neg hst]
    refine (Finset.sum_eq_zero fun a _ => ?_).symm
    rw [if_neg (c := ∀ l, l ≠ i → l ≠ j → e a l = t l), mul_zero]
    intro h
    exact hst fun l h1 h2 => by rw [← eo a l h1 h2, h l h1 h2]

/-- Acting on two sites is a homomorphism of algebras. -/
def placeTwo (i j : ι) (hij : i ≠ j) : Matrix (P × P) (P × P) 𝕜 →ₐ[𝕜] Matrix (ι → P) (ι → P) 𝕜 :=
  AlgHom.ofLinearMap
    { toFun := pairMat i j
      map_add' := fun A B => by
        ext s t; simp only [pairMat, Matrix.add_apply]; split_ifs <;> simp
      map_smul' := fun c A => by
        ext s t; simp only [pairMat, Matrix.smul_apply, RingHom.id_apply]; split_ifs <;> simp }
    (pairMat_one i j) (pairMat_mul i j hij)

/-- Acting on one site. -/
def placeOne (i : ι) : Matrix P P 𝕜 →ₗ[𝕜] Matrix (ι → P) (ι → P) 𝕜 where
  toFun := siteMatAt i
  map_add' A B := by ext s t; simp only [siteMatAt, Matrix.add_apply]; split_ifs <;> simp
  map_smul' c A := by ext s t; simp only [siteMatAt, Matrix.smul_apply, RingHom.id_apply]; split_ifs <;> simp

theorem placeTwo_left (i j : ι) (hij : i ≠ j) (h : Matrix P P 𝕜) :
    placeTwo i j hij (h ⊗ₖ (1 : Matrix P P 𝕜)) = placeOne i h := by
  ext s t
  show pairMat i j _ s t = siteMatAt i h s t
  unfold pairMat siteMatAt
  by_cases h1 : ∀ l, l ≠ i → s l = t l
  · rw [if_pos (fun l hl _ => h1 l hl), if_pos h1]
    simp [h1 j hij.symm]
  · rw [if_neg h1]
    split_ifs with h2
    · have : s j ≠ t j := fun e => h1 fun l hl => by
        by_cases hlj : l = j
        · rw [hlj, e]
        · exact h2 l hl hlj
      simp [this]
    · rfl

theorem placeTwo_right (i j : ι) (hij : i ≠ j) (h : Matrix P P 𝕜) :
    placeTwo i j hij ((1 : Matrix P P 𝕜) ⊗ₖ h) = placeOne j h := by
  ext s t
  show pairMat i j _ s t = siteMatAt j h s t
  unfold pairMat siteMatAt
  by_cases h1 : ∀ l, l ≠ j → s l = t l
  · rw [if_pos (fun l _ hl => h1 l hl), if_pos h1]
    simp [h1 i hij]
  · rw [if_neg h1]
    split_ifs with h2
    · have : s i ≠ t i := fun e => h1 fun l hl => by
        by_cases hli : l = i
        · rw [hli, e]
        · exact h2 l hli hl
      simp [this]
    · rfl

theorem pairMat_mul_disjoint (i j k l : ι) (hik : i ≠ k) (hil : i ≠ l) (hjk : j ≠ k) (hjl : j ≠ l)
    (A B : Matrix (P × P) (P × P) 𝕜) (s t : ι → P) :
    (pairMat i j A * pairMat k l B) s t =
      if ∀ x, x ≠ i → x ≠ j → x ≠ k → x ≠ l → s x = t x then
        A (s i, s j) (t i, t j) * B (s k, s l) (t k, t l) else 0 := by
  rw [Matrix.mul_apply]
  let u : ι → P := fun x => if x = i ∨ x = j then t x else s x
  have ui : u i = t i := by simp [u]
  have uj : u j = t j := by simp [u]
  have uo : ∀ x, x ≠ i → x ≠ j → u x = s x := fun x h1 h2 => by simp [u, h1, h2]
  rw [Finset.sum_eq_single u]
  · unfold pairMat
    rw [if_pos (fun x h1 h2 => (uo x h1 h2).symm), ui, uj, uo k hik.symm hjk.symm, uo l hil.symm hjl.symm]
    by_cases h : ∀ x, x ≠ i → x ≠ j → x ≠ k → x ≠ l → s x = t x
    · rw [if_pos h, if_pos]
      intro x h3 h4
      by_cases h1 : x = i
      · rw [h1, ui]
      by_cases h2 : x = j
      · rw [h2, uj]
      rw [uo x h1 h2, h x h1 h2 h3 h4]
    · rw [if_neg h, if_neg, mul_zero]
      intro h'
      exact h fun x h1 h2 h3 h4 => by rw [← uo x h1 h2, h' x h3 h4]
  · intro v _ hv
    unfold pairMat
    by_cases h1 : ∀ x, x ≠ i → x ≠ j → s x = v x
    · rw [if_neg (c := ∀ x, x ≠ k → x ≠ l → v x = t x), mul_zero]
      intro h2
      refine hv (funext fun x => ?_)
      by_cases hx : x = i ∨ x = j
      · have : u x = t x := by simp [u, hx]
        rw [this]
        rcases hx with rfl | rfl
        · exact h2 _ hik hil
        · exact h2 _ hjk hjl
      · rw [not_or] at hx
        rw [uo x hx.1 hx.2, h1 x hx.1 hx.2]
    · rw [if_neg h1, zero_mul]
  · simp

theorem placeTwo_commute (i j k l : ι) (hij : i ≠ j) (hkl : k ≠ l) (hik : i ≠ k) (hil : i ≠ l) (hjk : j ≠ k) (hjl : j ≠ l)
    (A B : Matrix (P × P) (P × P) 𝕜) : Commute (placeTwo i j hij A) (placeTwo k l hkl B) := by
  ext s t
  show (pairMat i j A * pairMat k l B) s t = (pairMat k l B * pairMat i j A) s t
  rw [pairMat_mul_disjoint i j k l hik hil hjk hjl, pairMat_mul_disjoint k l i j hik.symm hjk.symm hil.symm hjl.symm,
    mul_comm]
  congr 1
  apply propext
  constructor <;> intro h x h1 h2 h3 h4 <;> exact h x h3 h4 h1 h2

end AceTN.Trot
