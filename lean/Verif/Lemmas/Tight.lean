import Verif.Spec.TwoSite
import Verif.Spec.Pair
import Verif.Model.FullUpdateBond
import Verif.Props.SimpleUpdate
import Verif.Lemmas.SumTac

/-!
The updates return pairs of tensors that are made of vectors of their two-site tensor: no part of one tensor is lost when it is
contracted with the other.
-/

set_option autoImplicit false
set_option linter.unusedSectionVars false

namespace AceTN

open Spec Matrix Full Simple

variable {𝕜 : Type} [RCLike 𝕜] {N B P : Type} [Fintype N] [Fintype B] [Fintype P] [DecidableEq N] [DecidableEq B] [DecidableEq P]

namespace Spec

/-- The first tensor of a pair is made of columns of the two-site tensor. -/
def TightFirst (a1 a2 : B → B → B → B → P → 𝕜) : Prop :=
  ∃ W : B → B → B → P → B → 𝕜, ∀ b u r d p, a1 b u r d p =
    ∑ l', ∑ u', ∑ d', ∑ q, twoSite a1 a2 u r d l' u' d' p q * W l' u' d' q b

/-- The second tensor of a pair is made of rows of the two-site tensor. -/
def TightSecond (a1 a2 : B → B → B → B → P → 𝕜) : Prop :=
  ∃ W : B → B → B → P → B → 𝕜, ∀ l' u' b d' q, a2 l' u' b d' q =
    ∑ u, ∑ r, ∑ d, ∑ p, twoSite a1 a2 u r d l' u' d' p q * W u r d p b

/-- The same for a reduced tensor and its partner. -/
def TightR (a1 a2 : N → B → P → 𝕜) : Prop :=
  ∃ W : N → P → B → 𝕜, ∀ y b p, a1 y b p = ∑ x, ∑ q, pairProd a1 a2 y x p q * W x q b

end Spec

/-- Two factors that share the weights `s`, the second with orthonormal vectors. -/
theorem tightR_of (F G : N → P → B → 𝕜) (s : B → 𝕜) (hG : ∀ b b', ∑ x, ∑ q, G x q b * star (G x q b') = if b = b' then 1 else 0) :
    TightR (fun y b p => F y p b * s b) (fun x b q => G x q b * s b) := by
  refine ⟨fun x q b => star (G x q b) * (s b)⁻¹, fun y b p => ?_⟩
  have e : ∑ x, ∑ q, pairProd (fun y b p => F y p b * s b) (fun x b q => G x q b * s b) y x p q * (star (G x q b) * (s b)⁻¹) =
      ∑ c, F y p c * s c * (s c * (∑ x, ∑ q, G x q c * star (G x q b)) * (s b)⁻¹) := by
    unfold pairProd
    simp only [Finset.mul_sum, Finset.sum_mul]
    rw [Finset.sum_comm' (t' := Finset.univ) (s' := fun _ => Finset.univ) (by simp)]
    conv_rhs => rw [Finset.sum_comm]
    conv_rhs =>
      enter [2, x]
      rw [Finset.sum_comm]
    rw [Finset.sum_comm]
    refine Finset.sum_congr rfl fun x _ => Finset.sum_congr rfl fun q _ => Finset.sum_congr rfl fun c _ => ?_
    ring
  rw [e]
  simp only [hG]
  rw [Finset.sum_eq_single b (fun c _ hc => by simp [hc]) (by simp)]
  rw [if_pos rfl, mul_one]
  by_cases h : s b = 0
  · rw [h]; simp
  · rw [mul_inv_cancel₀ h, mul_one]

theorem tightR_splitReduced {bD : ℕ} (la : Lapack 𝕜) (hb : bD ≤ min (Fintype.card (N × P)) (Fintype.card (N × P)))
    (a1r a2r : N → Fin bD → P → 𝕜) (gate : P → P → P → P → 𝕜) :
    TightR (splitReduced la hb a1r a2r gate).1 (splitReduced la hb a1r a2r gate).2.1 ∧
      TightR (splitReduced la hb a1r a2r gate).2.1 (splitReduced la hb a1r a2r gate).1 := by
  unfold splitReduced
  dsimp only
  generalize hA : (Matrix.of fun (i j : N × P) => _ : Matrix (N × P) (N × P) 𝕜) = A
  have h := la.svd_ok A
  generalize la.svd A = t at h ⊢
  obtain ⟨U, S, Vh⟩ := t
  dsimp only at h ⊢
  set s : Fin bD → 𝕜 := fun a => ((Real.sqrt (S (Fin.castLE hb a) / Real.sqrt (∑ b : Fin bD, S (Fin.castLE hb b) ^ 2)) : ℝ) : 𝕜) with hs
  constructor
  · refine tightR_of (fun y p b => U (y, p) (Fin.castLE hb b)) (fun x q b => Vh (Fin.castLE hb b) (x, q)) s fun b b' => ?_
    have e := congrFun (congrFun h.right (Fin.castLE hb b)) (Fin.castLE hb b')
    rw [Matrix.mul_apply, Matrix.one_apply, Fintype.sum_prod_type] at e
    simp only [Fin.castLE_inj] at e
    exact e
  · refine tightR_of (fun x q b => Vh (Fin.castLE hb b) (x, q)) (fun y p b => U (y, p) (Fin.castLE hb b)) s fun b b' => ?_
    have e := congrFun (congrFun h.left (Fin.castLE hb b')) (Fin.castLE hb b)
    rw [Matrix.mul_apply, Matrix.one_apply, Fintype.sum_prod_type] at e
    simp only [Fin.castLE_inj, eq_comm (a := b')] at e
    rw [← e]
    exact Finset.sum_congr rfl fun x _ => Finset.sum_congr rfl fun q _ => mul_comm _ _

theorem tightR_finalizeCore {bD : ℕ} (la : Lapack 𝕜) (hb : bD ≤ min (Fintype.card (Fin (qD N P bD))) (Fintype.card (Fin (qD N P bD))))
    (a1r a2r : N → Fin bD → P → 𝕜) :
    TightR (finalizeCore la hb a1r a2r).1 (finalizeCore la hb a1r a2r).2 ∧
      TightR (finalizeCore la hb a1r a2r).2 (finalizeCore la hb a1r a2r).1 := by
  unfold finalizeCore
  dsimp only
  have hq1 := (la.qr_ok (finMat a1r)).iso
  have hq2 := (la.qr_ok (finMat a2r)).iso
  generalize hA : (Matrix.of fun a b => _ : Matrix (Fin (qD N P bD)) (Fin (qD N P bD)) 𝕜) = A
  have h := la.svd_ok A
  generalize la.svd A = t at h ⊢
  obtain ⟨U, S, Vh⟩ := t
  dsimp only at h ⊢
  set s : Fin bD → 𝕜 := fun i => ((Real.sqrt (S (Fin.castLE hb i) / Real.sqrt (∑ j, S j ^ 2)) : ℝ) : 𝕜) with hs
  generalize (la.qr (finMat a1r)).1 = Q1 at hq1 ⊢
  generalize (la.qr (finMat a2r)).1 = Q2 at hq2 ⊢
  have e1 : (fun y u p => ∑ a, Q1 (y, p) a * (U a (Fin.castLE hb u) * s u)) = fun y u p => (∑ a, Q1 (y, p) a * U a (Fin.castLE hb u)) * s u := by
    funext y u p
    rw [Finset.sum_mul]
    exact Finset.sum_congr rfl fun _ _ => (mul_assoc _ _ _).symm
  have e2 : (fun x v q => ∑ b, Q2 (x, q) b * (Vh (Fin.castLE hb v) b * s v)) = fun x v q => (∑ b, Q2 (x, q) b * Vh (Fin.castLE hb v) b) * s v := by
    funext y u p
    rw [Finset.sum_mul]
    exact Finset.sum_congr rfl fun _ _ => (mul_assoc _ _ _).symm
  have o1 : ∀ b b' : Fin bD, ∑ x, ∑ q, (∑ a, Q1 (x, q) a * U a (Fin.castLE hb b)) * star (∑ a, Q1 (x, q) a * U a (Fin.castLE hb b')) =
      if b = b' then 1 else 0 := by
    intro b b'
    have e : ((Q1 * U)ᴴ * (Q1 * U)) (Fin.castLE hb b') (Fin.castLE hb b) = if b = b' then 1 else 0 := by
      rw [Matrix.conjTranspose_mul, Matrix.mul_assoc, ← Matrix.mul_assoc Q1ᴴ, hq1, Matrix.one_mul, h.left, Matrix.one_apply]
      simp only [Fin.castLE_inj, eq_comm (a := b')]
    rw [← e, Matrix.mul_apply, Fintype.sum_prod_type]
    refine Finset.sum_congr rfl fun x _ => Finset.sum_congr rfl fun q _ => ?_
    rw [Matrix.conjTranspose_apply, Matrix.mul_apply, Matrix.mul_apply, mul_comm]
  have o2 : ∀ b b' : Fin bD, ∑ x, ∑ q, (∑ a, Q2 (x, q) a * Vh (Fin.castLE hb b) a) * star (∑ a, Q2 (x, q) a * Vh (Fin.castLE hb b') a) =
      if b = b' then 1 else 0 := by
    intro b b'
    have e : ((Q2 * Vhᵀ)ᴴ * (Q2 * Vhᵀ)) (Fin.castLE hb b') (Fin.castLE hb b) = if b = b' then 1 else 0 := by
      rw [Matrix.conjTranspose_mul, Matrix.mul_assoc, ← Matrix.mul_assoc Q2ᴴ, hq2, Matrix.one_mul]
      have e3 : Vhᵀᴴ * Vhᵀ = (Vh * Vhᴴ)ᵀ := by
        rw [Matrix.transpose_mul]
        rfl
      rw [e3, h.right, Matrix.transpose_one, Matrix.one_apply]
      simp only [Fin.castLE_inj, eq_comm (a := b')]
    rw [← e, Matrix.mul_apply, Fintype.sum_prod_type]
    refine Finset.sum_congr rfl fun x _ => Finset.sum_congr rfl fun q _ => ?_
    rw [Matrix.conjTranspose_apply, Matrix.mul_apply, Matrix.mul_apply, mul_comm]
    rfl
  have t1 := tightR_of (fun x q b => ∑ a, Q1 (x, q) a * U a (Fin.castLE hb b)) (fun x q b => ∑ a, Q2 (x, q) a * Vh (Fin.castLE hb b) a) s o2
  have t2 := tightR_of (fun x q b => ∑ a, Q2 (x, q) a * Vh (Fin.castLE hb b) a) (fun x q b => ∑ a, Q1 (x, q) a * U a (Fin.castLE hb b)) s o1
  rw [← e1, ← e2] at t1 t2
  exact ⟨t1, t2⟩

/-- Isometric outer parts do not matter. -/
theorem tight_recompose (a1q a2q : B → B → B → N → 𝕜)
    (h1 : ∀ x y, ∑ r, ∑ d, ∑ u, star (a1q r d u x) * a1q r d u y = if x = y then 1 else 0)
    (h2 : ∀ x y, ∑ d, ∑ l, ∑ u, star (a2q d l u x) * a2q d l u y = if x = y then 1 else 0) (a1r a2r : N → B → P → 𝕜) :
    (TightR a1r a2r → TightFirst (recompose a1q a1r a2q a2r).1 (recompose a1q a1r a2q a2r).2) ∧
    (TightR a2r a1r → TightSecond (recompose a1q a1r a2q a2r).1 (recompose a1q a1r a2q a2r).2) := by
  have hT : ∀ u r d l' u' d' p q, twoSite (recompose a1q a1r a2q a2r).1 (recompose a1q a1r a2q a2r).2 u r d l' u' d' p q =
      ∑ y, ∑ x, a1q r d u y * a2q d' l' u' x * pairProd a1r a2r y x p q := by
    intro o1 o2 o3 o4 o5 o6 o7 o8
    unfold twoSite recompose pairProd
    dsimp only
    einsum_ring
  constructor
  · rintro ⟨W, hW⟩
    refine ⟨fun l' u' d' q b => ∑ x, star (a2q d' l' u' x) * W x q b, fun b u r d p => ?_⟩
    have e : ∑ l', ∑ u', ∑ d', ∑ q, twoSite (recompose a1q a1r a2q a2r).1 (recompose a1q a1r a2q a2r).2 u r d l' u' d' p q *
        (∑ x, star (a2q d' l' u' x) * W x q b) =
        ∑ y, ∑ x, ∑ x', ∑ q, a1q r d u y * pairProd a1r a2r y x p q * W x' q b * (∑ d', ∑ l', ∑ u', star (a2q d' l' u' x') * a2q d' l' u' x) := by
      simp only [hT]
      generalize pairProd a1r a2r = M
      einsum_ring
    rw [e]
    simp only [h2]
    show ∑ y, a1q r d u y * a1r y b p = _
    refine Finset.sum_congr rfl fun y _ => ?_
    rw [hW, Finset.mul_sum]
    refine Finset.sum_congr rfl fun x _ => ?_
    rw [Finset.sum_eq_single x (fun c _ hc => by simp [hc]) (by simp), Finset.mul_sum]
    refine Finset.sum_congr rfl fun q _ => ?_
    rw [if_pos rfl]
    ring
  · rintro ⟨W, hW⟩
    refine ⟨fun u r d p b => ∑ y, star (a1q r d u y) * W y p b, fun l' u' b d' q => ?_⟩
    have e : ∑ u, ∑ r, ∑ d, ∑ p, twoSite (recompose a1q a1r a2q a2r).1 (recompose a1q a1r a2q a2r).2 u r d l' u' d' p q *
        (∑ y, star (a1q r d u y) * W y p b) =
        ∑ x, ∑ y, ∑ y', ∑ p, a2q d' l' u' x * pairProd a1r a2r y x p q * W y' p b * (∑ r, ∑ d, ∑ u, star (a1q r d u y') * a1q r d u y) := by
      simp only [hT]
      generalize pairProd a1r a2r = M
      einsum_ring
    rw [e]
    simp only [h1]
    show ∑ x, a2q d' l' u' x * a2r x b q = _
    refine Finset.sum_congr rfl fun x _ => ?_
    rw [hW, Finset.mul_sum]
    refine Finset.sum_congr rfl fun y _ => ?_
    rw [Finset.sum_eq_single y (fun c _ hc => by simp [hc]) (by simp), Finset.mul_sum]
    refine Finset.sum_congr rfl fun p _ => ?_
    rw [if_pos rfl]
    have : pairProd a2r a1r x y q p = pairProd a1r a2r y x p q := Finset.sum_congr rfl fun _ _ => mul_comm _ _
    rw [this]
    ring

/-- Factors on the outer legs do not matter. -/
theorem tight_weight (ω1 ω2 : B → B → B → 𝕜) (h1 : ∀ u r d, ω1 u r d ≠ 0) (h2 : ∀ l u d, ω2 l u d ≠ 0) (a1 a2 : B → B → B → B → P → 𝕜) :
    (TightFirst (fun b u r d p => ω1 u r d * a1 b u r d p) (fun l u b d q => ω2 l u d * a2 l u b d q) → TightFirst a1 a2) ∧
    (TightSecond (fun b u r d p => ω1 u r d * a1 b u r d p) (fun l u b d q => ω2 l u d * a2 l u b d q) → TightSecond a1 a2) := by
  have hT : ∀ u r d l' u' d' p q, twoSite (fun b u r d p => ω1 u r d * a1 b u r d p) (fun l u b d q => ω2 l u d * a2 l u b d q) u r d l' u' d' p q =
      ω1 u r d * ω2 l' u' d' * twoSite a1 a2 u r d l' u' d' p q := by
    intro u r d l' u' d' p q
    unfold twoSite
    rw [Finset.mul_sum]
    exact Finset.sum_congr rfl fun b _ => by ring
  constructor
  · rintro ⟨W, hW⟩
    refine ⟨fun l' u' d' q b => ω2 l' u' d' * W l' u' d' q b, fun b u r d p => mul_left_cancel₀ (h1 u r d) ((hW b u r d p).trans ?_)⟩
    simp only [hT, Finset.mul_sum]
    exact Finset.sum_congr rfl fun _ _ => Finset.sum_congr rfl fun _ _ => Finset.sum_congr rfl fun _ _ => Finset.sum_congr rfl fun _ _ => by ring
  · rintro ⟨W, hW⟩
    refine ⟨fun u r d p b => ω1 u r d * W u r d p b, fun l' u' b d' q => mul_left_cancel₀ (h2 l' u' d') ((hW l' u' b d' q).trans ?_)⟩
    simp only [hT, Finset.mul_sum]
    exact Finset.sum_congr rfl fun _ _ => Finset.sum_congr rfl fun _ _ => Finset.sum_congr rfl fun _ _ => Finset.sum_congr rfl fun _ _ => by ring

section updates

variable {bD : ℕ} [NeZero bD] [Nonempty P]

theorem tight_splitBond (la : Lapack 𝕜) (gate : P → P → P → P → 𝕜) (a1 a2 : ATensor (Fin bD) P 𝕜) :
    TightFirst (splitBond la gate a1 a2).1 (splitBond la gate a1 a2).2.1 ∧ TightSecond (splitBond la gate a1 a2).1 (splitBond la gate a1 a2).2.1 := by
  have ht := tightR_splitReduced la bD_le (decompose la a1 a2).a1r (decompose la a1 a2).a2r gate
  have h := tight_recompose (decompose la a1 a2).a1q (decompose la a1 a2).a2q (fun x y => (C30_isometric la a1 a2 x y).1)
    (fun x y => (C30_isometric la a1 a2 x y).2) (splitReduced la bD_le (decompose la a1 a2).a1r (decompose la a1 a2).a2r gate).1
    (splitReduced la bD_le (decompose la a1 a2).a1r (decompose la a1 a2).a2r gate).2.1
  exact ⟨h.1 ht.1, h.2 ht.2⟩

theorem updateReduced_final {N' F : Type} [Fintype N'] [DecidableEq N'] [Nonempty N'] (la : Lapack 𝕜) (fo : Als.FloatOps F) (rep : ℝ → F) (cfg : Full.Settings F)
    (hb : bD ≤ Fintype.card (N' × P)) (a1r a2r : N' → Fin bD → P → 𝕜) (n12 : N' → N' → N' → N' → 𝕜) (gate : P → P → P → P → 𝕜)
    (p : (N' → Fin bD → P → 𝕜) × (N' → Fin bD → P → 𝕜)) (h : updateReduced la fo rep cfg hb a1r a2r n12 gate = some (.ok p)) :
    ∃ p' : (N' → Fin bD → P → 𝕜) × (N' → Fin bD → P → 𝕜), p = finalizeCore la (hb_fin hb) p'.1 p'.2 := by
  unfold updateReduced at h
  obtain ⟨nz, -, h⟩ := Option.map_eq_some_iff.1 h
  split at h
  · simp only [bind, Except.bind] at h
    split at h
    · exact absurd h (by simp)
    · exact ⟨_, (Except.ok.inj h).symm⟩
  · simp only [bind, Except.bind] at h
    split at h
    · exact absurd h (by simp)
    · exact ⟨_, (Except.ok.inj h).symm⟩

theorem tight_recomposed {F : Type} (la : Lapack 𝕜) (fo : Als.FloatOps F) (rep : ℝ → F) (cfg : Full.Settings F)
    (n12 : Fin (nD (Fin bD) P) → Fin (nD (Fin bD) P) → Fin (nD (Fin bD) P) → Fin (nD (Fin bD) P) → 𝕜)
    (gate : P → P → P → P → 𝕜) (a1 a2 c1 c2 : ATensor (Fin bD) P 𝕜)
    (h : ((updateReduced la fo rep cfg bD_le (decompose la a1 a2).a1r (decompose la a1 a2).a2r n12 gate).map fun r => do
      let p ← r
      let (a1, a2) := recompose (decompose la a1 a2).a1q p.1 (decompose la a1 a2).a2q p.2
      return (normalise a1, normalise a2)) = some (Except.ok (c1, c2))) (hne : twoSite c1 c2 ≠ 0) :
    TightFirst c1 c2 ∧ TightSecond c1 c2 := by
  obtain ⟨r, hr, h⟩ := Option.map_eq_some_iff.1 h
  cases r with
  | error e => exact absurd h (by simp [bind, Except.bind])
  | ok p =>
  obtain ⟨p', hp⟩ := updateReduced_final la fo rep cfg bD_le _ _ _ gate p hr
  have ht := tightR_finalizeCore la (hb_fin bD_le) p'.1 p'.2
  rw [← hp] at ht
  have h' : (normalise (recompose (decompose la a1 a2).a1q p.1 (decompose la a1 a2).a2q p.2).1,
      normalise (recompose (decompose la a1 a2).a1q p.1 (decompose la a1 a2).a2q p.2).2) = (c1, c2) := Except.ok.inj h
  obtain ⟨e1, e2⟩ := Prod.mk.inj h'
  have hc := tight_recompose (decompose la a1 a2).a1q (decompose la a1 a2).a2q (fun x y => (C30_isometric la a1 a2 x y).1)
    (fun x y => (C30_isometric la a1 a2 x y).2) p.1 p.2
  generalize recompose (decompose la a1 a2).a1q p.1 (decompose la a1 a2).a2q p.2 = q at e1 e2 hc
  subst e1 e2
  have hn1 : (normA q.1 : 𝕜) ≠ 0 := by
    intro h0
    apply hne
    funext u r d l' u' d' p q
    simp [twoSite, normalise, h0]
  have hn2 : (normA q.2 : 𝕜) ≠ 0 := by
    intro h0
    apply hne
    funext u r d l' u' d' p q
    simp [twoSite, normalise, h0]
  have hw := tight_weight (fun _ _ _ => (normA q.1 : 𝕜)) (fun _ _ _ => (normA q.2 : 𝕜)) (fun _ _ _ => hn1) (fun _ _ _ => hn2)
    (normalise q.1) (normalise q.2)
  have e1 : (fun b u r d p => (normA q.1 : 𝕜) * normalise q.1 b u r d p) = q.1 := by
    funext b u r d p
    exact mul_div_cancel₀ _ hn1
  have e2 : (fun b u r d p => (normA q.2 : 𝕜) * normalise q.2 b u r d p) = q.2 := by
    funext b u r d p
    exact mul_div_cancel₀ _ hn2
  rw [e1, e2] at hw
  exact ⟨hw.1 (hc.1 ht.1), hw.2 (hc.2 ht.2)⟩

end updates

end AceTN
