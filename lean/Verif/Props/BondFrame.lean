import Verif.Spec.Frame
import Verif.Spec.TwoSite
import Verif.Model.TensorUpdate
import Verif.Props.Rdm
import Verif.Lemmas.SumTac

/-!
Property C62: the tensor update of a bond acts on the two site tensors of that bond, in the orientation of the bond.
-/

set_option autoImplicit false

namespace AceTN

open Spec SumTac

variable {𝕜 : Type} [RCLike 𝕜] {B P : Type} [Fintype P]

omit [RCLike 𝕜] [Fintype P] in
theorem inFrame_bondPermute (k : ℕ) (A : ATensor B P 𝕜) : InFrame k A (bondPermute k A) := by
  intro w p
  have h : ∀ i : Fin 4, side k i.val = rotIdx k i := by
    intro i
    apply Fin.ext
    simp only [side, rotIdx]
    omega
  rw [show side k 0 = rotIdx k 0 from h 0, show side k 1 = rotIdx k 1 from h 1, show side k 2 = rotIdx k 2 from h 2,
    show side k 3 = rotIdx k 3 from h 3]
  exact C29_permute_spec (k : ℤ) A w p

omit [RCLike 𝕜] [Fintype P] in
theorem inFrame_unique (k : ℕ) (A x y : ATensor B P 𝕜) (hx : InFrame k A x) (hy : InFrame k A y) : x = y := by
  funext l u r d p
  have hk : k % 4 = 0 ∨ k % 4 = 1 ∨ k % 4 = 2 ∨ k % 4 = 3 := by omega
  have key : ∃ w : Fin 4 → B, w (side k 0) = l ∧ w (side k 1) = u ∧ w (side k 2) = r ∧ w (side k 3) = d := by
    have hs : ∀ i, side k i = side (k % 4) i := fun i => by
      apply Fin.ext; simp only [side]; omega
    simp only [hs]
    rcases hk with h | h | h | h <;> rw [h]
    · exact ⟨![l, u, r, d], rfl, rfl, rfl, rfl⟩
    · exact ⟨![d, l, u, r], rfl, rfl, rfl, rfl⟩
    · exact ⟨![r, d, l, u], rfl, rfl, rfl, rfl⟩
    · exact ⟨![u, r, d, l], rfl, rfl, rfl, rfl⟩
  obtain ⟨w, rfl, rfl, rfl, rfl⟩ := key
  rw [hx w p, hy w p]

omit [RCLike 𝕜] [Fintype P] in
/-- Turning back: the tensor of which `c` is the turned one. -/
theorem inFrame_back (k : ℕ) (c : ATensor B P 𝕜) : InFrame k (bondPermute (4 - (k : ℤ)) c) c := by
  have h := inFrame_bondPermute k (bondPermute (4 - (k : ℤ)) c)
  have e : bondPermute k (bondPermute (4 - (k : ℤ)) c) = c := by
    rw [bondPermute_add, bondPermute_mod _ 0 (by omega)]
    rfl
  rw [e] at h
  exact h

/-- **C62 (frame).** For a bond in any direction, the subclass's tensor update receives the site tensors of the first and of
the second site, each turned so that direction `k` is left; if it raises, so does the update; otherwise the update
returns the two tensors turned back (with the one-site gate of each site applied to its physical index, if one-site
terms are separate). -/
theorem C62_frame {X E : Type} (tensorUpdate : ATensor B P 𝕜 → ATensor B P 𝕜 → Except E (ATensor B P 𝕜 × ATensor B P 𝕜))
    (oneSite : Option ((P → P → 𝕜) × (P → P → 𝕜))) (ipeps : NetT B P X 𝕜) (s1 s2 : Site) (k : ℕ) :
    ∃ x1 x2, InFrame k (ipeps s1).A x1 ∧ InFrame k (ipeps s2).A x2 ∧
      match tensorUpdate x1 x2 with
      | .error e => tensorUpdaterUpdate tensorUpdate oneSite ipeps s1 s2 k = .error e
      | .ok (c1, c2) => ∃ b1 b2, InFrame k b1 c1 ∧ InFrame k b2 c2 ∧
        tensorUpdaterUpdate tensorUpdate oneSite ipeps s1 s2 k = .ok
          (match oneSite with
          | none => (b1, b2)
          | some (g1, g2) => (fun l u r d q => ∑ p, g1 p q * b1 l u r d p, fun l u r d q => ∑ p, g2 p q * b2 l u r d p)) := by
  refine ⟨bondPermute k (ipeps s1).A, bondPermute k (ipeps s2).A, inFrame_bondPermute k _, inFrame_bondPermute k _, ?_⟩
  cases h : tensorUpdate (bondPermute k (ipeps s1).A) (bondPermute k (ipeps s2).A) with
  | error e =>
    unfold tensorUpdaterUpdate
    dsimp only
    rw [h]
    rfl
  | ok c =>
    obtain ⟨c1, c2⟩ := c
    refine ⟨_, _, inFrame_back k c1, inFrame_back k c2, ?_⟩
    unfold tensorUpdaterUpdate
    dsimp only
    rw [h]
    cases oneSite <;> rfl

variable [Fintype B]

omit [Fintype P] in
/-- The two-site tensor of the lattice is that of the turned tensors. -/
theorem bondPair_frame (k : ℕ) (A1 A2 x1 x2 : ATensor B P 𝕜) (h1 : InFrame k A1 x1) (h2 : InFrame k A2 x2)
    (w1 w2 : Fin 4 → B) (p q : P) :
    bondPair k A1 A2 w1 w2 p q =
      twoSite x1 x2 (w1 (side k 1)) (w1 (side k 2)) (w1 (side k 3)) (w2 (side k 0)) (w2 (side k 1)) (w2 (side k 3)) p q := by
  unfold bondPair twoSite
  refine Finset.sum_congr rfl fun b _ => ?_
  rw [← h1, ← h2]
  have hne : ∀ i j : ℕ, i < 4 → j < 4 → i ≠ j → side k i ≠ side k j := by
    intro i j hi hj hij h
    have := congrArg Fin.val h
    simp only [side] at this
    omega
  rw [Function.update_self, Function.update_of_ne (hne 1 0 (by decide) (by decide) (by decide)),
    Function.update_of_ne (hne 2 0 (by decide) (by decide) (by decide)),
    Function.update_of_ne (hne 3 0 (by decide) (by decide) (by decide)), Function.update_self,
    Function.update_of_ne (hne 0 2 (by decide) (by decide) (by decide)),
    Function.update_of_ne (hne 1 2 (by decide) (by decide) (by decide)),
    Function.update_of_ne (hne 3 2 (by decide) (by decide) (by decide))]

theorem onSites_sum (g1 g2 : P → P → 𝕜) (D1 D2 : B → P → 𝕜) (p q : P) :
    (∑ b, (∑ p', g1 p' p * D1 b p') * ∑ q', g2 q' q * D2 b q') =
      ∑ p', ∑ q', g1 p' p * g2 q' q * ∑ b, D1 b p' * D2 b q' := by
  einsum_ring

/-- **C62 (pair).** If the tensor update realises a gate on the pair it is given (up to the factor `f`), the bond update
realises it on the two tensors of the bond on the lattice, in every direction, followed by the one-site gates of the two
sites if these are separate. -/
theorem C62_pair {X E : Type} (tensorUpdate : ATensor B P 𝕜 → ATensor B P 𝕜 → Except E (ATensor B P 𝕜 × ATensor B P 𝕜))
    (gate : P → P → P → P → 𝕜) (f : 𝕜)
    (hup : ∀ x1 x2 c1 c2, tensorUpdate x1 x2 = .ok (c1, c2) → ∀ u r d l' u' d' p q,
      twoSite c1 c2 u r d l' u' d' p q = f * gated gate (twoSite x1 x2) u r d l' u' d' p q)
    (oneSite : Option ((P → P → 𝕜) × (P → P → 𝕜))) (ipeps : NetT B P X 𝕜) (s1 s2 : Site) (k : ℕ)
    (b1 b2 : ATensor B P 𝕜) (h : tensorUpdaterUpdate tensorUpdate oneSite ipeps s1 s2 k = .ok (b1, b2))
    (w1 w2 : Fin 4 → B) (p q : P) :
    let T := gatedPair gate (bondPair k (ipeps s1).A (ipeps s2).A)
    bondPair k b1 b2 w1 w2 p q = f * match oneSite with
      | none => T w1 w2 p q
      | some (g1, g2) => onSites g1 g2 T w1 w2 p q := by
  intro T
  obtain ⟨x1, x2, hx1, hx2, hm⟩ := C62_frame tensorUpdate oneSite ipeps s1 s2 k
  cases ht : tensorUpdate x1 x2 with
  | error e => rw [ht] at hm; dsimp only at hm; rw [hm] at h; cases h
  | ok c =>
    obtain ⟨c1, c2⟩ := c
    rw [ht] at hm
    obtain ⟨d1, d2, hd1, hd2, hm⟩ := hm
    have hT : ∀ p' q', bondPair k d1 d2 w1 w2 p' q' = f * T w1 w2 p' q' := by
      intro p' q'
      rw [bondPair_frame k d1 d2 c1 c2 hd1 hd2, hup x1 x2 c1 c2 ht]
      congr 1
      show _ = gatedPair gate _ w1 w2 p' q'
      unfold gated gatedPair
      refine Finset.sum_congr rfl fun a _ => Finset.sum_congr rfl fun b _ => ?_
      rw [bondPair_frame k _ _ x1 x2 hx1 hx2]
    rw [h] at hm
    cases oneSite with
    | none =>
      have hm := Except.ok.inj hm
      dsimp only at hm ⊢
      rw [Prod.mk.injEq] at hm
      rw [hm.1, hm.2, hT]
    | some g =>
      obtain ⟨g1, g2⟩ := g
      have hm := Except.ok.inj hm
      dsimp only at hm ⊢
      rw [Prod.mk.injEq] at hm
      rw [hm.1, hm.2]
      unfold onSites
      rw [Finset.mul_sum]
      have e : ∀ p' q', f * (g1 p' p * g2 q' q * T w1 w2 p' q') = g1 p' p * g2 q' q * bondPair k d1 d2 w1 w2 p' q' := by
        intro p' q'; rw [hT]; ring
      simp only [Finset.mul_sum, e]
      exact onSites_sum g1 g2 (fun b p' => atLegs d1 (Function.update w1 (side k 0) b) p')
        (fun b q' => atLegs d2 (Function.update w2 (side k 2) b) q') p q

/-- Non-vacuity: an update that returns its arguments realises the identity gate. -/
example [DecidableEq P] (x1 x2 c1 c2 : ATensor B P 𝕜) (h : (Except.ok (x1, x2) : Except Unit _) = .ok (c1, c2))
    (u r d l' u' d' : B) (p q : P) : twoSite c1 c2 u r d l' u' d' p q =
      1 * gated (fun p q r s => if p = r ∧ q = s then 1 else 0) (twoSite x1 x2) u r d l' u' d' p q := by
  have := Except.ok.inj h
  rw [Prod.mk.injEq] at this
  obtain ⟨rfl, rfl⟩ := this
  unfold gated
  rw [one_mul, Finset.sum_eq_single p (fun a _ ha => Finset.sum_eq_zero fun b _ => by simp [ha]) (by simp),
    Finset.sum_eq_single q (fun a _ ha => by simp [ha]) (by simp)]
  simp

end AceTN
