import Verif.Props.Boundary
import Verif.Model.Pauli
import Mathlib.Data.List.GetD

/-! Property C53: the default initial state of a model. -/

set_option autoImplicit false

namespace AceTN

variable {𝕜 : Type} [RCLike 𝕜] {bD pD : ℕ}

theorem defaultState_getD (n : ℕ) : (Pauli.defaultState pD).getD n 0 = if n = 0 then 1 else 0 := by
  unfold Pauli.defaultState
  cases n with
  | zero => rfl
  | succ n =>
    simp only [List.getD_cons_succ, Nat.succ_ne_zero, if_false]
    by_cases h : n < pD - 1
    · rw [List.getD_eq_getElem _ _ (by simpa using h)]; simp
    · rw [List.getD_eq_default _ _ (by simpa using h)]

/-- **C53 (default state).** For every model that does not define its initial state, every site has one amplitude per
physical index, and the site tensor initialised with it without noise is the first basis state: entry one at the origin
and zero elsewhere. -/
theorem C53_default (hb : 0 < bD) (hp : 0 < pD) (draw : Fin bD → Fin bD → Fin bD → Fin bD → Fin pD → ℝ) :
    (Pauli.defaultState pD).length = pD ∧
    initializeSiteTensor 0 draw ((Pauli.defaultState pD).map fun z : ℤ => (z : 𝕜)) =
      .ok fun l u r d p => if l.val = 0 ∧ u.val = 0 ∧ r.val = 0 ∧ d.val = 0 ∧ p.val = 0 then 1 else 0 := by
  have hlen : (Pauli.defaultState pD).length = pD := by simp [Pauli.defaultState]; omega
  refine ⟨hlen, ?_⟩
  obtain ⟨A, hA, h1, c, hc, hv⟩ := C53_product (𝕜 := 𝕜) hb draw ((Pauli.defaultState pD).map fun z : ℤ => (z : 𝕜))
    (by rw [List.length_map, hlen]) ⟨1, by simp [Pauli.defaultState], one_ne_zero⟩
  rw [hA]
  have hg : ∀ n, ((Pauli.defaultState pD).map fun z : ℤ => (z : 𝕜)).getD n 0 = if n = 0 then 1 else 0 := by
    intro n
    have := List.getD_map (f := fun z : ℤ => (z : 𝕜)) (l := Pauli.defaultState pD) (d := 0) (n := n)
    rw [defaultState_getD] at this
    simp only [Int.cast_zero] at this
    rw [this]
    split <;> simp
  have hv' : ∀ l u r d p, A l u r d p = if l.val = 0 ∧ u.val = 0 ∧ r.val = 0 ∧ d.val = 0 ∧ p.val = 0 then (c : 𝕜) else 0 := by
    intro l u r d p
    rw [hv, hg]
    by_cases h : l.val = 0 ∧ u.val = 0 ∧ r.val = 0 ∧ d.val = 0
    · by_cases h' : p.val = 0 <;> simp [h, h']
    · rw [if_neg h, if_neg fun h' => h ⟨h'.1, h'.2.1, h'.2.2.1, h'.2.2.2.1⟩]
  have hone : c = 1 := by
    let z : Fin bD := ⟨0, hb⟩
    have hz : ∀ x : Fin bD, x ≠ z → x.val ≠ 0 := fun x hx h => hx (Fin.ext h)
    have hzp : ∀ x : Fin pD, x ≠ ⟨0, hp⟩ → x.val ≠ 0 := fun x hx h => hx (Fin.ext h)
    rw [Finset.sum_eq_single z (fun l _ hl => Finset.sum_eq_zero fun u _ => Finset.sum_eq_zero fun r _ =>
        Finset.sum_eq_zero fun d _ => Finset.sum_eq_zero fun p _ => by simp [hv', hz l hl]) (by simp),
      Finset.sum_eq_single z (fun l _ hl => Finset.sum_eq_zero fun r _ =>
        Finset.sum_eq_zero fun d _ => Finset.sum_eq_zero fun p _ => by simp [hv', hz l hl]) (by simp),
      Finset.sum_eq_single z (fun l _ hl =>
        Finset.sum_eq_zero fun d _ => Finset.sum_eq_zero fun p _ => by simp [hv', hz l hl]) (by simp),
      Finset.sum_eq_single z (fun l _ hl => Finset.sum_eq_zero fun p _ => by simp [hv', hz l hl]) (by simp),
      Finset.sum_eq_single ⟨0, hp⟩ (fun l _ hl => by simp [hv', hzp l hl]) (by simp), hv'] at h1
    simp only [z, and_self, if_true, RCLike.norm_ofReal, abs_of_pos hc] at h1
    nlinarith
  congr 1
  funext l u r d p
  rw [hv', hone]
  simp

end AceTN
