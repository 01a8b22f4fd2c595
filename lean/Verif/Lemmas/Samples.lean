import Verif.Model.Samples
import Verif.Spec.Samples
import Mathlib.Tactic.FinCases

/-!
Kronecker products of `Z`, `X` and `I` as operators acting on single spins.
-/

set_option autoImplicit false

namespace AceTN.Pauli

open AceTN.Pauli.Spec

variable {𝕜 : Type} [RCLike 𝕜] {m n : ℕ}

theorem mul_mat (cx : Bool) (a : PM 𝕜 m) (b : PM 𝕜 n) (h : a.key.count 'Y' = 0) :
    (mul cx a b).mat = kron a.mat b.mat := by
  cases cx <;> simp [mul, h]

theorem mul_key (cx : Bool) (a : PM 𝕜 m) (b : PM 𝕜 n) : (mul cx a b).key = a.key ++ b.key := rfl

theorem kron_diagonal (f : (Fin m → Fin 2) → 𝕜) (g : (Fin n → Fin 2) → 𝕜) :
    kron (Matrix.diagonal f) (Matrix.diagonal g) =
      Matrix.diagonal fun s => f (fun a => s (Fin.castAdd n a)) * g (fun a => s (Fin.natAdd m a)) := by
  ext s t
  unfold kron
  by_cases hst : s = t
  · subst hst; simp
  · rw [Matrix.diagonal_apply_ne _ hst]
    by_cases h1 : (fun a => s (Fin.castAdd n a)) = fun a => t (Fin.castAdd n a)
    · have h2 : (fun a => s (Fin.natAdd m a)) ≠ fun a => t (Fin.natAdd m a) := by
        intro h2
        exact hst (funext fun a => Fin.addCases (fun i => congrFun h1 i) (fun i => congrFun h2 i) a)
      rw [Matrix.diagonal_apply_ne _ h2, mul_zero]
    · rw [Matrix.diagonal_apply_ne _ h1, zero_mul]

theorem Z_mat : (Z : PM 𝕜 1).mat = Matrix.diagonal fun s => spin (s 0) := by
  ext s t
  have hs : s = t ↔ s 0 = t 0 := ⟨fun h => by rw [h], fun h => funext fun a => by rwa [Subsingleton.elim a 0]⟩
  rw [Matrix.diagonal_apply]
  simp only [Z, one, hs, spin]
  generalize s 0 = a, t 0 = b
  fin_cases a <;> fin_cases b <;> simp

theorem I_mat : (I : PM 𝕜 1).mat = Matrix.diagonal fun _ => 1 := by
  ext s t
  have hs : s = t ↔ s 0 = t 0 := ⟨fun h => by rw [h], fun h => funext fun a => by rwa [Subsingleton.elim a 0]⟩
  rw [Matrix.diagonal_apply]
  simp only [I, one, hs]
  generalize s 0 = a, t 0 = b
  fin_cases a <;> fin_cases b <;> simp

theorem X_mat : (X : PM 𝕜 1).mat = xAt 0 := by
  ext s t
  have hs : t = Function.update s 0 (s 0 + 1) ↔ t 0 = s 0 + 1 := by
    refine ⟨fun h => by rw [h]; simp, fun h => funext fun a => ?_⟩
    rw [Subsingleton.elim a 0, h]; simp
  simp only [X, one, xAt, hs]
  generalize s 0 = a, t 0 = b
  fin_cases a <;> fin_cases b <;> simp

theorem kron_xAt_left (i : Fin m) :
    kron (xAt i) (Matrix.diagonal fun _ => 1 : Mat 𝕜 n) = xAt (Fin.castAdd n i) := by
  ext s t
  unfold kron xAt
  rw [Matrix.diagonal_apply]
  have key : t = Function.update s (Fin.castAdd n i) (s (Fin.castAdd n i) + 1) ↔
      ((fun a => t (Fin.castAdd n a)) = Function.update (fun a => s (Fin.castAdd n a)) i (s (Fin.castAdd n i) + 1)) ∧
      (fun a => s (Fin.natAdd m a)) = fun a => t (Fin.natAdd m a) := by
    constructor
    · intro h
      constructor
      · rw [h]; funext a
        by_cases ha : a = i
        · subst ha; simp
        · rw [Function.update_of_ne ha, Function.update_of_ne (fun e => ha (Fin.castAdd_injective _ _ e))]
      · rw [h]; funext a
        rw [Function.update_of_ne]
        intro e; have := congrArg Fin.val e; simp at this; omega
    · rintro ⟨h1, h2⟩
      funext a
      refine Fin.addCases (fun a => ?_) (fun a => ?_) a
      · rw [show t (Fin.castAdd n a) = _ from congrFun h1 a]
        by_cases ha : a = i
        · subst ha; simp
        · rw [Function.update_of_ne ha, Function.update_of_ne (fun e => ha (Fin.castAdd_injective _ _ e))]
      · rw [← show s (Fin.natAdd m a) = _ from congrFun h2 a, Function.update_of_ne]
        intro e; have := congrArg Fin.val e; simp at this; omega
  by_cases h1 : (fun a => t (Fin.castAdd n a)) =
      Function.update (fun a => s (Fin.castAdd n a)) i (s (Fin.castAdd n i) + 1) <;>
    by_cases h2 : (fun a => s (Fin.natAdd m a)) = fun a => t (Fin.natAdd m a) <;>
      simp [key, h1, h2]

theorem kron_xAt_right (i : Fin n) :
    kron (Matrix.diagonal fun _ => 1 : Mat 𝕜 m) (xAt i) = xAt (Fin.natAdd m i) := by
  ext s t
  unfold kron xAt
  rw [Matrix.diagonal_apply]
  have key : t = Function.update s (Fin.natAdd m i) (s (Fin.natAdd m i) + 1) ↔
      ((fun a => s (Fin.castAdd n a)) = fun a => t (Fin.castAdd n a)) ∧
      (fun a => t (Fin.natAdd m a)) = Function.update (fun a => s (Fin.natAdd m a)) i (s (Fin.natAdd m i) + 1) := by
    constructor
    · intro h
      constructor
      · rw [h]; funext a
        rw [Function.update_of_ne]
        intro e; have := congrArg Fin.val e; simp at this; omega
      · rw [h]; funext a
        by_cases ha : a = i
        · subst ha; simp
        · rw [Function.update_of_ne ha, Function.update_of_ne (fun e => ha (Fin.natAdd_injective _ _ e))]
    · rintro ⟨h1, h2⟩
      funext a
      refine Fin.addCases (fun a => ?_) (fun a => ?_) a
      · rw [← show s (Fin.castAdd n a) = _ from congrFun h1 a, Function.update_of_ne]
        intro e; have := congrArg Fin.val e; simp at this; omega
      · rw [show t (Fin.natAdd m a) = _ from congrFun h2 a]
        by_cases ha : a = i
        · subst ha; simp
        · rw [Function.update_of_ne ha, Function.update_of_ne (fun e => ha (Fin.natAdd_injective _ _ e))]
  by_cases h1 : (fun a => s (Fin.castAdd n a)) = fun a => t (Fin.castAdd n a) <;>
    by_cases h2 : (fun a => t (Fin.natAdd m a)) =
      Function.update (fun a => s (Fin.natAdd m a)) i (s (Fin.natAdd m i) + 1) <;>
      simp [key, h1, h2]

end AceTN.Pauli
