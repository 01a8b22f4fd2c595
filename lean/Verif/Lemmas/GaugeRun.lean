import Verif.Lemmas.GaugeSplit
import Verif.Props.SimpleUpdate
import Verif.Props.Absorb

/-!
The simple update of a bond in two equivalent networks.
-/

set_option autoImplicit false

namespace AceTN

open Matrix Spec SumTac Simple

variable {𝕜 : Type} [RCLike 𝕜] {B P : Type} [Fintype B] [Fintype P]

theorem tenRel_one {σ : ScalarMap 𝕜} {t : ℝ} {G0 G1 G2 G3 : Matrix B B 𝕜} {U : Matrix P P 𝕜} {a a' : ATensor B P 𝕜}
    (h : TenRel σ t G0 G1 G2 G3 U a a') : TenRel σ t G1 G2 G3 G0 U (bondPermute 1 a) (bondPermute 1 a') := by
  rw [bondPermute_one, bondPermute_one]
  intro l₀ u₀ r₀ d₀ p₀
  dsimp only
  rw [h]
  congr 1
  have e : ∀ F : B → B → B → B → P → 𝕜, ∑ d, ∑ l, ∑ u, ∑ r, ∑ p, G0 d₀ d * G1 l₀ l * G2 u₀ u * G3 r₀ r * U p₀ p * F d l u r p =
      ∑ l, ∑ u, ∑ r, ∑ d, ∑ p, G1 l₀ l * G2 u₀ u * G3 r₀ r * G0 d₀ d * U p₀ p * F d l u r p := by
    intro F
    einsum_ring
  exact e fun d l u r p => σ.f (a d l u r p)

theorem tenRel_turn {σ : ScalarMap 𝕜} {t : ℝ} {Γ : Fin 4 → Matrix B B 𝕜} {U : Matrix P P 𝕜} {a a' : ATensor B P 𝕜}
    (h : TenRel σ t (Γ 0) (Γ 1) (Γ 2) (Γ 3) U a a') (k : Fin 4) (kk : ℤ) (hk : kk % 4 = k.val) :
    TenRel σ t (Γ k) (Γ (k + 1)) (Γ (k + 2)) (Γ (k + 3)) U (bondPermute kk a) (bondPermute kk a') := by
  have e : ∀ b : ATensor B P 𝕜, bondPermute kk b = bondPermute (k.val : ℤ) b := fun b => bondPermute_mod _ _ (by omega) b
  rw [e, e]
  have s1 := tenRel_one h
  have s2 := tenRel_one s1
  have s3 := tenRel_one s2
  rw [bondPermute_add, bondPermute_add] at s2 s3
  rw [bondPermute_add, bondPermute_add] at s3
  match k with
  | 0 => exact h
  | 1 => exact s1
  | 2 => exact s2
  | 3 => exact s3

section weights

variable {bD : ℕ}

omit [Fintype B] in
/-- Weights on the legs that the changes of basis commute with. -/
theorem tenRel_weights {σ : ScalarMap 𝕜} {t : ℝ} {Γ : Fin 4 → Matrix (Fin bD) (Fin bD) 𝕜} {U : Matrix P P 𝕜}
    {a a' : ATensor (Fin bD) P 𝕜} (h : TenRel σ t (Γ 0) (Γ 1) (Γ 2) (Γ 3) U a a') (w : Fin 4 → Fin bD → ℝ)
    (hw : ∀ k x y, Γ k x y ≠ 0 → w k x = w k y) :
    TenRel σ t (Γ 0) (Γ 1) (Γ 2) (Γ 3) U
      (applyWeights (fun i => (w 0 i : 𝕜)) (fun i => (w 1 i : 𝕜)) (fun i => (w 2 i : 𝕜)) (fun i => (w 3 i : 𝕜)) a)
      (applyWeights (fun i => (w 0 i : 𝕜)) (fun i => (w 1 i : 𝕜)) (fun i => (w 2 i : 𝕜)) (fun i => (w 3 i : 𝕜)) a') := by
  intro l u r d p
  unfold applyWeights
  rw [h, mul_left_comm]
  congr 1
  simp only [Finset.mul_sum]
  refine Finset.sum_congr rfl fun l' _ => Finset.sum_congr rfl fun u' _ => Finset.sum_congr rfl fun r' _ =>
    Finset.sum_congr rfl fun d' _ => Finset.sum_congr rfl fun p' _ => ?_
  rw [map_mul, map_mul, map_mul, map_mul, σ.real, σ.real, σ.real, σ.real]
  have e : ∀ k x y, (w k x : 𝕜) * Γ k x y = Γ k x y * (w k y : 𝕜) := by
    intro k x y
    by_cases h0 : Γ k x y = 0
    · simp [h0]
    · rw [hw k x y h0, mul_comm]
  calc _ = ((w 0 l : 𝕜) * Γ 0 l l') * ((w 1 u : 𝕜) * Γ 1 u u') * ((w 2 r : 𝕜) * Γ 2 r r') * ((w 3 d : 𝕜) * Γ 3 d d') * U p p' *
        σ.f (a l' u' r' d' p') := by ring
    _ = _ := by
      rw [e, e, e, e]
      ring

omit [Fintype P] in
/-- The weights `strip` uses do not depend on the tensor; they are functions of the stored ones. -/
theorem strip_cases (lt : LambdaTensors (Weight bD)) (s : Site) (ex : ℕ) (W : ℕ → Weight bD) (hW : Weights lt s W) :
    (∃ e, ∀ a : ATensor (Fin bD) P 𝕜, strip lt a s ex = .error e) ∨
    ∃ w : Fin 4 → Fin bD → ℝ, (∀ k x y, k.val ≠ ex → (W k.val).v x = (W k.val).v y → w k x = w k y) ∧
      (∀ k x y, k.val = ex → w k x = w k y) ∧
      ∀ a : ATensor (Fin bD) P 𝕜, strip lt a s ex =
        .ok (applyWeights (fun i => (w 0 i : 𝕜)) (fun i => (w 1 i : 𝕜)) (fun i => (w 2 i : 𝕜)) (fun i => (w 3 i : 𝕜)) a) := by
  have h : ∀ d < 4, stripWeight (𝕜 := 𝕜) lt s ex d = .error .runtimeError ∨
      stripWeight (𝕜 := 𝕜) lt s ex d = .ok fun i => (((legWeight (divisor W) ex d i)⁻¹ : ℝ) : 𝕜) := by
    intro d hd
    by_cases hr : d ≠ ex → (W d).cx = false
    · exact Or.inr (stripWeight_eq lt s ex d W (hW d hd) hr)
    · left
      push Not at hr
      unfold stripWeight
      rw [hW d hd]
      simp [hr.1, hr.2, bind, Except.bind, throw, throwThe, MonadExceptOf.throw]
  unfold strip
  rcases h 0 (by omega) with h0 | h0
  · left; exact ⟨_, fun a => by rw [h0]; rfl⟩
  rcases h 1 (by omega) with h1 | h1
  · left; exact ⟨_, fun a => by rw [h0, h1]; rfl⟩
  rcases h 2 (by omega) with h2 | h2
  · left; exact ⟨_, fun a => by rw [h0, h1, h2]; rfl⟩
  rcases h 3 (by omega) with h3 | h3
  · left; exact ⟨_, fun a => by rw [h0, h1, h2, h3]; rfl⟩
  right
  refine ⟨fun k i => (legWeight (divisor W) ex k.val i)⁻¹, ?_, ?_, fun a => by rw [h0, h1, h2, h3]; rfl⟩
  · intro k x y hk e
    dsimp only [legWeight, divisor]
    rw [if_neg hk, if_neg hk, e]
  · intro k x y hk
    dsimp only [legWeight]
    rw [if_pos hk, if_pos hk]

omit [Fintype P] in
theorem weighted_eq (w : ℕ → Fin bD → ℝ) (ex : ℕ) (a : ATensor (Fin bD) P 𝕜) : weighted w ex a =
    applyWeights (fun i => (legWeight w ex (0 : Fin 4).val i : 𝕜)) (fun i => (legWeight w ex (1 : Fin 4).val i : 𝕜))
      (fun i => (legWeight w ex (2 : Fin 4).val i : 𝕜)) (fun i => (legWeight w ex (3 : Fin 4).val i : 𝕜)) a := by
  funext l u r d p
  unfold weighted applyWeights
  push_cast
  rfl

end weights

section bond

variable {bD : ℕ} [NeZero bD] [Nonempty P] [DecidableEq P]

theorem fin4_neg : ∀ k : Fin 4, (4 - (k.val : ℤ)) % 4 = ((-k).val : ℤ) := by decide

theorem fin4_back : ∀ k : Fin 4, k + -k = 0 ∧ k + (-k + 1) = 1 ∧ k + (-k + 2) = 2 ∧ k + (-k + 3) = 3 := by decide

omit [NeZero bD] [Nonempty P] [DecidableEq P] in
/-- Turning back. -/
theorem tenRel_back {σ : ScalarMap 𝕜} {t : ℝ} {Γ : Fin 4 → Matrix (Fin bD) (Fin bD) 𝕜} {U : Matrix P P 𝕜}
    {a a' : ATensor (Fin bD) P 𝕜} (k : Fin 4) (h : TenRel σ t (Γ k) (Γ (k + 1)) (Γ (k + 2)) (Γ (k + 3)) U a a') :
    TenRel σ t (Γ 0) (Γ 1) (Γ 2) (Γ 3) U (bondPermute (4 - (k.val : ℤ)) a) (bondPermute (4 - (k.val : ℤ)) a') := by
  have h1 := tenRel_turn (Γ := fun j => Γ (k + j)) (σ := σ) (t := t) (U := U) (a := a) (a' := a')
    (by simpa only [add_zero] using h) (-k) (4 - (k.val : ℤ)) (fin4_neg k)
  obtain ⟨e0, e1, e2, e3⟩ := fin4_back k
  simpa only [e0, e1, e2, e3] using h1

/-- The update of a bond once the weights are known. -/
theorem bondTensors_weights (la : Lapack 𝕜) (lt : LambdaTensors (Weight bD)) (gate : P → P → P → P → 𝕜) (b : Bond)
    (a1 a2 : ATensor (Fin bD) P 𝕜) (W1 W2 : ℕ → Weight bD) (hW1 : Weights lt b.s1 W1) (hW2 : Weights lt b.s2 W2) :
    bondTensors la lt none gate b a1 a2 =
      let f := splitBond la gate (bondPermute b.k (weighted (fun d => (W1 d).v) b.k a1))
        (bondPermute b.k (weighted (fun d => (W2 d).v) ((b.k + 2) % 4) a2))
      (strip lt (bondPermute (4 - b.k) f.1) b.s1 b.k).bind fun c1 =>
        (strip lt (bondPermute (4 - b.k) f.2.1) b.s2 ((b.k + 2) % 4)).bind fun c2 => .ok (c1, c2, f.2.2) := by
  unfold bondTensors
  rw [absorb_eq lt a1 b.s1 b.k W1 hW1, absorb_eq lt a2 b.s2 ((b.k + 2) % 4) W2 hW2]
  rfl

/-- One bond of two equivalent networks with the same weights: the updates raise both or not at all, and give equivalent tensors and
the same weights. -/
theorem bondTensors_turn (la la' : Lapack 𝕜) {σ : ScalarMap 𝕜} {t1 t2 : ℝ} (ht1 : 0 < t1) (ht2 : 0 < t2)
    {Γ K : Fin 4 → Matrix (Fin bD) (Fin bD) 𝕜} (hΓ : ∀ k, Unit2 (Γ k)) (hK : ∀ k, Unit2 (K k)) {U V : Matrix P P 𝕜}
    (hU : Unit2 U) (hV : Unit2 V) {a1 a1' a2 a2' : ATensor (Fin bD) P 𝕜} (h1 : TenRel σ t1 (Γ 0) (Γ 1) (Γ 2) (Γ 3) U a1 a1')
    (h2 : TenRel σ t2 (K 0) (K 1) (K 2) (K 3) V a2 a2') {gate gate' : P → P → P → P → 𝕜} (hg : TurnedOp2 σ U V gate gate')
    (b : Bond) (k : Fin 4) (hk : b.k = k.val) (hj : K (k + 2) = (Γ k).map star) (lt : LambdaTensors (Weight bD)) (W1 W2 : ℕ → Weight bD)
    (hW1 : Weights lt b.s1 W1) (hW2 : Weights lt b.s2 W2) (c1 : ∀ j x y, Γ j x y ≠ 0 → (W1 j.val).v x = (W1 j.val).v y)
    (c2 : ∀ j x y, K j x y ≠ 0 → (W2 j.val).v x = (W2 j.val).v y)
    (hcut : NoTie bD (twoMat (gated gate (bondState W1 W2 b.k a1 a2)))) :
    (∃ e, bondTensors la lt none gate b a1 a2 = .error e ∧ bondTensors la' lt none gate' b a1' a2' = .error e) ∨
    ∃ b1 b2 b1' b2' w, bondTensors la lt none gate b a1 a2 = .ok (b1, b2, w) ∧ bondTensors la' lt none gate' b a1' a2' = .ok (b1', b2', w) ∧
      ∃ W : Matrix (Fin bD) (Fin bD) 𝕜, Unit2 W ∧ (∀ x y, W x y ≠ 0 → w x = w y) ∧
        TenRel σ 1 (Function.update Γ k W 0) (Function.update Γ k W 1) (Function.update Γ k W 2) (Function.update Γ k W 3) U b1 b1' ∧
        TenRel σ 1 (Function.update K (k + 2) (W.map star) 0) (Function.update K (k + 2) (W.map star) 1)
          (Function.update K (k + 2) (W.map star) 2) (Function.update K (k + 2) (W.map star) 3) V b2 b2' := by
  obtain ⟨s1, s2, bk⟩ := b
  dsimp only at hk hW1 hW2 hcut ⊢
  subst hk
  have hk4 : ((k.val : ℤ)) % 4 = k.val := by have := k.isLt; omega
  have lw : ∀ (W : ℕ → Weight bD) (G : Fin 4 → Matrix (Fin bD) (Fin bD) 𝕜) (ex : ℕ),
      (∀ j x y, G j x y ≠ 0 → (W j.val).v x = (W j.val).v y) → ∀ j x y, G j x y ≠ 0 →
      legWeight (fun d => (W d).v) ex j.val x = legWeight (fun d => (W d).v) ex j.val y := by
    intro W G ex h j x y hne
    unfold legWeight
    by_cases hj : j.val = ex
    · rw [if_pos hj, if_pos hj]
    · rw [if_neg hj, if_neg hj]
      exact h j x y hne
  have r1 := tenRel_turn (tenRel_weights h1 _ (lw W1 Γ k.val c1)) k k.val hk4
  have r2 := tenRel_turn (tenRel_weights h2 _ (lw W2 K ((k.val + 2) % 4) c2)) k k.val hk4
  rw [← weighted_eq, ← weighted_eq] at r1 r2
  rw [hj] at r2
  obtain ⟨hw, W, hW, hWw, t1, t2⟩ := splitBond_turn la la' ht1 ht2 (hΓ _) (hΓ _) (hΓ _) (hΓ _) (hK _) (hK _) (hK _) hU hV r1 r2 hg hcut
  have f4 : ∀ k : Fin 4, k + 1 ≠ k ∧ k + 2 ≠ k ∧ k + 3 ≠ k ∧ k ≠ k + 2 ∧ k + 1 ≠ k + 2 ∧ k + 3 ≠ k + 2 := by decide
  obtain ⟨n1, n2, n3, n4, n5, n6⟩ := f4 k
  have q1 := tenRel_back (Γ := Function.update Γ k W) k (by
    rw [Function.update_self, Function.update_of_ne n1, Function.update_of_ne n2, Function.update_of_ne n3]
    exact t1)
  have q2 := tenRel_back (Γ := Function.update K (k + 2) (W.map star)) k (by
    rw [Function.update_self, Function.update_of_ne n4, Function.update_of_ne n5, Function.update_of_ne n6]
    exact t2)
  rw [bondTensors_weights la lt gate ⟨s1, s2, k.val⟩ a1 a2 W1 W2 hW1 hW2, bondTensors_weights la' lt gate' ⟨s1, s2, k.val⟩ a1' a2' W1 W2 hW1 hW2]
  dsimp only
  generalize splitBond (bD := bD) la gate _ _ = f at hw hWw q1 q2 ⊢
  generalize splitBond (bD := bD) la' gate' _ _ = f' at hw q1 q2 ⊢
  rcases strip_cases (P := P) (𝕜 := 𝕜) lt s1 k.val W1 hW1 with ⟨e, he⟩ | ⟨w1, x1, y1, z1⟩
  · left
    exact ⟨e, by rw [he]; rfl, by rw [he]; rfl⟩
  rcases strip_cases (P := P) (𝕜 := 𝕜) lt s2 ((k.val + 2) % 4) W2 hW2 with ⟨e, he⟩ | ⟨w2, x2, y2, z2⟩
  · left
    exact ⟨e, by rw [z1, he]; rfl, by rw [z1, he]; rfl⟩
  right
  refine ⟨_, _, _, _, _, by rw [z1, z2]; rfl, by rw [z1, z2, hw]; rfl, W, hW, hWw, tenRel_weights q1 w1 ?_, tenRel_weights q2 w2 ?_⟩
  · intro j x y hne
    by_cases hjk : j = k
    · exact y1 j x y (by rw [hjk])
    · rw [Function.update_of_ne hjk] at hne
      exact x1 j x y (fun h => hjk (Fin.ext h)) (c1 j x y hne)
  · intro j x y hne
    by_cases hjk : j = k + 2
    · exact y2 j x y (by rw [hjk]; rfl)
    · rw [Function.update_of_ne hjk] at hne
      exact x2 j x y (fun h => hjk (Fin.ext h)) (c2 j x y hne)

end bond

end AceTN
