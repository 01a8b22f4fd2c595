import Verif.Lemmas.TurnInit

/-!
`positive_approx` and `gauge_fix` in other bases (real numbers).
-/

set_option autoImplicit false
set_option linter.unusedSectionVars false

namespace AceTN

open Matrix Spec SumTac Full

variable {𝕜 : Type} [RCLike 𝕜] {sgn : Bool}

section eigh

variable {n : Type} [Fintype n] [DecidableEq n]

/-- Eigenvectors of a matrix and of the same matrix in another basis. -/
theorem eigh_mix {r : ℕ} {M K : Matrix n n 𝕜} {w : Fin r → ℝ} {z z' : Matrix n (Fin r) 𝕜} (h : IsEigh M w z)
    (h' : IsEigh (K * M * Kᴴ) w z') (hK : Unit2 K) :
    ∃ O : Matrix (Fin r) (Fin r) 𝕜, Unit2 O ∧ z' = K * z * O ∧ ∀ i j, O i j ≠ 0 → w i = w j := by
  have ht := eigh_turned h hK
  refine ⟨(K * z)ᴴ * z', ⟨?_, ?_⟩, ?_, ?_⟩
  · rw [conjTranspose_mul, conjTranspose_conjTranspose, Matrix.mul_assoc, ← Matrix.mul_assoc (K * z), ht.right, Matrix.one_mul, h'.left]
  · rw [conjTranspose_mul (K * z)ᴴ z', conjTranspose_conjTranspose, Matrix.mul_assoc, ← Matrix.mul_assoc z', h'.right, Matrix.one_mul, ht.left]
  · rw [← Matrix.mul_assoc, ht.right, Matrix.one_mul]
  · have a1 : (K * M * Kᴴ) * z' = z' * diagonal fun i => (w i : 𝕜) := by
      rw [h'.mul, Matrix.mul_assoc, h'.left, Matrix.mul_one]
    have a2 : (K * z)ᴴ * (K * M * Kᴴ) = diagonal (fun i => (w i : 𝕜)) * (K * z)ᴴ := by
      rw [ht.mul, ← Matrix.mul_assoc, ← Matrix.mul_assoc, ht.left, Matrix.one_mul]
    have e : (K * z)ᴴ * z' * diagonal (fun i => (w i : 𝕜)) = diagonal (fun i => (w i : 𝕜)) * ((K * z)ᴴ * z') := by
      rw [Matrix.mul_assoc, ← a1, ← Matrix.mul_assoc, a2, Matrix.mul_assoc]
    intro i j hij
    have := congrFun (congrFun e i) j
    rw [mul_diagonal, diagonal_mul, mul_comm] at this
    have := mul_right_cancel₀ hij this
    exact_mod_cast this.symm

/-- The regularisation loop in another basis. -/
theorem posLoop_turn [Nonempty n] (la la' : Lapack 𝕜) (cutoff : ℝ) {K : Matrix n n 𝕜} (hK : Unit2 K) :
    ∀ (fuel : ℕ) (A : Matrix n n 𝕜), A.IsHermitian →
      (posLoop la cutoff fuel A = none ∧ posLoop la' cutoff fuel (K * A * Kᴴ) = none) ∨
      ∃ M w z z', posLoop la cutoff fuel A = some (w, z) ∧ posLoop la' cutoff fuel (K * A * Kᴴ) = some (w, z') ∧
        IsEigh M w z ∧ IsEigh (K * M * Kᴴ) w z' ∧ ∀ i, cutoff ≤ w i := by
  intro fuel
  induction fuel with
  | zero => intro A _; exact Or.inl ⟨rfl, rfl⟩
  | succ fuel ih =>
    intro A hA
    have h := la.eigh_ok A
    have h' := la'.eigh_ok (K * A * Kᴴ)
    rw [la.herm_of _ hA] at h
    rw [la'.herm_of _ (isHermitian_mul_mul_conjTranspose K hA)] at h'
    have ew := eigh_values (eigh_turned h hK) h'
    unfold posLoop
    dsimp only
    rw [← ew]
    by_cases hlt : (la.eigh A).1 ⟨0, Fintype.card_pos⟩ < cutoff
    · rw [if_pos hlt, if_pos hlt]
      set t := 2 * max cutoff |(la.eigh A).1 ⟨0, Fintype.card_pos⟩|
      have e : K * A * Kᴴ + ((t : ℝ) : 𝕜) • 1 = K * (A + ((t : ℝ) : 𝕜) • 1) * Kᴴ := by
        rw [Matrix.mul_add, Matrix.add_mul, Matrix.mul_smul, Matrix.smul_mul, Matrix.mul_one, hK.right]
      rw [e]
      refine ih _ ?_
      rw [IsHermitian, conjTranspose_add, hA.eq, conjTranspose_smul, conjTranspose_one]
      congr 2
      rw [← starRingEnd_apply, RCLike.conj_ofReal]
    · rw [if_neg hlt, if_neg hlt]
      rw [← ew] at h'
      refine Or.inr ⟨A, _, _, _, rfl, rfl, h, h', fun i => ?_⟩
      exact (not_lt.1 hlt).trans (h.sorted _ _ (Nat.zero_le _))

end eigh

section gauge

variable {N P : Type} [Fintype N] [Fintype P] [DecidableEq N] [DecidableEq P]
  {W V : Matrix N N 𝕜} {U T : Matrix P P 𝕜}

theorem normMat_turn (hs : ∀ a : 𝕜, star a = a) {n12 n12' : N → N → N → N → 𝕜} (h : TurnedN W V n12 n12') :
    normMat n12' = kroneckerMap (· * ·) W V * normMat n12 * (kroneckerMap (· * ·) W V)ᴴ := by
  ext ⟨y₀, x₀⟩ ⟨Y₀, X₀⟩
  simp only [mul_apply, conjTranspose_apply, hs, kroneckerMap_apply, normMat, of_apply, Fintype.sum_prod_type, h _ _ _ _]
  einsum_ring

/-- A root of a norm tensor in other bases: `O` acts on the third index. -/
def TurnedRoot {Z : Type} [Fintype Z] (W V : Matrix N N 𝕜) (O : Matrix Z Z 𝕜) (nz nz' : N → N → Z → 𝕜) : Prop :=
  ∀ y x z, nz' y x z = ∑ y', ∑ x', ∑ z', W y y' * V x x' * O z' z * nz y' x' z'

/-- The root returned by `positive_approx`, in other bases; it is invertible. -/
theorem positiveApprox_turn [Nonempty N] (hs : ∀ a : 𝕜, star a = a) (la la' : Lapack 𝕜) {cutoff : ℝ} (hc : 0 < cutoff) (fuel : ℕ)
    (hW : Unit2 W) (hV : Unit2 V) {n12 n12' : N → N → N → N → 𝕜} (h : TurnedN W V n12 n12') (hH : (normMat n12).IsHermitian) :
    (positiveApprox la fuel cutoff n12 = none ∧ positiveApprox la' fuel cutoff n12' = none) ∨
    ∃ nz nz' O, positiveApprox la fuel cutoff n12 = some nz ∧ positiveApprox la' fuel cutoff n12' = some nz' ∧ Unit2 O ∧
      TurnedRoot W V O nz nz' ∧ ∃ inv : Fin (Fintype.card (N × N)) → N × N → 𝕜, ∀ i j : N × N,
        ∑ z, inv z i * nz j.1 j.2 z = if i = j then 1 else 0 := by
  have hK := hW.kron hV
  unfold positiveApprox
  rw [normMat_turn hs h]
  rcases posLoop_turn la la' cutoff hK fuel (normMat n12) hH with ⟨e, e'⟩ | ⟨M, w, z, z', e, e', h1, h2, h3⟩
  · rw [e, e']
    exact Or.inl ⟨rfl, rfl⟩
  · right
    rw [e, e']
    obtain ⟨O, hO, ez, ho⟩ := eigh_mix h1 h2 hK
    refine ⟨_, _, O, rfl, rfl, hO, ?_, fun k i => star (z i k) * ((Real.sqrt (w k) : ℝ) : 𝕜)⁻¹, ?_⟩
    · intro y₀ x₀ z₀
      dsimp only
      have sw : ∀ a b, O a b * ((Real.sqrt (w b) : ℝ) : 𝕜) = ((Real.sqrt (w a) : ℝ) : 𝕜) * O a b := by
        intro a b
        by_cases hab : O a b = 0
        · rw [hab, zero_mul, mul_zero]
        · rw [ho a b hab, mul_comm]
      rw [ez, mul_apply, Finset.sum_mul]
      rw [Finset.sum_congr rfl fun a _ => by rw [mul_assoc, sw a z₀, mul_apply]]
      simp only [kroneckerMap_apply, Fintype.sum_prod_type]
      obtain ⟨ζ, hζ⟩ : ∃ ζ : N → N → Fin (Fintype.card (N × N)) → 𝕜, ∀ y x k, z (y, x) k = ζ y x k := ⟨_, fun _ _ _ => rfl⟩
      simp only [hζ]
      einsum_ring
    · intro i j
      have hz := congrFun (congrFun h1.right j) i
      rw [mul_apply, one_apply] at hz
      rw [show (if i = j then (1 : 𝕜) else 0) = if j = i then 1 else 0 by simp only [eq_comm], ← hz]
      refine Finset.sum_congr rfl fun k _ => ?_
      have hp : ((Real.sqrt (w k) : ℝ) : 𝕜) ≠ 0 := RCLike.ofReal_ne_zero.2 (Real.sqrt_pos.2 (hc.trans_le (h3 k))).ne'
      dsimp only
      rw [conjTranspose_apply]
      field_simp

variable {Z : Type} [Fintype Z] [DecidableEq Z] {O : Matrix Z Z 𝕜} {nz nz' : N → N → Z → 𝕜}

theorem squareNorm_turn (hs : ∀ a : 𝕜, star a = a) (hO : Unit2 O) (h : TurnedRoot W V O nz nz') :
    TurnedN W V (squareNorm nz) (squareNorm nz') := by
  intro y₀ x₀ Y₀ X₀
  unfold squareNorm
  simp only [Pi.star_apply, hs, h _ _ _]
  have ho := orth_sum hs (unit2_conjTranspose hO)
  simp only [conjTranspose_apply, hs] at ho
  have key : ∀ (a b : N → N → Z → 𝕜) (W₁ W₂ V₁ V₂ : Matrix N N 𝕜),
      (∑ z, (∑ y', ∑ x', ∑ z', W₁ y₀ y' * V₁ x₀ x' * O z' z * a y' x' z') * ∑ y', ∑ x', ∑ z', W₂ Y₀ y' * V₂ X₀ x' * O z' z * b y' x' z') =
      ∑ e, ∑ f, (∑ z, O e z * O f z) * ∑ y, ∑ x, ∑ Y, ∑ X, W₁ y₀ y * V₁ x₀ x * (W₂ Y₀ Y * V₂ X₀ X) * (a y x e * b Y X f) := by
    intro a b W₁ W₂ V₁ V₂
    einsum_ring
  calc _ = _ := key nz nz W W V V
    _ = _ := by
      rw [ho]
      have key' : ∀ (a b : N → N → Z → 𝕜) (W₁ W₂ V₁ V₂ : Matrix N N 𝕜),
          (∑ e, ∑ y, ∑ x, ∑ Y, ∑ X, W₁ y₀ y * V₁ x₀ x * (W₂ Y₀ Y * V₂ X₀ X) * (a y x e * b Y X e)) =
          ∑ y, ∑ x, ∑ Y, ∑ X, W₁ y₀ y * V₁ x₀ x * (W₂ Y₀ Y * V₂ X₀ X) * ∑ e, a y x e * b Y X e := by
        intro a b W₁ W₂ V₁ V₂
        einsum_ring
      exact key' nz nz W W V V

/-- The matrices of which the triangular factors are computed. -/
def rootY (nz : N → N → Z → 𝕜) : Matrix (Z × N) N 𝕜 := Matrix.of fun i y => nz y i.2 i.1
def rootX (nz : N → N → Z → 𝕜) : Matrix (Z × N) N 𝕜 := Matrix.of fun i x => nz i.2 x i.1

theorem nzyrOf_eq (la : Lapack 𝕜) (nz : N → N → Z → 𝕜) : nzyrOf la nz = (la.qr (rootY nz)).2 := rfl
theorem nzxrOf_eq (la : Lapack 𝕜) (nz : N → N → Z → 𝕜) : nzxrOf la nz = (la.qr (rootX nz)).2 := rfl

theorem rootY_turn (h : TurnedRoot W V O nz nz') : rootY nz' = kroneckerMap (· * ·) Oᵀ V * rootY nz * Wᵀ := by
  ext ⟨z₀, x₀⟩ y₀
  simp only [mul_apply, transpose_apply, kroneckerMap_apply, rootY, of_apply, Fintype.sum_prod_type, h _ _ _]
  einsum_ring

theorem rootX_turn (h : TurnedRoot W V O nz nz') : rootX nz' = kroneckerMap (· * ·) Oᵀ W * rootX nz * Vᵀ := by
  ext ⟨z₀, y₀⟩ x₀
  simp only [mul_apply, transpose_apply, kroneckerMap_apply, rootX, of_apply, Fintype.sum_prod_type, h _ _ _]
  einsum_ring

variable {ord : ∀ (n : Type) [Fintype n], n ≃ Fin (Fintype.card n)}

theorem rootY_unique [Nonempty N] {inv : Z → N × N → 𝕜} (hi : ∀ i j : N × N, ∑ z, inv z i * nz j.1 j.2 z = if i = j then 1 else 0) :
    QrUnique ord sgn (rootY nz) := by
  refine qrUnique_of_left ord (B := Matrix.of fun y (i : Z × N) => ((Fintype.card N : 𝕜))⁻¹ * inv i.1 (y, i.2)) ?_
  have hN : (Fintype.card N : 𝕜) ≠ 0 := Nat.cast_ne_zero.2 Fintype.card_ne_zero
  ext y y'
  simp only [mul_apply, of_apply, rootY, Fintype.sum_prod_type]
  rw [Finset.sum_comm]
  have : ∀ x, ∑ z, (Fintype.card N : 𝕜)⁻¹ * inv z (y, x) * nz y' x z = (Fintype.card N : 𝕜)⁻¹ * if y = y' then 1 else 0 := by
    intro x
    have := hi (y, x) (y', x)
    simp only [Prod.mk.injEq, and_true] at this
    rw [← this, Finset.mul_sum]
    exact Finset.sum_congr rfl fun _ _ => mul_assoc _ _ _
  rw [Finset.sum_congr rfl fun x _ => this x, Finset.sum_const, Finset.card_univ, nsmul_eq_mul, ← mul_assoc, mul_inv_cancel₀ hN, one_mul,
    one_apply]

theorem rootX_unique [Nonempty N] {inv : Z → N × N → 𝕜} (hi : ∀ i j : N × N, ∑ z, inv z i * nz j.1 j.2 z = if i = j then 1 else 0) :
    QrUnique ord sgn (rootX nz) := by
  refine qrUnique_of_left ord (B := Matrix.of fun x (i : Z × N) => ((Fintype.card N : 𝕜))⁻¹ * inv i.1 (i.2, x)) ?_
  have hN : (Fintype.card N : 𝕜) ≠ 0 := Nat.cast_ne_zero.2 Fintype.card_ne_zero
  ext x x'
  simp only [mul_apply, of_apply, rootX, Fintype.sum_prod_type]
  rw [Finset.sum_comm]
  have : ∀ y, ∑ z, (Fintype.card N : 𝕜)⁻¹ * inv z (y, x) * nz y x' z = (Fintype.card N : 𝕜)⁻¹ * if x = x' then 1 else 0 := by
    intro y
    have := hi (y, x) (y, x')
    simp only [Prod.mk.injEq, true_and] at this
    rw [← this, Finset.mul_sum]
    exact Finset.sum_congr rfl fun _ _ => mul_assoc _ _ _
  rw [Finset.sum_congr rfl fun x _ => this x, Finset.sum_const, Finset.card_univ, nsmul_eq_mul, ← mul_assoc, mul_inv_cancel₀ hN, one_mul,
    one_apply]

/-- `gauge_fix` in other bases; those of its results are `Q1` and `Q2`. -/
theorem gaugeFix_turn [Nonempty N] (hs : ∀ a : 𝕜, star a = a) (la la' : Lapack 𝕜)
    (hla : sgn = true → Triangular ord la ∧ Triangular ord la') (atol : ℝ) (hW : Allowed sgn W) (hV : Allowed sgn V) (hO : Unit2 O)
    (h : TurnedRoot W V O nz nz') {inv : Z → N × N → 𝕜} (hi : ∀ i j : N × N, ∑ z, inv z i * nz j.1 j.2 z = if i = j then 1 else 0)
    {a12g a12g' : N → N → P → P → 𝕜} (ha : Turned4 W V U T a12g a12g') :
    ∃ Q1 Q2 : Matrix (Fin (wD N Z)) (Fin (wD N Z)) 𝕜, Allowed sgn Q1 ∧ Allowed sgn Q2 ∧
      TurnedN Q1 Q2 (gaugeFix la atol nz a12g).n12 (gaugeFix la' atol nz' a12g').n12 ∧
      Turned4 Q1 Q2 U T (gaugeFix la atol nz a12g).a12g (gaugeFix la' atol nz' a12g').a12g ∧
      (∀ y v, (gaugeFix la' atol nz' a12g').nzyr_inv y v = ∑ y', ∑ v', W y y' * (gaugeFix la atol nz a12g).nzyr_inv y' v' * Q1 v v') ∧
      (∀ x v, (gaugeFix la' atol nz' a12g').nzxr_inv x v = ∑ x', ∑ v', V x x' * (gaugeFix la atol nz a12g).nzxr_inv x' v' * Q2 v v') := by
  obtain ⟨Q1, hQ1, -, e1⟩ := qr_turn ord la la' hla (hO.transpose.kron hV.unit) hW.transpose (rootY_unique hi (ord := ord) (sgn := sgn))
  obtain ⟨Q2, hQ2, -, e2⟩ := qr_turn ord la la' hla (hO.transpose.kron hW.unit) hV.transpose (rootX_unique hi (ord := ord) (sgn := sgn))
  rw [← rootY_turn h, ← nzyrOf_eq, ← nzyrOf_eq] at e1
  rw [← rootX_turn h, ← nzxrOf_eq, ← nzxrOf_eq] at e2
  have tr : ∀ {m : Type} [Fintype m] [DecidableEq m] (A : Matrix m m 𝕜), Aᴴ = Aᵀ := fun A => by
    ext i j; rw [conjTranspose_apply, hs, transpose_apply]
  have p1 : la'.pinv atol (nzyrOf la' nz') = W * la.pinv atol (nzyrOf la nz) * Q1ᵀ := by
    rw [e1, pinv_turned la la' atol _ hQ1.unit hW.unit.transpose, tr, tr, transpose_transpose]
  have p2 : la'.pinv atol (nzxrOf la' nz') = V * la.pinv atol (nzxrOf la nz) * Q2ᵀ := by
    rw [e2, pinv_turned la la' atol _ hQ2.unit hV.unit.transpose, tr, tr, transpose_transpose]
  have ho := orth_sum hs (unit2_conjTranspose hO)
  simp only [conjTranspose_apply, hs] at ho
  have f1 : ∀ y v, la'.pinv atol (nzyrOf la' nz') y v = ∑ y', ∑ v', W y y' * la.pinv atol (nzyrOf la nz) y' v' * Q1 v v' := by
    intro y v
    rw [p1]
    simp only [mul_apply, transpose_apply]
    einsum_ring
  have f2 : ∀ y v, la'.pinv atol (nzxrOf la' nz') y v = ∑ y', ∑ v', V y y' * la.pinv atol (nzxrOf la nz) y' v' * Q2 v v' := by
    intro y v
    rw [p2]
    simp only [mul_apply, transpose_apply]
    einsum_ring
  refine ⟨Q1, Q2, hQ1, hQ2, ?_, ?_, f1, f2⟩
  · intro v₀ w₀ v₁ w₁
    unfold gaugeFix
    dsimp only
    simp only [Pi.star_apply, hs, f1, f2, h _ _ _]
    generalize la.pinv atol (nzyrOf la nz) = A
    generalize la.pinv atol (nzxrOf la nz) = B
    -- the root with both inverses applied
    have root : ∀ (z : Z) (v w : Fin (wD N Z)),
        ∑ y, (∑ x, (∑ y', ∑ x', ∑ z', W y y' * V x x' * O z' z * nz y' x' z') * ∑ x', ∑ w', V x x' * B x' w' * Q2 w w') *
          ∑ y', ∑ v', W y y' * A y' v' * Q1 v v' =
        ∑ z', ∑ v', ∑ w', O z' z * Q1 v v' * Q2 w w' * ∑ y, (∑ x, nz y x z' * B x w') * A y v' := by
      intro z v w
      calc _ = ∑ a, ∑ b, (∑ x, W x a * W x b) * ∑ c, ∑ d, (∑ x, V x c * V x d) * ∑ z', ∑ v', ∑ w',
            O z' z * Q1 v v' * Q2 w w' * (nz a c z' * B d w' * A b v') := by einsum_ring
        _ = _ := by
          simp only [orth_sum hs hW.unit, orth_sum hs hV.unit]
          einsum_ring
    obtain ⟨G, hG⟩ : ∃ G : Z → Fin (wD N Z) → Fin (wD N Z) → 𝕜, ∀ z v w, ∑ y, (∑ x, nz y x z * B x w) * A y v = G z v w :=
      ⟨_, fun _ _ _ => rfl⟩
    simp only [root, hG]
    have key : ∀ (a b : Z → Fin (wD N Z) → Fin (wD N Z) → 𝕜) (W₁ W₂ V₁ V₂ : Matrix (Fin (wD N Z)) (Fin (wD N Z)) 𝕜),
        (∑ z, (∑ z', ∑ v', ∑ w', O z' z * W₁ v₀ v' * V₁ w₀ w' * a z' v' w') * ∑ z', ∑ v', ∑ w', O z' z * W₂ v₁ v' * V₂ w₁ w' * b z' v' w') =
        ∑ e, ∑ f, (∑ z, O e z * O f z) * ∑ y, ∑ x, ∑ Y, ∑ X, W₁ v₀ y * V₁ w₀ x * (W₂ v₁ Y * V₂ w₁ X) * (a e y x * b f Y X) := by
      intro a b W₁ W₂ V₁ V₂
      einsum_ring
    calc _ = _ := key G G Q1 Q1 Q2 Q2
      _ = _ := by
        rw [ho]
        have key' : ∀ (a b : Z → Fin (wD N Z) → Fin (wD N Z) → 𝕜) (W₁ W₂ V₁ V₂ : Matrix (Fin (wD N Z)) (Fin (wD N Z)) 𝕜),
            (∑ e, ∑ y, ∑ x, ∑ Y, ∑ X, W₁ v₀ y * V₁ w₀ x * (W₂ v₁ Y * V₂ w₁ X) * (a e y x * b e Y X)) =
            ∑ y, ∑ x, ∑ Y, ∑ X, W₁ v₀ y * V₁ w₀ x * (W₂ v₁ Y * V₂ w₁ X) * ∑ e, a e y x * b e Y X := by
          intro a b W₁ W₂ V₁ V₂
          einsum_ring
        exact key' G G Q1 Q1 Q2 Q2
  · intro v₀ w₀ p₀ q₀
    unfold gaugeFix
    dsimp only
    rw [e1, e2]
    simp only [mul_apply, transpose_apply, ha _ _ _ _]
    generalize nzyrOf la nz = A
    generalize nzxrOf la nz = B
    calc _ = ∑ a, ∑ b, (∑ x, W x a * W x b) * ∑ c, ∑ d, (∑ x, V x c * V x d) * ∑ v', ∑ w', ∑ p', ∑ q',
          Q1 v₀ v' * Q2 w₀ w' * (U p₀ p' * T q₀ q') * (A v' a * (B w' c * a12g b d p' q')) := by einsum_ring
      _ = _ := by
        simp only [orth_sum hs hW.unit, orth_sum hs hV.unit]
        einsum_ring

end gauge

end AceTN
