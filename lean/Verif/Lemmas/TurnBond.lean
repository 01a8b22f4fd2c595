import Verif.Lemmas.TurnUpdate
import Verif.Lemmas.GaugeRun
import Verif.Lemmas.LinkRead
import Verif.Props.Equivalent

/-!
The full update of a bond in two equivalent networks: splitting the site tensors, the norm tensor, and joining them again.
-/

set_option autoImplicit false
set_option linter.unusedSectionVars false

namespace AceTN

open Matrix Spec Full Finset SumTac

variable {𝕜 : Type} [RCLike 𝕜] {sgn : Bool} {ord : ∀ (n : Type) [Fintype n], n ≃ Fin (Fintype.card n)}

section split

variable {B P : Type} [Fintype B] [Fintype P] [DecidableEq B] [DecidableEq P]

/-- The matrix whose decomposition splits the first site tensor of a bond. -/
def splitMat1 (a : ATensor B P 𝕜) : Matrix (B × B × B) (B × P) 𝕜 := Matrix.of fun i j => a j.1 i.2.2 i.1 i.2.1 j.2

/-- The same for the second one. -/
def splitMat2 (a : ATensor B P 𝕜) : Matrix (B × B × B) (B × P) 𝕜 := Matrix.of fun i j => a i.2.1 i.2.2 j.1 i.1 j.2

/-- Changes of basis on the three outer legs. -/
def outer3 (X Y Z : Matrix B B 𝕜) : Matrix (B × B × B) (B × B × B) 𝕜 := kroneckerMap (· * ·) X (kroneckerMap (· * ·) Y Z)

theorem outer3_unit {X Y Z : Matrix B B 𝕜} (hX : Unit2 X) (hY : Unit2 Y) (hZ : Unit2 Z) : Unit2 (outer3 X Y Z) := hX.kron (hY.kron hZ)

theorem splitMat1_turn {G0 G1 G2 G3 : Matrix B B 𝕜} {U : Matrix P P 𝕜} {a a' : ATensor B P 𝕜}
    (h : TenRel (ScalarMap.id 𝕜) 1 G0 G1 G2 G3 U a a') :
    splitMat1 a' = outer3 G2 G3 G1 * splitMat1 a * (kroneckerMap (· * ·) G0 U)ᵀ := by
  ext ⟨r₀, d₀, u₀⟩ ⟨l₀, p₀⟩
  have key : ∀ A₀ : ATensor B P 𝕜, ∑ l', ∑ u', ∑ r', ∑ d', ∑ p', G0 l₀ l' * G1 u₀ u' * G2 r₀ r' * G3 d₀ d' * U p₀ p' * A₀ l' u' r' d' p' =
      ∑ j : B × P, (∑ i : B × B × B, G2 r₀ i.1 * (G3 d₀ i.2.1 * G1 u₀ i.2.2) * A₀ j.1 i.2.2 i.1 i.2.1 j.2) * (G0 l₀ j.1 * U p₀ j.2) := by
    intro A₀
    einsum_ring
  refine (h l₀ u₀ r₀ d₀ p₀).trans ?_
  rw [RCLike.ofReal_one, one_mul]
  exact key a

theorem splitMat2_turn {K0 K1 K2 K3 : Matrix B B 𝕜} {V : Matrix P P 𝕜} {a a' : ATensor B P 𝕜}
    (h : TenRel (ScalarMap.id 𝕜) 1 K0 K1 K2 K3 V a a') :
    splitMat2 a' = outer3 K3 K0 K1 * splitMat2 a * (kroneckerMap (· * ·) K2 V)ᵀ := by
  ext ⟨d₀, l₀, u₀⟩ ⟨r₀, p₀⟩
  have key : ∀ A₀ : ATensor B P 𝕜, ∑ l', ∑ u', ∑ r', ∑ d', ∑ p', K0 l₀ l' * K1 u₀ u' * K2 r₀ r' * K3 d₀ d' * V p₀ p' * A₀ l' u' r' d' p' =
      ∑ j : B × P, (∑ i : B × B × B, K3 d₀ i.1 * (K0 l₀ i.2.1 * K1 u₀ i.2.2) * A₀ i.2.1 i.2.2 j.1 i.1 j.2) * (K2 r₀ j.1 * V p₀ j.2) := by
    intro A₀
    einsum_ring
  refine (h l₀ u₀ r₀ d₀ p₀).trans ?_
  rw [RCLike.ofReal_one, one_mul]
  exact key a

/-- An isometric part in other bases. -/
def Turned4q {N : Type} [Fintype N] (X Y Z : Matrix B B 𝕜) (W : Matrix N N 𝕜) (q q' : B → B → B → N → 𝕜) : Prop :=
  ∀ a b c n, q' a b c n = ∑ a', ∑ b', ∑ c', ∑ n', X a a' * Y b b' * Z c c' * W n n' * q a' b' c' n'

theorem qrParts_turn (hs : ∀ a : 𝕜, star a = a) (la la' : Lapack 𝕜) (hla : sgn = true → Triangular ord la ∧ Triangular ord la')
    {X Y Z G : Matrix B B 𝕜} {U : Matrix P P 𝕜} (hX : Unit2 X) (hY : Unit2 Y) (hZ : Unit2 Z) (hG : Allowed sgn G) (hU : Allowed sgn U)
    {A A' : Matrix (B × B × B) (B × P) 𝕜} (h : A' = outer3 X Y Z * A * (kroneckerMap (· * ·) G U)ᵀ) (hA : QrUnique ord sgn A) :
    ∃ W : Matrix (Fin (nD B P)) (Fin (nD B P)) 𝕜, Allowed sgn W ∧
      Turned4q X Y Z W (fun a b c n => (la.qr A).1 (a, b, c) n) (fun a b c n => (la'.qr A').1 (a, b, c) n) ∧
      Turned3 W G U (fun n l p => (la.qr A).2 n (l, p)) (fun n l p => (la'.qr A').2 n (l, p)) := by
  subst h
  obtain ⟨W, hW, e1, e2⟩ := qr_turn ord la la' hla (outer3_unit hX hY hZ) (hG.kron hU).transpose hA
  refine ⟨W, hW, fun a₀ b₀ c₀ n₀ => ?_, fun n₀ l₀ p₀ => ?_⟩
  · dsimp only
    rw [e1]
    obtain ⟨Q, hQ⟩ : ∃ Q : B → B → B → Fin (nD B P) → 𝕜, ∀ a b c n, (la.qr A).1 (a, b, c) n = Q a b c n := ⟨_, fun _ _ _ _ => rfl⟩
    have key : ∀ W₀ : Matrix (Fin (nD B P)) (Fin (nD B P)) 𝕜, ∑ x, (∑ i : B × B × B, X a₀ i.1 * (Y b₀ i.2.1 * Z c₀ i.2.2) * Q i.1 i.2.1 i.2.2 x) * W₀ n₀ x =
        ∑ a', ∑ b', ∑ c', ∑ n', X a₀ a' * Y b₀ b' * Z c₀ c' * W₀ n₀ n' * Q a' b' c' n' := by
      intro W₀
      einsum_ring
    simp only [hQ]
    rw [← key W]
    simp only [mul_apply, conjTranspose_apply, hs, ← hQ]
    rfl
  · dsimp only
    rw [e2]
    obtain ⟨R, hR⟩ : ∃ R : Fin (nD B P) → B → P → 𝕜, ∀ n l p, (la.qr A).2 n (l, p) = R n l p := ⟨_, fun _ _ _ => rfl⟩
    have key : ∀ W₀ : Matrix (Fin (nD B P)) (Fin (nD B P)) 𝕜, ∑ j : B × P, (∑ x, W₀ n₀ x * R x j.1 j.2) * (G l₀ j.1 * U p₀ j.2) =
        ∑ n', ∑ l', ∑ p', W₀ n₀ n' * G l₀ l' * U p₀ p' * R n' l' p' := by
      intro W₀
      einsum_ring
    simp only [hR]
    rw [← key W]
    simp only [mul_apply, ← hR]
    rfl

/-- `decompose_site_tensors` of the same pair of tensors in other bases. -/
theorem decompose_turn (hs : ∀ a : 𝕜, star a = a) (la la' : Lapack 𝕜) (hla : sgn = true → Triangular ord la ∧ Triangular ord la')
    {G0 G1 G2 G3 K0 K1 K2 K3 : Matrix B B 𝕜} {U V : Matrix P P 𝕜} (h0 : Allowed sgn G0) (h1 : Unit2 G1) (h2 : Unit2 G2) (h3 : Unit2 G3)
    (k0 : Unit2 K0) (k1 : Unit2 K1) (k2 : Allowed sgn K2) (k3 : Unit2 K3) (hU : Allowed sgn U) (hV : Allowed sgn V)
    {a1 a1' a2 a2' : ATensor B P 𝕜} (r1 : TenRel (ScalarMap.id 𝕜) 1 G0 G1 G2 G3 U a1 a1') (r2 : TenRel (ScalarMap.id 𝕜) 1 K0 K1 K2 K3 V a2 a2')
    (u1 : QrUnique ord sgn (splitMat1 a1)) (u2 : QrUnique ord sgn (splitMat2 a2)) :
    ∃ W T : Matrix (Fin (nD B P)) (Fin (nD B P)) 𝕜, Allowed sgn W ∧ Allowed sgn T ∧
      Turned4q G2 G3 G1 W (decompose la a1 a2).a1q (decompose la' a1' a2').a1q ∧
      Turned3 W G0 U (decompose la a1 a2).a1r (decompose la' a1' a2').a1r ∧
      Turned4q K3 K0 K1 T (decompose la a1 a2).a2q (decompose la' a1' a2').a2q ∧
      Turned3 T K2 V (decompose la a1 a2).a2r (decompose la' a1' a2').a2r := by
  obtain ⟨W, hW, e1, e2⟩ := qrParts_turn hs la la' hla h2 h3 h1 h0 hU (splitMat1_turn r1) u1
  obtain ⟨T, hT, e3, e4⟩ := qrParts_turn hs la la' hla k3 k0 k1 k2 hV (splitMat2_turn r2) u2
  exact ⟨W, T, hW, hT, e1, e2, e3, e4⟩

end split

section join

variable {B P N : Type} [Fintype B] [Fintype P] [DecidableEq B] [DecidableEq P] [Fintype N] [DecidableEq N]

/-- `recompose_site_tensors`. -/
theorem recompose1_turn (hs : ∀ a : 𝕜, star a = a) {X Y Z G : Matrix B B 𝕜} {U : Matrix P P 𝕜} {W : Matrix N N 𝕜} (hW : Unit2 W)
    {q q' : B → B → B → N → 𝕜} (hq : Turned4q X Y Z W q q') {r r' : N → B → P → 𝕜} (hr : Turned3 W G U r r') :
    TenRel (ScalarMap.id 𝕜) 1 G Z X Y U (einsum% "rdux,xlp->lurdp" q r) (einsum% "rdux,xlp->lurdp" q' r') := by
  intro l₀ u₀ r₀ d₀ p₀
  dsimp only [ScalarMap.id, RingHom.id_apply]
  rw [RCLike.ofReal_one, one_mul]
  have key : ∀ W₁ W₂ : Matrix N N 𝕜, ∑ x, (∑ a', ∑ b', ∑ c', ∑ n', X r₀ a' * Y d₀ b' * Z u₀ c' * W₁ x n' * q a' b' c' n') *
      (∑ y', ∑ v', ∑ s', W₂ x y' * G l₀ v' * U p₀ s' * r y' v' s') =
      ∑ n', ∑ y', (∑ x, W₁ x n' * W₂ x y') * ∑ l', ∑ u', ∑ r', ∑ d', ∑ p', G l₀ l' * Z u₀ u' * X r₀ r' * Y d₀ d' * U p₀ p' *
        (q r' d' u' n' * r y' l' p') := by
    intro W₁ W₂
    einsum_ring
  have o : ∀ n' y', ∑ x, W x n' * W x y' = if n' = y' then 1 else 0 := by
    intro n' y'
    have := unit_entry hW n' y'
    simpa only [hs] using this
  have fin : ∑ n', ∑ l', ∑ u', ∑ r', ∑ d', ∑ p', G l₀ l' * Z u₀ u' * X r₀ r' * Y d₀ d' * U p₀ p' * (q r' d' u' n' * r n' l' p') =
      ∑ l', ∑ u', ∑ r', ∑ d', ∑ p', G l₀ l' * Z u₀ u' * X r₀ r' * Y d₀ d' * U p₀ p' * ∑ n', q r' d' u' n' * r n' l' p' := by
    einsum_ring
  simp only [hq _ _ _ _, hr _ _ _]
  rw [key W W]
  simp only [o, ite_mul, one_mul, zero_mul, sum_ite_eq, mem_univ, if_true]
  exact fin

theorem recompose2_turn (hs : ∀ a : 𝕜, star a = a) {X Y Z G : Matrix B B 𝕜} {U : Matrix P P 𝕜} {W : Matrix N N 𝕜} (hW : Unit2 W)
    {q q' : B → B → B → N → 𝕜} (hq : Turned4q X Y Z W q q') {r r' : N → B → P → 𝕜} (hr : Turned3 W G U r r') :
    TenRel (ScalarMap.id 𝕜) 1 Y Z G X U (einsum% "dlux,xrp->lurdp" q r) (einsum% "dlux,xrp->lurdp" q' r') := by
  intro l₀ u₀ r₀ d₀ p₀
  dsimp only [ScalarMap.id, RingHom.id_apply]
  rw [RCLike.ofReal_one, one_mul]
  have key : ∀ W₁ W₂ : Matrix N N 𝕜, ∑ x, (∑ a', ∑ b', ∑ c', ∑ n', X d₀ a' * Y l₀ b' * Z u₀ c' * W₁ x n' * q a' b' c' n') *
      (∑ y', ∑ v', ∑ s', W₂ x y' * G r₀ v' * U p₀ s' * r y' v' s') =
      ∑ n', ∑ y', (∑ x, W₁ x n' * W₂ x y') * ∑ l', ∑ u', ∑ r', ∑ d', ∑ p', Y l₀ l' * Z u₀ u' * G r₀ r' * X d₀ d' * U p₀ p' *
        (q d' l' u' n' * r y' r' p') := by
    intro W₁ W₂
    einsum_ring
  have o : ∀ n' y', ∑ x, W x n' * W x y' = if n' = y' then 1 else 0 := by
    intro n' y'
    have := unit_entry hW n' y'
    simpa only [hs] using this
  have fin : ∑ n', ∑ l', ∑ u', ∑ r', ∑ d', ∑ p', Y l₀ l' * Z u₀ u' * G r₀ r' * X d₀ d' * U p₀ p' * (q d' l' u' n' * r n' r' p') =
      ∑ l', ∑ u', ∑ r', ∑ d', ∑ p', Y l₀ l' * Z u₀ u' * G r₀ r' * X d₀ d' * U p₀ p' * ∑ n', q d' l' u' n' * r n' r' p' := by
    einsum_ring
  simp only [hq _ _ _ _, hr _ _ _]
  rw [key W W]
  simp only [o, ite_mul, one_mul, zero_mul, sum_ite_eq, mem_univ, if_true]
  exact fin

end join

section norms

/-- The sum of the squares of a vector in another basis. -/
theorem unit_sq {m n : Type} [Fintype m] [Fintype n] [DecidableEq m] [DecidableEq n] {J : Matrix m n 𝕜} (hJ : Unit2 J) (v : n → 𝕜) :
    ∑ i, ‖∑ x, J i x * v x‖ ^ 2 = ∑ x, ‖v x‖ ^ 2 := by
  have e : ∀ {k : Type} [Fintype k] (w : k → 𝕜), ((∑ i, ‖w i‖ ^ 2 : ℝ) : 𝕜) = star w ⬝ᵥ w := by
    intro k _ w
    unfold dotProduct
    push_cast
    refine sum_congr rfl fun i _ => ?_
    rw [Pi.star_apply, RCLike.star_def, RCLike.conj_mul]
  apply RCLike.ofReal_injective (K := 𝕜)
  rw [e, e]
  show star (J *ᵥ v) ⬝ᵥ (J *ᵥ v) = _
  rw [star_mulVec, dotProduct_mulVec, vecMul_vecMul, hJ.left, vecMul_one]

variable {B P : Type} [Fintype B] [Fintype P] [DecidableEq B] [DecidableEq P]

theorem normA_turn {G0 G1 G2 G3 : Matrix B B 𝕜} {U : Matrix P P 𝕜} (h0 : Unit2 G0) (h1 : Unit2 G1) (h2 : Unit2 G2) (h3 : Unit2 G3)
    (hU : Unit2 U) {a a' : ATensor B P 𝕜} (h : TenRel (ScalarMap.id 𝕜) 1 G0 G1 G2 G3 U a a') : normA a' = normA a := by
  have hJ := h0.kron (h1.kron (h2.kron (h3.kron hU)))
  have := unit_sq hJ fun i : B × B × B × B × P => a i.1 i.2.1 i.2.2.1 i.2.2.2.1 i.2.2.2.2
  unfold normA
  congr 1
  simp only [Fintype.sum_prod_type, kroneckerMap_apply] at this
  rw [← this]
  refine sum_congr rfl fun l _ => sum_congr rfl fun u _ => sum_congr rfl fun r _ => sum_congr rfl fun d _ => sum_congr rfl fun p _ => ?_
  rw [h l u r d p, RCLike.ofReal_one, one_mul]
  congr 2
  refine sum_congr rfl fun l _ => sum_congr rfl fun u _ => sum_congr rfl fun r _ => sum_congr rfl fun d _ => sum_congr rfl fun p _ => ?_
  dsimp only [ScalarMap.id, RingHom.id_apply]
  ring

theorem normalise_turn {G0 G1 G2 G3 : Matrix B B 𝕜} {U : Matrix P P 𝕜} (h0 : Unit2 G0) (h1 : Unit2 G1) (h2 : Unit2 G2) (h3 : Unit2 G3)
    (hU : Unit2 U) {a a' : ATensor B P 𝕜} (h : TenRel (ScalarMap.id 𝕜) 1 G0 G1 G2 G3 U a a') :
    TenRel (ScalarMap.id 𝕜) 1 G0 G1 G2 G3 U (normalise a) (normalise a') := by
  intro l u r d p
  unfold normalise
  rw [normA_turn h0 h1 h2 h3 hU h, h l u r d p]
  dsimp only [ScalarMap.id, RingHom.id_apply]
  simp only [div_eq_mul_inv, mul_assoc, sum_mul]

end norms

end AceTN
