import Verif.Lemmas.TurnQr
import Verif.Lemmas.LegChange
import Verif.Model.FullUpdateBond

/-!
The alternating solver of the full update on two problems that are the same in other bases (real numbers).
-/

set_option autoImplicit false
set_option linter.unusedSectionVars false

namespace AceTN

open Matrix Spec SumTac Full

variable {𝕜 : Type} [RCLike 𝕜] {sgn : Bool}

section sums

variable {m n : Type} [Fintype m] [Fintype n] [DecidableEq m] [DecidableEq n]

theorem orth_sum (hs : ∀ a : 𝕜, star a = a) {J : Matrix m n 𝕜} (h : Unit2 J) (F : n → n → 𝕜) :
    ∑ a, ∑ b, (∑ x, J x a * J x b) * F a b = ∑ a, F a a := by
  have := unit_sum h F
  simpa only [hs] using this

end sums

section contractions

variable {N B P : Type} [Fintype N] [Fintype B] [Fintype P] [DecidableEq N] [DecidableEq B] [DecidableEq P]
  {W V : Matrix N N 𝕜} {Z : Matrix B B 𝕜} {U T : Matrix P P 𝕜} {n12 n12' : N → N → N → N → 𝕜}
  {a12g a12g' : N → N → P → P → 𝕜} {a1r a1r' a2r a2r' : N → B → P → 𝕜}
  (hs : ∀ a : 𝕜, star a = a) (hW : Unit2 W) (hV : Unit2 V) (hZ : Unit2 Z) (hU : Unit2 U) (hT : Unit2 T)

include hs

include hW hV in
theorem n12g_turn (hn : TurnedN W V n12 n12') (ha : Turned4 W V U T a12g a12g') :
    Turned4 W V U T (n12gOf n12 a12g) (n12gOf n12' a12g') := by
  intro Y₀ X₀ p₀ q₀
  unfold n12gOf
  simp only [hn _ _ _ _, ha _ _ _ _]
  have key := orth_sum hs hW fun a b => ∑ c, ∑ d, (∑ x, V x c * V x d) * ∑ Y, ∑ X, ∑ p, ∑ q,
    W Y₀ Y * V X₀ X * (U p₀ p * T q₀ q) * (n12 a c Y X * a12g b d p q)
  simp only [orth_sum hs hV] at key
  calc _ = ∑ a, ∑ b, (∑ x, W x a * W x b) * ∑ c, ∑ d, (∑ x, V x c * V x d) * ∑ Y, ∑ X, ∑ p, ∑ q,
        W Y₀ Y * V X₀ X * (U p₀ p * T q₀ q) * (n12 a c Y X * a12g b d p q) := by einsum_ring
    _ = _ := by
      simp only [orth_sum hs hV]
      rw [key]
      einsum_ring

include hZ in
/-- The product of two reduced tensors. -/
theorem pair_turn (h1 : Turned3 W Z U a1r a1r') (h2 : Turned3 V Z T a2r a2r') :
    Turned4 W V U T (fun y x p q => ∑ u, a1r y u p * a2r x u q) (fun y x p q => ∑ u, a1r' y u p * a2r' x u q) := by
  intro y₀ x₀ p₀ q₀
  dsimp only
  simp only [h1 _ _ _, h2 _ _ _]
  have key := orth_sum hs hZ fun a b => ∑ y, ∑ x, ∑ p, ∑ q, W y₀ y * V x₀ x * (U p₀ p * T q₀ q) * (a1r y a p * a2r x b q)
  calc _ = ∑ a, ∑ b, (∑ x, Z x a * Z x b) * ∑ y, ∑ x, ∑ p, ∑ q, W y₀ y * V x₀ x * (U p₀ p * T q₀ q) * (a1r y a p * a2r x b q) := by
        einsum_ring
    _ = _ := by
      rw [key]
      einsum_ring

include hW hV hU hT in
/-- Inner products. -/
theorem inner_turn {m m' k k' : N → N → P → P → 𝕜} (h1 : Turned4 W V U T m m') (h2 : Turned4 W V U T k k') :
    ∑ y, ∑ x, ∑ p, ∑ q, m' y x p q * k' y x p q = ∑ y, ∑ x, ∑ p, ∑ q, m y x p q * k y x p q := by
  simp only [h1 _ _ _ _, h2 _ _ _ _]
  calc _ = ∑ a, ∑ b, (∑ x, W x a * W x b) * ∑ c, ∑ d, (∑ x, V x c * V x d) * ∑ e, ∑ f, (∑ x, U x e * U x f) * ∑ g, ∑ h,
        (∑ x, T x g * T x h) * (m a c e g * k b d f h) := by einsum_ring
    _ = _ := by
      simp only [orth_sum hs hW, orth_sum hs hV, orth_sum hs hU, orth_sum hs hT]

include hW hV hZ hU hT in
/-- The cost of a pair of tensors. -/
theorem cost_turn (hn : TurnedN W V n12 n12') (ha : Turned4 W V U T a12g a12g') (h1 : Turned3 W Z U a1r a1r')
    (h2 : Turned3 V Z T a2r a2r') : cost a1r' a2r' a12g' n12' = cost a1r a2r a12g n12 := by
  have hp := pair_turn hs hZ h1 h2
  have e1 := inner_turn hs hW hV hU hT (n12g_turn hs hW hV hn hp) hp
  have e2 := inner_turn hs hW hV hU hT (n12g_turn hs hW hV hn ha) hp
  have form : ∀ (a1r a2r : N → B → P → 𝕜) (a12g : N → N → P → P → 𝕜) (n12 : N → N → N → N → 𝕜), cost a1r a2r a12g n12 =
      RCLike.re (∑ y, ∑ x, ∑ p, ∑ q, n12gOf n12 (fun y x p q => ∑ u, a1r y u p * a2r x u q) y x p q * ∑ u, a1r y u p * a2r x u q) -
      2 * RCLike.re (∑ y, ∑ x, ∑ p, ∑ q, n12gOf n12 a12g y x p q * ∑ u, a1r y u p * a2r x u q) := by
    intro a1r a2r a12g n12
    unfold cost n12gOf
    dsimp only
    simp only [Pi.star_apply, hs]
  rw [form, form, e1, e2]

include hV hT in
theorem buildS1_turn {m m' : N → N → P → P → 𝕜} (hm : Turned4 W V U T m m') (h2 : Turned3 V Z T a2r a2r') :
    Turned3 W Z U (buildS1 m a2r) (buildS1 m' a2r') := by
  intro Y₀ u₀ p₀
  unfold buildS1
  simp only [Pi.star_apply, hs, hm _ _ _ _, h2 _ _ _]
  calc _ = ∑ c, ∑ d, (∑ x, V x c * V x d) * ∑ e, ∑ f, (∑ x, T x e * T x f) * ∑ y, ∑ u, ∑ p,
        W Y₀ y * Z u₀ u * U p₀ p * (m y c p e * a2r d u f) := by einsum_ring
    _ = _ := by
      simp only [orth_sum hs hV, orth_sum hs hT]
      einsum_ring

include hW hU in
theorem buildS2_turn {m m' : N → N → P → P → 𝕜} (hm : Turned4 W V U T m m') (h1 : Turned3 W Z U a1r a1r') :
    Turned3 V Z T (buildS2 m a1r) (buildS2 m' a1r') := by
  intro Y₀ u₀ p₀
  unfold buildS2
  simp only [Pi.star_apply, hs, hm _ _ _ _, h1 _ _ _]
  calc _ = ∑ c, ∑ d, (∑ x, W x c * W x d) * ∑ e, ∑ f, (∑ x, U x e * U x f) * ∑ y, ∑ u, ∑ p,
        V Y₀ y * Z u₀ u * T p₀ p * (m c y e p * a1r d u f) := by einsum_ring
    _ = _ := by
      simp only [orth_sum hs hW, orth_sum hs hU]
      einsum_ring

omit hs in
/-- `R` as a matrix. -/
def sysMat (R : N → B → N → B → 𝕜) : Matrix (N × B) (N × B) 𝕜 := Matrix.of fun a b => R a.1 a.2 b.1 b.2

include hV hT in
theorem buildR1_turn (hn : TurnedN W V n12 n12') (h2 : Turned3 V Z T a2r a2r') :
    sysMat (buildR1 n12' a2r') = kroneckerMap (· * ·) W Z * sysMat (buildR1 n12 a2r) * (kroneckerMap (· * ·) W Z)ᴴ := by
  ext ⟨Y₀, v₀⟩ ⟨y₀, u₀⟩
  simp only [mul_apply, conjTranspose_apply, kroneckerMap_apply, sysMat, of_apply, hs, Fintype.sum_prod_type]
  unfold buildR1
  dsimp only
  simp only [Pi.star_apply, hs, hn _ _ _ _, h2 _ _ _]
  have key : ∀ (a b : N → B → P → 𝕜) (V₁ V₂ : Matrix N N 𝕜) (T₁ T₂ : Matrix P P 𝕜) (Z₁ Z₂ : Matrix B B 𝕜),
      (∑ X, ∑ Q, (∑ x, (∑ y', ∑ x', ∑ Y', ∑ X', W y₀ y' * V₁ x x' * (W Y₀ Y' * V₂ X X') * n12 y' x' Y' X') *
        ∑ y', ∑ u', ∑ p', V₁ x y' * Z₁ u₀ u' * T₁ Q p' * a y' u' p') * ∑ y', ∑ u', ∑ p', V₂ X y' * Z₂ v₀ u' * T₂ Q p' * b y' u' p') =
      ∑ c, ∑ d, (∑ x, V₁ x c * V₁ x d) * ∑ c', ∑ d', (∑ x, V₂ x c' * V₂ x d') * ∑ e, ∑ f, (∑ x, T₁ x e * T₂ x f) *
        ∑ Y, ∑ v, ∑ y, ∑ u, W Y₀ Y * Z₂ v₀ v * (W y₀ y * Z₁ u₀ u) * (n12 y c Y c' * a d u e * b d' v f) := by
    intro a b V₁ V₂ T₁ T₂ Z₁ Z₂
    einsum_ring
  calc _ = _ := key a2r a2r V V T T Z Z
    _ = _ := by
      simp only [orth_sum hs hV, orth_sum hs hT]
      einsum_ring

include hW hU in
theorem buildR2_turn (hn : TurnedN W V n12 n12') (h1 : Turned3 W Z U a1r a1r') :
    sysMat (buildR2 n12' a1r') = kroneckerMap (· * ·) V Z * sysMat (buildR2 n12 a1r) * (kroneckerMap (· * ·) V Z)ᴴ := by
  ext ⟨Y₀, v₀⟩ ⟨y₀, u₀⟩
  simp only [mul_apply, conjTranspose_apply, kroneckerMap_apply, sysMat, of_apply, hs, Fintype.sum_prod_type]
  unfold buildR2
  dsimp only
  simp only [Pi.star_apply, hs, hn _ _ _ _, h1 _ _ _]
  have key : ∀ (a b : N → B → P → 𝕜) (V₁ V₂ : Matrix N N 𝕜) (T₁ T₂ : Matrix P P 𝕜) (Z₁ Z₂ : Matrix B B 𝕜),
      (∑ X, ∑ Q, (∑ x, (∑ y', ∑ x', ∑ Y', ∑ X', V₁ x y' * V y₀ x' * (V₂ X Y' * V Y₀ X') * n12 y' x' Y' X') *
        ∑ y', ∑ u', ∑ p', V₁ x y' * Z₁ u₀ u' * T₁ Q p' * a y' u' p') * ∑ y', ∑ u', ∑ p', V₂ X y' * Z₂ v₀ u' * T₂ Q p' * b y' u' p') =
      ∑ c, ∑ d, (∑ x, V₁ x c * V₁ x d) * ∑ c', ∑ d', (∑ x, V₂ x c' * V₂ x d') * ∑ e, ∑ f, (∑ x, T₁ x e * T₂ x f) *
        ∑ Y, ∑ v, ∑ y, ∑ u, V Y₀ Y * Z₂ v₀ v * (V y₀ y * Z₁ u₀ u) * (n12 c y c' Y * a d u e * b d' v f) := by
    intro a b V₁ V₂ T₁ T₂ Z₁ Z₂
    einsum_ring
  calc _ = _ := key a1r a1r W W U U Z Z
    _ = _ := by
      simp only [orth_sum hs hW, orth_sum hs hU]
      einsum_ring

end contractions

end AceTN
