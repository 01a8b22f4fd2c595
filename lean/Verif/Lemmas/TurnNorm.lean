import Verif.Lemmas.TurnBond

/-!
The norm tensor of a bond in two equivalent networks.  It is a density matrix of a network whose bond has been cut, with the
isometric parts as site tensors.
-/

set_option autoImplicit false
set_option linter.unusedSectionVars false

namespace AceTN

open Matrix Spec Full Finset SumTac

variable {𝕜 : Type} [RCLike 𝕜]

section core

variable {B N : Type} [Fintype B] [Fintype N] [DecidableEq B] [DecidableEq N]

/-- An isometric part as a site tensor: the bond has a single value. -/
def cutSite1 (v : B → 𝕜) (q : B → B → B → N → 𝕜) : ATensor B N 𝕜 := fun l u r d p => v l * q r d u p

/-- The same for the second site. -/
def cutSite2 (v : B → 𝕜) (q : B → B → B → N → 𝕜) : ATensor B N 𝕜 := fun l u r d p => v r * q d l u p

theorem normCore_cut {y0 y1 y2 y3 y4 y5 y6 y7 y8 y9 : Type} [Fintype y0] [Fintype y1] [Fintype y2] [Fintype y3]
    [Fintype y4] [Fintype y5] [Fintype y6] [Fintype y7] [Fintype y8] [Fintype y9]
    (c12 : y2 → y3 → 𝕜) (e12 : y3 → y4 → B → B → 𝕜) (e11 : y1 → y2 → B → B → 𝕜)
    (c13 : y4 → y5 → 𝕜) (e13 : y5 → y6 → B → B → 𝕜) (q₁ : B → B → B → N → 𝕜)
    (c21 : y9 → y0 → 𝕜) (e21 : y0 → y1 → B → B → 𝕜) (e24 : y8 → y9 → B → B → 𝕜)
    (c24 : y7 → y8 → 𝕜) (e23 : y6 → y7 → B → B → 𝕜) (q₂ : B → B → B → N → 𝕜) (v w : B → 𝕜) (y₀ x₀ Y₀ X₀ : N) :
    bondRdm c12 e12 e11 c13 e13 (cutSite1 v q₁) c21 e21 e24 c24 e23 (cutSite2 w q₂) Y₀ X₀ y₀ x₀ =
      (∑ m, v m * w m) * star (∑ m, v m * w m) * normCore c12 e12 e11 c13 e13 q₁ c21 e21 e24 c24 e23 q₂ y₀ x₀ Y₀ X₀ := by
  unfold bondRdm normCore cutSite1 cutSite2
  einsum_ring

/-- A value of the bond. -/
noncomputable def unitVec [Nonempty B] : B → 𝕜 := fun b => if b = Classical.arbitrary B then 1 else 0

theorem unitVec_sum [Nonempty B] : ∑ m : B, (unitVec m : 𝕜) * unitVec m = 1 := by
  unfold unitVec
  simp

/-- The norm tensor is a density matrix of the network with the bond cut. -/
theorem normCore_rdm [Nonempty B] {y0 y1 y2 y3 y4 y5 y6 y7 y8 y9 : Type} [Fintype y0] [Fintype y1] [Fintype y2] [Fintype y3]
    [Fintype y4] [Fintype y5] [Fintype y6] [Fintype y7] [Fintype y8] [Fintype y9]
    (c12 : y2 → y3 → 𝕜) (e12 : y3 → y4 → B → B → 𝕜) (e11 : y1 → y2 → B → B → 𝕜)
    (c13 : y4 → y5 → 𝕜) (e13 : y5 → y6 → B → B → 𝕜) (q₁ : B → B → B → N → 𝕜)
    (c21 : y9 → y0 → 𝕜) (e21 : y0 → y1 → B → B → 𝕜) (e24 : y8 → y9 → B → B → 𝕜)
    (c24 : y7 → y8 → 𝕜) (e23 : y6 → y7 → B → B → 𝕜) (q₂ : B → B → B → N → 𝕜) (y₀ x₀ Y₀ X₀ : N) :
    normCore c12 e12 e11 c13 e13 q₁ c21 e21 e24 c24 e23 q₂ y₀ x₀ Y₀ X₀ =
      bondRdm c12 e12 e11 c13 e13 (cutSite1 unitVec q₁) c21 e21 e24 c24 e23 (cutSite2 unitVec q₂) Y₀ X₀ y₀ x₀ := by
  rw [normCore_cut, unitVec_sum, star_one, one_mul, one_mul]

theorem cutSite1_turn {X Y Z : Matrix B B 𝕜} {W : Matrix N N 𝕜} {q q' : B → B → B → N → 𝕜} (h : Turned4q X Y Z W q q') (v : B → 𝕜) :
    TenRel (ScalarMap.id 𝕜) 1 1 Z X Y W (cutSite1 v q) (cutSite1 v q') := by
  intro l₀ u₀ r₀ d₀ p₀
  have e : ∑ l', ∑ u', ∑ r', ∑ d', ∑ p', (1 : Matrix B B 𝕜) l₀ l' * Z u₀ u' * X r₀ r' * Y d₀ d' * W p₀ p' * (v l' * q r' d' u' p') =
      (∑ l', (1 : Matrix B B 𝕜) l₀ l' * v l') * ∑ a', ∑ b', ∑ c', ∑ n', X r₀ a' * Y d₀ b' * Z u₀ c' * W p₀ n' * q a' b' c' n' := by
    generalize (1 : Matrix B B 𝕜) = I
    einsum_ring
  show v l₀ * q' r₀ d₀ u₀ p₀ = _ * _
  dsimp only [ScalarMap.id, RingHom.id_apply, cutSite1]
  rw [RCLike.ofReal_one, one_mul, e, h]
  simp only [one_apply, ite_mul, one_mul, zero_mul, sum_ite_eq, mem_univ, if_true]

theorem cutSite2_turn {X Y Z : Matrix B B 𝕜} {W : Matrix N N 𝕜} {q q' : B → B → B → N → 𝕜} (h : Turned4q X Y Z W q q') (v : B → 𝕜) :
    TenRel (ScalarMap.id 𝕜) 1 Y Z 1 X W (cutSite2 v q) (cutSite2 v q') := by
  intro l₀ u₀ r₀ d₀ p₀
  have e : ∑ l', ∑ u', ∑ r', ∑ d', ∑ p', Y l₀ l' * Z u₀ u' * (1 : Matrix B B 𝕜) r₀ r' * X d₀ d' * W p₀ p' * (v r' * q d' l' u' p') =
      (∑ l', (1 : Matrix B B 𝕜) r₀ l' * v l') * ∑ a', ∑ b', ∑ c', ∑ n', X d₀ a' * Y l₀ b' * Z u₀ c' * W p₀ n' * q a' b' c' n' := by
    generalize (1 : Matrix B B 𝕜) = I
    einsum_ring
  show v r₀ * q' d₀ l₀ u₀ p₀ = _ * _
  dsimp only [ScalarMap.id, RingHom.id_apply, cutSite2]
  rw [RCLike.ofReal_one, one_mul, e, h]
  simp only [one_apply, ite_mul, one_mul, zero_mul, sum_ite_eq, mem_univ, if_true]

/-- The two layers of a tensor in other bases. -/
theorem openRel_turn {σ : ScalarMap 𝕜} {G0 G1 G2 G3 : Matrix B B 𝕜} {U : Matrix N N 𝕜} {t : ℝ} {a a' : ATensor B N 𝕜}
    (h : TenRel σ t G0 G1 G2 G3 U a a') :
    OpenRel σ (t * t) (braKet U) (ketBra G0) (ketBra G1) (ketBra G2) (ketBra G3) (fun o => layer a (some o)) (fun o => layer a' (some o)) := by
  rintro ⟨bra, ket⟩ l u r d
  have key := layers_turn G0 G1 G2 G3 U (fun l u r d p => σ.f (a l u r d p)) l.1 u.1 r.1 d.1 l.2 u.2 r.2 d.2 ket bra
  show a' _ _ _ _ _ * star (a' _ _ _ _ _) = _
  rw [h, h, star_mul', RCLike.star_def, RCLike.conj_ofReal, mul_mul_mul_comm, RCLike.ofReal_mul]
  congr 1
  refine key.trans ?_
  refine Finset.sum_congr rfl fun q _ => Finset.sum_congr rfl fun l' _ => Finset.sum_congr rfl fun u' _ => Finset.sum_congr rfl fun r' _ =>
    Finset.sum_congr rfl fun d' _ => ?_
  obtain ⟨b, k⟩ := q
  show _ = _ * _ * σ.f (a _ _ _ _ _ * star (a _ _ _ _ _))
  rw [map_mul, σ.star]
  rfl

theorem map_star_one : (1 : Matrix B B 𝕜).map star = 1 := by
  ext i j
  exact one_star i j

end core

end AceTN
