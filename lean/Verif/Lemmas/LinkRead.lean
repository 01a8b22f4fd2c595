import Verif.Lemmas.LinkMove
import Verif.Lemmas.ClusterSweep
import Verif.Lemmas.ClusterRead

/-!
Two related networks under sequences of moves, and their density matrices.
-/

set_option autoImplicit false

namespace AceTN

open Matrix Spec Finset SumTac

variable {𝕜 : Type} [RCLike 𝕜]

section ring

variable {G : Type} [Fintype G] [DecidableEq G]
  {x0 x1 x2 x3 x4 x5 x6 x7 x8 x9 y0 y1 y2 y3 y4 y5 y6 y7 y8 y9 : Type} [Fintype x0] [Fintype x1] [Fintype x2] [Fintype x3] [Fintype x4]
  [Fintype x5] [Fintype x6] [Fintype x7] [Fintype x8] [Fintype x9] [Fintype y0] [Fintype y1] [Fintype y2] [Fintype y3] [Fintype y4]
  [Fintype y5] [Fintype y6] [Fintype y7] [Fintype y8] [Fintype y9]
  [DecidableEq x0] [DecidableEq x1] [DecidableEq x2] [DecidableEq x3] [DecidableEq x4] [DecidableEq x5] [DecidableEq x6] [DecidableEq x7]
  [DecidableEq x8] [DecidableEq x9] [DecidableEq y0] [DecidableEq y1] [DecidableEq y2] [DecidableEq y3] [DecidableEq y4] [DecidableEq y5]
  [DecidableEq y6] [DecidableEq y7] [DecidableEq y8] [DecidableEq y9]

/-- Two sites inside their ten boundary tensors. -/
theorem bond_change {J0 : Matrix y0 x0 𝕜} {J1 : Matrix y1 x1 𝕜} {J2 : Matrix y2 x2 𝕜} {J3 : Matrix y3 x3 𝕜} {J4 : Matrix y4 x4 𝕜}
    {J5 : Matrix y5 x5 𝕜} {J6 : Matrix y6 x6 𝕜} {J7 : Matrix y7 x7 𝕜} {J8 : Matrix y8 x8 𝕜} {J9 : Matrix y9 x9 𝕜}
    {ΓM ΓU ΓR ΓD ΛL ΛU ΛD : Matrix G G 𝕜} (h0 : Unit2 J0) (h1 : Unit2 J1)
    (h2 : Unit2 J2) (h3 : Unit2 J3) (h4 : Unit2 J4) (h5 : Unit2 J5) (h6 : Unit2 J6) (h7 : Unit2 J7) (h8 : Unit2 J8) (h9 : Unit2 J9)
    (gm : Unit2 ΓM) (gu : Unit2 ΓU) (gr : Unit2 ΓR) (gd : Unit2 ΓD) (kl : Unit2 ΛL) (ku : Unit2 ΛU) (kd : Unit2 ΛD)
    (c21 : x9 → x0 → 𝕜) (e21 : x0 → x1 → G → 𝕜) (e11 : x1 → x2 → G → 𝕜) (c12 : x2 → x3 → 𝕜) (e12 : x3 → x4 → G → 𝕜)
    (c13 : x4 → x5 → 𝕜) (e13 : x5 → x6 → G → 𝕜) (e23 : x6 → x7 → G → 𝕜) (c24 : x7 → x8 → 𝕜) (e24 : x8 → x9 → G → 𝕜)
    (lay1 lay2 : G → G → G → G → 𝕜) :
    ∑ b0, ∑ b1, ∑ b2, ∑ b3, ∑ b4, ∑ b5, ∑ b6, ∑ b7, ∑ b8, ∑ b9, ∑ m, ∑ u1, ∑ r1, ∑ d1, ∑ l2, ∑ u2, ∑ d2,
      (∑ i, ∑ j, star (J9 b9 i) * J0 b0 j * c21 i j) * (∑ i, ∑ j, ∑ h, star (J0 b0 i) * J1 b1 j * star (ΛU u2 h) * e21 i j h) *
      (∑ i, ∑ j, ∑ h, star (J1 b1 i) * J2 b2 j * star (ΓU u1 h) * e11 i j h) *
      (∑ i, ∑ j, star (J2 b2 i) * J3 b3 j * c12 i j) * (∑ i, ∑ j, ∑ h, star (J3 b3 i) * J4 b4 j * star (ΓR r1 h) * e12 i j h) *
      (∑ i, ∑ j, star (J4 b4 i) * J5 b5 j * c13 i j) * (∑ i, ∑ j, ∑ h, star (J5 b5 i) * J6 b6 j * star (ΓD d1 h) * e13 i j h) *
      (∑ i, ∑ j, ∑ h, star (J6 b6 i) * J7 b7 j * star (ΛD d2 h) * e23 i j h) *
      (∑ i, ∑ j, star (J7 b7 i) * J8 b8 j * c24 i j) * (∑ i, ∑ j, ∑ h, star (J8 b8 i) * J9 b9 j * star (ΛL l2 h) * e24 i j h) *
      (∑ k0, ∑ k1, ∑ k2, ∑ k3, ΓM m k0 * ΓU u1 k1 * ΓR r1 k2 * ΓD d1 k3 * lay1 k0 k1 k2 k3) *
      (∑ k0, ∑ k1, ∑ k2, ∑ k3, ΛL l2 k0 * ΛU u2 k1 * star (ΓM m k2) * ΛD d2 k3 * lay2 k0 k1 k2 k3) =
    ∑ b0, ∑ b1, ∑ b2, ∑ b3, ∑ b4, ∑ b5, ∑ b6, ∑ b7, ∑ b8, ∑ b9, ∑ m, ∑ u1, ∑ r1, ∑ d1, ∑ l2, ∑ u2, ∑ d2,
      c21 b9 b0 * e21 b0 b1 u2 * e11 b1 b2 u1 * c12 b2 b3 * e12 b3 b4 r1 * c13 b4 b5 * e13 b5 b6 d1 * e23 b6 b7 d2 * c24 b7 b8 *
      e24 b8 b9 l2 * lay1 m u1 r1 d1 * lay2 l2 u2 m d2 := by
  calc _ = ∑ i0, ∑ j0, (∑ x, star (J0 x i0) * J0 x j0) * (∑ i1, ∑ j1, (∑ x, star (J1 x i1) * J1 x j1) *
        ∑ i2, ∑ j2, (∑ x, star (J2 x i2) * J2 x j2) * ∑ i3, ∑ j3, (∑ x, star (J3 x i3) * J3 x j3) *
        ∑ i4, ∑ j4, (∑ x, star (J4 x i4) * J4 x j4) * ∑ i5, ∑ j5, (∑ x, star (J5 x i5) * J5 x j5) *
        ∑ i6, ∑ j6, (∑ x, star (J6 x i6) * J6 x j6) * ∑ i7, ∑ j7, (∑ x, star (J7 x i7) * J7 x j7) *
        ∑ i8, ∑ j8, (∑ x, star (J8 x i8) * J8 x j8) * ∑ i9, ∑ j9, (∑ x, star (J9 x i9) * J9 x j9) *
        ∑ m, ∑ m', (∑ x, star (ΓM x m) * ΓM x m') * ∑ u, ∑ u', (∑ x, star (ΓU x u) * ΓU x u') *
        ∑ r, ∑ r', (∑ x, star (ΓR x r) * ΓR x r') * ∑ d, ∑ d', (∑ x, star (ΓD x d) * ΓD x d') *
        ∑ l, ∑ l', (∑ x, star (ΛL x l) * ΛL x l') * ∑ v, ∑ v', (∑ x, star (ΛU x v) * ΛU x v') *
        ∑ w, ∑ w', (∑ x, star (ΛD x w) * ΛD x w') *
        (c21 i9 j0 * e21 i0 j1 v * e11 i1 j2 u * c12 i2 j3 * e12 i3 j4 r * c13 i4 j5 * e13 i5 j6 d * e23 i6 j7 w * c24 i7 j8 *
          e24 i8 j9 l * lay1 m' u' r' d' * lay2 l' v' m w')) := by
        einsum_ring
    _ = _ := by
        rw [unit_sum h0]
        refine sum_congr rfl fun _ _ => ?_
        rw [unit_sum h1]
        refine sum_congr rfl fun _ _ => ?_
        rw [unit_sum h2]
        refine sum_congr rfl fun _ _ => ?_
        rw [unit_sum h3]
        refine sum_congr rfl fun _ _ => ?_
        rw [unit_sum h4]
        refine sum_congr rfl fun _ _ => ?_
        rw [unit_sum h5]
        refine sum_congr rfl fun _ _ => ?_
        rw [unit_sum h6]
        refine sum_congr rfl fun _ _ => ?_
        rw [unit_sum h7]
        refine sum_congr rfl fun _ _ => ?_
        rw [unit_sum h8]
        refine sum_congr rfl fun _ _ => ?_
        rw [unit_sum h9]
        refine sum_congr rfl fun _ _ => ?_
        rw [unit_sum gm]
        refine sum_congr rfl fun _ _ => ?_
        rw [unit_sum gu]
        refine sum_congr rfl fun _ _ => ?_
        rw [unit_sum gr]
        refine sum_congr rfl fun _ _ => ?_
        rw [unit_sum gd]
        refine sum_congr rfl fun _ _ => ?_
        rw [unit_sum kl]
        refine sum_congr rfl fun _ _ => ?_
        rw [unit_sum ku]
        refine sum_congr rfl fun _ _ => ?_
        rw [unit_sum kd]

end ring

section layers

variable {B P : Type} [Fintype B] [Fintype P]

theorem siteRdm_layers {x0 x1 x2 x3 x4 x5 x6 x7 : Type} [Fintype x0] [Fintype x1] [Fintype x2] [Fintype x3] [Fintype x4] [Fintype x5]
    [Fintype x6] [Fintype x7] (C0 : x0 → x1 → 𝕜) (E0 : x1 → x2 → B → B → 𝕜) (C1 : x2 → x3 → 𝕜) (E1 : x3 → x4 → B → B → 𝕜)
    (C2 : x4 → x5 → 𝕜) (E2 : x5 → x6 → B → B → 𝕜) (C3 : x6 → x7 → 𝕜) (E3 : x7 → x0 → B → B → 𝕜) (A₀ : ATensor B P 𝕜) (bra ket : P) :
    siteRdm C0 E0 C1 E1 C2 E2 C3 E3 A₀ bra ket = ∑ b0, ∑ b1, ∑ b2, ∑ b3, ∑ b4, ∑ b5, ∑ b6, ∑ b7, ∑ l : B × B, ∑ u : B × B, ∑ r : B × B,
      ∑ d : B × B, C0 b0 b1 * E0 b1 b2 u.1 u.2 * C1 b2 b3 * E1 b3 b4 r.1 r.2 * C2 b4 b5 * E2 b5 b6 d.1 d.2 * C3 b6 b7 *
      E3 b7 b0 l.1 l.2 * layer A₀ (some (bra, ket)) l u r d := by
  unfold siteRdm layer
  dsimp only
  einsum_ring

theorem bondRdm_layers {y0 y1 y2 y3 y4 y5 y6 y7 y8 y9 : Type} [Fintype y0] [Fintype y1] [Fintype y2] [Fintype y3]
    [Fintype y4] [Fintype y5] [Fintype y6] [Fintype y7] [Fintype y8] [Fintype y9]
    (c12 : y2 → y3 → 𝕜) (e12 : y3 → y4 → B → B → 𝕜) (e11 : y1 → y2 → B → B → 𝕜)
    (c13 : y4 → y5 → 𝕜) (e13 : y5 → y6 → B → B → 𝕜) (A₁ : ATensor B P 𝕜)
    (c21 : y9 → y0 → 𝕜) (e21 : y0 → y1 → B → B → 𝕜) (e24 : y8 → y9 → B → B → 𝕜)
    (c24 : y7 → y8 → 𝕜) (e23 : y6 → y7 → B → B → 𝕜) (A₂ : ATensor B P 𝕜) (bra1 bra2 ket1 ket2 : P) :
    bondRdm c12 e12 e11 c13 e13 A₁ c21 e21 e24 c24 e23 A₂ bra1 bra2 ket1 ket2 =
    ∑ b0, ∑ b1, ∑ b2, ∑ b3, ∑ b4, ∑ b5, ∑ b6, ∑ b7, ∑ b8, ∑ b9, ∑ m : B × B, ∑ u1 : B × B, ∑ r1 : B × B, ∑ d1 : B × B, ∑ l2 : B × B,
      ∑ u2 : B × B, ∑ d2 : B × B,
      c21 b9 b0 * e21 b0 b1 u2.1 u2.2 * e11 b1 b2 u1.1 u1.2 * c12 b2 b3 * e12 b3 b4 r1.1 r1.2 * c13 b4 b5 * e13 b5 b6 d1.1 d1.2 *
      e23 b6 b7 d2.1 d2.2 * c24 b7 b8 * e24 b8 b9 l2.1 l2.2 * layer A₁ (some (bra1, ket1)) m u1 r1 d1 *
      layer A₂ (some (bra2, ket2)) l2 u2 m d2 := by
  unfold bondRdm layer
  dsimp only
  einsum_ring

theorem map_siteRdm (σ : ScalarMap 𝕜) {x0 x1 x2 x3 x4 x5 x6 x7 : Type} [Fintype x0] [Fintype x1] [Fintype x2] [Fintype x3] [Fintype x4]
    [Fintype x5] [Fintype x6] [Fintype x7] (C0 : x0 → x1 → 𝕜) (E0 : x1 → x2 → B → B → 𝕜) (C1 : x2 → x3 → 𝕜) (E1 : x3 → x4 → B → B → 𝕜)
    (C2 : x4 → x5 → 𝕜) (E2 : x5 → x6 → B → B → 𝕜) (C3 : x6 → x7 → 𝕜) (E3 : x7 → x0 → B → B → 𝕜) (A₀ : ATensor B P 𝕜) (bra ket : P) :
    σ.f (siteRdm C0 E0 C1 E1 C2 E2 C3 E3 A₀ bra ket) = ∑ b0, ∑ b1, ∑ b2, ∑ b3, ∑ b4, ∑ b5, ∑ b6, ∑ b7, ∑ l : B × B, ∑ u : B × B,
      ∑ r : B × B, ∑ d : B × B, σ.f (C0 b0 b1) * σ.f (E0 b1 b2 u.1 u.2) * σ.f (C1 b2 b3) * σ.f (E1 b3 b4 r.1 r.2) * σ.f (C2 b4 b5) *
      σ.f (E2 b5 b6 d.1 d.2) * σ.f (C3 b6 b7) * σ.f (E3 b7 b0 l.1 l.2) * σ.f (layer A₀ (some (bra, ket)) l u r d) := by
  rw [siteRdm_layers]
  iterate 12
    rw [map_sum]
    refine sum_congr rfl fun _ _ => ?_
  simp only [map_mul]

theorem site_swap {O G : Type} [Fintype O] [Fintype G] {x0 x1 x2 x3 x4 x5 x6 x7 : Type} [Fintype x0] [Fintype x1] [Fintype x2] [Fintype x3]
    [Fintype x4] [Fintype x5] [Fintype x6] [Fintype x7] (φ : O → 𝕜) (C0 : x0 → x1 → 𝕜) (E0 : x1 → x2 → G → 𝕜) (C1 : x2 → x3 → 𝕜)
    (E1 : x3 → x4 → G → 𝕜) (C2 : x4 → x5 → 𝕜) (E2 : x5 → x6 → G → 𝕜) (C3 : x6 → x7 → 𝕜) (E3 : x7 → x0 → G → 𝕜)
    (F : O → G → G → G → G → 𝕜) :
    ∑ b0, ∑ b1, ∑ b2, ∑ b3, ∑ b4, ∑ b5, ∑ b6, ∑ b7, ∑ l, ∑ u, ∑ r, ∑ d, C0 b0 b1 * E0 b1 b2 u * C1 b2 b3 * E1 b3 b4 r *
      C2 b4 b5 * E2 b5 b6 d * C3 b6 b7 * E3 b7 b0 l * ∑ q, φ q * F q l u r d =
    ∑ q, φ q * ∑ b0, ∑ b1, ∑ b2, ∑ b3, ∑ b4, ∑ b5, ∑ b6, ∑ b7, ∑ l, ∑ u, ∑ r, ∑ d, C0 b0 b1 * E0 b1 b2 u * C1 b2 b3 *
      E1 b3 b4 r * C2 b4 b5 * E2 b5 b6 d * C3 b6 b7 * E3 b7 b0 l * F q l u r d := by
  einsum_ring

theorem map_bondRdm (σ : ScalarMap 𝕜) {y0 y1 y2 y3 y4 y5 y6 y7 y8 y9 : Type} [Fintype y0] [Fintype y1] [Fintype y2] [Fintype y3]
    [Fintype y4] [Fintype y5] [Fintype y6] [Fintype y7] [Fintype y8] [Fintype y9]
    (c12 : y2 → y3 → 𝕜) (e12 : y3 → y4 → B → B → 𝕜) (e11 : y1 → y2 → B → B → 𝕜)
    (c13 : y4 → y5 → 𝕜) (e13 : y5 → y6 → B → B → 𝕜) (A₁ : ATensor B P 𝕜)
    (c21 : y9 → y0 → 𝕜) (e21 : y0 → y1 → B → B → 𝕜) (e24 : y8 → y9 → B → B → 𝕜)
    (c24 : y7 → y8 → 𝕜) (e23 : y6 → y7 → B → B → 𝕜) (A₂ : ATensor B P 𝕜) (bra1 bra2 ket1 ket2 : P) :
    σ.f (bondRdm c12 e12 e11 c13 e13 A₁ c21 e21 e24 c24 e23 A₂ bra1 bra2 ket1 ket2) =
    ∑ b0, ∑ b1, ∑ b2, ∑ b3, ∑ b4, ∑ b5, ∑ b6, ∑ b7, ∑ b8, ∑ b9, ∑ m : B × B, ∑ u1 : B × B, ∑ r1 : B × B, ∑ d1 : B × B, ∑ l2 : B × B,
      ∑ u2 : B × B, ∑ d2 : B × B,
      σ.f (c21 b9 b0) * σ.f (e21 b0 b1 u2.1 u2.2) * σ.f (e11 b1 b2 u1.1 u1.2) * σ.f (c12 b2 b3) * σ.f (e12 b3 b4 r1.1 r1.2) *
      σ.f (c13 b4 b5) * σ.f (e13 b5 b6 d1.1 d1.2) * σ.f (e23 b6 b7 d2.1 d2.2) * σ.f (c24 b7 b8) * σ.f (e24 b8 b9 l2.1 l2.2) *
      σ.f (layer A₁ (some (bra1, ket1)) m u1 r1 d1) * σ.f (layer A₂ (some (bra2, ket2)) l2 u2 m d2) := by
  rw [bondRdm_layers]
  iterate 17
    rw [map_sum]
    refine sum_congr rfl fun _ _ => ?_
  simp only [map_mul]

theorem bond_swap {O G : Type} [Fintype O] [Fintype G] {y0 y1 y2 y3 y4 y5 y6 y7 y8 y9 : Type} [Fintype y0] [Fintype y1] [Fintype y2]
    [Fintype y3] [Fintype y4] [Fintype y5] [Fintype y6] [Fintype y7] [Fintype y8] [Fintype y9] (φ ψ : O → 𝕜)
    (c21 : y9 → y0 → 𝕜) (e21 : y0 → y1 → G → 𝕜) (e11 : y1 → y2 → G → 𝕜) (c12 : y2 → y3 → 𝕜) (e12 : y3 → y4 → G → 𝕜)
    (c13 : y4 → y5 → 𝕜) (e13 : y5 → y6 → G → 𝕜) (e23 : y6 → y7 → G → 𝕜) (c24 : y7 → y8 → 𝕜) (e24 : y8 → y9 → G → 𝕜)
    (F₁ F₂ : O → G → G → G → G → 𝕜) :
    ∑ b0, ∑ b1, ∑ b2, ∑ b3, ∑ b4, ∑ b5, ∑ b6, ∑ b7, ∑ b8, ∑ b9, ∑ m, ∑ u1, ∑ r1, ∑ d1, ∑ l2, ∑ u2, ∑ d2,
      c21 b9 b0 * e21 b0 b1 u2 * e11 b1 b2 u1 * c12 b2 b3 * e12 b3 b4 r1 * c13 b4 b5 * e13 b5 b6 d1 * e23 b6 b7 d2 * c24 b7 b8 *
      e24 b8 b9 l2 * (∑ q, φ q * F₁ q m u1 r1 d1) * (∑ q, ψ q * F₂ q l2 u2 m d2) =
    ∑ q, ∑ q', φ q * ψ q' * ∑ b0, ∑ b1, ∑ b2, ∑ b3, ∑ b4, ∑ b5, ∑ b6, ∑ b7, ∑ b8, ∑ b9, ∑ m, ∑ u1, ∑ r1, ∑ d1, ∑ l2, ∑ u2, ∑ d2,
      c21 b9 b0 * e21 b0 b1 u2 * e11 b1 b2 u1 * c12 b2 b3 * e12 b3 b4 r1 * c13 b4 b5 * e13 b5 b6 d1 * e23 b6 b7 d2 * c24 b7 b8 *
      e24 b8 b9 l2 * F₁ q m u1 r1 d1 * F₂ q' l2 u2 m d2 := by
  einsum_ring

/-- The sum over the physical indices first. -/
theorem open_inner {G O : Type} [Fintype G] [Fintype O] {σ : ScalarMap 𝕜} {t : ℝ} {Φ : Matrix O O 𝕜} {Γ0 Γ1 Γ2 Γ3 : Matrix G G 𝕜}
    {lay lay' : O → G → G → G → G → 𝕜} (h : OpenRel σ t Φ Γ0 Γ1 Γ2 Γ3 lay lay') (o : O) (l u r d : G) :
    lay' o l u r d = t * ∑ l', ∑ u', ∑ r', ∑ d', Γ0 l l' * Γ1 u u' * Γ2 r r' * Γ3 d d' * ∑ q, Φ o q * σ.f (lay q l' u' r' d') := by
  rw [h]
  congr 1
  have e : ∀ F : O → G → G → G → G → 𝕜,
      ∑ q, ∑ l', ∑ u', ∑ r', ∑ d', Φ o q * (Γ0 l l' * Γ1 u u' * Γ2 r r' * Γ3 d d') * F q l' u' r' d' =
      ∑ l', ∑ u', ∑ r', ∑ d', Γ0 l l' * Γ1 u u' * Γ2 r r' * Γ3 d d' * ∑ q, Φ o q * F q l' u' r' d' := by
    intro F
    einsum_ring
  exact e fun q l u r d => σ.f (lay q l u r d)

end layers

section read

variable {B P : Type} [Fintype B] [Fintype P] [DecidableEq B]

theorem siteRdm_rel (σ : ScalarMap 𝕜) (L0 L1 L2 L3 L4 L5 L6 L7 : Link 𝕜) (Φ : Matrix (P × P) (P × P) 𝕜)
    {Γ0 Γ1 Γ2 Γ3 : Matrix (B × B) (B × B) 𝕜} (g0 : Unit2 Γ0) (g1 : Unit2 Γ1) (g2 : Unit2 Γ2) (g3 : Unit2 Γ3)
    {c0 : Fin L0.m → Fin L1.m → 𝕜} {c0' : Fin L0.m' → Fin L1.m' → 𝕜} {e0 : Fin L1.m → Fin L2.m → B → B → 𝕜}
    {e0' : Fin L1.m' → Fin L2.m' → B → B → 𝕜} {c1 : Fin L2.m → Fin L3.m → 𝕜} {c1' : Fin L2.m' → Fin L3.m' → 𝕜}
    {e1 : Fin L3.m → Fin L4.m → B → B → 𝕜} {e1' : Fin L3.m' → Fin L4.m' → B → B → 𝕜} {c2 : Fin L4.m → Fin L5.m → 𝕜}
    {c2' : Fin L4.m' → Fin L5.m' → 𝕜} {e2 : Fin L5.m → Fin L6.m → B → B → 𝕜} {e2' : Fin L5.m' → Fin L6.m' → B → B → 𝕜}
    {c3 : Fin L6.m → Fin L7.m → 𝕜} {c3' : Fin L6.m' → Fin L7.m' → 𝕜} {e3 : Fin L7.m → Fin L0.m → B → B → 𝕜}
    {e3' : Fin L7.m' → Fin L0.m' → B → B → 𝕜} {a a' : ATensor B P 𝕜} {t0 t1 t2 t3 s0 s1 s2 s3 ta : ℝ}
    (h0 : ∀ i j, c0' i j = t0 * ∑ x, ∑ y, star (L0.J i x) * L1.J j y * σ.f (c0 x y))
    (k0 : ∀ i j g, e0' i j g.1 g.2 = s0 * ∑ x, ∑ y, ∑ h, star (L1.J i x) * L2.J j y * star (Γ1 g h) * σ.f (e0 x y h.1 h.2))
    (h1 : ∀ i j, c1' i j = t1 * ∑ x, ∑ y, star (L2.J i x) * L3.J j y * σ.f (c1 x y))
    (k1 : ∀ i j g, e1' i j g.1 g.2 = s1 * ∑ x, ∑ y, ∑ h, star (L3.J i x) * L4.J j y * star (Γ2 g h) * σ.f (e1 x y h.1 h.2))
    (h2 : ∀ i j, c2' i j = t2 * ∑ x, ∑ y, star (L4.J i x) * L5.J j y * σ.f (c2 x y))
    (k2 : ∀ i j g, e2' i j g.1 g.2 = s2 * ∑ x, ∑ y, ∑ h, star (L5.J i x) * L6.J j y * star (Γ3 g h) * σ.f (e2 x y h.1 h.2))
    (h3 : ∀ i j, c3' i j = t3 * ∑ x, ∑ y, star (L6.J i x) * L7.J j y * σ.f (c3 x y))
    (k3 : ∀ i j g, e3' i j g.1 g.2 = s3 * ∑ x, ∑ y, ∑ h, star (L7.J i x) * L0.J j y * star (Γ0 g h) * σ.f (e3 x y h.1 h.2))
    (ha : OpenRel σ ta Φ Γ0 Γ1 Γ2 Γ3 (fun o => layer a (some o)) (fun o => layer a' (some o))) (bra ket : P) :
    siteRdm c0' e0' c1' e1' c2' e2' c3' e3' a' bra ket =
      ((t0 * s0 * t1 * s1 * t2 * s2 * t3 * s3 * ta : ℝ) : 𝕜) *
        ∑ q : P × P, Φ (bra, ket) q * σ.f (siteRdm c0 e0 c1 e1 c2 e2 c3 e3 a q.1 q.2) := by
  have key := ring_change L0.unit L1.unit L2.unit L3.unit L4.unit L5.unit L6.unit L7.unit g0 g1 g2 g3 (fun x y => σ.f (c0 x y))
    (fun x y h => σ.f (e0 x y h.1 h.2)) (fun x y => σ.f (c1 x y)) (fun x y h => σ.f (e1 x y h.1 h.2)) (fun x y => σ.f (c2 x y))
    (fun x y h => σ.f (e2 x y h.1 h.2)) (fun x y => σ.f (c3 x y)) (fun x y h => σ.f (e3 x y h.1 h.2))
    (fun l u r d => ∑ q, Φ (bra, ket) q * σ.f (layer a (some q) l u r d))
  have sw := site_swap (fun q => Φ (bra, ket) q) (fun x y => σ.f (c0 x y)) (fun x y h => σ.f (e0 x y h.1 h.2)) (fun x y => σ.f (c1 x y))
    (fun x y h => σ.f (e1 x y h.1 h.2)) (fun x y => σ.f (c2 x y)) (fun x y h => σ.f (e2 x y h.1 h.2)) (fun x y => σ.f (c3 x y))
    (fun x y h => σ.f (e3 x y h.1 h.2)) (fun q l u r d => σ.f (layer a (some q) l u r d))
  rw [sum_congr rfl fun q _ => congrArg (Φ (bra, ket) q * ·) (map_siteRdm σ c0 e0 c1 e1 c2 e2 c3 e3 a q.1 q.2)]
  refine Eq.trans ?_ (congrArg (_ * ·) (key.trans sw))
  rw [siteRdm_layers]
  iterate 12
    rw [mul_sum]
    refine sum_congr rfl fun _ _ => ?_
  rw [h0, k0, h1, k1, h2, k2, h3, k3, open_inner ha]
  push_cast
  ring

theorem bondRdm_rel (σ : ScalarMap 𝕜) (L0 L1 L2 L3 L4 L5 L6 L7 L8 L9 : Link 𝕜) (Φ Ψ : Matrix (P × P) (P × P) 𝕜)
    {ΓM ΓM' ΓU ΓR ΓD ΛL ΛU ΛD : Matrix (B × B) (B × B) 𝕜} (gm : Unit2 ΓM) (gu : Unit2 ΓU) (gr : Unit2 ΓR) (gd : Unit2 ΓD) (kl : Unit2 ΛL)
    (ku : Unit2 ΛU) (kd : Unit2 ΛD) (hM : ΓM' = ΓM.map star)
    {c21 : Fin L9.m → Fin L0.m → 𝕜} {c21' : Fin L9.m' → Fin L0.m' → 𝕜}
    {e21 : Fin L0.m → Fin L1.m → B → B → 𝕜} {e21' : Fin L0.m' → Fin L1.m' → B → B → 𝕜}
    {e11 : Fin L1.m → Fin L2.m → B → B → 𝕜} {e11' : Fin L1.m' → Fin L2.m' → B → B → 𝕜}
    {c12 : Fin L2.m → Fin L3.m → 𝕜} {c12' : Fin L2.m' → Fin L3.m' → 𝕜}
    {e12 : Fin L3.m → Fin L4.m → B → B → 𝕜} {e12' : Fin L3.m' → Fin L4.m' → B → B → 𝕜}
    {c13 : Fin L4.m → Fin L5.m → 𝕜} {c13' : Fin L4.m' → Fin L5.m' → 𝕜}
    {e13 : Fin L5.m → Fin L6.m → B → B → 𝕜} {e13' : Fin L5.m' → Fin L6.m' → B → B → 𝕜}
    {e23 : Fin L6.m → Fin L7.m → B → B → 𝕜} {e23' : Fin L6.m' → Fin L7.m' → B → B → 𝕜}
    {c24 : Fin L7.m → Fin L8.m → 𝕜} {c24' : Fin L7.m' → Fin L8.m' → 𝕜}
    {e24 : Fin L8.m → Fin L9.m → B → B → 𝕜} {e24' : Fin L8.m' → Fin L9.m' → B → B → 𝕜}
    {a1 a1' a2 a2' : ATensor B P 𝕜} {t0 t1 t2 t3 t4 t5 t6 t7 t8 t9 ta tb : ℝ}
    (h0 : ∀ i j, c21' i j = t0 * ∑ x, ∑ y, star (L9.J i x) * L0.J j y * σ.f (c21 x y))
    (h1 : ∀ i j g, e21' i j g.1 g.2 = t1 * ∑ x, ∑ y, ∑ h, star (L0.J i x) * L1.J j y * star (ΛU g h) * σ.f (e21 x y h.1 h.2))
    (h2 : ∀ i j g, e11' i j g.1 g.2 = t2 * ∑ x, ∑ y, ∑ h, star (L1.J i x) * L2.J j y * star (ΓU g h) * σ.f (e11 x y h.1 h.2))
    (h3 : ∀ i j, c12' i j = t3 * ∑ x, ∑ y, star (L2.J i x) * L3.J j y * σ.f (c12 x y))
    (h4 : ∀ i j g, e12' i j g.1 g.2 = t4 * ∑ x, ∑ y, ∑ h, star (L3.J i x) * L4.J j y * star (ΓR g h) * σ.f (e12 x y h.1 h.2))
    (h5 : ∀ i j, c13' i j = t5 * ∑ x, ∑ y, star (L4.J i x) * L5.J j y * σ.f (c13 x y))
    (h6 : ∀ i j g, e13' i j g.1 g.2 = t6 * ∑ x, ∑ y, ∑ h, star (L5.J i x) * L6.J j y * star (ΓD g h) * σ.f (e13 x y h.1 h.2))
    (h7 : ∀ i j g, e23' i j g.1 g.2 = t7 * ∑ x, ∑ y, ∑ h, star (L6.J i x) * L7.J j y * star (ΛD g h) * σ.f (e23 x y h.1 h.2))
    (h8 : ∀ i j, c24' i j = t8 * ∑ x, ∑ y, star (L7.J i x) * L8.J j y * σ.f (c24 x y))
    (h9 : ∀ i j g, e24' i j g.1 g.2 = t9 * ∑ x, ∑ y, ∑ h, star (L8.J i x) * L9.J j y * star (ΛL g h) * σ.f (e24 x y h.1 h.2))
    (ha : OpenRel σ ta Φ ΓM ΓU ΓR ΓD (fun o => layer a1 (some o)) (fun o => layer a1' (some o)))
    (hb : OpenRel σ tb Ψ ΛL ΛU ΓM' ΛD (fun o => layer a2 (some o)) (fun o => layer a2' (some o))) (b1 b2 k1 k2 : P) :
    bondRdm c12' e12' e11' c13' e13' a1' c21' e21' e24' c24' e23' a2' b1 b2 k1 k2 =
      ((t0 * t1 * t2 * t3 * t4 * t5 * t6 * t7 * t8 * t9 * ta * tb : ℝ) : 𝕜) *
        ∑ q : P × P, ∑ q' : P × P, Φ (b1, k1) q * Ψ (b2, k2) q' *
          σ.f (bondRdm c12 e12 e11 c13 e13 a1 c21 e21 e24 c24 e23 a2 q.1 q'.1 q.2 q'.2) := by
  subst hM
  have key := bond_change L0.unit L1.unit L2.unit L3.unit L4.unit L5.unit L6.unit L7.unit L8.unit L9.unit gm gu gr gd kl ku kd
    (fun x y => σ.f (c21 x y)) (fun x y h => σ.f (e21 x y h.1 h.2)) (fun x y h => σ.f (e11 x y h.1 h.2)) (fun x y => σ.f (c12 x y))
    (fun x y h => σ.f (e12 x y h.1 h.2)) (fun x y => σ.f (c13 x y)) (fun x y h => σ.f (e13 x y h.1 h.2))
    (fun x y h => σ.f (e23 x y h.1 h.2)) (fun x y => σ.f (c24 x y)) (fun x y h => σ.f (e24 x y h.1 h.2))
    (fun l u r d => ∑ q, Φ (b1, k1) q * σ.f (layer a1 (some q) l u r d))
    (fun l u r d => ∑ q, Ψ (b2, k2) q * σ.f (layer a2 (some q) l u r d))
  have sw := bond_swap (fun q => Φ (b1, k1) q) (fun q => Ψ (b2, k2) q)
    (fun x y => σ.f (c21 x y)) (fun x y h => σ.f (e21 x y h.1 h.2)) (fun x y h => σ.f (e11 x y h.1 h.2)) (fun x y => σ.f (c12 x y))
    (fun x y h => σ.f (e12 x y h.1 h.2)) (fun x y => σ.f (c13 x y)) (fun x y h => σ.f (e13 x y h.1 h.2))
    (fun x y h => σ.f (e23 x y h.1 h.2)) (fun x y => σ.f (c24 x y)) (fun x y h => σ.f (e24 x y h.1 h.2))
    (fun q l u r d => σ.f (layer a1 (some q) l u r d)) (fun q l u r d => σ.f (layer a2 (some q) l u r d))
  rw [sum_congr rfl fun q _ => sum_congr rfl fun q' _ => congrArg (Φ (b1, k1) q * Ψ (b2, k2) q' * ·)
    (map_bondRdm σ c12 e12 e11 c13 e13 a1 c21 e21 e24 c24 e23 a2 q.1 q'.1 q.2 q'.2)]
  refine Eq.trans ?_ (congrArg (_ * ·) (key.trans sw))
  rw [bondRdm_layers]
  iterate 17
    rw [mul_sum]
    refine sum_congr rfl fun _ _ => ?_
  rw [h0, h1, h2, h3, h4, h5, h6, h7, h8, h9, open_inner ha, open_inner hb]
  simp only [Matrix.map_apply]
  push_cast
  ring

end read

section network

variable {B P : Type} [Fintype B] [Fintype P] [DecidableEq B] [DecidableEq P] {σ : ScalarMap 𝕜}
  {Φ : ℤ × ℤ → Matrix (P × P) (P × P) 𝕜} {Γ : ℤ × ℤ → Fin 4 → Matrix (B × B) (B × B) 𝕜}
  {ℓ : ℤ × ℤ → Fin 4 → Link 𝕜} {net net' : Net (Ten B P 𝕜)}

theorem site_read (hR : Related σ Φ Γ ℓ net net') (p : ℤ × ℤ) :
    ∃ ρ ρ', numSiteRdm net (cellSite net.nx net.ny p) = .ok ρ ∧ numSiteRdm net' (cellSite net.nx net.ny p) = .ok ρ' ∧
      ∃ t : ℝ, 0 < t ∧ ∀ bra ket, ρ' bra ket = t * ∑ q : P × P, Φ p (bra, ket) q * σ.f (ρ q.1 q.2) := by
  have h0 : CornerRel σ (ℓ (p + dir 1) 3) (ℓ p 0) (net.B (cellSite net.nx net.ny p) (.C 0)) (net'.B (cellSite net.nx net.ny p) (.C 0)) :=
    hR.corner p 0
  have h1 : CornerRel σ (ℓ (p + dir 2) 0) (ℓ p 1) (net.B (cellSite net.nx net.ny p) (.C 1)) (net'.B (cellSite net.nx net.ny p) (.C 1)) :=
    hR.corner p 1
  have h2 : CornerRel σ (ℓ (p + dir 3) 1) (ℓ p 2) (net.B (cellSite net.nx net.ny p) (.C 2)) (net'.B (cellSite net.nx net.ny p) (.C 2)) :=
    hR.corner p 2
  have h3 : CornerRel σ (ℓ (p + dir 0) 2) (ℓ p 3) (net.B (cellSite net.nx net.ny p) (.C 3)) (net'.B (cellSite net.nx net.ny p) (.C 3)) :=
    hR.corner p 3
  have k0 : EdgeRel σ (ℓ p 0) (ℓ (p + dir 2) 0) (Γ p 1) (net.B (cellSite net.nx net.ny p) (.E 0))
    (net'.B (cellSite net.nx net.ny p) (.E 0)) := hR.edge p 0
  have k1 : EdgeRel σ (ℓ p 1) (ℓ (p + dir 3) 1) (Γ p 2) (net.B (cellSite net.nx net.ny p) (.E 1))
    (net'.B (cellSite net.nx net.ny p) (.E 1)) := hR.edge p 1
  have k2 : EdgeRel σ (ℓ p 2) (ℓ (p + dir 0) 2) (Γ p 3) (net.B (cellSite net.nx net.ny p) (.E 2))
    (net'.B (cellSite net.nx net.ny p) (.E 2)) := hR.edge p 2
  have k3 : EdgeRel σ (ℓ p 3) (ℓ (p + dir 1) 3) (Γ p 0) (net.B (cellSite net.nx net.ny p) (.E 3))
    (net'.B (cellSite net.nx net.ny p) (.E 3)) := hR.edge p 3
  obtain ⟨c0, c0', t0, hc0, hc0', ht0, h0⟩ := h0
  obtain ⟨c1, c1', t1, hc1, hc1', ht1, h1⟩ := h1
  obtain ⟨c2, c2', t2, hc2, hc2', ht2, h2⟩ := h2
  obtain ⟨c3, c3', t3, hc3, hc3', ht3, h3⟩ := h3
  obtain ⟨e0, e0', s0, he0, he0', hs0, k0⟩ := k0
  obtain ⟨e1, e1', s1, he1, he1', hs1, k1⟩ := k1
  obtain ⟨e2, e2', s2, he2, he2', hs2, k2⟩ := k2
  obtain ⟨e3, e3', s3, he3, he3', hs3, k3⟩ := k3
  obtain ⟨a, a', ta, hA, hA', hta, ha⟩ := hR.site p
  refine ⟨siteRdm c0 e0 c1 e1 c2 e2 c3 e3 a, siteRdm c0' e0' c1' e1' c2' e2' c3' e3' a', ?_, ?_, _, by positivity,
    siteRdm_rel σ _ _ _ _ _ _ _ _ _ (hR.unit p 0) (hR.unit p 1) (hR.unit p 2) (hR.unit p 3) h0 k0 h1 k1 h2 k2 h3 k3 ha⟩
  · unfold numSiteRdm
    rw [hc0, hc1, hc2, hc3, he0, he1, he2, he3, hA]
    dsimp only
    rw [if_pos ⟨rfl, rfl, rfl, rfl, rfl, rfl, rfl, rfl⟩]
    simp only [as4_self, as2_self]
    rw [C46_site_core]
  · unfold numSiteRdm
    rw [hc0', hc1', hc2', hc3', he0', he1', he2', he3', hA']
    dsimp only
    rw [if_pos ⟨rfl, rfl, rfl, rfl, rfl, rfl, rfl, rfl⟩]
    simp only [as4_self, as2_self]
    rw [C46_site_core]

omit [Fintype P] [DecidableEq P] in
theorem bond_read {pD : ℕ} {Φ : ℤ × ℤ → Matrix (Fin pD × Fin pD) (Fin pD × Fin pD) 𝕜} {net net' : Net (Ten B (Fin pD) 𝕜)}
    (hR : Related σ Φ Γ ℓ net net') (init init' : Fin pD → Fin pD → Fin pD → Fin pD → 𝕜) (p : ℤ × ℤ) (K : Fin 4) :
    ∃ ρ ρ', numBondRdm init net ⟨cellSite net.nx net.ny p, cellSite net.nx net.ny (p + dir K), K.val⟩ = .ok ρ ∧
      numBondRdm init' net' ⟨cellSite net.nx net.ny p, cellSite net.nx net.ny (p + dir K), K.val⟩ = .ok ρ' ∧
      ∃ t : ℝ, 0 < t ∧ ∀ b1 b2 k1 k2, ρ' b1 b2 k1 k2 = t * ∑ q : Fin pD × Fin pD, ∑ q' : Fin pD × Fin pD,
        Φ p (b1, k1) q * Φ (p + dir K) (b2, k2) q' * σ.f (ρ q.1 q'.1 q.2 q'.2) := by
  obtain ⟨i11, i12, i13, i21, i22, i23, i31, i32, i33⟩ := fin4 K
  have m0 : (0 + K.val) % 4 = K.val := by have := K.isLt; omega
  have m1 : (1 + K.val) % 4 = (K + 1).val := by rw [add_comm]; exact (fin4_val K).2.1
  have m2 : (2 + K.val) % 4 = (K + 2).val := by rw [add_comm]; exact (fin4_val K).2.2.1
  have m3 : (3 + K.val) % 4 = (K + 3).val := by rw [add_comm]; exact (fin4_val K).2.2.2
  have h12 := hR.corner p (K + 1)
  have g12 := hR.edge p (K + 1)
  have g11 := hR.edge p K
  have h13 := hR.corner p (K + 2)
  have g13 := hR.edge p (K + 2)
  have h21 := hR.corner (p + dir K) K
  have g21 := hR.edge (p + dir K) K
  have g24 := hR.edge (p + dir K) (K + 3)
  have h24 := hR.corner (p + dir K) (K + 3)
  have g23 := hR.edge (p + dir K) (K + 2)
  rw [i11, i13] at h12
  rw [i11, i12] at g12
  rw [i21, i23] at h13
  rw [i21, i22] at g13
  rw [dir_cancel] at g21
  rw [i31, i32] at g24
  rw [i31, i33] at h24
  rw [i21, i22] at g23
  obtain ⟨c12, c12', t3, hc12, hc12', ht3, h12⟩ := h12
  obtain ⟨e12, e12', t4, he12, he12', ht4, g12⟩ := g12
  obtain ⟨e11, e11', t2, he11, he11', ht2, g11⟩ := g11
  obtain ⟨c13, c13', t5, hc13, hc13', ht5, h13⟩ := h13
  obtain ⟨e13, e13', t6, he13, he13', ht6, g13⟩ := g13
  obtain ⟨c21, c21', t0, hc21, hc21', ht0, h21⟩ := h21
  obtain ⟨e21, e21', t1, he21, he21', ht1, g21⟩ := g21
  obtain ⟨e24, e24', t9, he24, he24', ht9, g24⟩ := g24
  obtain ⟨c24, c24', t8, hc24, hc24', ht8, h24⟩ := h24
  obtain ⟨e23, e23', t7, he23, he23', ht7, g23⟩ := g23
  obtain ⟨a1, a1', ta, hA1, hA1', hta, ha⟩ := hR.site p
  obtain ⟨a2, a2', tb, hA2, hA2', htb, hb⟩ := hR.site (p + dir K)
  have ha := open_turn ha K
  have hb := open_turn hb K
  refine ⟨bondRdm c12 e12 e11 c13 e13 (bondPermute K.val a1) c21 e21 e24 c24 e23 (bondPermute K.val a2),
    bondRdm c12' e12' e11' c13' e13' (bondPermute K.val a1') c21' e21' e24' c24' e23' (bondPermute K.val a2'), ?_, ?_, _, by positivity,
    bondRdm_rel σ _ _ _ _ _ _ _ _ _ _ _ _ (hR.unit _ _) (hR.unit _ _) (hR.unit _ _) (hR.unit _ _) (hR.unit _ _) (hR.unit _ _)
      (hR.unit _ _) (hR.bond p K) h21 g21 g11 h12 g12 h13 g13 g23 h24 g24 ha hb⟩
  · unfold numBondRdm
    dsimp only
    rw [m0, m1, m2, m3, hc12, he12, he11, hc13, he13, hc21, he21, he24, hc24, he23, hA1, hA2]
    dsimp only
    rw [if_pos ⟨rfl, rfl, rfl, rfl, rfl, rfl, rfl, rfl, rfl, rfl⟩]
    simp only [as4_self, as2_self]
    rw [C32_bond_rdm, C46_bond_core]
  · unfold numBondRdm
    dsimp only
    rw [m0, m1, m2, m3, hc12', he12', he11', hc13', he13', hc21', he21', he24', hc24', he23', hA1', hA2']
    dsimp only
    rw [if_pos ⟨rfl, rfl, rfl, rfl, rfl, rfl, rfl, rfl, rfl, rfl⟩]
    simp only [as4_self, as2_self]
    rw [C32_bond_rdm, C46_bond_core]

/-- A sequence of moves. -/
theorem related_run (st st' : ProjSettings 𝕜) (pk : ProjKind)
    (hcut : st'.cutoff = st.cutoff) (h0 : 0 ≤ st.cutoff) (ω ω' : ℕ → Draws B 𝕜) (ms : List Move) (t t' : ℕ)
    (net net' : Net (Ten B P 𝕜)) (ℓ : ℤ × ℤ → Fin 4 → Link 𝕜) (hR : Related σ Φ Γ ℓ net net') (hx : 0 < net.nx) (hy : 0 < net.ny)
    (hm : ∀ m ∈ ms, InRange net.nx net.ny m) (hd : DropRun st pk ω t ms net) (hf : SvdRun st pk ω t ms net)
    (hf' : SvdRun st' pk ω' t' ms net') :
    ∃ n n' ℓ', runDrawn st pk ω t ms net = .ok n ∧ runDrawn st' pk ω' t' ms net' = .ok n' ∧ n.nx = net.nx ∧ n.ny = net.ny ∧
      Related σ Φ Γ ℓ' n n' := by
  induction ms generalizing t t' net net' ℓ with
  | nil => exact ⟨net, net', ℓ, rfl, rfl, rfl, rfl, hR⟩
  | cons m ms ih =>
    have hmv := valid_of_range m (hm m (by simp))
    obtain ⟨ℓ1, hR1⟩ := related_after hR st st' (ω t) (ω' t') pk m hx hy hcut h0 hmv hd.1 hf.1 hf'.1
    obtain ⟨n, n', ℓ', e, e', h1, h2, h3⟩ := ih (t + 1) (t' + 1) _ _ ℓ1 hR1 hx hy (fun m' hm' => hm m' (by simp [hm']))
      (hd.2 _ (m.run_eq _ _ _)) (hf.2 _ (m.run_eq _ _ _)) (hf'.2 _ (m.run_eq _ _ _))
    refine ⟨n, n', ℓ', ?_, ?_, h1, h2, h3⟩
    · simp only [runDrawn, Move.run_eq, bind, Except.bind]
      exact e
    · simp only [runDrawn, Move.run_eq, bind, Except.bind]
      exact e'

end network

end AceTN
