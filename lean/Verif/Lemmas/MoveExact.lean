import Verif.Props.Boundary
import Verif.Lemmas.Double

/-!
The ring around a site after absorbing a column through projectors that resolve the identity.
-/

set_option autoImplicit false

namespace AceTN

open SumTac Spec

variable {𝕜 : Type} [RCLike 𝕜]

namespace Spec

/-- The two projectors of a cut multiply to `c` times the identity. -/
def Resolution {X B Z : Type} [Fintype Z] [DecidableEq X] [DecidableEq B] (p1 p2 : X → B → B → Z → 𝕜) (c : 𝕜) : Prop :=
  ∀ x u u' y v v', ∑ z, p2 x u u' z * p1 y v v' z = if x = y ∧ u = v ∧ u' = v' then c else 0

end Spec

/-- Contracting both projectors with anything closes the cut. -/
theorem resolution_cut {X B Z : Type} [Fintype X] [Fintype B] [Fintype Z] [DecidableEq X] [DecidableEq B]
    (p1 p2 : X → B → B → Z → 𝕜) (c : 𝕜) (h : Resolution p1 p2 c) (M : X → B → B → X → B → B → 𝕜) :
    ∑ x, ∑ u, ∑ u', ∑ y, ∑ v, ∑ v', (∑ z, p2 x u u' z * p1 y v v' z) * M x u u' y v v' = c * ∑ x, ∑ u, ∑ u', M x u u' x u u' := by
  rw [Finset.mul_sum]
  refine Finset.sum_congr rfl fun x _ => ?_
  rw [Finset.mul_sum]
  refine Finset.sum_congr rfl fun u _ => ?_
  rw [Finset.mul_sum]
  refine Finset.sum_congr rfl fun u' _ => ?_
  rw [Finset.sum_eq_single x, Finset.sum_eq_single u, Finset.sum_eq_single u', h]
  · simp
  · intro v' _ hv'
    rw [h, if_neg (fun e => hv' e.2.2.symm), zero_mul]
  · simp
  · intro v _ hv
    refine Finset.sum_eq_zero fun v' _ => ?_
    rw [h, if_neg (fun e => hv e.2.1.symm), zero_mul]
  · simp
  · intro y _ hy
    refine Finset.sum_eq_zero fun v _ => Finset.sum_eq_zero fun v' _ => ?_
    rw [h, if_neg (fun e => hy e.1.symm), zero_mul]
  · simp

section ring

variable {L1 U1 R1 D1 P : Type} [Fintype L1] [Fintype U1] [Fintype R1] [Fintype D1]
variable {L2 U2 D2 Q : Type} [Fintype L2] [Fintype U2] [Fintype D2] [Fintype Q]
variable {y0 y1 y2 y3 y4 y5 y6 y7 y8 y9 Z Z' : Type} [Fintype y0] [Fintype y1] [Fintype y2] [Fintype y3]
  [Fintype y4] [Fintype y5] [Fintype y6] [Fintype y7] [Fintype y8] [Fintype y9] [Fintype Z] [Fintype Z']

/-- The network of a site and the column on its left, cut open above and below the absorbed site. -/
def openCuts (c12 : y2 → y3 → 𝕜) (e12 : y3 → y4 → R1 → R1 → 𝕜) (e11 : y1 → y2 → U1 → U1 → 𝕜)
    (c13 : y4 → y5 → 𝕜) (e13 : y5 → y6 → D1 → D1 → 𝕜) (a1 : L1 → U1 → R1 → D1 → P → 𝕜)
    (c21 : y9 → y0 → 𝕜) (e21 : y0 → y1 → U2 → U2 → 𝕜) (e24 : y8 → y9 → L2 → L2 → 𝕜)
    (c24 : y7 → y8 → 𝕜) (e23 : y6 → y7 → D2 → D2 → 𝕜) (a2 : L2 → U2 → L1 → D2 → Q → 𝕜) (bra1 ket1 : P)
    (j9 : y9) (u2 u2' : U2) (k9 : y9) (v2 v2' : U2) (k8 : y8) (w2 w2' : D2) (j8 : y8) (d2 d2' : D2) : 𝕜 :=
  ∑ i0, ∑ i1, ∑ i2, ∑ i3, ∑ i4, ∑ i5, ∑ i6, ∑ i7,
  ∑ m, ∑ u1, ∑ r1, ∑ d1, ∑ l2, ∑ m', ∑ u1', ∑ r1', ∑ d1', ∑ l2', ∑ q,
    c21 j9 i0 * e21 i0 i1 u2 u2' * e11 i1 i2 u1 u1' * c12 i2 i3 * e12 i3 i4 r1 r1' * c13 i4 i5 *
    e13 i5 i6 d1 d1' * e23 i6 i7 d2 d2' * c24 i7 j8 * e24 k8 k9 l2 l2' *
    (a1 m u1 r1 d1 ket1 * a2 l2 v2 m w2 q * star (a1 m' u1' r1' d1' bra1 * a2 l2' v2' m' w2' q))

theorem absorbed_open (c12 : y2 → y3 → 𝕜) (e12 : y3 → y4 → R1 → R1 → 𝕜) (e11 : y1 → y2 → U1 → U1 → 𝕜)
    (c13 : y4 → y5 → 𝕜) (e13 : y5 → y6 → D1 → D1 → 𝕜) (a1 : L1 → U1 → R1 → D1 → P → 𝕜)
    (c21 : y9 → y0 → 𝕜) (e21 : y0 → y1 → U2 → U2 → 𝕜) (e24 : y8 → y9 → L2 → L2 → 𝕜)
    (c24 : y7 → y8 → 𝕜) (e23 : y6 → y7 → D2 → D2 → 𝕜) (a2 : L2 → U2 → L1 → D2 → Q → 𝕜)
    (p1i p2i : y8 → D2 → D2 → Z → 𝕜) (p1j p2j : y9 → U2 → U2 → Z' → 𝕜) (bra1 ket1 : P) :
    siteRdm (upperCorner c21 e21 p2j) e11 c12 e12 c13 e13 (lowerCorner c24 e23 p1i) (absorbedEdge e24 a2 p2i p1j) a1 bra1 ket1 =
    ∑ j9, ∑ u2, ∑ u2', ∑ k9, ∑ v2, ∑ v2', (∑ z, p2j j9 u2 u2' z * p1j k9 v2 v2' z) *
      ∑ k8, ∑ w2, ∑ w2', ∑ j8, ∑ d2, ∑ d2', (∑ z, p2i k8 w2 w2' z * p1i j8 d2 d2' z) *
        openCuts c12 e12 e11 c13 e13 a1 c21 e21 e24 c24 e23 a2 bra1 ket1 j9 u2 u2' k9 v2 v2' k8 w2 w2' j8 d2 d2' := by
  unfold siteRdm upperCorner lowerCorner absorbedEdge openCuts
  einsum_ring

/-- After absorbing the left column through resolving projectors, the ring around the right site is the two-site network
with the left site traced out. -/
theorem absorbed_exact [DecidableEq y8] [DecidableEq y9] [DecidableEq U2] [DecidableEq D2]
    (c12 : y2 → y3 → 𝕜) (e12 : y3 → y4 → R1 → R1 → 𝕜) (e11 : y1 → y2 → U1 → U1 → 𝕜)
    (c13 : y4 → y5 → 𝕜) (e13 : y5 → y6 → D1 → D1 → 𝕜) (a1 : L1 → U1 → R1 → D1 → P → 𝕜)
    (c21 : y9 → y0 → 𝕜) (e21 : y0 → y1 → U2 → U2 → 𝕜) (e24 : y8 → y9 → L2 → L2 → 𝕜)
    (c24 : y7 → y8 → 𝕜) (e23 : y6 → y7 → D2 → D2 → 𝕜) (a2 : L2 → U2 → L1 → D2 → Q → 𝕜)
    (p1i p2i : y8 → D2 → D2 → Z → 𝕜) (p1j p2j : y9 → U2 → U2 → Z' → 𝕜) (ci cj : 𝕜) (hi : Resolution p1i p2i ci)
    (hj : Resolution p1j p2j cj) (bra1 ket1 : P) :
    siteRdm (upperCorner c21 e21 p2j) e11 c12 e12 c13 e13 (lowerCorner c24 e23 p1i) (absorbedEdge e24 a2 p2i p1j) a1 bra1 ket1 =
    cj * ci * ∑ q, bondRdm c12 e12 e11 c13 e13 a1 c21 e21 e24 c24 e23 a2 bra1 q ket1 q := by
  rw [absorbed_open, resolution_cut p1j p2j cj hj, mul_assoc]
  congr 1
  have : ∀ j9 u2 u2', (∑ k8, ∑ w2, ∑ w2', ∑ j8, ∑ d2, ∑ d2', (∑ z, p2i k8 w2 w2' z * p1i j8 d2 d2' z) *
        openCuts c12 e12 e11 c13 e13 a1 c21 e21 e24 c24 e23 a2 bra1 ket1 j9 u2 u2' j9 u2 u2' k8 w2 w2' j8 d2 d2') =
      ci * ∑ k8, ∑ w2, ∑ w2', openCuts c12 e12 e11 c13 e13 a1 c21 e21 e24 c24 e23 a2 bra1 ket1 j9 u2 u2' j9 u2 u2'
        k8 w2 w2' k8 w2 w2' := fun j9 u2 u2' => resolution_cut p1i p2i ci hi _
  rw [Finset.sum_congr rfl fun j9 _ => Finset.sum_congr rfl fun u2 _ => Finset.sum_congr rfl fun u2' _ => this j9 u2 u2']
  unfold openCuts bondRdm
  einsum_ring

end ring

section rotate

variable {L U R D P : Type} [Fintype L] [Fintype U] [Fintype R] [Fintype D]
variable {x0 x1 x2 x3 x4 x5 x6 x7 : Type} [Fintype x0] [Fintype x1] [Fintype x2] [Fintype x3]
  [Fintype x4] [Fintype x5] [Fintype x6] [Fintype x7]

/-- The density matrix of a site does not depend on which corner the ring is read from. -/
theorem siteRdm_rotate (C0 : x0 → x1 → 𝕜) (E0 : x1 → x2 → U → U → 𝕜) (C1 : x2 → x3 → 𝕜)
    (E1 : x3 → x4 → R → R → 𝕜) (C2 : x4 → x5 → 𝕜) (E2 : x5 → x6 → D → D → 𝕜) (C3 : x6 → x7 → 𝕜)
    (E3 : x7 → x0 → L → L → 𝕜) (a : L → U → R → D → P → 𝕜) (bra ket : P) :
    siteRdm C0 E0 C1 E1 C2 E2 C3 E3 a bra ket =
      siteRdm C1 E1 C2 E2 C3 E3 C0 E0 (fun u r d l p => a l u r d p) bra ket := by
  unfold siteRdm
  einsum_ring

end rotate

end AceTN
