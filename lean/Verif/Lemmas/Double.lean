import Verif.Spec.Rdm
import Verif.Lemmas.SumTac

/-!
Density matrices of networks whose boundary tensors are double layers: the density matrix is a Gram matrix.
-/

set_option autoImplicit false

namespace AceTN

open SumTac

variable {𝕜 : Type} [RCLike 𝕜]
variable {L U R D P : Type} [Fintype L] [Fintype U] [Fintype R] [Fintype D]
variable {x0 x1 x2 x3 x4 x5 x6 x7 : Type} [Fintype x0] [Fintype x1] [Fintype x2] [Fintype x3]
  [Fintype x4] [Fintype x5] [Fintype x6] [Fintype x7]
variable {h0 h1 h2 h3 h4 h5 h6 h7 : Type} [Fintype h0] [Fintype h1] [Fintype h2] [Fintype h3]
  [Fintype h4] [Fintype h5] [Fintype h6] [Fintype h7]

/-- One layer of the site network, with a hidden leg on every boundary tensor. -/
def ringState (c0 : h0 → x0 → x1 → 𝕜) (e0 : h1 → x1 → x2 → U → 𝕜) (c1 : h2 → x2 → x3 → 𝕜)
    (e1 : h3 → x3 → x4 → R → 𝕜) (c2 : h4 → x4 → x5 → 𝕜) (e2 : h5 → x5 → x6 → D → 𝕜) (c3 : h6 → x6 → x7 → 𝕜)
    (e3 : h7 → x7 → x0 → L → 𝕜) (a : L → U → R → D → P → 𝕜) (j0 : h0) (j1 : h1) (j2 : h2) (j3 : h3) (j4 : h4)
    (j5 : h5) (j6 : h6) (j7 : h7) (p : P) : 𝕜 :=
  ∑ i0, ∑ i1, ∑ i2, ∑ i3, ∑ i4, ∑ i5, ∑ i6, ∑ i7, ∑ l, ∑ u, ∑ r, ∑ d,
    c0 j0 i0 i1 * e0 j1 i1 i2 u * c1 j2 i2 i3 * e1 j3 i3 i4 r * c2 j4 i4 i5 * e2 j5 i5 i6 d * c3 j6 i6 i7 * e3 j7 i7 i0 l *
      a l u r d p

/-- A corner made of two layers. -/
def double2 {h a b : Type} [Fintype h] (c : h → a → b → 𝕜) (x : a × a) (y : b × b) : 𝕜 := ∑ j, c j x.1 y.1 * star (c j x.2 y.2)

/-- An edge made of two layers. -/
def double3 {h a b d : Type} [Fintype h] (c : h → a → b → d → 𝕜) (x : a × a) (y : b × b) (z z' : d) : 𝕜 :=
  ∑ j, c j x.1 y.1 z * star (c j x.2 y.2 z')

theorem siteRdm_double (c0 : h0 → x0 → x1 → 𝕜) (e0 : h1 → x1 → x2 → U → 𝕜) (c1 : h2 → x2 → x3 → 𝕜)
    (e1 : h3 → x3 → x4 → R → 𝕜) (c2 : h4 → x4 → x5 → 𝕜) (e2 : h5 → x5 → x6 → D → 𝕜) (c3 : h6 → x6 → x7 → 𝕜)
    (e3 : h7 → x7 → x0 → L → 𝕜) (a : L → U → R → D → P → 𝕜) (bra ket : P) :
    Spec.siteRdm (double2 c0) (double3 e0) (double2 c1) (double3 e1) (double2 c2) (double3 e2) (double2 c3) (double3 e3)
      a bra ket =
    ∑ j0, ∑ j1, ∑ j2, ∑ j3, ∑ j4, ∑ j5, ∑ j6, ∑ j7, ringState c0 e0 c1 e1 c2 e2 c3 e3 a j0 j1 j2 j3 j4 j5 j6 j7 ket *
      star (ringState c0 e0 c1 e1 c2 e2 c3 e3 a j0 j1 j2 j3 j4 j5 j6 j7 bra) := by
  unfold Spec.siteRdm ringState double2 double3
  einsum_ring

/-- Rescaling the tensors of a site network rescales the density matrix. -/
theorem siteRdm_scale (f0 f1 f2 f3 f4 f5 f6 f7 fA : 𝕜) (C0 : x0 → x1 → 𝕜) (E0 : x1 → x2 → U → U → 𝕜) (C1 : x2 → x3 → 𝕜)
    (E1 : x3 → x4 → R → R → 𝕜) (C2 : x4 → x5 → 𝕜) (E2 : x5 → x6 → D → D → 𝕜) (C3 : x6 → x7 → 𝕜)
    (E3 : x7 → x0 → L → L → 𝕜) (a : L → U → R → D → P → 𝕜) (bra ket : P) :
    Spec.siteRdm (fun i j => f0 * C0 i j) (fun i j k l => f1 * E0 i j k l) (fun i j => f2 * C1 i j)
      (fun i j k l => f3 * E1 i j k l) (fun i j => f4 * C2 i j) (fun i j k l => f5 * E2 i j k l) (fun i j => f6 * C3 i j)
      (fun i j k l => f7 * E3 i j k l) (fun l u r d p => fA * a l u r d p) bra ket =
    (f0 * f1 * f2 * f3 * f4 * f5 * f6 * f7 * (fA * star fA)) * Spec.siteRdm C0 E0 C1 E1 C2 E2 C3 E3 a bra ket := by
  unfold Spec.siteRdm
  einsum_ring

section bond

variable {L1 U1 R1 D1 : Type} [Fintype L1] [Fintype U1] [Fintype R1] [Fintype D1]
variable {L2 U2 D2 Q : Type} [Fintype L2] [Fintype U2] [Fintype D2]
variable {y0 y1 y2 y3 y4 y5 y6 y7 y8 y9 : Type} [Fintype y0] [Fintype y1] [Fintype y2] [Fintype y3]
  [Fintype y4] [Fintype y5] [Fintype y6] [Fintype y7] [Fintype y8] [Fintype y9]

theorem bondRdm_scale (f0 f1 f2 f3 f4 f5 f6 f7 f8 f9 fA fB : 𝕜) (c12 : y2 → y3 → 𝕜) (e12 : y3 → y4 → R1 → R1 → 𝕜)
    (e11 : y1 → y2 → U1 → U1 → 𝕜) (c13 : y4 → y5 → 𝕜) (e13 : y5 → y6 → D1 → D1 → 𝕜) (a1 : L1 → U1 → R1 → D1 → P → 𝕜)
    (c21 : y9 → y0 → 𝕜) (e21 : y0 → y1 → U2 → U2 → 𝕜) (e24 : y8 → y9 → L2 → L2 → 𝕜)
    (c24 : y7 → y8 → 𝕜) (e23 : y6 → y7 → D2 → D2 → 𝕜) (a2 : L2 → U2 → L1 → D2 → Q → 𝕜)
    (bra1 : P) (bra2 : Q) (ket1 : P) (ket2 : Q) :
    Spec.bondRdm (fun i j => f0 * c12 i j) (fun i j k l => f1 * e12 i j k l) (fun i j k l => f2 * e11 i j k l)
      (fun i j => f3 * c13 i j) (fun i j k l => f4 * e13 i j k l) (fun l u r d p => fA * a1 l u r d p)
      (fun i j => f5 * c21 i j) (fun i j k l => f6 * e21 i j k l) (fun i j k l => f7 * e24 i j k l)
      (fun i j => f8 * c24 i j) (fun i j k l => f9 * e23 i j k l) (fun l u r d p => fB * a2 l u r d p) bra1 bra2 ket1 ket2 =
    (f0 * f1 * f2 * f3 * f4 * f5 * f6 * f7 * f8 * f9 * (fA * star fA) * (fB * star fB)) *
      Spec.bondRdm c12 e12 e11 c13 e13 a1 c21 e21 e24 c24 e23 a2 bra1 bra2 ket1 ket2 := by
  unfold Spec.bondRdm
  einsum_ring

end bond

end AceTN
