import Verif.Model.Tensors

/-!
Density matrices written as one sum over all internal indices of the product of all tensors.
-/

set_option autoImplicit false

namespace AceTN.Spec

variable {𝕜 : Type} [RCLike 𝕜]

section site

variable {L U R D P : Type} [Fintype L] [Fintype U] [Fintype R] [Fintype D]
variable {x0 x1 x2 x3 x4 x5 x6 x7 : Type} [Fintype x0] [Fintype x1] [Fintype x2] [Fintype x3]
  [Fintype x4] [Fintype x5] [Fintype x6] [Fintype x7]

/-- The site network: a ring corner, edge, corner, … around the site, read clockwise from the upper left corner; the
edges hold one ket leg (small letters) and one bra leg (capital letters) of the site.

```
   C0 -i1- E0 -i2- C1
   |       |       |
   i0      u       i3
   |       |       |
   E3 -l-  a  -r-  E1
   |       |       |
   i7      d       i4
   |       |       |
   C3 -i6- E2 -i5- C2
```
-/
noncomputable def siteRdm (C0 : x0 → x1 → 𝕜) (E0 : x1 → x2 → U → U → 𝕜) (C1 : x2 → x3 → 𝕜)
    (E1 : x3 → x4 → R → R → 𝕜) (C2 : x4 → x5 → 𝕜) (E2 : x5 → x6 → D → D → 𝕜) (C3 : x6 → x7 → 𝕜)
    (E3 : x7 → x0 → L → L → 𝕜) (a : L → U → R → D → P → 𝕜) (bra ket : P) : 𝕜 :=
  ∑ i0, ∑ i1, ∑ i2, ∑ i3, ∑ i4, ∑ i5, ∑ i6, ∑ i7, ∑ l, ∑ u, ∑ r, ∑ d, ∑ l', ∑ u', ∑ r', ∑ d',
    C0 i0 i1 * E0 i1 i2 u u' * C1 i2 i3 * E1 i3 i4 r r' * C2 i4 i5 * E2 i5 i6 d d' * C3 i6 i7 * E3 i7 i0 l l' *
      (a l u r d ket * star (a l' u' r' d' bra))

end site

section bond

variable {L1 U1 R1 D1 P : Type} [Fintype L1] [Fintype U1] [Fintype R1] [Fintype D1]
variable {L2 U2 D2 Q : Type} [Fintype L2] [Fintype U2] [Fintype D2]
variable {y0 y1 y2 y3 y4 y5 y6 y7 y8 y9 : Type} [Fintype y0] [Fintype y1] [Fintype y2] [Fintype y3]
  [Fintype y4] [Fintype y5] [Fintype y6] [Fintype y7] [Fintype y8] [Fintype y9]

/-- The bond network in the bond frame: the second site on the left, the first on the right.

```
   c21 -i0- e21 -i1- e11 -i2- c12
   |        |        |        |
   i9       u2       u1       i3
   |        |        |        |
   e24 -l2- a2  -m-  a1 -r1-  e12
   |        |        |        |
   i8       d2       d1       i4
   |        |        |        |
   c24 -i7- e23 -i6- e13 -i5- c13
```
-/
noncomputable def bondRdm (c12 : y2 → y3 → 𝕜) (e12 : y3 → y4 → R1 → R1 → 𝕜) (e11 : y1 → y2 → U1 → U1 → 𝕜)
    (c13 : y4 → y5 → 𝕜) (e13 : y5 → y6 → D1 → D1 → 𝕜) (a1 : L1 → U1 → R1 → D1 → P → 𝕜)
    (c21 : y9 → y0 → 𝕜) (e21 : y0 → y1 → U2 → U2 → 𝕜) (e24 : y8 → y9 → L2 → L2 → 𝕜)
    (c24 : y7 → y8 → 𝕜) (e23 : y6 → y7 → D2 → D2 → 𝕜) (a2 : L2 → U2 → L1 → D2 → Q → 𝕜)
    (bra1 : P) (bra2 : Q) (ket1 : P) (ket2 : Q) : 𝕜 :=
  ∑ i0, ∑ i1, ∑ i2, ∑ i3, ∑ i4, ∑ i5, ∑ i6, ∑ i7, ∑ i8, ∑ i9,
  ∑ m, ∑ u1, ∑ r1, ∑ d1, ∑ l2, ∑ u2, ∑ d2, ∑ m', ∑ u1', ∑ r1', ∑ d1', ∑ l2', ∑ u2', ∑ d2',
    c21 i9 i0 * e21 i0 i1 u2 u2' * e11 i1 i2 u1 u1' * c12 i2 i3 * e12 i3 i4 r1 r1' * c13 i4 i5 *
    e13 i5 i6 d1 d1' * e23 i6 i7 d2 d2' * c24 i7 i8 * e24 i8 i9 l2 l2' *
    (a1 m u1 r1 d1 ket1 * a2 l2 u2 m d2 ket2 * star (a1 m' u1' r1' d1' bra1 * a2 l2' u2' m' d2' bra2))

end bond

end AceTN.Spec
