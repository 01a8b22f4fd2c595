import Verif.Lemmas.ProjEquiv
import Verif.Lemmas.SumTac

/-!
Contractions of the renormalization after changes of basis on their legs.
-/

set_option autoImplicit false

namespace AceTN

open Matrix Spec Finset SumTac

variable {𝕜 : Type} [RCLike 𝕜]

section

variable {m n : Type} [Fintype m] [Fintype n] [DecidableEq m] [DecidableEq n]

theorem unit_sum {J : Matrix m n 𝕜} (h : Unit2 J) (F : n → n → 𝕜) :
    ∑ a, ∑ b, (∑ x, star (J x a) * J x b) * F a b = ∑ a, F a a := by
  refine sum_congr rfl fun a _ => ?_
  rw [sum_eq_single a]
  · have := congrFun (congrFun h.left a) a
    rw [mul_apply, one_apply_eq] at this
    rw [show ∑ x, star (J x a) * J x a = 1 from this, one_mul]
  · intro b _ hb
    have := congrFun (congrFun h.left a) b
    rw [mul_apply, one_apply_ne hb.symm] at this
    rw [show ∑ x, star (J x a) * J x b = 0 from this, zero_mul]
  · exact fun h => absurd (mem_univ _) h
end

section quarter

variable {xa xb xc xe ya yb yc ye G G' : Type} [Fintype xa] [Fintype xb] [Fintype xc] [Fintype xe] [Fintype ya] [Fintype yb]
  [Fintype G] [DecidableEq xa] [DecidableEq xb] [DecidableEq ya] [DecidableEq yb] [DecidableEq G]

theorem quarter_change {Ja : Matrix ya xa 𝕜} {Jb : Matrix yb xb 𝕜} (Jc : Matrix yc xc 𝕜) (Je : Matrix ye xe 𝕜)
    {Γl Γu : Matrix G G 𝕜} (Γr Γd : Matrix G G 𝕜) (ha : Unit2 Ja) (hb : Unit2 Jb) (hl : Unit2 Γl) (hu : Unit2 Γu)
    (c : xa → xb → 𝕜) (e1 : xe → xa → G → 𝕜) (e2 : xb → xc → G → 𝕜) (lay : G → G → G → G → 𝕜) (γ : yc) (ε : ye) (ρ δ : G) :
    ∑ α, ∑ β, ∑ l, ∑ u, (∑ i, ∑ j, star (Ja α i) * Jb β j * c i j) * (∑ i, ∑ j, ∑ g, star (Je ε i) * Ja α j * star (Γl l g) * e1 i j g) *
      (∑ i, ∑ j, ∑ g, star (Jb β i) * Jc γ j * star (Γu u g) * e2 i j g) *
      (∑ g0, ∑ g1, ∑ g2, ∑ g3, Γl l g0 * Γu u g1 * Γr ρ g2 * Γd δ g3 * lay g0 g1 g2 g3) =
    ∑ k, ∑ r, ∑ e, ∑ d, Jc γ k * Γr ρ r * (star (Je ε e) * Γd δ d) * ∑ i, ∑ j, ∑ l, ∑ u, c i j * e1 e i l * e2 j k u * lay l u r d := by
  calc _ = ∑ i, ∑ i', (∑ x, star (Ja x i) * Ja x i') * (∑ j, ∑ j', (∑ x, star (Jb x j) * Jb x j') *
        ∑ l, ∑ l', (∑ x, star (Γl x l) * Γl x l') * ∑ u, ∑ u', (∑ x, star (Γu x u) * Γu x u') *
        ∑ k, ∑ r, ∑ e, ∑ d, Jc γ k * Γr ρ r * (star (Je ε e) * Γd δ d) * (c i j' * e1 e i' l * e2 j k u * lay l' u' r d)) := by
        einsum_ring
    _ = _ := by
        rw [unit_sum ha]
        simp only [unit_sum hb, unit_sum hl, unit_sum hu]
        einsum_ring

end quarter

section corners

variable {xa xb xc xz ya yb yc yz G : Type} [Fintype xa] [Fintype xb] [Fintype xc] [Fintype xz] [Fintype ya] [Fintype yb]
  [Fintype yc] [Fintype G] [DecidableEq xa] [DecidableEq xb] [DecidableEq xc] [DecidableEq ya] [DecidableEq yb] [DecidableEq yc]
  [DecidableEq G]

omit [Fintype ya] [DecidableEq xa] [DecidableEq ya] in
theorem lower_change (Ja : Matrix ya xa 𝕜) {Jb : Matrix yb xb 𝕜} {Jc : Matrix yc xc 𝕜} (W : Matrix yz xz 𝕜) {Γ : Matrix G G 𝕜}
    (hb : Unit2 Jb) (hc : Unit2 Jc) (hg : Unit2 Γ) (c : xb → xc → 𝕜) (e : xa → xb → G → 𝕜) (p : xc → G → xz → 𝕜) (α : ya) (ζ : yz) :
    ∑ β, ∑ γ, ∑ g, (∑ i, ∑ j, ∑ h, star (Ja α i) * Jb β j * star (Γ g h) * e i j h) * (∑ i, ∑ j, star (Jb β i) * Jc γ j * c i j) *
      (∑ i, ∑ h, ∑ z, star (Jc γ i) * Γ g h * W ζ z * p i h z) =
    ∑ i, ∑ z, star (Ja α i) * W ζ z * ∑ j, ∑ k, ∑ h, e i j h * c j k * p k h z := by
  calc _ = ∑ j, ∑ j', (∑ x, star (Jb x j) * Jb x j') * (∑ k, ∑ k', (∑ x, star (Jc x k) * Jc x k') *
        ∑ h, ∑ h', (∑ x, star (Γ x h) * Γ x h') * ∑ i, ∑ z, star (Ja α i) * W ζ z * (e i j' h * c j k' * p k h' z)) := by
        einsum_ring
    _ = _ := by
        rw [unit_sum hb]
        simp only [unit_sum hc, unit_sum hg]
        einsum_ring

omit [Fintype yc] [DecidableEq xc] [DecidableEq yc] in
theorem upper_change {Ja : Matrix ya xa 𝕜} {Jb : Matrix yb xb 𝕜} (Jc : Matrix yc xc 𝕜) (W : Matrix yz xz 𝕜) {Γ : Matrix G G 𝕜}
    (ha : Unit2 Ja) (hb : Unit2 Jb) (hg : Unit2 Γ) (c : xa → xb → 𝕜) (e : xb → xc → G → 𝕜) (p : xa → G → xz → 𝕜) (γ : yc) (ζ : yz) :
    ∑ α, ∑ β, ∑ g, (∑ i, ∑ j, star (Ja α i) * Jb β j * c i j) * (∑ i, ∑ j, ∑ h, star (Jb β i) * Jc γ j * star (Γ g h) * e i j h) *
      (∑ i, ∑ h, ∑ z, Ja α i * Γ g h * star (W ζ z) * p i h z) =
    ∑ z, ∑ k, star (W ζ z) * Jc γ k * ∑ i, ∑ j, ∑ h, c i j * e j k h * p i h z := by
  calc _ = ∑ j, ∑ j', (∑ x, star (Jb x j) * Jb x j') * (∑ i, ∑ i', (∑ x, star (Ja x i) * Ja x i') *
        ∑ h, ∑ h', (∑ x, star (Γ x h) * Γ x h') * ∑ z, ∑ k, star (W ζ z) * Jc γ k * (c i j' * e j k h * p i' h' z)) := by
        einsum_ring
    _ = _ := by
        rw [unit_sum hb]
        simp only [unit_sum ha, unit_sum hg]
        einsum_ring

end corners

section edge

variable {xa xb xz xw ya yb yz yw G : Type} [Fintype xa] [Fintype xb] [Fintype xz] [Fintype xw] [Fintype ya] [Fintype yb]
  [Fintype G] [DecidableEq xa] [DecidableEq xb] [DecidableEq ya] [DecidableEq yb] [DecidableEq G]

theorem edge_change {Ja : Matrix ya xa 𝕜} {Jb : Matrix yb xb 𝕜} (W : Matrix yz xz 𝕜) (W' : Matrix yw xw 𝕜) {Γl Γu Γd : Matrix G G 𝕜}
    (Γr : Matrix G G 𝕜) (ha : Unit2 Ja) (hb : Unit2 Jb) (hl : Unit2 Γl) (hu : Unit2 Γu) (hd : Unit2 Γd) (e : xa → xb → G → 𝕜)
    (lay : G → G → G → G → 𝕜) (p2 : xa → G → xw → 𝕜) (p1 : xb → G → xz → 𝕜) (ζ : yz) (η : yw) (ρ : G) :
    ∑ α, ∑ β, ∑ l, ∑ u, ∑ d, (∑ i, ∑ j, ∑ h, star (Ja α i) * Jb β j * star (Γl l h) * e i j h) *
      (∑ g0, ∑ g1, ∑ g2, ∑ g3, Γl l g0 * Γu u g1 * Γr ρ g2 * Γd d g3 * lay g0 g1 g2 g3) *
      (∑ i, ∑ h, ∑ z, star (Jb β i) * star (Γu u h) * W ζ z * p1 i h z) *
      (∑ i, ∑ h, ∑ z, Ja α i * star (Γd d h) * star (W' η z) * p2 i h z) =
    ∑ w, ∑ z, ∑ r, star (W' η w) * W ζ z * Γr ρ r * ∑ i, ∑ j, ∑ l, ∑ u, ∑ d, e i j l * lay l u r d * p1 j u z * p2 i d w := by
  calc _ = ∑ j, ∑ j', (∑ x, star (Jb x j) * Jb x j') * (∑ i, ∑ i', (∑ x, star (Ja x i) * Ja x i') *
        ∑ h, ∑ h', (∑ x, star (Γl x h) * Γl x h') * ∑ u, ∑ u', (∑ x, star (Γu x u) * Γu x u') * ∑ d, ∑ d', (∑ x, star (Γd x d) * Γd x d') *
        ∑ w, ∑ z, ∑ r, star (W' η w) * W ζ z * Γr ρ r * (e i j' h * lay h' u' r d' * p1 j u z * p2 i' d w)) := by
        einsum_ring
    _ = _ := by
        rw [unit_sum hb]
        simp only [unit_sum ha, unit_sum hl, unit_sum hu, unit_sum hd]
        einsum_ring

end edge

section ring

variable {G : Type} [Fintype G] [DecidableEq G]
  {x0 x1 x2 x3 x4 x5 x6 x7 y0 y1 y2 y3 y4 y5 y6 y7 : Type} [Fintype x0] [Fintype x1] [Fintype x2] [Fintype x3] [Fintype x4] [Fintype x5]
  [Fintype x6] [Fintype x7] [Fintype y0] [Fintype y1] [Fintype y2] [Fintype y3] [Fintype y4] [Fintype y5] [Fintype y6] [Fintype y7]
  [DecidableEq x0] [DecidableEq x1] [DecidableEq x2] [DecidableEq x3] [DecidableEq x4] [DecidableEq x5] [DecidableEq x6] [DecidableEq x7]
  [DecidableEq y0] [DecidableEq y1] [DecidableEq y2] [DecidableEq y3] [DecidableEq y4] [DecidableEq y5] [DecidableEq y6] [DecidableEq y7]

/-- A site inside its eight boundary tensors. -/
theorem ring_change {J0 : Matrix y0 x0 𝕜} {J1 : Matrix y1 x1 𝕜} {J2 : Matrix y2 x2 𝕜} {J3 : Matrix y3 x3 𝕜} {J4 : Matrix y4 x4 𝕜}
    {J5 : Matrix y5 x5 𝕜} {J6 : Matrix y6 x6 𝕜} {J7 : Matrix y7 x7 𝕜} {Γ0 Γ1 Γ2 Γ3 : Matrix G G 𝕜} (h0 : Unit2 J0) (h1 : Unit2 J1)
    (h2 : Unit2 J2) (h3 : Unit2 J3) (h4 : Unit2 J4) (h5 : Unit2 J5) (h6 : Unit2 J6) (h7 : Unit2 J7) (g0 : Unit2 Γ0) (g1 : Unit2 Γ1)
    (g2 : Unit2 Γ2) (g3 : Unit2 Γ3) (c0 : x0 → x1 → 𝕜) (e0 : x1 → x2 → G → 𝕜) (c1 : x2 → x3 → 𝕜) (e1 : x3 → x4 → G → 𝕜)
    (c2 : x4 → x5 → 𝕜) (e2 : x5 → x6 → G → 𝕜) (c3 : x6 → x7 → 𝕜) (e3 : x7 → x0 → G → 𝕜) (lay : G → G → G → G → 𝕜) :
    ∑ b0, ∑ b1, ∑ b2, ∑ b3, ∑ b4, ∑ b5, ∑ b6, ∑ b7, ∑ l, ∑ u, ∑ r, ∑ d,
      (∑ i, ∑ j, star (J0 b0 i) * J1 b1 j * c0 i j) * (∑ i, ∑ j, ∑ h, star (J1 b1 i) * J2 b2 j * star (Γ1 u h) * e0 i j h) *
      (∑ i, ∑ j, star (J2 b2 i) * J3 b3 j * c1 i j) * (∑ i, ∑ j, ∑ h, star (J3 b3 i) * J4 b4 j * star (Γ2 r h) * e1 i j h) *
      (∑ i, ∑ j, star (J4 b4 i) * J5 b5 j * c2 i j) * (∑ i, ∑ j, ∑ h, star (J5 b5 i) * J6 b6 j * star (Γ3 d h) * e2 i j h) *
      (∑ i, ∑ j, star (J6 b6 i) * J7 b7 j * c3 i j) * (∑ i, ∑ j, ∑ h, star (J7 b7 i) * J0 b0 j * star (Γ0 l h) * e3 i j h) *
      (∑ k0, ∑ k1, ∑ k2, ∑ k3, Γ0 l k0 * Γ1 u k1 * Γ2 r k2 * Γ3 d k3 * lay k0 k1 k2 k3) =
    ∑ b0, ∑ b1, ∑ b2, ∑ b3, ∑ b4, ∑ b5, ∑ b6, ∑ b7, ∑ l, ∑ u, ∑ r, ∑ d, c0 b0 b1 * e0 b1 b2 u * c1 b2 b3 * e1 b3 b4 r *
      c2 b4 b5 * e2 b5 b6 d * c3 b6 b7 * e3 b7 b0 l * lay l u r d := by
  calc _ = ∑ i0, ∑ j0, (∑ x, star (J0 x i0) * J0 x j0) * (∑ i1, ∑ j1, (∑ x, star (J1 x i1) * J1 x j1) *
        ∑ i2, ∑ j2, (∑ x, star (J2 x i2) * J2 x j2) * ∑ i3, ∑ j3, (∑ x, star (J3 x i3) * J3 x j3) *
        ∑ i4, ∑ j4, (∑ x, star (J4 x i4) * J4 x j4) * ∑ i5, ∑ j5, (∑ x, star (J5 x i5) * J5 x j5) *
        ∑ i6, ∑ j6, (∑ x, star (J6 x i6) * J6 x j6) * ∑ i7, ∑ j7, (∑ x, star (J7 x i7) * J7 x j7) *
        ∑ l, ∑ l', (∑ x, star (Γ0 x l) * Γ0 x l') * ∑ u, ∑ u', (∑ x, star (Γ1 x u) * Γ1 x u') *
        ∑ r, ∑ r', (∑ x, star (Γ2 x r) * Γ2 x r') * ∑ d, ∑ d', (∑ x, star (Γ3 x d) * Γ3 x d') *
        (c0 i0 j1 * e0 i1 j2 u * c1 i2 j3 * e1 i3 j4 r * c2 i4 j5 * e2 i5 j6 d * c3 i6 j7 * e3 i7 j0 l * lay l' u' r' d')) := by
        einsum_ring
    _ = _ := by
        rw [unit_sum h0]
        refine sum_congr rfl fun _ _ => ?_
        rw [unit_sum h1]
        refine sum_congr rfl fun _ _ => ?_
        rw [unit_sum h2]
        refine sum_congr rfl fun _ _ => ?_
        rw [unit_sum h3]
        refine sum_congr rfl fun _ _ => ?_
        rw [unit_sum h4]
        refine sum_congr rfl fun _ _ => ?_
        rw [unit_sum h5]
        refine sum_congr rfl fun _ _ => ?_
        rw [unit_sum h6]
        refine sum_congr rfl fun _ _ => ?_
        rw [unit_sum h7]
        refine sum_congr rfl fun _ _ => ?_
        rw [unit_sum g0]
        refine sum_congr rfl fun _ _ => ?_
        rw [unit_sum g1]
        refine sum_congr rfl fun _ _ => ?_
        rw [unit_sum g2]
        refine sum_congr rfl fun _ _ => ?_
        rw [unit_sum g3]

end ring

end AceTN
