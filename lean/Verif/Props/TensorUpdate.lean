import Verif.Model.FullUpdate
import Verif.Spec.TwoSite
import Verif.Lemmas.SumTac
import Verif.Lemmas.Svd
import Verif.Props.Rdm

/-!
C30: decomposing a bond loses nothing.  C31: the norm tensor is the measured environment.  C32: its blocked version.
-/

set_option autoImplicit false

namespace AceTN

open SumTac Full

variable {𝕜 : Type} [RCLike 𝕜]

section decompose

variable {B P : Type} [Fintype B] [Fintype P] [DecidableEq B] [DecidableEq P]

/-- **C30** (recomposition).  Decomposing and recomposing returns the two site tensors. -/
theorem C30_recompose (la : Lapack 𝕜) (a1 a2 : ATensor B P 𝕜) :
    recompose (decompose la a1 a2).a1q (decompose la a1 a2).a1r (decompose la a1 a2).a2q (decompose la a1 a2).a2r =
      (a1, a2) := by
  unfold recompose
  refine Prod.ext ?_ ?_
  · funext l u r d p
    have h := congrFun (congrFun (la.qr_ok (Matrix.of fun (i : B × B × B) (j : B × P) =>
      a1 j.1 i.2.2 i.1 i.2.1 j.2)).mul (r, d, u)) (l, p)
    rw [Matrix.mul_apply] at h
    exact h.symm
  · funext l u r d p
    have h := congrFun (congrFun (la.qr_ok (Matrix.of fun (i : B × B × B) (j : B × P) =>
      a2 i.2.1 i.2.2 j.1 i.1 j.2)).mul (d, l, u)) (r, p)
    rw [Matrix.mul_apply] at h
    exact h.symm

/-- **C30** (isometries).  The outer parts are isometries. -/
theorem C30_isometric (la : Lapack 𝕜) (a1 a2 : ATensor B P 𝕜) (x y : Fin (nD B P)) :
    (∑ r, ∑ d, ∑ u, star ((decompose la a1 a2).a1q r d u x) * (decompose la a1 a2).a1q r d u y =
      if x = y then 1 else 0) ∧
    (∑ d, ∑ l, ∑ u, star ((decompose la a1 a2).a2q d l u x) * (decompose la a1 a2).a2q d l u y =
      if x = y then 1 else 0) := by
  constructor
  · have h := congrFun (congrFun (la.qr_ok (Matrix.of fun (i : B × B × B) (j : B × P) =>
      a1 j.1 i.2.2 i.1 i.2.1 j.2)).iso x) y
    rw [Matrix.mul_apply, Matrix.one_apply, Fintype.sum_prod_type] at h
    simp only [Fintype.sum_prod_type] at h
    exact h
  · have h := congrFun (congrFun (la.qr_ok (Matrix.of fun (i : B × B × B) (j : B × P) =>
      a2 i.2.1 i.2.2 j.1 i.1 j.2)).iso x) y
    rw [Matrix.mul_apply, Matrix.one_apply, Fintype.sum_prod_type] at h
    simp only [Fintype.sum_prod_type] at h
    exact h

omit [DecidableEq B] [DecidableEq P] in
theorem gate_core {N : Type} [Fintype N] (d : Decomp B P N 𝕜) (gate : P → P → P → P → 𝕜) :
    Spec.assembled d.a1q d.a2q (gateReduced d.a1r d.a2r gate) =
      Spec.gated gate (Spec.twoSite (recompose d.a1q d.a1r d.a2q d.a2r).1 (recompose d.a1q d.a1r d.a2q d.a2r).2) := by
  funext u r dd l' u' d' p q
  unfold Spec.assembled Spec.gated Spec.twoSite gateReduced recompose
  dsimp only
  einsum_ring

/-- **C30** (gate).  Applying the gate to the reduced tensors and putting the outer parts back is applying the gate to
the two-site tensor. -/
theorem C30_gate (la : Lapack 𝕜) (a1 a2 : ATensor B P 𝕜) (gate : P → P → P → P → 𝕜) :
    Spec.assembled (decompose la a1 a2).a1q (decompose la a1 a2).a2q
      (gateReduced (decompose la a1 a2).a1r (decompose la a1 a2).a2r gate) =
    Spec.gated gate (Spec.twoSite a1 a2) := by
  rw [gate_core, C30_recompose]

/-- A library meeting the contracts exists, so the theorems apply to all tensors. -/
example : Nonempty (Lapack ℂ) := nonempty_lapack

end decompose

section norm

variable {B P X : Type} [Fintype B] [Fintype X]

/-- Specification: the norm tensor with a pair of reduced tensors and their conjugates attached. -/
def Spec.attach {N1 N2 : Type} [Fintype N1] [Fintype N2] (n12 : N1 → N2 → N1 → N2 → 𝕜) (a1r : N1 → B → P → 𝕜)
    (a2r : N2 → B → P → 𝕜) (bra1 bra2 ket1 ket2 : P) : 𝕜 :=
  ∑ y, ∑ x, ∑ Y, ∑ X, n12 y x Y X * (∑ b, a1r y b ket1 * a2r x b ket2) *
    star (∑ b, a1r Y b bra1 * a2r X b bra2)

/-- The statement on the level of one bond in the bond frame: all dimensions and tensors. -/
theorem C31_core {U1 R1 D1 Y : Type} [Fintype U1] [Fintype R1] [Fintype D1]
    {L2 U2 D2 X : Type} [Fintype L2] [Fintype U2] [Fintype D2]
    {y0 y1 y2 y3 y4 y5 y6 y7 y8 y9 : Type} [Fintype y0] [Fintype y1] [Fintype y2] [Fintype y3]
    [Fintype y4] [Fintype y5] [Fintype y6] [Fintype y7] [Fintype y8] [Fintype y9] [Fintype X] [Fintype Y]
    (c12 : y2 → y3 → 𝕜) (e12 : y3 → y4 → R1 → R1 → 𝕜) (e11 : y1 → y2 → U1 → U1 → 𝕜)
    (c13 : y4 → y5 → 𝕜) (e13 : y5 → y6 → D1 → D1 → 𝕜) (a1q : R1 → D1 → U1 → Y → 𝕜)
    (c21 : y9 → y0 → 𝕜) (e21 : y0 → y1 → U2 → U2 → 𝕜) (e24 : y8 → y9 → L2 → L2 → 𝕜)
    (c24 : y7 → y8 → 𝕜) (e23 : y6 → y7 → D2 → D2 → 𝕜) (a2q : D2 → L2 → U2 → X → 𝕜)
    (a1r : Y → B → P → 𝕜) (a2r : X → B → P → 𝕜) (bra1 bra2 ket1 ket2 : P) :
    Spec.attach (normCore c12 e12 e11 c13 e13 a1q c21 e21 e24 c24 e23 a2q) a1r a2r bra1 bra2 ket1 ket2 =
    bondRdmCore c12 e12 e11 c13 e13 (einsum% "rdux,xlp->lurdp" a1q a1r) c21 e21 e24 c24 e23
      (einsum% "dlux,xrp->lurdp" a2q a2r) bra1 bra2 ket1 ket2 := by
  unfold Spec.attach normCore bondRdmCore
  einsum_ring

theorem C31_recomposed {x : Type} [Fintype x] {N : Type} [Fintype N]
    (c12 : x → x → 𝕜) (e12 : x → x → B → B → 𝕜) (e11 : x → x → B → B → 𝕜)
    (c13 : x → x → 𝕜) (e13 : x → x → B → B → 𝕜) (c21 : x → x → 𝕜) (e21 : x → x → B → B → 𝕜)
    (e24 : x → x → B → B → 𝕜) (c24 : x → x → 𝕜) (e23 : x → x → B → B → 𝕜) (d : Decomp B P N 𝕜)
    (a : ATensor B P 𝕜 × ATensor B P 𝕜) (h : recompose d.a1q d.a1r d.a2q d.a2r = a)
    (bra1 bra2 ket1 ket2 : P) :
    Spec.attach (normCore c12 e12 e11 c13 e13 d.a1q c21 e21 e24 c24 e23 d.a2q) d.a1r d.a2r bra1 bra2 ket1 ket2 =
    bondRdmCore c12 e12 e11 c13 e13 a.1 c21 e21 e24 c24 e23 a.2 bra1 bra2 ket1 ket2 := by
  subst h
  rw [C31_core]
  unfold recompose
  rfl

/-- **C31**.  For every network and bond: the norm tensor the full update builds from the decomposed site tensors, with
the reduced tensors attached, is the bond density matrix that measurement builds. -/
theorem C31_environment {pD : ℕ} [DecidableEq B] (la : Lapack 𝕜) (init : Fin pD → Fin pD → Fin pD → Fin pD → 𝕜)
    (ipeps : NetT B (Fin pD) X 𝕜) (s1 s2 : Site) (k : ℤ) :
    let d := decompose la (bondPermute k (ipeps s1).A) (bondPermute k (ipeps s2).A)
    Spec.attach (buildNormTensor ipeps s1 s2 k d.a1q d.a2q) d.a1r d.a2r = buildBondRdm init ipeps s1 s2 k := by
  intro d
  funext bra1 bra2 ket1 ket2
  unfold buildBondRdm buildNormTensor
  rw [C32_bond_rdm]
  exact C31_recomposed _ _ _ _ _ _ _ _ _ _ d _ (C30_recompose la _ _) bra1 bra2 ket1 ket2

end norm

theorem foldl_apply₂ {α β γ δ : Type} (l : List γ) (f : γ → α → β → δ → δ) (init : α → β → δ) (y : α) (x : β) :
    (l.foldl (fun acc c => fun y x => f c y x (acc y x)) init) y x = l.foldl (fun acc c => f c y x acc) (init y x) := by
  induction l generalizing init with
  | nil => rfl
  | cons c l ih => rw [List.foldl_cons, ih, List.foldl_cons]

/-- **C32** (norm tensor).  The blocked contraction returns what the unblocked one returns, for every reduced dimension
and whatever the uninitialised output tensor held. -/
theorem C32_norm_tensor {U1 R1 D1 : Type} [Fintype U1] [Fintype R1] [Fintype D1]
    {L2 U2 D2 : Type} [Fintype L2] [Fintype U2] [Fintype D2]
    {y0 y1 y2 y3 y4 y5 y6 y7 y8 y9 : Type} [Fintype y0] [Fintype y1] [Fintype y2] [Fintype y3]
    [Fintype y4] [Fintype y5] [Fintype y6] [Fintype y7] [Fintype y8] [Fintype y9] {nD : ℕ}
    (init : Fin nD → Fin nD → Fin nD → Fin nD → 𝕜)
    (c12 : y2 → y3 → 𝕜) (e12 : y3 → y4 → R1 → R1 → 𝕜) (e11 : y1 → y2 → U1 → U1 → 𝕜)
    (c13 : y4 → y5 → 𝕜) (e13 : y5 → y6 → D1 → D1 → 𝕜) (a1q : R1 → D1 → U1 → Fin nD → 𝕜)
    (c21 : y9 → y0 → 𝕜) (e21 : y0 → y1 → U2 → U2 → 𝕜) (e24 : y8 → y9 → L2 → L2 → 𝕜)
    (c24 : y7 → y8 → 𝕜) (e23 : y6 → y7 → D2 → D2 → 𝕜) (a2q : D2 → L2 → U2 → Fin nD → 𝕜) :
    normCoreBlocked init c12 e12 e11 c13 e13 a1q c21 e21 e24 c24 e23 a2q =
      normCore c12 e12 e11 c13 e13 a1q c21 e21 e24 c24 e23 a2q := by
  funext y x
  unfold normCoreBlocked
  refine (foldl_apply₂ _ _ _ _ _).trans ?_
  exact foldl_blocks (max 8 ((nD + 3) / 4)) (by omega)
    (normCore c12 e12 e11 c13 e13 a1q c21 e21 e24 c24 e23 a2q y x) (init y x)

end AceTN
