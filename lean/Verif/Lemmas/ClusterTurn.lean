import Verif.Lemmas.ClusterFrame
import Verif.Lemmas.MoveLattice

/-!
A cluster looked at from each of its four sides.
-/

set_option autoImplicit false

namespace AceTN

open Finset Spec

variable {𝕜 : Type} [RCLike 𝕜] {B P : Type} [Fintype P]

/-- The legs of a double layer, looked at with direction `K` on the left. -/
def turnLayer : Fin 4 → (B × B → B × B → B × B → B × B → 𝕜) → B × B → B × B → B × B → B × B → 𝕜
  | 0, T => T
  | 1, T => fun l u r d => T d l u r
  | 2, T => fun l u r d => T r d l u
  | 3, T => fun l u r d => T u r d l

omit [RCLike 𝕜] [Fintype P] in
theorem turnLayer_turn (K : Fin 4) (T : B × B → B × B → B × B → B × B → 𝕜) :
    turnLayer (K + 1) T = fun l u r d => turnLayer K T d l u r := by
  match K with
  | 0 | 1 | 2 | 3 => rfl

/-- A rectangle of double layers looked at with direction `K` on the left; `a` is the site in its lower left corner then. -/
def rotFrame (K : Fin 4) (N : ℕ) (net : Net (Ten B P 𝕜)) (D : ℤ × ℤ → B × B → B × B → B × B → B × B → 𝕜) (a : ℤ × ℤ) (w h : ℕ) :
    Frame (Fin N) (B × B) 𝕜 w h :=
  let at' (i j : ℤ) : ℤ × ℤ := a + i • dir (K + 2) + j • dir (K + 1)
  let b (i j : ℤ) := net.B (cellSite net.nx net.ny (at' i j))
  { D := fun i j => turnLayer K (D (at' i j))
    Eu := fun i z z' g => edgeEnt (b i (h - 1) (.E K.val)) z z' g.1 g.2
    Er := fun j z z' g => edgeEnt (b (w - 1) j (.E (K + 1).val)) z z' g.1 g.2
    Ed := fun i z z' g => edgeEnt (b i 0 (.E (K + 2).val)) z z' g.1 g.2
    El := fun j z z' g => edgeEnt (b 0 j (.E (K + 3).val)) z z' g.1 g.2
    C0 := fun z z' => cornerEnt (b 0 (h - 1) (.C K.val)) z z'
    C1 := fun z z' => cornerEnt (b (w - 1) (h - 1) (.C (K + 1).val)) z z'
    C2 := fun z z' => cornerEnt (b (w - 1) 0 (.C (K + 2).val)) z z'
    C3 := fun z z' => cornerEnt (b 0 0 (.C (K + 3).val)) z z' }

theorem layer_turn (A : ATensor B P 𝕜) (K : Fin 4) (o : Option (P × P)) :
    layer (bondPermute (K + 1).val A) o = fun l u r d => layer (bondPermute K.val A) o d l u r := by
  have h : bondPermute ((K + 1).val : ℤ) A = bondPermute 1 (bondPermute K.val A) := by
    rw [bondPermute_add, bondPermute_mod]
    match K with
    | 0 | 1 | 2 | 3 => rfl
  rw [h, bondPermute_one]
  funext l u r d
  rfl

theorem turnLayer_layer (A : ATensor B P 𝕜) (K : Fin 4) (o : Option (P × P)) :
    turnLayer K (layer A o) = layer (bondPermute K.val A) o := by
  have step : ∀ K : Fin 4, turnLayer K (layer A o) = layer (bondPermute K.val A) o →
      turnLayer (K + 1) (layer A o) = layer (bondPermute (K + 1).val A) o := by
    intro K h
    rw [turnLayer_turn, layer_turn, h]
  have h0 : turnLayer 0 (layer A o) = layer (bondPermute ((0 : Fin 4).val : ℤ) A) o := by
    show layer A o = layer (bondPermute 0 A) o
    rw [bondPermute_zero]
  have h1 := step 0 h0
  have h2 := step 1 h1
  match K with
  | 0 => exact h0
  | 1 => exact h1
  | 2 => exact h2
  | 3 => exact step 2 h2

omit [Fintype P] in
theorem rotFrame_turn (K : Fin 4) (N : ℕ) (net : Net (Ten B P 𝕜)) (D : ℤ × ℤ → B × B → B × B → B × B → B × B → 𝕜) (a : ℤ × ℤ) (w h : ℕ) :
    (rotFrame K N net D a w h).turn = rotFrame (K + 1) N net D (a + ((h : ℤ) - 1) • dir (K + 1)) h w := by
  have e3 : dir (K + 1 + 2) = -dir (K + 1) := dir_opp _
  have k1 : K + 1 + 1 = K + 2 := add_assoc _ _ _
  have k2 : K + 1 + 2 = K + 3 := add_assoc _ _ _
  have k3 : K + 1 + 3 = K := (by decide : ∀ K : Fin 4, K + 1 + 3 = K) K
  have p : ∀ i j : ℤ, a + ((h : ℤ) - 1) • dir (K + 1) + i • dir (K + 3) + j • dir (K + 2) =
      a + j • dir (K + 2) + ((h : ℤ) - 1 - i) • dir (K + 1) := by
    intro i j
    rw [← k2, e3]
    module
  unfold rotFrame Frame.turn
  dsimp only
  have r : ∀ i : Fin h, ((i.rev.val : ℕ) : ℤ) = (h : ℤ) - 1 - i.val := by
    intro i
    rw [Fin.val_rev]
    omega
  simp only [r, turnLayer_turn, k1, k2, k3]
  simp only [p, sub_zero, sub_self]

namespace Spec

/-- The site in the lower left corner of a rectangle looked at with direction `K` on the left. -/
def Rect.org (r : Rect) : Fin 4 → ℤ × ℤ
  | 0 => (r.x, r.y)
  | 1 => (r.x, r.y + r.h - 1)
  | 2 => (r.x + r.w - 1, r.y + r.h - 1)
  | 3 => (r.x + r.w - 1, r.y)

/-- Its width then. -/
def Rect.wid (r : Rect) : Fin 4 → ℕ
  | 0 | 2 => r.w
  | 1 | 3 => r.h

/-- Its height then. -/
def Rect.hei (r : Rect) : Fin 4 → ℕ
  | 0 | 2 => r.h
  | 1 | 3 => r.w

/-- One more line of sites in direction `K`. -/
def Rect.grow (r : Rect) : Fin 4 → Rect
  | 0 => { r with x := r.x - 1, w := r.w + 1 }
  | 1 => { r with h := r.h + 1 }
  | 2 => { r with w := r.w + 1 }
  | 3 => { r with y := r.y - 1, h := r.h + 1 }

end Spec

theorem grow_org (r : Rect) (K : Fin 4) : (r.grow K).org K = r.org K + dir K := by
  match K with
  | 0 | 1 | 2 | 3 =>
    simp only [Rect.grow, Rect.org, dir, Prod.mk_add_mk, Prod.mk.injEq]
    push_cast
    constructor <;> ring

theorem grow_wid (r : Rect) (K : Fin 4) : (r.grow K).wid K = r.wid K + 1 := by
  match K with
  | 0 | 1 | 2 | 3 => rfl

theorem grow_hei (r : Rect) (K : Fin 4) : (r.grow K).hei K = r.hei K := by
  match K with
  | 0 | 1 | 2 | 3 => rfl

theorem rotFrame_zero (N : ℕ) (net : Net (Ten B P 𝕜)) (D : ℤ × ℤ → B × B → B × B → B × B → B × B → 𝕜) (r : Rect) :
    rotFrame 0 N net D (r.org 0) (r.wid 0) (r.hei 0) = withLayers N net D r := by
  unfold rotFrame withLayers clusterFrame
  have p : ∀ i j : ℤ, r.org 0 + i • dir (0 + 2) + j • dir (0 + 1) = (r.x + i, r.y + j) := by
    intro i j
    show (r.x, r.y) + i • ((1 : ℤ), (0 : ℤ)) + j • ((0 : ℤ), (1 : ℤ)) = _
    simp
  simp only [p, add_zero, ← add_sub_assoc]
  rfl

variable [Fintype B]

theorem rotFrame_step (K : Fin 4) (N : ℕ) (net : Net (Ten B P 𝕜)) (D : ℤ × ℤ → B × B → B × B → B × B → B × B → 𝕜) (a b : ℤ × ℤ) (w h : ℕ)
    (hb : a + ((h : ℤ) - 1) • dir (K + 1) = b) :
    (rotFrame (K + 1) N net D b h w).value = (rotFrame K N net D a w h).value := by
  rw [← hb, ← rotFrame_turn, Frame.turn_value]

/-- The value of a cluster, looked at from any side. -/
theorem cluster_rot (K : Fin 4) (N : ℕ) (net : Net (Ten B P 𝕜)) (hx : 0 < net.nx) (hy : 0 < net.ny)
    (D : ℤ × ℤ → B × B → B × B → B × B → B × B → 𝕜) (r : Rect) (hN : netDim net ≤ N) :
    (rotFrame K N net D (r.org K) (r.wid K) (r.hei K)).value = clusterWith net D r := by
  have h0 : (rotFrame 0 N net D (r.org 0) (r.wid 0) (r.hei 0)).value = clusterWith net D r := by
    rw [rotFrame_zero]
    exact clusterWith_eq net hx hy D r N hN
  have h1 : (rotFrame 1 N net D (r.org 1) (r.wid 1) (r.hei 1)).value = clusterWith net D r := by
    refine (rotFrame_step 0 N net D (r.org 0) (r.org 1) (r.wid 0) (r.hei 0) ?_).trans h0
    show (r.x, r.y) + ((r.h : ℤ) - 1) • ((0 : ℤ), (1 : ℤ)) = (r.x, r.y + r.h - 1)
    simp [add_sub_assoc]
  have h2 : (rotFrame 2 N net D (r.org 2) (r.wid 2) (r.hei 2)).value = clusterWith net D r := by
    refine (rotFrame_step 1 N net D (r.org 1) (r.org 2) (r.wid 1) (r.hei 1) ?_).trans h1
    show (r.x, r.y + r.h - 1) + ((r.w : ℤ) - 1) • ((1 : ℤ), (0 : ℤ)) = (r.x + r.w - 1, r.y + r.h - 1)
    simp [add_sub_assoc]
  match K with
  | 0 => exact h0
  | 1 => exact h1
  | 2 => exact h2
  | 3 =>
    refine (rotFrame_step 2 N net D (r.org 2) (r.org 3) (r.wid 2) (r.hei 2) ?_).trans h2
    show (r.x + r.w - 1, r.y + r.h - 1) + ((r.h : ℤ) - 1) • ((0 : ℤ), (-1 : ℤ)) = (r.x + r.w - 1, r.y)
    simp

end AceTN
