import Verif.Lemmas.Cluster
import Verif.Spec.ClusterNet
import Verif.Props.Rdm

/-!
The value of a cluster does not depend on unused labels, nor on the side it is looked at from.
-/

set_option autoImplicit false

namespace AceTN

open Finset Spec

section labels

variable {X X' G 𝕜 : Type} [CommRing 𝕜] {w h : ℕ}

/-- `F'` has the entries of `F` and zeros for labels that `F` does not have. -/
structure Extends (e : X → X') (F : Frame X G 𝕜 w h) (F' : Frame X' G 𝕜 w h) : Prop where
  D : F'.D = F.D
  Eu : ∀ i x y g, F'.Eu i (e x) (e y) g = F.Eu i x y g
  Er : ∀ i x y g, F'.Er i (e x) (e y) g = F.Er i x y g
  Ed : ∀ i x y g, F'.Ed i (e x) (e y) g = F.Ed i x y g
  El : ∀ i x y g, F'.El i (e x) (e y) g = F.El i x y g
  C0 : ∀ x y, F'.C0 (e x) (e y) = F.C0 x y
  C1 : ∀ x y, F'.C1 (e x) (e y) = F.C1 x y
  C2 : ∀ x y, F'.C2 (e x) (e y) = F.C2 x y
  C3 : ∀ x y, F'.C3 (e x) (e y) = F.C3 x y
  zEu : ∀ i x y g, y ∉ Set.range e → F'.Eu i x y g = 0
  zEr : ∀ i x y g, y ∉ Set.range e → F'.Er i x y g = 0
  zEd : ∀ i x y g, y ∉ Set.range e → F'.Ed i x y g = 0
  zEl : ∀ i x y g, y ∉ Set.range e → F'.El i x y g = 0
  zC0 : ∀ x y, y ∉ Set.range e → F'.C0 x y = 0
  zC1 : ∀ x y, y ∉ Set.range e → F'.C1 x y = 0
  zC2 : ∀ x y, y ∉ Set.range e → F'.C2 x y = 0
  zC3 : ∀ x y, y ∉ Set.range e → F'.C3 x y = 0

theorem not_range {n : ℕ} {e : X → X'} {T : Fin n → X'} (h : T ∉ Set.range fun (t : Fin n → X) i => e (t i)) :
    ∃ i, T i ∉ Set.range e := by
  by_contra hc
  push Not at hc
  choose t ht using hc
  exact h ⟨t, funext ht⟩

variable [Fintype X] [Fintype X'] [Fintype G]

theorem Extends.value {e : X → X'} (he : Function.Injective e) {F : Frame X G 𝕜 w h} {F' : Frame X' G 𝕜 w h}
    (hx : Extends e F F') : F'.value = F.value := by
  have inj : ∀ n : ℕ, Function.Injective fun (t : Fin n → X) i => e (t i) := by
    intro n a b hab
    funext i
    exact he (congrFun hab i)
  unfold Frame.value
  refine sum_congr rfl fun H _ => sum_congr rfl fun V _ => ?_
  refine (Fintype.sum_of_injective _ (inj (w + 1)) _ _ ?_ fun T => ?_).symm
  · intro T hT
    obtain ⟨i, hi⟩ := not_range hT
    refine sum_eq_zero fun R _ => sum_eq_zero fun B _ => sum_eq_zero fun L _ => ?_
    unfold Frame.weight
    rcases Fin.eq_zero_or_eq_succ i with rfl | ⟨j, rfl⟩
    · rw [hx.zC0 _ _ hi]
      ring
    · have h0 : ∏ i, F'.Eu i (T i.castSucc) (T i.succ) (V i (Fin.last h)) = 0 :=
        prod_eq_zero (mem_univ j) (hx.zEu _ _ _ _ hi)
      rw [h0]
      ring
  refine Fintype.sum_of_injective _ (inj (h + 1)) _ _ ?_ fun R => ?_
  · intro R hR
    obtain ⟨i, hi⟩ := not_range hR
    refine sum_eq_zero fun B _ => sum_eq_zero fun L _ => ?_
    unfold Frame.weight
    rcases Fin.eq_castSucc_or_eq_last i with ⟨j, rfl⟩ | rfl
    · have h0 : ∏ j, F'.Er j (R j.succ) (R j.castSucc) (H (Fin.last w) j) = 0 := prod_eq_zero (mem_univ j) (hx.zEr _ _ _ _ hi)
      rw [h0]
      ring
    · rw [hx.zC1 _ _ hi]
      ring
  refine Fintype.sum_of_injective _ (inj (w + 1)) _ _ ?_ fun B => ?_
  · intro B hB
    obtain ⟨i, hi⟩ := not_range hB
    refine sum_eq_zero fun L _ => ?_
    unfold Frame.weight
    rcases Fin.eq_castSucc_or_eq_last i with ⟨j, rfl⟩ | rfl
    · have h0 : ∏ j, F'.Ed j (B j.succ) (B j.castSucc) (V j 0) = 0 := prod_eq_zero (mem_univ j) (hx.zEd _ _ _ _ hi)
      rw [h0]
      ring
    · rw [hx.zC2 _ _ hi]
      ring
  refine Fintype.sum_of_injective _ (inj (h + 1)) _ _ ?_ fun L => ?_
  · intro L hL
    obtain ⟨i, hi⟩ := not_range hL
    unfold Frame.weight
    rcases Fin.eq_zero_or_eq_succ i with rfl | ⟨j, rfl⟩
    · rw [hx.zC3 _ _ hi]
      ring
    · have h0 : ∏ j, F'.El j (L j.castSucc) (L j.succ) (H 0 j) = 0 := prod_eq_zero (mem_univ j) (hx.zEl _ _ _ _ hi)
      rw [h0]
      ring
  unfold Frame.weight
  simp only [hx.D, hx.Eu, hx.Er, hx.Ed, hx.El, hx.C0, hx.C1, hx.C2, hx.C3]

end labels

section dims

variable {𝕜 : Type} [RCLike 𝕜] {B P : Type}

theorem cornerEnt_zero (t : Ten B P 𝕜) (N : ℕ) (h : legDim t ≤ N) (i j : ℕ) (hj : N ≤ j) : cornerEnt t i j = 0 := by
  cases t <;> simp only [cornerEnt]
  rename_i m n c
  have : n ≤ N := le_trans (le_max_right m n) h
  unfold ent2
  rw [dif_neg (by omega)]

theorem edgeEnt_zero (t : Ten B P 𝕜) (N : ℕ) (h : legDim t ≤ N) (i j : ℕ) (hj : N ≤ j) (l l' : B) : edgeEnt t i j l l' = 0 := by
  cases t <;> simp only [edgeEnt]
  rename_i m n c
  have : n ≤ N := le_trans (le_max_right m n) h
  unfold ent4
  rw [dif_neg (by omega)]

theorem cellSite_inCell (nx ny : ℕ) (hx : 0 < nx) (hy : 0 < ny) (p : ℤ × ℤ) : InCell nx ny (cellSite nx ny p) := by
  unfold cellSite InCell
  have h1 := Int.emod_nonneg p.1 (show (nx : ℤ) ≠ 0 by omega)
  have h2 := Int.emod_lt_of_pos p.1 (show (0 : ℤ) < nx by omega)
  have h3 := Int.emod_nonneg p.2 (show (ny : ℤ) ≠ 0 by omega)
  have h4 := Int.emod_lt_of_pos p.2 (show (0 : ℤ) < ny by omega)
  dsimp only
  omega

omit [RCLike 𝕜] in
theorem le_netDim (net : Net (Ten B P 𝕜)) (s : Site) (hs : InCell net.nx net.ny s) (k : ℕ) (hk : k < 4) :
    legDim (net.B s (.C k)) ≤ netDim net ∧ legDim (net.B s (.E k)) ≤ netDim net := by
  have hm : (s.1, s.2, k) ∈ range net.nx ×ˢ range net.ny ×ˢ range 4 := by
    simp only [mem_product, mem_range]
    exact ⟨hs.1, hs.2, hk⟩
  have := le_sup (f := fun i : ℕ × ℕ × ℕ => max (legDim (net.B (i.1, i.2.1) (.C i.2.2))) (legDim (net.B (i.1, i.2.1) (.E i.2.2)))) hm
  exact ⟨le_trans (le_max_left _ _) this, le_trans (le_max_right _ _) this⟩

variable [Fintype B] [Fintype P]

/-- The double layers of the sites of a network. -/
def siteLayers (net : Net (Ten B P 𝕜)) (o : ℤ × ℤ → Option (P × P)) (p : ℤ × ℤ) : B × B → B × B → B × B → B × B → 𝕜 :=
  layer (siteEnt (net.A (cellSite net.nx net.ny p))) (o p)

/-- A rectangle with any double layers inside the boundary tensors of a network. -/
def withLayers (N : ℕ) (net : Net (Ten B P 𝕜)) (D : ℤ × ℤ → B × B → B × B → B × B → B × B → 𝕜) (r : Rect) :
    Frame (Fin N) (B × B) 𝕜 r.w r.h :=
  { clusterFrame N net (fun _ => none) r with D := fun i j => D (r.x + i, r.y + j) }

/-- Its value. -/
def clusterWith (net : Net (Ten B P 𝕜)) (D : ℤ × ℤ → B × B → B × B → B × B → B × B → 𝕜) (r : Rect) : 𝕜 :=
  (withLayers (netDim net) net D r).value

theorem cluster_with (net : Net (Ten B P 𝕜)) (o : ℤ × ℤ → Option (P × P)) (r : Rect) :
    cluster net o r = clusterWith net (siteLayers net o) r := rfl

/-- Any number of labels that is large enough gives the value of the cluster. -/
theorem clusterWith_eq (net : Net (Ten B P 𝕜)) (hx : 0 < net.nx) (hy : 0 < net.ny)
    (D : ℤ × ℤ → B × B → B × B → B × B → B × B → 𝕜) (r : Rect) (N : ℕ)
    (hN : netDim net ≤ N) : (withLayers N net D r).value = clusterWith net D r := by
  unfold clusterWith
  have hr : ∀ y : Fin N, y ∉ Set.range (Fin.castLE hN) → netDim net ≤ y.val := by
    intro y hy'
    by_contra hc
    exact hy' ⟨⟨y.val, by omega⟩, rfl⟩
  have hc : ∀ (p : ℤ × ℤ) (k : ℕ), k < 4 → ∀ i j : Fin N, j ∉ Set.range (Fin.castLE hN) →
      cornerEnt (net.B (cellSite net.nx net.ny p) (.C k)) i j = 0 :=
    fun p k hk i j hj => cornerEnt_zero _ _ (le_netDim net _ (cellSite_inCell _ _ hx hy p) k hk).1 _ _ (hr j hj)
  have he : ∀ (p : ℤ × ℤ) (k : ℕ), k < 4 → ∀ (i j : Fin N) (l l' : B), j ∉ Set.range (Fin.castLE hN) →
      edgeEnt (net.B (cellSite net.nx net.ny p) (.E k)) i j l l' = 0 :=
    fun p k hk i j l l' hj => edgeEnt_zero _ _ (le_netDim net _ (cellSite_inCell _ _ hx hy p) k hk).2 _ _ (hr j hj) l l'
  refine Extends.value (e := Fin.castLE hN) (Fin.castLE_injective hN) ?_
  constructor
  case D => rfl
  all_goals intros
  all_goals first
    | rfl
    | (apply hc <;> omega)
    | (apply he <;> omega)

theorem cluster_eq (net : Net (Ten B P 𝕜)) (hx : 0 < net.nx) (hy : 0 < net.ny) (o : ℤ × ℤ → Option (P × P)) (r : Rect) (N : ℕ)
    (hN : netDim net ≤ N) : (clusterFrame N net o r).value = cluster net o r :=
  clusterWith_eq net hx hy (siteLayers net o) r N hN

end dims

end AceTN
