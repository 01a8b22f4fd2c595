import Verif.Lemmas.ClusterRun
import Verif.Lemmas.ClusterRead
import Verif.Lemmas.Patch
import Verif.Lemmas.FullWired
import Verif.Props.TensorUpdate
import Verif.Props.Patch

/-!
The norm tensor of a bond as overlaps of patches with other tensors at the two sites of the bond.
-/

set_option autoImplicit false
set_option linter.unusedSectionVars false

namespace AceTN

open Spec Full Finset

section read

variable {𝕜 : Type} [RCLike 𝕜] {B P N Q : Type} [Fintype B] [Fintype P] [Fintype N] [Fintype Q]

/-- The double layers of the tensors `T` and `T'` at the sites `p` and `p'`, and of the site tensors of the network elsewhere. -/
def bondLayers (net : Net (Ten B P 𝕜)) (p p' : ℤ × ℤ) (T T' : ATensor B Q 𝕜) (b1 b2 k1 k2 : Q) (q : ℤ × ℤ) :
    B × B → B × B → B × B → B × B → 𝕜 :=
  if q = p then layer T (some (b1, k1)) else if q = p' then layer T' (some (b2, k2)) else siteLayers net (fun _ => none) q

omit [Fintype Q] in
theorem bondPermute_back (K : Fin 4) (a : ATensor B Q 𝕜) : bondPermute K.val (bondPermute (4 - (K.val : ℤ)) a) = a := by
  rw [bondPermute_add, bondPermute_mod _ 0 (by omega), bondPermute_zero]

/-- The norm tensor with any reduced tensors attached is a cluster of two sites with the recomposed tensors in it. -/
theorem numNorm_with {net : Net (Ten B P 𝕜)} {f : Site → ℕ → ℕ} (hw : Wired net f) (hx : 0 < net.nx) (hy : 0 < net.ny)
    (p : ℤ × ℤ) (K : Fin 4) (a1q a2q : B → B → B → N → 𝕜) :
    ∃ n, numNorm net ⟨cellSite net.nx net.ny p, cellSite net.nx net.ny (p + dir K), K.val⟩ a1q a2q = .ok n ∧
      ∀ (Q : Type) [Fintype Q] (r1 r2 : N → B → Q → 𝕜) (b1 b2 k1 k2 : Q),
        Spec.attach n r1 r2 b1 b2 k1 k2 = clusterWith net (bondLayers net p (p + dir K)
          (bondPermute (4 - (K.val : ℤ)) (recompose a1q r1 a2q r2).1) (bondPermute (4 - (K.val : ℤ)) (recompose a1q r1 a2q r2).2) b1 b2 k1 k2)
          (bondRect p K) := by
  obtain ⟨i11, i12, i13, i21, i22, i23, i31, i32, i33⟩ := fin4 K
  have m0 : (K.val + 0) % 4 = K.val := (fin4_val K).1
  have m1 : (K.val + 1) % 4 = (K + 1).val := (fin4_val K).2.1
  have m2 : (K.val + 2) % 4 = (K + 2).val := (fin4_val K).2.2.1
  have m3 : (K.val + 3) % 4 = (K + 3).val := (fin4_val K).2.2.2
  have hback := dir_cancel p K
  have two1 : (2 : ℤ) - 1 = 1 := by norm_num
  have hne : p + dir K ≠ p := by
    intro h
    have h0 : dir K = 0 := by simpa using h
    revert h0
    generalize K = k
    revert k
    decide
  obtain ⟨c12, h12⟩ := wired_corner hw hx hy p (p + dir (K + 2)) (K + 1) K (by rw [i11]) (by rw [i13])
  obtain ⟨e12, g12⟩ := wired_edge hw hx hy p (p + dir (K + 3)) (K + 1) (by rw [i12])
  obtain ⟨e11, g11⟩ := wired_edge hw hx hy p (p + dir (K + 2)) K rfl
  obtain ⟨c13, h13⟩ := wired_corner hw hx hy p (p + dir (K + 3)) (K + 2) (K + 1) (by rw [i21]) (by rw [i23])
  obtain ⟨e13, g13⟩ := wired_edge hw hx hy p (p + dir K) (K + 2) (by rw [i22])
  obtain ⟨c21, h21⟩ := wired_corner hw hx hy (p + dir K) (p + dir K + dir (K + 1)) K (K + 3) rfl rfl
  obtain ⟨e21, g21⟩ := wired_edge hw hx hy (p + dir K) p K hback.symm
  obtain ⟨e24, g24⟩ := wired_edge hw hx hy (p + dir K) (p + dir K + dir (K + 1)) (K + 3) (by rw [i32])
  obtain ⟨c24, h24⟩ := wired_corner hw hx hy (p + dir K) (p + dir K + dir K) (K + 3) (K + 2) (by rw [i31]) (by rw [i33])
  obtain ⟨e23, g23⟩ := wired_edge hw hx hy (p + dir K) (p + dir K + dir K) (K + 2) (by rw [i22])
  have hl := fun q k => wired_le hw hx hy q k
  unfold numNorm
  dsimp only
  rw [m0, m1, m2, m3, h12, g12, g11, h13, g13, h21, g21, g24, h24, g23]
  dsimp only
  rw [if_pos ⟨rfl, rfl, rfl, rfl, rfl, rfl, rfl, rfl, rfl, rfl⟩]
  refine ⟨_, rfl, fun Q _ r1 r2 b1 b2 k1 k2 => ?_⟩
  rw [C31_core]
  change bondRdmCore _ _ _ _ _ (recompose a1q r1 a2q r2).1 _ _ _ _ _ (recompose a1q r1 a2q r2).2 b1 b2 k1 k2 = _
  rw [C46_bond_core]
  simp only [as4_self, as2_self]
  rw [bondRdm_pad (N := netDim net) (hl _ _) (hl _ _) (hl _ _) (hl _ _) (hl _ _) (hl _ _) (hl _ _) (hl _ _) (hl _ _) (hl _ _)]
  generalize (recompose a1q r1 a2q r2).1 = T1
  generalize (recompose a1q r1 a2q r2).2 = T2
  generalize hD : bondLayers net p (p + dir K) (bondPermute (4 - (K.val : ℤ)) T1) (bondPermute (4 - (K.val : ℤ)) T2) b1 b2 k1 k2 = D
  have hD1 : turnLayer K (D p) = layer T1 (some (b1, k1)) := by
    rw [← hD, bondLayers, if_pos rfl, turnLayer_layer, bondPermute_back]
  have hD2 : turnLayer K (D (p + dir K)) = layer T2 (some (b2, k2)) := by
    rw [← hD, bondLayers, if_neg hne, if_pos rfl, turnLayer_layer, bondPermute_back]
  rw [← cluster_rot K (netDim net) net hx hy D (bondRect p K) le_rfl, (bondRect_eq p K).1]
  have ev : ∀ (w h : ℕ), w = 2 → h = 1 →
      (rotFrame K (netDim net) net D (p + dir K) w h).value = (rotFrame K (netDim net) net D (p + dir K) 2 1).value := by
    rintro _ _ rfl rfl
    rfl
  rw [ev _ _ (bondRect_eq p K).2.1 (bondRect_eq p K).2.2, value_21 _ T1 T2 b1 k1 b2 k2]
  · unfold rotFrame
    simp only [Fin.val_zero, Fin.val_one, Nat.cast_zero, Nat.cast_one, Nat.cast_ofNat, zero_smul, one_smul, add_zero, sub_self,
      two1, hback]
    rw [h12, g12, g11, h13, g13, h21, g21, g24, h24, g23]
    rfl
  · unfold rotFrame
    simp only [Fin.val_zero, Fin.val_one, Nat.cast_zero, Nat.cast_one, zero_smul, one_smul, add_zero, hback]
    exact hD1
  · unfold rotFrame
    simp only [Fin.val_zero, Nat.cast_zero, zero_smul, add_zero]
    exact hD2

end read

section patch

variable {𝕜 : Type} [RCLike 𝕜] {dB nx ny chi : ℕ} {P N : Type} [Fintype P] [Fintype N]

theorem pairAt_isSome {Q : Type} (p p' : ℤ × ℤ) (T T' : ATensor (Fin dB) Q 𝕜) (k k' : Q) (q : ℤ × ℤ) :
    (pairAt p p' T T' k k' q).isSome = decide (q = p ∨ q = p') := by
  unfold pairAt
  split_ifs <;> simp_all

/-- Clusters of a fresh network with tensors put in at a bond. -/
theorem bondLayers_fresh (hx : 0 < nx) (hy : 0 < ny) (A : Site → ATensor (Fin dB) P 𝕜) (hA : ∀ s, InCell nx ny s → A s ≠ 0) (r : Rect)
    (p p' : ℤ × ℤ) : ∃ c : ℝ, 0 < c ∧ ∀ (Q : Type) [Fintype Q] (T T' : ATensor (Fin dB) Q 𝕜) (b1 b2 k1 k2 : Q),
      clusterWith (freshNet nx ny chi A) (bondLayers (freshNet nx ny chi A) p p' T T' b1 b2 k1 k2) r =
        c * ∑ e, trialAmp (unfoldCell nx ny A) p p' T T' r e k1 k2 * star (trialAmp (unfoldCell nx ny A) p p' T T' r e b1 b2) := by
  obtain ⟨c, hc, e⟩ := clusterWith_fresh (chi := chi) hx hy A hA r (fun q => decide (q = p ∨ q = p'))
  refine ⟨c, hc, fun Q _ T T' b1 b2 k1 k2 => ?_⟩
  have := e (pairAt p p' T T' b1 b2) (pairAt p p' T T' k1 k2) (pairAt_isSome p p' T T' b1 b2) (pairAt_isSome p p' T T' k1 k2)
  refine Eq.trans ?_ this
  congr 1
  funext q l u r d
  unfold bondLayers pairLayers pairAt
  split_ifs <;> rfl

/-- **The norm tensor after moves without truncation.** -/
theorem norm_patch {pD : ℕ} (hx : 0 < nx) (hy : 0 < ny) (A : Site → ATensor (Fin dB) (Fin pD) 𝕜) (hA : ∀ s, InCell nx ny s → A s ≠ 0) (st : ProjSettings 𝕜)
    (pk : ProjKind) (hr : CutsResolve (Fin dB) st pk) (ω : ℕ → Draws (Fin dB) 𝕜) (ms : List Move) (t : ℕ) (hm : ∀ m ∈ ms, InRange nx ny m)
    (hl : LooseRun st pk ω t ms (freshNet nx ny chi A)) :
    ∃ net, runDrawn st pk ω t ms (freshNet nx ny chi A) = .ok net ∧ net.A = (freshNet nx ny chi A).A ∧
      ∀ (s : Site), InCell nx ny s → ∀ (K : Fin 4) (N : Type) [Fintype N] (a1q a2q : Fin dB → Fin dB → Fin dB → N → 𝕜),
      ∃ n, numNorm net ⟨s, neighbour nx ny s K.val, K.val⟩ a1q a2q = .ok n ∧ ∃ c : ℝ, 0 < c ∧
        ∀ (Q : Type) [Fintype Q] (r1 r2 : N → Fin dB → Q → 𝕜) (b1 b2 k1 k2 : Q), Spec.attach n r1 r2 b1 b2 k1 k2 =
          c * ∑ e, trialAmp (unfoldCell nx ny A) (atLattice s) (atLattice s + dir K)
              (bondPermute (4 - (K.val : ℤ)) (recompose a1q r1 a2q r2).1) (bondPermute (4 - (K.val : ℤ)) (recompose a1q r1 a2q r2).2)
              (growAll nx ny ms (bondRect (atLattice s) K)) e k1 k2 *
            star (trialAmp (unfoldCell nx ny A) (atLattice s) (atLattice s + dir K)
              (bondPermute (4 - (K.val : ℤ)) (recompose a1q r1 a2q r2).1) (bondPermute (4 - (K.val : ℤ)) (recompose a1q r1 a2q r2).2)
              (growAll nx ny ms (bondRect (atLattice s) K)) e b1 b2) := by
  obtain ⟨net, h1, hnx, hny, hnA, ⟨f', hw'⟩, hv⟩ := clusterWith_run st pk ω hr ms t _ _ (fresh_wired (chi := chi) A hx hy) hx hy hm hl
  have hnx : net.nx = nx := hnx
  have hny : net.ny = ny := hny
  refine ⟨net, h1, hnA, fun s hs K N _ a1q a2q => ?_⟩
  obtain ⟨n, hn, e1⟩ := numNorm_with hw' (hnx ▸ hx) (hny ▸ hy) (atLattice s) K a1q a2q
  rw [hnx, hny, ← neighbour_cellSite _ _ hx hy, show cellSite nx ny (atLattice s) = s from cellSite_self _ _ s hs] at hn
  obtain ⟨c, hc, e2⟩ := hv (bondRect (atLattice s) K)
  obtain ⟨c', hc', e3⟩ := bondLayers_fresh (chi := chi) hx hy A hA (growAll nx ny ms (bondRect (atLattice s) K)) (atLattice s) (atLattice s + dir K)
  refine ⟨n, hn, c * c', mul_pos hc hc', fun Q _ r1 r2 b1 b2 k1 k2 => ?_⟩
  rw [e1, RCLike.ofReal_mul, mul_assoc, ← e3, e2]
  · congr 2
    funext q
    unfold bondLayers siteLayers
    rw [hnA, hnx, hny]
    rfl
  · intro q hq
    unfold bondLayers
    rw [if_neg, if_neg]
    · unfold siteLayers
      rw [hnA, hnx, hny]
      rfl
    · rintro rfl
      refine hq ?_
      unfold Rect.Has
      match K with
      | 0 | 1 | 2 | 3 => simp only [bondRect, dir, Prod.fst_add, Prod.snd_add]; push_cast; omega
    · rintro rfl
      refine hq ?_
      unfold Rect.Has
      match K with
      | 0 | 1 | 2 | 3 => simp only [bondRect]; push_cast; omega

end patch

end AceTN
