import Verif.Lemmas.ClusterRdm
import Verif.Lemmas.WiredMove
import Verif.Spec.ClusterGrow

/-!
The density matrices that the code reads off a network are clusters of one and of two sites.
-/

set_option autoImplicit false

namespace AceTN

open Finset Spec

variable {𝕜 : Type} [RCLike 𝕜] {B P : Type} [Fintype B] [Fintype P]

omit [Fintype B] [Fintype P] in
theorem bondRect_eq (p : ℤ × ℤ) (K : Fin 4) :
    (bondRect p K).org K = p + dir K ∧ (bondRect p K).wid K = 2 ∧ (bondRect p K).hei K = 1 := by
  match K with
  | 0 | 1 | 2 | 3 =>
    refine ⟨?_, rfl, rfl⟩
    apply Prod.ext <;> simp [bondRect, Rect.org, dir, sub_eq_add_neg, add_assoc]

variable {net : Net (Ten B P 𝕜)} {f : Site → ℕ → ℕ} (hw : Wired net f) (hx : 0 < net.nx) (hy : 0 < net.ny)

include hw hx hy

theorem numSiteRdm_eq (p : ℤ × ℤ) :
    numSiteRdm net (cellSite net.nx net.ny p) =
      .ok fun bra ket => cluster net (fixSite p bra ket) ⟨p.1, p.2, 1, 1⟩ := by
  obtain ⟨a, hA⟩ := wired_site hw hx hy p
  obtain ⟨C0, hC0⟩ := wired_corner hw hx hy p _ 0 _ rfl rfl
  obtain ⟨C1, hC1⟩ := wired_corner hw hx hy p _ 1 _ rfl rfl
  obtain ⟨C2, hC2⟩ := wired_corner hw hx hy p _ 2 _ rfl rfl
  obtain ⟨C3, hC3⟩ := wired_corner hw hx hy p _ 3 _ rfl rfl
  obtain ⟨E0, hE0⟩ := wired_edge hw hx hy p _ 0 rfl
  obtain ⟨E1, hE1⟩ := wired_edge hw hx hy p _ 1 rfl
  obtain ⟨E2, hE2⟩ := wired_edge hw hx hy p _ 2 rfl
  obtain ⟨E3, hE3⟩ := wired_edge hw hx hy p _ 3 rfl
  have hC0 : net.B (cellSite net.nx net.ny p) (.C 0) = _ := hC0
  have hC1 : net.B (cellSite net.nx net.ny p) (.C 1) = _ := hC1
  have hC2 : net.B (cellSite net.nx net.ny p) (.C 2) = _ := hC2
  have hC3 : net.B (cellSite net.nx net.ny p) (.C 3) = _ := hC3
  have hE0 : net.B (cellSite net.nx net.ny p) (.E 0) = _ := hE0
  have hE1 : net.B (cellSite net.nx net.ny p) (.E 1) = _ := hE1
  have hE2 : net.B (cellSite net.nx net.ny p) (.E 2) = _ := hE2
  have hE3 : net.B (cellSite net.nx net.ny p) (.E 3) = _ := hE3
  have hl := fun q k => wired_le hw hx hy q k
  unfold numSiteRdm
  rw [hC0, hC1, hC2, hC3, hE0, hE1, hE2, hE3, hA]
  dsimp only
  rw [if_pos ⟨rfl, rfl, rfl, rfl, rfl, rfl, rfl, rfl⟩]
  congr 1
  funext bra ket
  erw [as4_self, as4_self, as4_self, as4_self, as2_self, as2_self, as2_self]
  rw [C46_site_core, siteRdm_pad (N := netDim net) (hl _ _) (hl _ _) (hl _ _) (hl _ _) (hl _ _) (hl _ _) (hl _ _) (hl _ _)]
  unfold cluster
  rw [value_11 _ a bra ket]
  · have p1 : ((p.1, p.2 + ((1 : ℕ) : ℤ) - 1) : ℤ × ℤ) = p := by simp
    have p2 : ((p.1 + ((1 : ℕ) : ℤ) - 1, p.2) : ℤ × ℤ) = p := by simp
    have p3 : ((p.1 + ((1 : ℕ) : ℤ) - 1, p.2 + ((1 : ℕ) : ℤ) - 1) : ℤ × ℤ) = p := by simp
    have p4 : ((p.1 + (((0 : Fin 1) : ℕ) : ℤ), p.2) : ℤ × ℤ) = p := by simp
    have p5 : ((p.1, p.2 + (((0 : Fin 1) : ℕ) : ℤ)) : ℤ × ℤ) = p := by simp
    have p6 : ((p.1 + (((0 : Fin 1) : ℕ) : ℤ), p.2 + ((1 : ℕ) : ℤ) - 1) : ℤ × ℤ) = p := by simp
    have p7 : ((p.1 + ((1 : ℕ) : ℤ) - 1, p.2 + (((0 : Fin 1) : ℕ) : ℤ)) : ℤ × ℤ) = p := by simp
    unfold clusterFrame
    dsimp only
    rw [p1, p2, p3, p4, p5, p6, p7, Prod.mk.eta, hC0, hC1, hC2, hC3, hE0, hE1, hE2, hE3]
    rfl
  · unfold clusterFrame
    have p0 : ((p.1 + (((0 : Fin 1) : ℕ) : ℤ), p.2 + (((0 : Fin 1) : ℕ) : ℤ)) : ℤ × ℤ) = p := by simp
    dsimp only
    rw [p0, fixSite, if_pos rfl, hA]
    rfl

omit hw hx hy [Fintype P] in
theorem numBondRdm_eq {pD : ℕ} {net : Net (Ten B (Fin pD) 𝕜)} (hw : Wired net f) (hx : 0 < net.nx) (hy : 0 < net.ny)
    (init : Fin pD → Fin pD → Fin pD → Fin pD → 𝕜) (p : ℤ × ℤ) (K : Fin 4) :
    numBondRdm init net ⟨cellSite net.nx net.ny p, cellSite net.nx net.ny (p + dir K), K.val⟩ =
      .ok fun b1 b2 k1 k2 => cluster net (fixBond p (p + dir K) b1 b2 k1 k2) (bondRect p K) := by
  obtain ⟨i11, i12, i13, i21, i22, i23, i31, i32, i33⟩ := fin4 K
  have m0 : (0 + K.val) % 4 = K.val := by have := K.isLt; omega
  have m1 : (1 + K.val) % 4 = (K + 1).val := by rw [add_comm]; exact (fin4_val K).2.1
  have m2 : (2 + K.val) % 4 = (K + 2).val := by rw [add_comm]; exact (fin4_val K).2.2.1
  have m3 : (3 + K.val) % 4 = (K + 3).val := by rw [add_comm]; exact (fin4_val K).2.2.2
  have hback := dir_cancel p K
  have two1 : (2 : ℤ) - 1 = 1 := by norm_num
  have hne : p + dir K ≠ p := by
    intro h
    have h0 : dir K = 0 := by simpa using h
    revert h0
    generalize K = k
    revert k
    decide
  obtain ⟨A1, hA1⟩ := wired_site hw hx hy p
  obtain ⟨A2, hA2⟩ := wired_site hw hx hy (p + dir K)
  obtain ⟨c12, h12⟩ := wired_corner hw hx hy p (p + dir (K + 2)) (K + 1) K (by rw [i11]) (by rw [i13])
  obtain ⟨e12, g12⟩ := wired_edge hw hx hy p (p + dir (K + 3)) (K + 1) (by rw [i12])
  obtain ⟨e11, g11⟩ := wired_edge hw hx hy p (p + dir (K + 2)) K rfl
  obtain ⟨c13, h13⟩ := wired_corner hw hx hy p (p + dir (K + 3)) (K + 2) (K + 1) (by rw [i21]) (by rw [i23])
  obtain ⟨e13, g13⟩ := wired_edge hw hx hy p (p + dir K) (K + 2) (by rw [i22])
  obtain ⟨c21, h21⟩ := wired_corner hw hx hy (p + dir K) (p + dir K + dir (K + 1)) K (K + 3) rfl rfl
  obtain ⟨e21, g21⟩ := wired_edge hw hx hy (p + dir K) p K hback.symm
  obtain ⟨e24, g24⟩ := wired_edge hw hx hy (p + dir K) (p + dir K + dir (K + 1)) (K + 3) (by rw [i32])
  obtain ⟨c24, h24⟩ := wired_corner hw hx hy (p + dir K) (p + dir K + dir K) (K + 3) (K + 2) (by rw [i31]) (by rw [i33])
  obtain ⟨e23, g23⟩ := wired_edge hw hx hy (p + dir K) (p + dir K + dir K) (K + 2) (by rw [i22])
  have hl := fun q k => wired_le hw hx hy q k
  unfold numBondRdm
  dsimp only
  rw [m0, m1, m2, m3, h12, g12, g11, h13, g13, h21, g21, g24, h24, g23, hA1, hA2]
  dsimp only
  rw [if_pos ⟨rfl, rfl, rfl, rfl, rfl, rfl, rfl, rfl, rfl, rfl⟩]
  congr 1
  funext b1 b2 k1 k2
  rw [C32_bond_rdm, C46_bond_core]
  simp only [as4_self, as2_self]
  rw [bondRdm_pad (N := netDim net) (hl _ _) (hl _ _) (hl _ _) (hl _ _) (hl _ _) (hl _ _) (hl _ _) (hl _ _) (hl _ _) (hl _ _)]
  rw [cluster_with, ← cluster_rot K (netDim net) net hx hy (siteLayers net (fixBond p (p + dir K) b1 b2 k1 k2)) (bondRect p K) le_rfl,
    (bondRect_eq p K).1]
  have ev : ∀ (w h : ℕ), w = 2 → h = 1 →
      (rotFrame K (netDim net) net (siteLayers net (fixBond p (p + dir K) b1 b2 k1 k2)) (p + dir K) w h).value =
      (rotFrame K (netDim net) net (siteLayers net (fixBond p (p + dir K) b1 b2 k1 k2)) (p + dir K) 2 1).value := by
    rintro _ _ rfl rfl
    rfl
  rw [ev _ _ (bondRect_eq p K).2.1 (bondRect_eq p K).2.2, value_21 _ (bondPermute K.val A1) (bondPermute K.val A2) b1 k1 b2 k2]
  · unfold rotFrame
    simp only [Fin.val_zero, Fin.val_one, Nat.cast_zero, Nat.cast_one, Nat.cast_ofNat, zero_smul, one_smul, add_zero, sub_self,
      two1, hback]
    rw [h12, g12, g11, h13, g13, h21, g21, g24, h24, g23]
    rfl
  · unfold rotFrame
    simp only [Fin.val_zero, Fin.val_one, Nat.cast_zero, Nat.cast_one, zero_smul, one_smul, add_zero, hback]
    rw [siteLayers, turnLayer_layer, hA1, fixBond, if_pos rfl]
    rfl
  · unfold rotFrame
    simp only [Fin.val_zero, Nat.cast_zero, zero_smul, add_zero]
    rw [siteLayers, turnLayer_layer, hA2, fixBond, if_neg hne, if_pos rfl]
    rfl

end AceTN
