import Verif.Lemmas.FieldMapNet
import Verif.Model.FullRun
import Verif.Model.Measure

/-!
Density matrices, measured values, gates and the full update commute with a conversion of the dtype.
-/

set_option autoImplicit false
set_option linter.unusedSectionVars false

namespace AceTN

open Spec Matrix

variable {𝕜 𝕜' : Type} [RCLike 𝕜] [RCLike 𝕜'] (φ : 𝕜 →⋆ₐ[ℝ] 𝕜')
variable {B P : Type} [Fintype B] [Fintype P] [DecidableEq B]

/-! ### Density matrices -/

theorem hom_siteRdm (net : Net (Ten B P 𝕜)) (s : Site) :
    numSiteRdm (mapNet (mapTen φ) net) s = (numSiteRdm net s).map fun ρ p q => φ (ρ p q) := by
  unfold numSiteRdm
  dsimp only [mapNet]
  generalize net.B s (.C 0) = t0
  generalize net.B s (.E 0) = t1
  generalize net.B s (.C 1) = t2
  generalize net.B s (.E 1) = t3
  generalize net.B s (.C 2) = t4
  generalize net.B s (.E 2) = t5
  generalize net.B s (.C 3) = t6
  generalize net.B s (.E 3) = t7
  generalize net.A s = t8
  rcases t0 with _ | ⟨x0, x1, c1⟩ | _ | _ | _ | _ <;> try rfl
  rcases t1 with _ | _ | ⟨x1', x2, e1⟩ | _ | _ | _ <;> try rfl
  rcases t2 with _ | ⟨x2', x3, c2⟩ | _ | _ | _ | _ <;> try rfl
  rcases t3 with _ | _ | ⟨x3', x4, e2⟩ | _ | _ | _ <;> try rfl
  rcases t4 with _ | ⟨x4', x5, c3⟩ | _ | _ | _ | _ <;> try rfl
  rcases t5 with _ | _ | ⟨x5', x6, e3⟩ | _ | _ | _ <;> try rfl
  rcases t6 with _ | ⟨x6', x7, c4⟩ | _ | _ | _ | _ <;> try rfl
  rcases t7 with _ | _ | ⟨x7', x0', e4⟩ | _ | _ | _ <;> try rfl
  rcases t8 with a | _ | _ | _ | _ | _ <;> try rfl
  dsimp only [mapTen]
  split
  · show Except.ok _ = Except.ok _
    congr 1
    funext p q
    simp only [hom_as2, hom_as4]
    dsimp only [siteRdmCore]
    hom_tac
  · rfl

theorem hom_bondRdmCore {L1 U1 R1 D1 : Type} [Fintype L1] [Fintype U1] [Fintype R1] [Fintype D1]
    {L2 U2 D2 : Type} [Fintype L2] [Fintype U2] [Fintype D2]
    {y0 y1 y2 y3 y4 y5 y6 y7 y8 y9 : Type} [Fintype y0] [Fintype y1] [Fintype y2] [Fintype y3]
    [Fintype y4] [Fintype y5] [Fintype y6] [Fintype y7] [Fintype y8] [Fintype y9]
    {pD : ℕ} (init : Fin pD → Fin pD → Fin pD → Fin pD → 𝕜)
    (c12 : y2 → y3 → 𝕜) (e12 : y3 → y4 → R1 → R1 → 𝕜) (e11 : y1 → y2 → U1 → U1 → 𝕜)
    (c13 : y4 → y5 → 𝕜) (e13 : y5 → y6 → D1 → D1 → 𝕜) (a1 : L1 → U1 → R1 → D1 → Fin pD → 𝕜)
    (c21 : y9 → y0 → 𝕜) (e21 : y0 → y1 → U2 → U2 → 𝕜) (e24 : y8 → y9 → L2 → L2 → 𝕜)
    (c24 : y7 → y8 → 𝕜) (e23 : y6 → y7 → D2 → D2 → 𝕜) (a2 : L2 → U2 → L1 → D2 → Fin pD → 𝕜) :
    bondRdmCoreBlocked (fun p q r s => φ (init p q r s)) (fun i j => φ (c12 i j)) (fun i j l l' => φ (e12 i j l l'))
      (fun i j l l' => φ (e11 i j l l')) (fun i j => φ (c13 i j)) (fun i j l l' => φ (e13 i j l l')) (fun l u r d p => φ (a1 l u r d p))
      (fun i j => φ (c21 i j)) (fun i j l l' => φ (e21 i j l l')) (fun i j l l' => φ (e24 i j l l')) (fun i j => φ (c24 i j))
      (fun i j l l' => φ (e23 i j l l')) (fun l u r d p => φ (a2 l u r d p)) =
    fun p q r s => φ (bondRdmCoreBlocked init c12 e12 e11 c13 e13 a1 c21 e21 e24 c24 e23 a2 p q r s) := by
  unfold bondRdmCoreBlocked
  dsimp only
  generalize blockIndices pD 1 = l
  induction l generalizing init with
  | nil => rfl
  | cons b l ih =>
    rw [List.foldl_cons, List.foldl_cons, ← ih]
    congr 1
    funext p q r s
    unfold Blk.write
    dsimp only
    by_cases hb : (b.1.lo ≤ p.val ∧ p.val < b.1.hi) ∧ (b.2.lo ≤ q.val ∧ q.val < b.2.hi)
    · rw [dif_pos hb, dif_pos hb]
      hom_tac
    · rw [dif_neg hb, dif_neg hb]

theorem hom_bondRdm {pD : ℕ} (init : Fin pD → Fin pD → Fin pD → Fin pD → 𝕜) (net : Net (Ten B (Fin pD) 𝕜)) (b : Bond) :
    numBondRdm (fun p q r s => φ (init p q r s)) (mapNet (mapTen φ) net) b =
      (numBondRdm init net b).map fun ρ p q r s => φ (ρ p q r s) := by
  unfold numBondRdm
  dsimp only [mapNet]
  generalize net.B b.s1 (.C ((1 + b.k) % 4)) = t0
  generalize net.B b.s1 (.E ((1 + b.k) % 4)) = t1
  generalize net.B b.s1 (.E ((0 + b.k) % 4)) = t2
  generalize net.B b.s1 (.C ((2 + b.k) % 4)) = t3
  generalize net.B b.s1 (.E ((2 + b.k) % 4)) = t4
  generalize net.A b.s1 = t5
  generalize net.B b.s2 (.C ((0 + b.k) % 4)) = t6
  generalize net.B b.s2 (.E ((0 + b.k) % 4)) = t7
  generalize net.B b.s2 (.E ((3 + b.k) % 4)) = t8
  generalize net.B b.s2 (.C ((3 + b.k) % 4)) = t9
  generalize net.B b.s2 (.E ((2 + b.k) % 4)) = t10
  generalize net.A b.s2 = t11
  rcases t0 with _ | ⟨x0, x1, c1⟩ | _ | _ | _ | _ <;> try rfl
  rcases t1 with _ | _ | ⟨x1', x2, e1⟩ | _ | _ | _ <;> try rfl
  rcases t2 with _ | _ | ⟨x1', x2, e1⟩ | _ | _ | _ <;> try rfl
  rcases t3 with _ | ⟨x0, x1, c1⟩ | _ | _ | _ | _ <;> try rfl
  rcases t4 with _ | _ | ⟨x1', x2, e1⟩ | _ | _ | _ <;> try rfl
  rcases t5 with a | _ | _ | _ | _ | _ <;> try rfl
  rcases t6 with _ | ⟨x0, x1, c1⟩ | _ | _ | _ | _ <;> try rfl
  rcases t7 with _ | _ | ⟨x1', x2, e1⟩ | _ | _ | _ <;> try rfl
  rcases t8 with _ | _ | ⟨x1', x2, e1⟩ | _ | _ | _ <;> try rfl
  rcases t9 with _ | ⟨x0, x1, c1⟩ | _ | _ | _ | _ <;> try rfl
  rcases t10 with _ | _ | ⟨x1', x2, e1⟩ | _ | _ | _ <;> try rfl
  rcases t11 with a | _ | _ | _ | _ | _ <;> try rfl
  dsimp only [mapTen]
  split
  · show Except.ok _ = Except.ok _
    congr 1
    simp only [hom_as2, hom_as4, hom_bondPermute]
    exact hom_bondRdmCore φ _ _ _ _ _ _ _ _ _ _ _ _ _
  · rfl

section values

variable {Q : Type} [Fintype Q]

theorem hom_measureOneSite (ρ op : P → P → 𝕜) : measureOneSite (fun p q => φ (ρ p q)) (fun p q => φ (op p q)) = measureOneSite ρ op := by
  unfold measureOneSite
  simp only [← map_mul, ← map_sum, hom_re]

theorem hom_siteNorm (ρ : P → P → 𝕜) : siteNorm (fun p q => φ (ρ p q)) = siteNorm ρ := by
  unfold siteNorm
  simp only [← map_sum, hom_re]

theorem hom_measureTwoSite (ρ op : P → Q → P → Q → 𝕜) :
    measureTwoSite (fun p q r s => φ (ρ p q r s)) (fun p q r s => φ (op p q r s)) = measureTwoSite ρ op := by
  unfold measureTwoSite
  simp only [← map_mul, ← map_sum, hom_re]

theorem hom_bondNorm (ρ : P → Q → P → Q → 𝕜) : bondNorm (fun p q r s => φ (ρ p q r s)) = bondNorm ρ := by
  unfold bondNorm
  simp only [← map_sum, hom_re]

end values

/-! ### Fresh boundaries and gates -/

theorem hom_freshNet {D : ℕ} (nx ny chi : ℕ) (A : Site → ATensor (Fin D) P 𝕜) :
    mapNet (mapTen φ) (freshNet nx ny chi A) = freshNet nx ny chi fun s l u r d p => φ (A s l u r d p) := by
  unfold mapNet freshNet
  congr 1
  funext s sl
  cases sl with
  | C k =>
    dsimp only [mapTen, initialCorner]
    congr 1
    funext i j
    rw [← congrFun (congrFun (hom_normalise2 φ _) _) _]
    simp only [map_sum, map_mul, Pi.star_apply, map_star, hom_bondPermute]
  | E k =>
    dsimp only [mapTen, initialEdge]
    congr 1
    funext i j l l'
    rw [← congrFun (congrFun (congrFun (congrFun (hom_normalise4 φ _) _) _) _) _]
    simp only [map_sum, map_mul, Pi.star_apply, map_star, hom_bondPermute]

theorem hom_continuous : Continuous φ :=
  (AddMonoidHomClass.isometry_of_norm φ (hom_norm φ)).continuous

set_option backward.isDefEq.respectTransparency false in
open scoped Matrix.Norms.Operator in
theorem hom_exp {n : Type} [Fintype n] [DecidableEq n] (A : Matrix n n 𝕜) :
    (NormedSpace.exp A).map φ = NormedSpace.exp (A.map φ) := by
  have hc : Continuous (RingHom.mapMatrix (m := n) (φ : 𝕜 →+* 𝕜')) := continuous_id.matrix_map (hom_continuous φ)
  let _ : NormedAlgebra ℚ (Matrix n n 𝕜) := NormedAlgebra.restrictScalars ℚ 𝕜 _
  let _ : NormedAlgebra ℚ (Matrix n n 𝕜') := NormedAlgebra.restrictScalars ℚ 𝕜' _
  exact NormedSpace.map_exp (RingHom.mapMatrix (m := n) (φ : 𝕜 →+* 𝕜')) hc A

theorem hom_bondHam [DecidableEq P] (m : ModelTerms P 𝕜) (b : Bond) : bondHam (mapTerms φ m) b = (bondHam m b).map φ := by
  unfold bondHam mapTerms
  dsimp only
  cases m.one b.s1 with
  | none => rfl
  | some h1 =>
    cases m.one b.s2 with
    | none => rfl
    | some h2 =>
      ext i j
      simp only [Option.map, Matrix.add_apply, Matrix.smul_apply, map_apply, Matrix.kroneckerMap_apply, smul_eq_mul, map_add, map_mul,
        one_apply]
      rw [show φ (0.25 : 𝕜) = 0.25 by
        have h4 : (0.25 : 𝕜) = ((1 / 4 : ℝ) : 𝕜) := by push_cast; norm_num
        rw [h4, hom_real]
        push_cast
        norm_num]
      congr 2
      all_goals split <;> simp

theorem hom_twoSiteGate [DecidableEq P] (m : ModelTerms P 𝕜) (dtau : ℝ) (b : Bond) :
    twoSiteGate (mapTerms φ m) dtau b = fun p q r s => φ (twoSiteGate m dtau b p q r s) := by
  funext p q r s
  unfold twoSiteGate calculateGate
  rw [← map_apply (f := φ), hom_exp, hom_bondHam]
  have e : (-(dtau : 𝕜')) • (bondHam m b).map φ = ((-(dtau : 𝕜)) • bondHam m b).map φ := by
    ext i j
    simp only [Matrix.smul_apply, map_apply, smul_eq_mul, map_mul, map_neg, hom_real]
  rw [e]

end AceTN
