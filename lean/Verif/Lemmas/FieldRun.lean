import Verif.Lemmas.FieldMapUpdate
import Verif.Lemmas.FieldLibrary
import Verif.Spec.LinkChange

/-!
Conditions on runs commute with a conversion of the dtype.
-/

set_option autoImplicit false
set_option linter.unusedSectionVars false

namespace AceTN

open Spec Matrix

variable {𝕜 𝕜' : Type} [RCLike 𝕜] [RCLike 𝕜'] (φ : 𝕜 →⋆ₐ[ℝ] 𝕜')
variable {B P : Type} [Fintype B] [Fintype P] [DecidableEq B]

theorem mapTen_quarter {T : Ten B P 𝕜} {m n : ℕ} {Q' : Matrix (Fin m × B × B) (Fin n × B × B) 𝕜'} (h : mapTen φ T = .quarter m n Q') :
    ∃ Q, T = .quarter m n Q ∧ Q' = Q.map φ := by
  cases T with
  | quarter m1 n1 Q =>
    change Ten.quarter m1 n1 (Q.map φ) = Ten.quarter m n Q' at h
    cases h
    exact ⟨Q, rfl, rfl⟩
  | _ => cases h

theorem wired_map {net : Net (Ten B P 𝕜)} {f : Site → ℕ → ℕ} (h : Wired net f) : Wired (mapNet (mapTen φ) net) f where
  site s hs := by
    obtain ⟨a, e⟩ := h.site s hs
    refine ⟨fun l u r d p => φ (a l u r d p), ?_⟩
    show mapTen φ (net.A s) = _
    rw [e]
    rfl
  corner s hs k hk := by
    obtain ⟨a, e⟩ := h.corner s hs k hk
    refine ⟨fun i j => φ (a i j), ?_⟩
    show mapTen φ (net.B s (.C k)) = _
    rw [e]
    rfl
  edge s hs k hk := by
    obtain ⟨a, e⟩ := h.edge s hs k hk
    refine ⟨fun i j l l' => φ (a i j l l'), ?_⟩
    show mapTen φ (net.B s (.E k)) = _
    rw [e]
    rfl

variable {st : ProjSettings 𝕜} {st' : ProjSettings 𝕜'} (h : SameSettings φ st st')
include h

theorem hom_svdS {m n : Type} [Fintype m] [Fintype n] [DecidableEq m] [DecidableEq n] (A : Matrix m n 𝕜) :
    (st'.la.svd (A.map φ)).2.1 = (st.la.svd A).2.1 := by
  rw [h.la.svd]

theorem hom_dropCut (ω : Draws B 𝕜) (pk : ProjKind) (net : Net (Ten B P 𝕜)) (s1 s2 s3 s4 : Site) (k : ℕ)
    (hd : DropCut st ω pk net s1 s2 s3 s4 k) : DropCut st' (mapDraws φ ω) pk (mapNet (mapTen φ) net) s1 s2 s3 s4 k := by
  have hq : ∀ s k, quarterTensor (numOps st' (mapDraws φ ω)) (mapNet (mapTen φ) net) s k = mapTen φ (quarterTensor (numOps st ω) net s k) :=
    (numOps_hom φ h ω).quarterTensor net
  cases pk with
  | half =>
    intro m x n Q1 Q4 e1 e4
    rw [hq] at e1 e4
    obtain ⟨Q1, f1, rfl⟩ := mapTen_quarter φ e1
    obtain ⟨Q4, f4, rfl⟩ := mapTen_quarter φ e4
    rw [← hom_mul, hom_maxNormalise, hom_svdS φ h, h.cutoff]
    exact hd m x n Q1 Q4 f1 f4
  | full =>
    intro m x n k1 k3 Q1 Q2 Q3 Q4 e1 e2 e3 e4
    rw [hq] at e1 e2 e3 e4
    obtain ⟨Q1, f1, rfl⟩ := mapTen_quarter φ e1
    obtain ⟨Q2, f2, rfl⟩ := mapTen_quarter φ e2
    obtain ⟨Q3, f3, rfl⟩ := mapTen_quarter φ e3
    obtain ⟨Q4, f4, rfl⟩ := mapTen_quarter φ e4
    rw [← hom_mul, ← hom_mul, hom_maxNormalise, hom_maxNormalise, ← hom_mul, hom_maxNormalise, hom_svdS φ h, h.cutoff]
    exact hd m x n k1 k3 Q1 Q2 Q3 Q4 f1 f2 f3 f4

theorem hom_dropRun (pk : ProjKind) (ω : ℕ → Draws B 𝕜) (ms : List Move) (t : ℕ) (net : Net (Ten B P 𝕜)) (hd : DropRun st pk ω t ms net) :
    DropRun st' pk (fun i => mapDraws φ (ω i)) t ms (mapNet (mapTen φ) net) := by
  induction ms generalizing t net with
  | nil => exact True.intro
  | cons m ms ih =>
    refine ⟨fun s hs ha => hom_dropCut φ h (ω t) pk net _ _ _ _ _ (hd.1 s hs ha), fun net' hr => ?_⟩
    rw [(numOps_hom φ h (ω t)).run] at hr
    cases hn : m.run (numOps st (ω t)) pk net with
    | error e =>
      rw [hn] at hr
      cases hr
    | ok n =>
      rw [hn] at hr
      cases hr
      exact ih _ n (hd.2 n hn)

end AceTN
