import Verif.Lemmas.FullNorm
import Verif.Lemmas.GaugeNet

/-!
The full update of a bond in two equivalent networks: the tensors it returns.
-/

set_option autoImplicit false
set_option linter.unusedSectionVars false

namespace AceTN

open Matrix Spec Full Finset SumTac

variable {𝕜 F : Type} [RCLike 𝕜] {sgn : Bool} {ord : ∀ (n : Type) [Fintype n], n ≃ Fin (Fintype.card n)}

section one

variable {B P : Type} [Fintype B] [Fintype P] [DecidableEq B] [DecidableEq P]

/-- The gate of one site. -/
theorem applyOneSite_turn {σ : ScalarMap 𝕜} {t : ℝ} {G0 G1 G2 G3 : Matrix B B 𝕜} {U : Matrix P P 𝕜} (hU : Unit2 U) {a a' : ATensor B P 𝕜}
    (h : TenRel σ t G0 G1 G2 G3 U a a') {g g' : P → P → 𝕜} (hg : TurnedOp σ U g g') :
    TenRel σ t G0 G1 G2 G3 U (applyOneSite g a) (applyOneSite g' a') := by
  intro l₀ u₀ r₀ d₀ q₀
  have hr : ∀ a b, ∑ x, U a x * star (U b x) = if a = b then 1 else 0 := fun a b => by
    have := congrFun (congrFun hU.right a) b
    rwa [mul_apply, one_apply] at this
  have key : ∀ (U₁ U₂ : Matrix P P 𝕜) (A₀ : ATensor B P 𝕜) (V₁ : P → P → 𝕜),
      ∑ l', ∑ u', ∑ r', ∑ d', ∑ q, G0 l₀ l' * G1 u₀ u' * G2 r₀ r' * G3 d₀ d' * U₁ q₀ q *
        ∑ p, (∑ k', ∑ b', U₂ k' p * g' k' b' * V₁ b' q) * A₀ l' u' r' d' p =
      ∑ p', ∑ b', (∑ q, U₁ q₀ q * V₁ b' q) * (g' p' b' * ∑ l', ∑ u', ∑ r', ∑ d', ∑ p, G0 l₀ l' * G1 u₀ u' * G2 r₀ r' * G3 d₀ d' *
        U₂ p' p * A₀ l' u' r' d' p) := by
    intro U₁ U₂ A₀ V₁
    einsum_ring
  have e := key U U (fun l u r d p => σ.f (a l u r d p)) (fun b q => star (U b q))
  simp only [hr] at e
  unfold applyOneSite
  simp only [map_sum, map_mul]
  have hg' : ∀ k b, σ.f (g k b) = ∑ k', ∑ b', U k' k * g' k' b' * star (U b' b) := hg
  simp only [hg']
  rw [e]
  simp only [ite_mul, one_mul, zero_mul, sum_ite_eq, mem_univ, if_true]
  rw [mul_sum]
  refine sum_congr rfl fun p _ => ?_
  rw [h l₀ u₀ r₀ d₀ p]
  simp only [mul_sum]
  refine sum_congr rfl fun _ _ => sum_congr rfl fun _ _ => sum_congr rfl fun _ _ => sum_congr rfl fun _ _ => sum_congr rfl fun _ _ => ?_
  ring

end one

/-- One-site gates in other bases. -/
def Spec.TurnedOne {P : Type} [Fintype P] (σ : ScalarMap 𝕜) (U : Site → Matrix P P 𝕜) (nx ny : ℕ) :
    Option (Site → P → P → 𝕜) → Option (Site → P → P → 𝕜) → Prop
  | none, none => True
  | some g, some g' => ∀ s, InCell nx ny s → TurnedOp σ (U s) (g s) (g' s)
  | _, _ => False

section bond

variable {bD pD : ℕ} [NeZero bD] [NeZero pD] {net net' : Net (Ten (Fin bD) (Fin pD) 𝕜)} {ℓ : ℤ × ℤ → Fin 4 → Link 𝕜}

/-- When the library has no choice in the full update of a bond but that of bases. -/
structure Spec.ClearBond (ord : ∀ (n : Type) [Fintype n], n ≃ Fin (Fintype.card n)) (sgn : Bool) (la : Lapack 𝕜) (fo : Als.FloatOps F)
    (rep : ℝ → F) (cfg : Settings F) (gate : Fin pD → Fin pD → Fin pD → Fin pD → 𝕜) (net : Net (Ten (Fin bD) (Fin pD) 𝕜)) (b : Bond)
    (a1 a2 : ATensor (Fin bD) (Fin pD) 𝕜) : Prop where
  split1 : QrUnique ord sgn (splitMat1 a1)
  split2 : QrUnique ord sgn (splitMat2 a2)
  update : ∀ n, numNorm net b (decompose la a1 a2).a1q (decompose la a1 a2).a2q = .ok n →
    ClearUpdate sgn la fo rep cfg bD_le (decompose la a1 a2).a1r (decompose la a1 a2).a2r n gate

theorem numTensorUpdate_turn (hs : ∀ a : 𝕜, star a = a) (la la' : Lapack 𝕜) (hla : sgn = true → Triangular ord la ∧ Triangular ord la')
    (fo : Als.FloatOps F) (rep : ℝ → F) (cfg : Settings F) (hm : EvenSolver sgn cfg.als_method cfg.als_epsilon)
    (hcut : 0 < cfg.positive_approx_cutoff) {Φ : ℤ × ℤ → Matrix (Fin pD × Fin pD) (Fin pD × Fin pD) 𝕜}
    {G : ℤ × ℤ → Fin 4 → Matrix (Fin bD) (Fin bD) 𝕜} (hG : ∀ p k, Allowed sgn (G p k))
    (hR : Related (ScalarMap.id 𝕜) Φ (fun p k => ketBra (G p k)) ℓ net net') (n1 : NormalNet net) (n2 : NormalNet net') (hM : Mirror net)
    (p : ℤ × ℤ) (K : Fin 4) (hj : G (p + dir K) (K + 2) = (G p K).map star) {U V : Matrix (Fin pD) (Fin pD) 𝕜} (hU : Allowed sgn U)
    (hV : Allowed sgn V) {gate gate' : Fin pD → Fin pD → Fin pD → Fin pD → 𝕜} (hg : TurnedOp2 (ScalarMap.id 𝕜) U V gate gate')
    {a1 a1' a2 a2' : ATensor (Fin bD) (Fin pD) 𝕜}
    (r1 : TenRel (ScalarMap.id 𝕜) 1 (G p K) (G p (K + 1)) (G p (K + 2)) (G p (K + 3)) U a1 a1')
    (r2 : TenRel (ScalarMap.id 𝕜) 1 (G (p + dir K) K) (G (p + dir K) (K + 1)) (G (p + dir K) (K + 2)) (G (p + dir K) (K + 3)) V a2 a2')
    (hc : ClearBond ord sgn la fo rep cfg gate net ⟨cellSite net.nx net.ny p, cellSite net.nx net.ny (p + dir K), K.val⟩ a1 a2) :
    ∃ Z : Matrix (Fin bD) (Fin bD) 𝕜, Allowed sgn Z ∧ AlikeO (fun q q' =>
        TenRel (ScalarMap.id 𝕜) 1 Z (G p (K + 1)) (G p (K + 2)) (G p (K + 3)) U q.1 q'.1 ∧
        TenRel (ScalarMap.id 𝕜) 1 (G (p + dir K) K) (G (p + dir K) (K + 1)) Z (G (p + dir K) (K + 3)) V q.2 q'.2)
      (numTensorUpdate la fo rep cfg net ⟨cellSite net.nx net.ny p, cellSite net.nx net.ny (p + dir K), K.val⟩ gate a1 a2)
      (numTensorUpdate la' fo rep cfg net' ⟨cellSite net.nx net.ny p, cellSite net.nx net.ny (p + dir K), K.val⟩ gate' a1' a2') := by
  obtain ⟨W, T, hW, hT, q1, s1, q2, s2⟩ := decompose_turn hs la la' hla (hG p K) (hG _ _).unit (hG _ _).unit (hG _ _).unit
    (hG _ _).unit (hG _ _).unit (hG (p + dir K) (K + 2)) (hG _ _).unit hU hV r1 r2 hc.split1 hc.split2
  obtain ⟨n, n', hn, hn', hN⟩ := norm_turn hs hR n1 n2 p K q1 q2
  have hH := norm_herm hM p K _ _ hn
  have hZ : (G p K).map star = G p K := by
    ext i j
    exact hs _
  rw [hj, hZ] at s2
  obtain ⟨Z, hZ, hA⟩ := updateReduced_turn hs la la' hla fo rep cfg hm hcut bD_le hW hT hU.unit hV.unit (hG p K).unit s1 s2 hg hN hH
    (hc.update n hn)
  refine ⟨Z, hZ, ?_⟩
  unfold numTensorUpdate
  dsimp only
  rw [hn, hn']
  dsimp only
  generalize updateReduced la fo rep cfg _ (decompose la a1 a2).a1r (decompose la a1 a2).a2r n gate = x at hA ⊢
  generalize updateReduced la' fo rep cfg _ (decompose la' a1' a2').a1r (decompose la' a1' a2').a2r n' gate' = y at hA ⊢
  cases x with
  | none => cases y with
    | none => trivial
    | some y => exact hA.elim
  | some x => cases y with
    | none => exact hA.elim
    | some y =>
      have hA : Alike _ x y := hA
      refine Alike.bind hA fun q q' hq => ?_
      exact ⟨normalise_turn hZ.unit (hG _ _).unit (hG _ _).unit (hG _ _).unit hU.unit (recompose1_turn hs hW.unit q1 hq.1),
        normalise_turn (hG _ _).unit (hG _ _).unit hZ.unit (hG _ _).unit hV.unit (recompose2_turn hs hT.unit q2 hq.2)⟩

end bond

end AceTN
