import Verif.Lemmas.GateMean
import Verif.Lemmas.SmallGate
import Verif.Props.MeanTheory
import Verif.Props.SimpleUpdate
import Verif.Props.GateExp

/-!
C112: bond updates that truncate optimally never lower the expectation value of the gate.
-/

set_option autoImplicit false
set_option linter.unusedSectionVars false

namespace AceTN

open Matrix Spec Full Session

/-! ### Pairs of tensors -/

section pairs

variable {𝕜 : Type} [RCLike 𝕜] {B P : Type} [Fintype B] [Fintype P] [DecidableEq P]

/-- The expectation value of an operator of two sites in a two-site tensor whose outer legs are summed over, in the convention in which gates
are applied and operators are measured (C72). -/
noncomputable def Spec.pairMean (G : Matrix (P × P) (P × P) 𝕜) (T : B → B → B → B → B → B → P → P → 𝕜) : ℝ :=
  RCLike.re (∑ r, ∑ d, ∑ u, ∑ d', ∑ l', ∑ u', ∑ p, ∑ q, (∑ p', ∑ q', T u r d l' u' d' p' q' * G (p', q') (p, q)) * star (T u r d l' u' d' p q)) / normSq8 T

/-- The two-site tensor as a matrix from the outer legs to the physical ones. -/
def outerMat (T : B → B → B → B → B → B → P → P → 𝕜) : Matrix (B × B × B × B × B × B) (P × P) 𝕜 :=
  fun i j => T i.2.2.1 i.1 i.2.1 i.2.2.2.2.1 i.2.2.2.2.2 i.2.2.2.1 j.1 j.2

theorem frobSq_outerMat (T : B → B → B → B → B → B → P → P → 𝕜) : frobSq (outerMat T) = normSq8 T := by
  rw [normSq8_inner]
  unfold frobSq outerMat
  simp only [Fintype.sum_prod_type]

theorem outerMat_gated (G : Matrix (P × P) (P × P) 𝕜) (T : B → B → B → B → B → B → P → P → 𝕜) :
    outerMat (gated (fun p q r s => G (p, q) (r, s)) T) = outerMat T * G := by
  ext i j
  simp only [outerMat, gated, Matrix.mul_apply, Fintype.sum_prod_type]

theorem frobSq_mul_root {O Q : Type} [Fintype O] [Fintype Q] [DecidableEq Q] (S : Matrix Q Q 𝕜) (hS : S.IsHermitian) (X : Matrix O Q 𝕜) :
    frobSq (X * S) = RCLike.re (∑ o, ∑ q, (X * (S * S)) o q * star (X o q)) := by
  have h := rightMul_symm S hS (flatE X) (flatE (X * S))
  rw [rightMul_flatE, rightMul_flatE, inner_self_eq_norm_sq_to_K, Matrix.mul_assoc] at h
  rw [← flatE_norm]
  have h2 : (inner 𝕜 (flatE X) (flatE (X * (S * S))) : 𝕜) = ∑ o, ∑ q, (X * (S * S)) o q * star (X o q) := by
    rw [PiLp.inner_apply, Fintype.sum_prod_type]
    rfl
  rw [← h2, ← h, ← RCLike.ofReal_pow, RCLike.ofReal_re]

theorem pairMean_root (S : Matrix (P × P) (P × P) 𝕜) (hS : S.IsHermitian) (T : B → B → B → B → B → B → P → P → 𝕜) :
    pairMean (S * S) T = frobSq (outerMat T * S) / frobSq (outerMat T) := by
  rw [frobSq_mul_root S hS, ← outerMat_gated, frobSq_outerMat]
  unfold pairMean
  simp only [Fintype.sum_prod_type]
  rfl

/-- A best approximation of a pair after a positive gate by a pair with the same bond dimension. -/
theorem bestBond_mean (S : Matrix (P × P) (P × P) 𝕜) (hS : S.IsHermitian) (hu : IsUnit S) (x y : ATensor B P 𝕜) (h0 : twoSite x y ≠ 0)
    (T' : B → B → B → B → B → B → P → P → 𝕜) (c : ℝ) (h : BestBond (gated (fun p q r s => (S * S) (p, q) (r, s)) (twoSite x y)) T' c) :
    T' ≠ 0 ∧ pairMean (S * S) (twoSite x y) ≤ pairMean (S * S) T' ∧
      (pairMean (S * S) (twoSite x y) = pairMean (S * S) T' → ∃ a : 𝕜, T' = a • twoSite x y) := by
  have inj : ∀ T U : B → B → B → B → B → B → P → P → 𝕜, outerMat T = outerMat U → T = U := by
    intro T U e
    funext u r d l' u' d' p q
    exact congrFun (congrFun e (r, d, u, d', l', u')) (p, q)
  have hX : outerMat (twoSite x y) ≠ 0 := fun e => h0 (inj _ _ e)
  have hb : ∀ t : 𝕜, frobSq (outerMat (twoSite x y) * (S * S) - (c : 𝕜) • outerMat T') ≤
      frobSq (outerMat (twoSite x y) * (S * S) - t • outerMat (twoSite x y)) := by
    intro t
    have h1 := h.2 (t • x) y
    rw [← frobSq_outerMat, ← frobSq_outerMat] at h1
    rw [← outerMat_gated]
    refine h1.trans (le_of_eq (congrArg frobSq ?_))
    ext i j
    simp only [outerMat, Matrix.sub_apply, Matrix.smul_apply, smul_eq_mul, twoSite, Pi.smul_apply, Finset.mul_sum, mul_assoc]
  obtain ⟨k1, k2, k3⟩ := mean_step_matrix S hS hu _ _ hX (c : 𝕜) hb
  rw [pairMean_root S hS, pairMean_root S hS]
  refine ⟨fun e => k1 (by rw [e]; rfl), k2, fun e => ?_⟩
  obtain ⟨a, ha⟩ := k3 e
  exact ⟨a, inj _ _ ha⟩

/-- The square root of a gate. -/
theorem gate_root {n : Type} [Fintype n] [DecidableEq n] (H : Matrix n n 𝕜) (hH : H.IsHermitian) (dtau : ℝ) :
    ∃ S : Matrix n n 𝕜, S.IsHermitian ∧ IsUnit S ∧ calculateGate H dtau = S * S :=
  ⟨calculateGate H (dtau / 2), calculateGate_isHermitian hH _, Matrix.isUnit_exp _, by rw [calculateGate_add, add_halves]⟩

end pairs

/-! ### The simple update -/

section simple

open Simple

variable {𝕜 : Type} [RCLike 𝕜] {bD : ℕ} {P : Type} [Fintype P] [DecidableEq P] [Nonempty P] [NeZero bD]

/-- **C112 (simple update).** All bond dimensions, real and complex tensors, models with Hermitian terms, time steps of either sign, weights of at least
`1e-12` around the bond: the update returns tensors whose expectation value of the gate `exp(-dtau h)`, in the weights around the bond, is at
least that of the old ones.  It is larger unless the pair of tensors has not changed but for a factor. -/
theorem C112_simple (la : Lapack 𝕜) (lt : LambdaTensors (Weight bD)) (m : ModelTerms P 𝕜) (hm : m.Hermitian) (dtau : ℝ) (b : Bond)
    (a1 a2 : ATensor (Fin bD) P 𝕜) (W1 W2 : ℕ → Weight bD) (hW1 : Weights lt b.s1 W1) (hW2 : Weights lt b.s2 W2) (hs1 : Strippable W1 b.k)
    (hs2 : Strippable W2 ((b.k + 2) % 4)) (h0 : bondState W1 W2 b.k a1 a2 ≠ 0) :
    ∃ b1 b2 lambda, bondTensors la lt none (twoSiteGate m dtau b) b a1 a2 = .ok (b1, b2, lambda) ∧ bondState W1 W2 b.k b1 b2 ≠ 0 ∧
      pairMean (calculateGate (bondHam m b) dtau) (bondState W1 W2 b.k a1 a2) ≤ pairMean (calculateGate (bondHam m b) dtau) (bondState W1 W2 b.k b1 b2) ∧
      (pairMean (calculateGate (bondHam m b) dtau) (bondState W1 W2 b.k a1 a2) =
        pairMean (calculateGate (bondHam m b) dtau) (bondState W1 W2 b.k b1 b2) → ∃ a : 𝕜, bondState W1 W2 b.k b1 b2 = a • bondState W1 W2 b.k a1 a2) := by
  obtain ⟨b1, b2, lambda, h1, -, c, hc⟩ := C40_partial la lt (twoSiteGate m dtau b) b a1 a2 W1 W2 hW1 hW2 hs1 hs2 (gated_ne_zero_of m dtau b _ h0)
  obtain ⟨S, hS, hu, e⟩ := gate_root (bondHam m b) (bondHam_isHermitian m hm b) dtau
  refine ⟨b1, b2, lambda, h1, ?_⟩
  have hg : twoSiteGate m dtau b = fun p q r s => (S * S) (p, q) (r, s) := by
    rw [← e]
    rfl
  rw [hg] at hc
  rw [e]
  exact bestBond_mean S hS hu _ _ h0 _ c hc

/-- Non-vacuity: bond dimension two, weights that are not one, and a pair that is not zero, for all Hermitian models. -/
example (la : Lapack ℝ) (m : ModelTerms (Fin 2) ℝ) (hm : m.Hermitian) (dtau : ℝ) : ∃ b1 b2 lambda,
    bondTensors la (LambdaTensors.init (buildBondList 1 1) (⟨false, fun _ => 1 / 2⟩ : Weight 2)) none
      (twoSiteGate m dtau ⟨(0, 0), (0, 0), 2⟩) ⟨(0, 0), (0, 0), 2⟩ (fun _ _ _ _ _ => 1) (fun _ _ _ _ _ => 1) = .ok (b1, b2, lambda) := by
  have hs : ∀ ex, Strippable (fun _ => (⟨false, fun _ => 1 / 2⟩ : Weight 2)) ex := fun ex d _ _ => ⟨rfl, fun _ => by norm_num⟩
  obtain ⟨b1, b2, lambda, h1, -⟩ := C112_simple la _ m hm dtau ⟨(0, 0), (0, 0), 2⟩ (fun _ _ _ _ _ => 1) (fun _ _ _ _ _ => 1) _ _ (uniform_weights _)
    (uniform_weights _) (hs _) (hs _) (by
      intro h0
      have := congrFun (congrFun (congrFun (congrFun (congrFun (congrFun (congrFun (congrFun h0 0) 0) 0) 0) 0) 0) 0) 0
      simp [bondState, twoSite, weighted, legWeight, bondPermute] at this)
  exact ⟨b1, b2, lambda, h1⟩

end simple

/-! ### Bond dimension one -/

section mean

variable {F : Type} {pD nx ny : ℕ} [NeZero pD]

theorem meanStep_mean {P : Type} [Fintype P] [DecidableEq P] (H : Matrix (P × P) (P × P) ℝ) (hH : H.IsHermitian) (dtau : ℝ) {b : Bond} {v v' : Site → P → ℝ}
    (h : MeanStep nx ny (fun p q r s => calculateGate H dtau (p, q) (r, s)) b v v') (h1 : v b.s1 ≠ 0) (h2 : v b.s2 ≠ 0) :
    qform (calculateGate H dtau)ᵀ (fun p : P × P => v b.s1 p.1 * v b.s2 p.2) / normSq (fun p : P × P => v b.s1 p.1 * v b.s2 p.2) ≤
        qform (calculateGate H dtau)ᵀ (fun p : P × P => v' b.s1 p.1 * v' b.s2 p.2) / normSq (fun p : P × P => v' b.s1 p.1 * v' b.s2 p.2) ∧
      (qform (calculateGate H dtau)ᵀ (fun p : P × P => v b.s1 p.1 * v b.s2 p.2) / normSq (fun p : P × P => v b.s1 p.1 * v b.s2 p.2) =
        qform (calculateGate H dtau)ᵀ (fun p : P × P => v' b.s1 p.1 * v' b.s2 p.2) / normSq (fun p : P × P => v' b.s1 p.1 * v' b.s2 p.2) →
        ∃ a : ℝ, ∀ p q, v' b.s1 p * v' b.s2 q = a * (v b.s1 p * v b.s2 q)) := by
  obtain ⟨S, hS, hu, e⟩ := gate_root H hH dtau
  let row : (P × P → ℝ) → Matrix Unit (P × P) ℝ := fun w _ i => w i
  have val : ∀ w : P × P → ℝ, qform (S * S)ᵀ w / normSq w = frobSq (row w * S) / frobSq (row w) := by
    intro w
    rw [frobSq_mul_root S hS]
    congr 1
    · simp only [qform, Finset.univ_unique, Finset.sum_singleton, RCLike.re_to_real, star_trivial, row, Matrix.mul_apply (M := fun _ i => w i), Matrix.transpose_apply,
        Finset.sum_mul]
      exact Finset.sum_congr rfl fun i _ => Finset.sum_congr rfl fun j _ => by ring
    · simp only [normSq, frobSq, Finset.univ_unique, Finset.sum_singleton, row]
  obtain ⟨⟨κ, hκ, hb⟩, -⟩ := h
  have hb' : ∀ t : ℝ, frobSq (row (fun p => v b.s1 p.1 * v b.s2 p.2) * (S * S) - κ • row fun p => v' b.s1 p.1 * v' b.s2 p.2) ≤
      frobSq (row (fun p => v b.s1 p.1 * v b.s2 p.2) * (S * S) - t • row fun p => v b.s1 p.1 * v b.s2 p.2) := by
    intro t
    have h3 := hb (t • v b.s1) (v b.s2)
    rw [e] at h3
    have key : ∀ w : P × P → ℝ, frobSq (row (fun p => v b.s1 p.1 * v b.s2 p.2) * (S * S) - row w) =
        ∑ p, ∑ q, (pairAfter (fun p q r s => (S * S) (p, q) (r, s)) (v b.s1) (v b.s2) p q - w (p, q)) ^ 2 := by
      intro w
      simp only [frobSq, Finset.univ_unique, Finset.sum_singleton, Fintype.sum_prod_type, Real.norm_eq_abs, sq_abs]
      refine Finset.sum_congr rfl fun p _ => Finset.sum_congr rfl fun q _ => ?_
      rw [Matrix.sub_apply, Matrix.mul_apply, Fintype.sum_prod_type]
      rfl
    have e1 := key fun p => κ * (v' b.s1 p.1 * v' b.s2 p.2)
    have e2 := key fun p => t * (v b.s1 p.1 * v b.s2 p.2)
    refine (le_of_eq e1).trans (le_trans ?_ (le_of_eq e2.symm))
    refine h3.trans (le_of_eq ?_)
    simp only [Pi.smul_apply, smul_eq_mul, mul_assoc]
  have hX : row (fun p => v b.s1 p.1 * v b.s2 p.2) ≠ 0 := by
    intro h0
    obtain ⟨p, hp⟩ := Function.ne_iff.1 h1
    obtain ⟨q, hq⟩ := Function.ne_iff.1 h2
    exact mul_ne_zero hp hq (congrFun (congrFun h0 ()) (p, q))
  obtain ⟨-, k2, k3⟩ := mean_step_matrix S hS hu _ _ hX κ hb'
  rw [e, val, val]
  refine ⟨k2, fun h => ?_⟩
  obtain ⟨a, ha⟩ := k3 h
  exact ⟨a, fun p q => congrFun (congrFun ha ()) (p, q)⟩

/-- The vectors of the sites of a network are not zero. -/
theorem MeanNet.vec_ne {net : Net (Ten (Fin 1) (Fin pD) ℝ)} (h : MeanNet nx ny net) {x : Site} (hx : InCell nx ny x) : netVec net x ≠ 0 := by
  obtain ⟨a, ha, hne⟩ := h.site hx
  intro h0
  apply hne
  funext l u r d p
  have := congrFun h0 p
  unfold netVec siteVec siteTensors at this
  rw [bare_A ha] at this
  simp only [Subsingleton.elim _ (0 : Fin 1)]
  exact this

/-- Its measured values on bonds. -/
theorem MeanNet.bondVal (hx : 2 ≤ nx) (hy : 2 ≤ ny) {net : Net (Ten (Fin 1) (Fin pD) ℝ)} (h : MeanNet nx ny net) {b : Bond} (hb : b ∈ buildBondList nx ny)
    (init : Fin pD → Fin pD → Fin pD → Fin pD → ℝ) (O : Matrix (Fin pD × Fin pD) (Fin pD × Fin pD) ℝ) :
    Session.bondVal init net b (fun k1 k2 b1 b2 => O (k1, k2) (b1, b2)) =
      .ok (qform Oᵀ (fun p => netVec net b.s1 p.1 * netVec net b.s2 p.2) / normSq fun p : Fin pD × Fin pD => netVec net b.s1 p.1 * netVec net b.s2 p.2) := by
  obtain ⟨hs, hk, e2⟩ := ((C02_bond_list nx ny).2.2 b).1 hb
  obtain ⟨-, h2⟩ := C68_values _ _ (h.rdms (by omega) (by omega)) b.s1 hs
  have hk4 : b.k < 4 := by omega
  obtain ⟨r, er, h3⟩ := h2 ⟨b.k, hk4⟩ init
  have eb : b = ⟨b.s1, neighbour nx ny b.s1 b.k, b.k⟩ := by
    rw [← e2]
  unfold Session.bondVal
  rw [eb]
  dsimp only at er h3 ⊢
  rw [er]
  exact congrArg Except.ok (h3 O)

/-- What a step does to the measured value of its gate. -/
theorem MeanNet.gate_value (hx : 2 ≤ nx) (hy : 2 ≤ ny) {net net' : Net (Ten (Fin 1) (Fin pD) ℝ)} (h : MeanNet nx ny net) (h' : MeanNet nx ny net')
    {b : Bond} (hb : b ∈ buildBondList nx ny) (m : ModelTerms (Fin pD) ℝ) (hm : m.Hermitian) (dtau : ℝ)
    (hs : MeanStep nx ny (twoSiteGate m dtau b) b (netVec net) (netVec net')) (init init' : Fin pD → Fin pD → Fin pD → Fin pD → ℝ) :
    ∃ x y, Session.bondVal init net b (twoSiteGate m dtau b) = .ok x ∧ Session.bondVal init' net' b (twoSiteGate m dtau b) = .ok y ∧ x ≤ y ∧
      (x = y → ∃ a : ℝ, ∀ p q, netVec net' b.s1 p * netVec net' b.s2 q = a * (netVec net b.s1 p * netVec net b.s2 q)) := by
  obtain ⟨c1, c2⟩ := C02_bond_ends_in_cell nx ny b hb
  rw [mem_buildSiteList] at c1 c2
  obtain ⟨k1, k2⟩ := meanStep_mean (bondHam m b) (bondHam_isHermitian m hm b) dtau hs (h.vec_ne c1) (h.vec_ne c2)
  exact ⟨_, _, h.bondVal hx hy hb init _, h'.bondVal hx hy hb init' _, k1, k2⟩

variable (hx : 2 ≤ nx) (hy : 2 ≤ ny) (M : Machine F 1 ℝ) (hM : M.cx = false) (hω : DrawsNonzero M.ω)

include hx hy hω

/-- **C112 (full update).** Real dtype, bond dimension one, models with Hermitian terms, cells from 2 × 2: after any script of calls, a bond update of
the full update does not raise, and the value of the gate `exp(-dtau h)` measured on the bond after it is at least the one measured before it.  It
is larger unless the pair of sites is in the same state as before. -/
theorem C112_full (hM : M.cx = false) {chi : ℕ} (hchi : 0 < chi) (A : Site → ATensor (Fin 1) (Fin pD) ℝ) (hA : ∀ s, InCell nx ny s → A s ≠ 0)
    (cs : List (Call F 1 pD ℝ)) (hcs : ∀ c ∈ cs, Sensible nx ny c) (c : Config F) (hc : CutsBelowOne c) (hu : SolvableUpdate c.update) (kind : Set.SvdKind)
    (pk : ProjKind) (m : ModelTerms (Fin pD) ℝ) (hm : m.Hermitian) (dtau : ℝ) (b : Bond) (hb : b ∈ buildBondList nx ny)
    (init init' : Fin pD → Fin pD → Fin pD → Fin pD → ℝ) :
    let s := runCatching M cs (new nx ny chi A)
    let r := fullBondStep (c.proj M kind) pk M.ω M.la M.fo M.rep c.update none (twoSiteGate m dtau) (s.net, s.moves) b
    let v := siteVec (siteTensors (bare s.net))
    let v' := siteVec (siteTensors (bare r.1.1))
    r.2 = none ∧ ∃ x y, bondVal init s.net b (twoSiteGate m dtau b) = .ok x ∧ bondVal init' r.1.1 b (twoSiteGate m dtau b) = .ok y ∧ x ≤ y ∧
      (x = y → ∃ a : ℝ, ∀ p q, v' b.s1 p * v' b.s2 q = a * (v b.s1 p * v b.s2 q)) := by
  intro s r v v'
  have hs : MeanState nx ny s := mean_run hx hy M hM hω cs hcs _ (mean_new (by omega) (by omega) hchi A hA)
  obtain ⟨u1, u2, u3⟩ := hu
  obtain ⟨g1, g2, g3⟩ := MeanNet.fullStep_mean (st := c.proj M kind) (pk := pk) hc.1 hc.2 hω hx hy M.la M.fo M.rep c.update u1 u2 u3 m dtau
    (s.net, s.moves) hs.1 hb
  exact ⟨g2, hs.1.gate_value hx hy g1 hb m hm dtau g3 init init'⟩

/-- **C112 (simple update, bond dimension one).** The same for the simple update, here too in terms of the values measured. -/
theorem C112_simple_measured (hM : M.cx = false) {chi : ℕ} (hchi : 0 < chi) (A : Site → ATensor (Fin 1) (Fin pD) ℝ) (hA : ∀ s, InCell nx ny s → A s ≠ 0)
    (cs : List (Call F 1 pD ℝ)) (hcs : ∀ c ∈ cs, Sensible nx ny c) (m : ModelTerms (Fin pD) ℝ) (hm : m.Hermitian) (dtau : ℝ) (b : Bond)
    (hb : b ∈ buildBondList nx ny) (init init' : Fin pD → Fin pD → Fin pD → Fin pD → ℝ) :
    let s := runCatching M cs (new nx ny chi A)
    let r := Simple.numBondStep M.la (twoSiteGate m dtau) (s.net, LambdaTensors.init s.bonds (Simple.ones 1 M.cx)) b
    let v := siteVec (siteTensors (bare s.net))
    let v' := siteVec (siteTensors (bare r.1.1))
    r.2 = none ∧ ∃ x y, bondVal init s.net b (twoSiteGate m dtau b) = .ok x ∧ bondVal init' r.1.1 b (twoSiteGate m dtau b) = .ok y ∧ x ≤ y ∧
      (x = y → ∃ a : ℝ, ∀ p q, v' b.s1 p * v' b.s2 q = a * (v b.s1 p * v b.s2 q)) := by
  intro s r v v'
  have hs : MeanState nx ny s := mean_run hx hy M hM hω cs hcs _ (mean_new (by omega) (by omega) hchi A hA)
  have ht : AllOnes nx ny (LambdaTensors.init s.bonds (Simple.ones 1 M.cx)) := by
    refine ⟨⟨s.bonds, _, [], hs.sound.perm, rfl⟩, fun x hs' d hd w hw => ?_⟩
    obtain ⟨b, ⟨hb, hE⟩, -⟩ := C03_unique_bond_per_side nx ny x hs' d hd
    have h' := C03_weight_lookup nx ny s.bonds hs.sound.perm (Simple.ones 1 M.cx) [] x hs' d hd b hb hE
    rw [hM] at h' hw
    exact (Except.ok.inj (h'.symm.trans hw)).symm
  obtain ⟨g1, -, g3, g4⟩ := MeanNet.simpleStep_mean hx hy M.la m dtau (s.net, LambdaTensors.init s.bonds (Simple.ones 1 M.cx)) hs.1 ht hb
  exact ⟨g3, hs.1.gate_value hx hy g1 hb m hm dtau g4 init init'⟩

omit hx hy hω in
/-- Non-vacuity: the script of C110, which ends with simple updates, and then a full update of the first bond. -/
example (hx : 2 ≤ nx) (hy : 2 ≤ ny) (la : Lapack ℝ) (fo : Als.FloatOps ℝ) (n : ℕ) (dtau : ℝ) (m : ModelTerms (Fin 2) ℝ) (hm : m.Hermitian)
    (init : Fin 2 → Fin 2 → Fin 2 → Fin 2 → ℝ) :
    let s := runCatching (⟨la, fo, id, fun _ _ _ _ _ _ _ => 1, false⟩ : Machine ℝ 1 ℝ) (exampleScript "rsvd" .cholesky 4 n dtau m m)
      (new nx ny 3 fun s => (plusNet s).A)
    ∃ x, bondVal init s.net ⟨(0, 0), neighbour nx ny (0, 0) 2, 2⟩ (twoSiteGate m dtau ⟨(0, 0), neighbour nx ny (0, 0) 2, 2⟩) = .ok x := by
  intro s
  obtain ⟨-, x, -, h, -⟩ := C112_full hx hy (⟨la, fo, id, fun _ _ _ _ _ _ _ => 1, false⟩ : Machine ℝ 1 ℝ) ones_drawn rfl (Nat.succ_pos 2) _
    (fun s _ => plusNet_ne s) _ (fun c hc => (exampleScript_ok "rsvd" .cholesky 4 n dtau m m c hc).1) (exampleConfig "rsvd" "full" .cholesky)
    (exampleConfig_ok _ _ _).1 (exampleConfig_ok _ _ _).2 .fullRank .half m hm dtau ⟨(0, 0), neighbour nx ny (0, 0) 2, 2⟩
    (((C02_bond_list nx ny).2.2 _).2 ⟨⟨by show 0 < nx; omega, by show 0 < ny; omega⟩, Or.inl rfl, rfl⟩) init init
  exact ⟨x, h⟩

end mean

end AceTN
