import Verif.Lemmas.AlsExact
import Verif.Props.TensorUpdate

/-! C39: a full update of a bond is exact when nothing has to be truncated. -/

set_option autoImplicit false

namespace AceTN

open Full Matrix Spec SumTac

variable {𝕜 : Type} [RCLike 𝕜] {F : Type}

section reduced

variable {N P Z : Type} [Fintype N] [Fintype P] [Fintype Z] [DecidableEq N] [DecidableEq P] [DecidableEq Z] {bD : ℕ}

omit [Fintype P] [DecidableEq P] in
theorem gaugeFix_n12 (la : Lapack 𝕜) (atol : ℝ) (nz : N → N → Z → 𝕜) (a12g : N → N → P → P → 𝕜) :
    (gaugeFix la atol nz a12g).n12 =
      squareNorm (gaugedRoot nz (la.pinv atol (nzxrOf la nz)) (la.pinv atol (nzyrOf la nz))) := by
  set ry := nzyrOf la nz with hry
  set rx := nzxrOf la nz with hrx
  set ty := la.pinv atol ry with hty
  set tx := la.pinv atol rx with htx
  funext v w V W
  unfold gaugeFix squareNorm gaugedRoot
  dsimp only
  simp only [← hry, ← hrx, ← hty, ← htx]
  einsum_ring

omit [DecidableEq N] [DecidableEq Z] [Fintype Z] in
theorem gaugedRoot_inj {W : Type} [Fintype W] [DecidableEq W] (nz : N → N → Z → 𝕜) (hnz : RootInj nz)
    (rx ry : Matrix W N 𝕜) (tx ty : Matrix N W 𝕜) (hx : rx * tx = 1) (hy : ry * ty = 1) :
    RootInj (gaugedRoot nz tx ty) := by
  intro ψ hψ
  have h1 := hnz (fun i => ∑ v, ∑ w, ty i.1 v * tx i.2 w * ψ (v, w)) fun z => by
    rw [← hψ z]
    have key : ∀ φ : W → W → 𝕜, (∑ y, ∑ x, nz y x z * ∑ v, ∑ w, ty y v * tx x w * φ v w) =
        ∑ v, ∑ w, (gaugedRoot nz tx ty) v w z * φ v w := by
      intro φ
      unfold gaugedRoot
      einsum_ring
    exact key fun v w => ψ (v, w)
  funext ⟨v₀, w₀⟩
  have key : ∀ φ : W → W → 𝕜, (∑ y, ∑ x, ry v₀ y * rx w₀ x * ∑ v, ∑ w, ty y v * tx x w * φ v w) =
      ∑ v, ∑ w, (∑ y, ry v₀ y * ty y v) * (∑ x, rx w₀ x * tx x w) * φ v w := by
    intro φ
    einsum_ring
  have h2 := key fun v w => ψ (v, w)
  have h3 : ∀ y x, (∑ v, ∑ w, ty y v * tx x w * ψ (v, w)) = 0 := fun y x => congrFun h1 (y, x)
  simp only [h3, mul_zero, Finset.sum_const_zero, ← mul_apply, hx, hy, one_apply] at h2
  rw [Finset.sum_eq_single v₀ (fun a _ ha => by simp [Ne.symm ha]) (by simp),
    Finset.sum_eq_single w₀ (fun a _ ha => by simp [Ne.symm ha]) (by simp)] at h2
  simpa using h2.symm

omit [Fintype P] [DecidableEq P] in
/-- The gauge-fixed target fits if the target does. -/
theorem gaugeFix_fits (la : Lapack 𝕜) (atol : ℝ) (nz : N → N → Z → 𝕜) (b1 b2 : N → Fin bD → P → 𝕜) :
    pairProd (fun w u p => ∑ y, nzyrOf la nz w y * b1 y u p) (fun w u p => ∑ y, nzxrOf la nz w y * b2 y u p) =
      (gaugeFix la atol nz (pairProd b1 b2)).a12g := by
  funext v₀ w₀ p q
  set ry := nzyrOf la nz with hry
  set rx := nzxrOf la nz with hrx
  unfold gaugeFix pairProd
  dsimp only
  simp only [← hry, ← hrx]
  einsum_ring

omit [Fintype N] [DecidableEq N] [DecidableEq P] [Fintype P] in
theorem pairProd_undo {W : Type} [Fintype W] (ty tx : N → W → 𝕜)
    (p : (W → Fin bD → P → 𝕜) × (W → Fin bD → P → 𝕜)) (y x : N) (q q' : P) :
    pairProd (undoGauge ty tx p).1 (undoGauge ty tx p).2 y x q q' =
      ∑ v, ∑ w, ty y v * tx x w * pairProd p.1 p.2 v w q q' := by
  unfold pairProd undoGauge
  dsimp only
  einsum_ring

/-- Finalising a proportional pair keeps it proportional. -/
theorem finalize_proportional (la : Lapack 𝕜)
    (hb : bD ≤ min (Fintype.card (Fin (qD N P bD))) (Fintype.card (Fin (qD N P bD))))
    (a12g : N → N → P → P → 𝕜) (hne : a12g ≠ 0) (p : (N → Fin bD → P → 𝕜) × (N → Fin bD → P → 𝕜))
    (h : Proportional a12g p) : Proportional a12g (finalizeCore la hb p.1 p.2) := by
  obtain ⟨c, hc, h⟩ := h
  have hc' : (c : 𝕜) ≠ 0 := by exact_mod_cast hc.ne'
  have hne' : pairProd p.1 p.2 ≠ 0 := by
    intro h0
    apply hne
    funext y x q q'
    have h1 := h y x q q'
    rw [h0] at h1
    exact (mul_eq_zero.1 h1.symm).resolve_left hc'
  obtain ⟨hpos, hprod, -⟩ := C38_finalize la hb p.1 p.2 hne'
  refine ⟨(Real.sqrt (normSq4 (pairProd p.1 p.2)))⁻¹ * c, mul_pos (inv_pos.2 (Real.sqrt_pos.2 hpos)) hc,
    fun y x q q' => ?_⟩
  rw [hprod, h, RCLike.ofReal_mul, mul_assoc]

/-- The reduced update, real dtypes: if the gate-applied tensor fits and does not vanish, the product of the new reduced
tensors is a positive multiple of it. -/
theorem updateReduced_exact [Nonempty N] (la : Lapack ℝ) (fo : Als.FloatOps F) (rep : ℝ → F) (cfg : Settings F)
    (hb : bD ≤ Fintype.card (N × P)) (he : cfg.als_epsilon = 0) (hcut : 0 < cfg.positive_approx_cutoff)
    (hatol : cfg.use_gauge_fix = true → cfg.gauge_fix_atol < Real.sqrt (cfg.positive_approx_cutoff * Fintype.card N))
    (a1r a2r b1 b2 : N → Fin bD → P → ℝ) (n12 : N → N → N → N → ℝ) (gate : P → P → P → P → ℝ)
    (hfit : pairProd b1 b2 = gateReduced a1r a2r gate) (hne : gateReduced a1r a2r gate ≠ 0)
    (f : (N → Fin bD → P → ℝ) × (N → Fin bD → P → ℝ))
    (h : updateReduced la fo rep cfg hb a1r a2r n12 gate = some (.ok f)) :
    Proportional (gateReduced a1r a2r gate) f := by
  unfold updateReduced at h
  obtain ⟨nz, hnz⟩ := Option.isSome_iff_exists.1 (C33_terminates la cfg.positive_approx_cutoff 0 n12)
  have hnz : positiveApprox la 2 cfg.positive_approx_cutoff n12 = some nz := hnz
  obtain ⟨_, -, -, -, hp, -⟩ := C33_result la _ hcut.le 0 n12 nz hnz
  have hinj := rootInj_of_atLeast nz _ hcut hp
  set g := gateReduced a1r a2r gate with hg
  rw [hnz] at h
  have h := Option.some.inj h
  dsimp only at h
  by_cases hgf : cfg.use_gauge_fix = true
  · rw [if_pos hgf] at h
    obtain ⟨h1, h2, h3, h4⟩ := C34_invertible la _ _ hcut (hatol hgf) nz hp
    have hgp := (C34_gauge_fix (B := Fin bD) la _ _ hcut (hatol hgf) 0 n12 nz hnz g).2.2
    have hn := gaugeFix_n12 la cfg.gauge_fix_atol nz g
    have hinj' := gaugedRoot_inj nz hinj _ _ _ _ h4 h3
    have hfit' := gaugeFix_fits la cfg.gauge_fix_atol nz b1 b2
    rw [hfit] at hfit'
    have hne' : (gaugeFix la cfg.gauge_fix_atol nz g).a12g ≠ 0 := by
      intro h0
      apply hne
      funext y x p q
      rw [← hgp y x p q, h0]
      simp
    have hi := init_proportional la (hb_init (hb_gauge hb)) _ hne' _ _ hfit'
    cases hs : alsSolve la fo rep cfg (hb_init (hb_gauge hb)) (gaugeFix la cfg.gauge_fix_atol nz g).n12
        (gaugeFix la cfg.gauge_fix_atol nz g).a12g with
    | error e => rw [hs] at h; exact absurd h (by simp [bind, Except.bind])
    | ok p =>
      rw [hs] at h
      rw [hn] at hs
      have hpp := alsSolve_exact la fo rep cfg he _ _ hinj' _ hi p hs
      have h : (Except.ok _ : Except PyErr _) = .ok f := h
      rw [← Except.ok.inj h]
      refine finalize_proportional la _ g hne _ ?_
      obtain ⟨c, hc, hpp⟩ := hpp
      refine ⟨c, hc, fun y x q q' => ?_⟩
      rw [pairProd_undo, ← hgp y x q q', Finset.mul_sum]
      refine Finset.sum_congr rfl fun v _ => ?_
      rw [Finset.mul_sum]
      refine Finset.sum_congr rfl fun w _ => ?_
      rw [hpp]
      ring
  · rw [if_neg hgf] at h
    have hi := init_proportional la (hb_init hb) _ hne _ _ hfit
    cases hs : alsSolve la fo rep cfg (hb_init hb) (squareNorm nz) g with
    | error e => rw [hs] at h; exact absurd h (by simp [bind, Except.bind])
    | ok p =>
      rw [hs] at h
      have hpp := alsSolve_exact la fo rep cfg he _ _ hinj _ hi p hs
      have h : (Except.ok _ : Except PyErr _) = .ok f := h
      rw [← Except.ok.inj h]
      exact finalize_proportional la _ g hne _ hpp

/-- With the pseudo-inverse method the reduced update returns. -/
theorem updateReduced_total [Nonempty N] (la : Lapack 𝕜) (fo : Als.FloatOps F) (rep : ℝ → F) (cfg : Settings F)
    (hb : bD ≤ Fintype.card (N × P)) (hm : cfg.als_method = .pinv)
    (a1r a2r : N → Fin bD → P → 𝕜) (n12 : N → N → N → N → 𝕜) (gate : P → P → P → P → 𝕜) :
    ∃ f, updateReduced la fo rep cfg hb a1r a2r n12 gate = some (.ok f) := by
  unfold updateReduced
  obtain ⟨nz, hnz⟩ := Option.isSome_iff_exists.1 (C33_terminates la cfg.positive_approx_cutoff 0 n12)
  have hnz : positiveApprox la 2 cfg.positive_approx_cutoff n12 = some nz := hnz
  rw [hnz]
  dsimp only
  by_cases hgf : cfg.use_gauge_fix = true
  · obtain ⟨p, hp⟩ := alsSolve_total la fo rep cfg hm (hb_init (hb_gauge hb))
      (gaugeFix la cfg.gauge_fix_atol nz (gateReduced a1r a2r gate)).n12
      (gaugeFix la cfg.gauge_fix_atol nz (gateReduced a1r a2r gate)).a12g
    exact ⟨_, by rw [Option.map_some, if_pos hgf, hp]; rfl⟩
  · obtain ⟨p, hp⟩ := alsSolve_total la fo rep cfg hm (hb_init hb) (squareNorm nz) (gateReduced a1r a2r gate)
    exact ⟨_, by rw [Option.map_some, if_neg hgf, hp]; rfl⟩

end reduced

/-! ### The whole bond -/

section bond

variable {P X : Type} [Fintype P] [DecidableEq P] [Fintype X] {bD : ℕ}

namespace Spec

/-- The two-site tensor fits in the bond dimension. -/
def Fits (T : Fin bD → Fin bD → Fin bD → Fin bD → Fin bD → Fin bD → P → P → 𝕜) : Prop :=
  ∃ c1 c2 : Fin bD → Fin bD → Fin bD → Fin bD → P → 𝕜, twoSite c1 c2 = T

/-- Positive multiples of a two-site tensor. -/
def PosMultiple (S T : Fin bD → Fin bD → Fin bD → Fin bD → Fin bD → Fin bD → P → P → 𝕜) : Prop :=
  ∃ κ : ℝ, 0 < κ ∧ ∀ u r d l' u' d' p q, S u r d l' u' d' p q = (κ : 𝕜) * T u r d l' u' d' p q

/-- The intended statement: for all tensors, gates, networks, bonds, dimensions and settings without regularisation of
the solver (`als_epsilon = 0`; the cutoff of the norm is positive and the tolerance of the gauge fixing small enough),
if the gate-applied two-site tensor fits and is not zero, the updated tensors multiply to a positive multiple of it. -/
def FullUpdateExact (𝕜 : Type) [RCLike 𝕜] : Prop :=
  ∀ (P X F : Type) [Fintype P] [DecidableEq P] [Nonempty P] [Fintype X] (bD : ℕ) [NeZero bD] (la : Lapack 𝕜)
    (fo : Als.FloatOps F) (rep : ℝ → F) (cfg : Settings F) (ipeps : NetT (Fin bD) P X 𝕜) (s1 s2 : Site) (k : ℤ)
    (gate : P → P → P → P → 𝕜) (a1 a2 b1 b2 : Fin bD → Fin bD → Fin bD → Fin bD → P → 𝕜),
    cfg.als_epsilon = 0 → 0 < cfg.positive_approx_cutoff →
    cfg.gauge_fix_atol < Real.sqrt cfg.positive_approx_cutoff →
    Fits (gated gate (twoSite a1 a2)) → gated gate (twoSite a1 a2) ≠ 0 →
    fullTensorUpdate la fo rep cfg ipeps s1 s2 k gate a1 a2 = some (.ok (b1, b2)) →
    PosMultiple (twoSite b1 b2) (gated gate (twoSite a1 a2))

end Spec

omit [DecidableEq P] [Fintype P] in
theorem assembled_pair {N : Type} [Fintype N] (a1q a2q : Fin bD → Fin bD → Fin bD → N → 𝕜) (f1 f2 : N → Fin bD → P → 𝕜) :
    twoSite (recompose a1q f1 a2q f2).1 (recompose a1q f1 a2q f2).2 = assembled a1q a2q (pairProd f1 f2) := by
  funext u₀ r₀ d₀ l₀ u₁ d₁ p₀ q₀
  unfold twoSite recompose assembled pairProd
  dsimp only
  einsum_ring

/-- The isometric parts can be taken off. -/
theorem assembled_fits (la : Lapack 𝕜) (a1 a2 c1 c2 : ATensor (Fin bD) P 𝕜)
    (a12 : Fin (nD (Fin bD) P) → Fin (nD (Fin bD) P) → P → P → 𝕜)
    (h : twoSite c1 c2 = assembled (decompose la a1 a2).a1q (decompose la a1 a2).a2q a12) :
    ∃ b1 b2 : Fin (nD (Fin bD) P) → Fin bD → P → 𝕜, pairProd b1 b2 = a12 := by
  have hiso := C30_isometric la a1 a2
  revert h hiso
  generalize (decompose la a1 a2).a1q = q1
  generalize (decompose la a1 a2).a2q = q2
  intro h hiso
  refine ⟨fun y b p => ∑ r, ∑ d, ∑ u, star (q1 r d u y) * c1 b u r d p,
    fun x b q => ∑ d, ∑ l, ∑ u, star (q2 d l u x) * c2 l u b d q, ?_⟩
  funext y₀ x₀ p q
  have e1 : pairProd (fun y b p => ∑ r, ∑ d, ∑ u, star (q1 r d u y) * c1 b u r d p)
      (fun x b q => ∑ d, ∑ l, ∑ u, star (q2 d l u x) * c2 l u b d q) y₀ x₀ p q =
      ∑ r, ∑ d, ∑ u, ∑ d', ∑ l', ∑ u', star (q1 r d u y₀) * star (q2 d' l' u' x₀) * twoSite c1 c2 u r d l' u' d' p q := by
    unfold pairProd twoSite
    einsum_ring
  have e2 : (∑ r, ∑ d, ∑ u, ∑ d', ∑ l', ∑ u', star (q1 r d u y₀) * star (q2 d' l' u' x₀) *
      assembled q1 q2 a12 u r d l' u' d' p q) =
      ∑ y, ∑ x, (∑ r, ∑ d, ∑ u, star (q1 r d u y₀) * q1 r d u y) * (∑ d, ∑ l, ∑ u, star (q2 d l u x₀) * q2 d l u x) *
        a12 y x p q := by
    unfold assembled
    einsum_ring
  rw [e1, h, e2]
  simp only [(hiso y₀ _).1, (hiso x₀ _).2]
  rw [Finset.sum_eq_single y₀ (fun a _ ha => by simp [Ne.symm ha]) (by simp),
    Finset.sum_eq_single x₀ (fun a _ ha => by simp [Ne.symm ha]) (by simp)]
  simp

omit [DecidableEq P] in
theorem normA_pos {B : Type} [Fintype B] (a : ATensor B P 𝕜) (h : a ≠ 0) : 0 < normA a := by
  refine Real.sqrt_pos.2 ?_
  by_contra hn
  apply h
  have h0 : ∑ l, ∑ u, ∑ r, ∑ d, ∑ p, ‖a l u r d p‖ ^ 2 = 0 :=
    le_antisymm (not_lt.1 hn) (by positivity)
  funext l u r d p
  rw [Finset.sum_eq_zero_iff_of_nonneg fun _ _ => by positivity] at h0
  have h1 := h0 l (Finset.mem_univ _)
  rw [Finset.sum_eq_zero_iff_of_nonneg fun _ _ => by positivity] at h1
  have h2 := h1 u (Finset.mem_univ _)
  rw [Finset.sum_eq_zero_iff_of_nonneg fun _ _ => by positivity] at h2
  have h3 := h2 r (Finset.mem_univ _)
  rw [Finset.sum_eq_zero_iff_of_nonneg fun _ _ => by positivity] at h3
  have h4 := h3 d (Finset.mem_univ _)
  rw [Finset.sum_eq_zero_iff_of_nonneg fun _ _ => by positivity] at h4
  simpa using h4 p (Finset.mem_univ _)

omit [DecidableEq P] in
theorem twoSite_normalise (a1 a2 : ATensor (Fin bD) P 𝕜) (u r d l' u' d' : Fin bD) (p q : P) :
    twoSite (normalise a1) (normalise a2) u r d l' u' d' p q =
      (((normA a1 * normA a2)⁻¹ : ℝ) : 𝕜) * twoSite a1 a2 u r d l' u' d' p q := by
  unfold twoSite normalise
  rw [Finset.mul_sum]
  refine Finset.sum_congr rfl fun b _ => ?_
  push_cast
  rw [mul_inv]
  ring

/-- The tensors that `tensor_update` returns for any norm tensor. -/
theorem recomposed_exact {F P : Type} [Fintype P] [DecidableEq P] [Nonempty P] {bD : ℕ} [NeZero bD] (la : Lapack ℝ)
    (fo : Als.FloatOps F) (rep : ℝ → F) (cfg : Settings F)
    (n12 : Fin (nD (Fin bD) P) → Fin (nD (Fin bD) P) → Fin (nD (Fin bD) P) → Fin (nD (Fin bD) P) → ℝ)
    (gate : P → P → P → P → ℝ) (a1 a2 b1 b2 : ATensor (Fin bD) P ℝ) (he : cfg.als_epsilon = 0)
    (hcut : 0 < cfg.positive_approx_cutoff) (hatol : cfg.gauge_fix_atol < Real.sqrt cfg.positive_approx_cutoff)
    (hfits : Fits (gated gate (twoSite a1 a2))) (hne : gated gate (twoSite a1 a2) ≠ 0)
    (h : ((updateReduced la fo rep cfg bD_le (decompose la a1 a2).a1r (decompose la a1 a2).a2r n12 gate).map fun r => do
      let p ← r
      let (a1, a2) := recompose (decompose la a1 a2).a1q p.1 (decompose la a1 a2).a2q p.2
      return (normalise a1, normalise a2)) = some (Except.ok (b1, b2))) :
    ∃ κ : ℝ, 0 < κ ∧ ∀ u r d l' u' d' p q,
      twoSite b1 b2 u r d l' u' d' p q = κ * gated gate (twoSite a1 a2) u r d l' u' d' p q := by
  obtain ⟨c1, c2, hfit⟩ := hfits
  have hg := C30_gate la a1 a2 gate
  set d := decompose la a1 a2 with hd
  set g := gateReduced d.a1r d.a2r gate with hgdef
  rw [← hg] at hfit
  obtain ⟨e1, e2, hfit'⟩ := assembled_fits la a1 a2 c1 c2 g hfit
  have hgne : g ≠ 0 := by
    intro h0
    apply hne
    rw [← hg, h0]
    funext u r d l' u' d' p q
    simp [assembled]
  cases hu : updateReduced la fo rep cfg bD_le d.a1r d.a2r n12 gate with
  | none => rw [hu] at h; exact absurd h (by simp)
  | some r =>
    rw [hu] at h
    have h := Option.some.inj h
    cases r with
    | error e => exact absurd h (by simp [bind, Except.bind])
    | ok f =>
      obtain ⟨c, hc, hf⟩ := updateReduced_exact la fo rep cfg bD_le he hcut (fun _ => hatol.trans_le (by
        refine Real.sqrt_le_sqrt ?_
        have : (1 : ℝ) ≤ Fintype.card (Fin (nD (Fin bD) P)) := by
          rw [Fintype.card_fin]; exact_mod_cast nD_pos (bD := bD) (P := P)
        nlinarith)) d.a1r d.a2r e1 e2 _ gate hfit' hgne f hu
      have h : (Except.ok (normalise (recompose d.a1q f.1 d.a2q f.2).1, normalise (recompose d.a1q f.1 d.a2q f.2).2) :
        Except PyErr _) = .ok (b1, b2) := h
      have h := Except.ok.inj h
      have hb1 : b1 = normalise (recompose d.a1q f.1 d.a2q f.2).1 := (congrArg Prod.fst h).symm
      have hb2 : b2 = normalise (recompose d.a1q f.1 d.a2q f.2).2 := (congrArg Prod.snd h).symm
      have hT : ∀ u r dd l' u' d' p q, twoSite (recompose d.a1q f.1 d.a2q f.2).1 (recompose d.a1q f.1 d.a2q f.2).2
          u r dd l' u' d' p q = c * gated gate (twoSite a1 a2) u r dd l' u' d' p q := by
        intro u r dd l' u' d' p q
        rw [assembled_pair, ← hg]
        unfold assembled
        simp only [hf, Finset.mul_sum]
        refine Finset.sum_congr rfl fun y _ => Finset.sum_congr rfl fun x _ => ?_
        change _ * (c * _) = _
        ring
      have hz : ∀ a b : ATensor (Fin bD) P ℝ, (a = 0 ∨ b = 0) → (∀ u r dd l' u' d' p q, twoSite a b u r dd l' u' d' p q =
          c * gated gate (twoSite a1 a2) u r dd l' u' d' p q) → False := by
        intro a b hab hT
        apply hne
        funext u r dd l' u' d' p q
        have h1 := hT u r dd l' u' d' p q
        have h2 : twoSite a b u r dd l' u' d' p q = 0 := by
          rcases hab with rfl | rfl <;> simp [twoSite]
        rw [h2] at h1
        exact (mul_eq_zero.1 h1.symm).resolve_left hc.ne'
      have n1 := normA_pos (recompose d.a1q f.1 d.a2q f.2).1 fun h0 => hz _ _ (.inl h0) hT
      have n2 := normA_pos (recompose d.a1q f.1 d.a2q f.2).2 fun h0 => hz _ _ (.inr h0) hT
      refine ⟨(normA (recompose d.a1q f.1 d.a2q f.2).1 * normA (recompose d.a1q f.1 d.a2q f.2).2)⁻¹ * c,
        mul_pos (inv_pos.2 (mul_pos n1 n2)) hc, fun u r dd l' u' d' p q => ?_⟩
      rw [hb1, hb2, twoSite_normalise, hT]
      change _ * (c * _) = (_ * c) * _
      rw [mul_assoc]
      rfl

/-- **C39** for real dtypes without regularisation of the solver, with both linear solvers, any number of iterations and
with or without gauge fixing. -/
theorem C39_real_partial : Spec.FullUpdateExact ℝ := by
  intro P X F _ _ _ _ bD _ la fo rep cfg ipeps s1 s2 k gate a1 a2 b1 b2 he hcut hatol hfit hne h
  unfold fullTensorUpdate at h
  dsimp only at h
  exact recomposed_exact la fo rep cfg _ gate a1 a2 b1 b2 he hcut hatol hfit hne h

/-- **C39** (the update returns).  With the pseudo-inverse method a bond update always returns a pair of tensors. -/
theorem C39_returns [NeZero bD] [Nonempty P] (la : Lapack 𝕜) (fo : Als.FloatOps F) (rep : ℝ → F) (cfg : Settings F)
    (hm : cfg.als_method = .pinv) (ipeps : NetT (Fin bD) P X 𝕜) (s1 s2 : Site) (k : ℤ) (gate : P → P → P → P → 𝕜)
    (a1 a2 : ATensor (Fin bD) P 𝕜) :
    ∃ b, fullTensorUpdate la fo rep cfg ipeps s1 s2 k gate a1 a2 = some (.ok b) := by
  unfold fullTensorUpdate
  obtain ⟨f, hf⟩ := updateReduced_total la fo rep cfg bD_le hm (decompose la a1 a2).a1r (decompose la a1 a2).a2r
    (buildNormTensor ipeps s1 s2 k (decompose la a1 a2).a1q (decompose la a1 a2).a2q) gate
  dsimp only
  rw [hf]
  exact ⟨_, rfl⟩

/-- `dtau = 0`: the identity gate always fits. -/
theorem C39_identity_gate (a1 a2 : ATensor (Fin bD) P 𝕜) (gate : P → P → P → P → 𝕜)
    (hgate : ∀ p q r s, gate p q r s = if p = r ∧ q = s then 1 else 0) :
    gated gate (twoSite a1 a2) = twoSite a1 a2 ∧ Fits (gated gate (twoSite a1 a2)) := by
  have : gated gate (twoSite a1 a2) = twoSite a1 a2 := by
    funext u r d l' u' d' p q
    unfold gated
    rw [Finset.sum_eq_single p (fun a _ ha => Finset.sum_eq_zero fun b _ => by simp [hgate, ha]) (by simp),
      Finset.sum_eq_single q (fun a _ ha => by simp [hgate, ha]) (by simp)]
    simp [hgate]
  exact ⟨this, a1, a2, this.symm⟩

/-- The hypotheses are met: an entangled two-site tensor with bond dimension two, and settings. -/
example : ∃ (a1 a2 : ATensor (Fin 2) (Fin 2) ℝ) (gate : Fin 2 → Fin 2 → Fin 2 → Fin 2 → ℝ) (cfg : Settings ℝ),
    Fits (gated gate (twoSite a1 a2)) ∧ gated gate (twoSite a1 a2) ≠ 0 ∧ cfg.als_epsilon = 0 ∧
    0 < cfg.positive_approx_cutoff ∧ cfg.gauge_fix_atol < Real.sqrt cfg.positive_approx_cutoff := by
  obtain ⟨hid, hfit⟩ := C39_identity_gate (bD := 2) (fun l _ _ _ p => if l = p then (1 : ℝ) else 0)
    (fun _ _ r _ p => if r = p then 1 else 0) (fun p q r s => if p = r ∧ q = s then 1 else 0) fun _ _ _ _ => rfl
  refine ⟨_, _, _, ⟨true, 1e-12, 1e-12, 100, 1e-15, .pinv, 0⟩, hfit, ?_, rfl, by norm_num, ?_⟩
  · rw [hid]
    intro h
    have := congrFun (congrFun (congrFun (congrFun (congrFun (congrFun (congrFun (congrFun h 0) 0) 0) 0) 0) 0) 0) 0
    simp [twoSite] at this
  · rw [Real.lt_sqrt (by norm_num)]
    norm_num

end bond

end AceTN
