import Verif.Model.FullUpdate

/-!
A whole bond update of the full update: `FullUpdater.tensor_update` and `update_reduced_tensors`,
`acetn/evolution/full_update.py` 34-121, for the torch backend.  Tensor entries are exact; the costs compared by the
stopping rule are values of a type `F` with arbitrary scalar operations (`rep` converts them).
-/

set_option autoImplicit false

namespace AceTN.Full

/-- The settings used, full_update.py 28-33 and als_solver.py 25-28. -/
structure Settings (F : Type) where
  use_gauge_fix : Bool
  gauge_fix_atol : ℝ
  positive_approx_cutoff : ℝ
  als_niter : ℕ
  als_tol : F
  als_method : Als.Solver
  als_epsilon : ℝ

variable {𝕜 F : Type} [RCLike 𝕜]

section reduced

variable {N P : Type} [Fintype N] [Fintype P] [DecidableEq N] [DecidableEq P] {bD : ℕ}

/-- `ALSSolver(...).solve()`, als_solver.py 34-53, 112-115. -/
noncomputable def alsSolve (la : Lapack 𝕜) (fo : Als.FloatOps F) (rep : ℝ → F) (cfg : Settings F)
    (hb : bD ≤ min (Fintype.card (N × P)) (Fintype.card (N × P)))
    (n12 : N → N → N → N → 𝕜) (a12g : N → N → P → P → 𝕜) :
    Except PyErr ((N → Fin bD → P → 𝕜) × (N → Fin bD → P → 𝕜)) :=
  Als.solveTorch fo (alsPass la cfg.als_epsilon n12 (n12gOf n12 a12g) cfg.als_method)
    (fun p => rep (cost p.1 p.2 a12g n12)) cfg.als_tol cfg.als_niter (initReduced la hb a12g)

omit [DecidableEq N] [DecidableEq P] in
/-- Shape conditions that follow from `bD ≤ nD*pD`. -/
theorem hb_init (hb : bD ≤ Fintype.card (N × P)) : bD ≤ min (Fintype.card (N × P)) (Fintype.card (N × P)) :=
  le_min hb hb

omit [DecidableEq N] [DecidableEq P] in
theorem hb_fin (hb : bD ≤ Fintype.card (N × P)) :
    bD ≤ min (Fintype.card (Fin (qD N P bD))) (Fintype.card (Fin (qD N P bD))) := by
  simp only [Fintype.card_fin, qD, min_self]
  exact le_min hb le_rfl

omit [DecidableEq N] [DecidableEq P] in
theorem hb_gauge [Nonempty N] (hb : bD ≤ Fintype.card (N × P)) :
    bD ≤ Fintype.card (Fin (wD N (Fin (Fintype.card (N × N)))) × P) := by
  have : wD N (Fin (Fintype.card (N × N))) = Fintype.card N := by
    refine Nat.min_eq_right ?_
    simp only [Fintype.card_prod, Fintype.card_fin]
    exact Nat.le_mul_of_pos_left _ (Nat.mul_pos Fintype.card_pos Fintype.card_pos)
  rw [Fintype.card_prod, Fintype.card_fin, this, ← Fintype.card_prod]
  exact hb

/-- `update_reduced_tensors`, full_update.py 65-121 and 142-161.  `none` is a regularisation loop that has not ended after
two tests of its condition (which C33 excludes); `hb` is `bD ≤ nD*pD`. -/
noncomputable def updateReduced [Nonempty N] (la : Lapack 𝕜) (fo : Als.FloatOps F) (rep : ℝ → F) (cfg : Settings F)
    (hb : bD ≤ Fintype.card (N × P)) (a1r a2r : N → Fin bD → P → 𝕜) (n12 : N → N → N → N → 𝕜)
    (gate : P → P → P → P → 𝕜) : Option (Except PyErr ((N → Fin bD → P → 𝕜) × (N → Fin bD → P → 𝕜))) :=
  let a12g := gateReduced a1r a2r gate
  (positiveApprox la 2 cfg.positive_approx_cutoff n12).map fun nz =>
    if cfg.use_gauge_fix then do
      let g := gaugeFix la cfg.gauge_fix_atol nz a12g
      let p ← alsSolve la fo rep cfg (hb_init (hb_gauge hb)) g.n12 g.a12g
      let p := undoGauge g.nzyr_inv g.nzxr_inv p
      return finalizeCore la (hb_fin hb) p.1 p.2
    else do
      let p ← alsSolve la fo rep cfg (hb_init hb) (squareNorm nz) a12g
      return finalizeCore la (hb_fin hb) p.1 p.2

end reduced

section bond

variable {P X : Type} [Fintype P] [DecidableEq P] [Fintype X] {bD : ℕ}

/-- `x.norm()` of a site tensor. -/
noncomputable def normA {B : Type} [Fintype B] (a : ATensor B P 𝕜) : ℝ :=
  Real.sqrt (∑ l, ∑ u, ∑ r, ∑ d, ∑ p, ‖a l u r d p‖ ^ 2)

/-- `a/a.norm()`, full_update.py 63. -/
noncomputable def normalise {B : Type} [Fintype B] (a : ATensor B P 𝕜) : ATensor B P 𝕜 :=
  fun l u r d p => a l u r d p / (normA a : 𝕜)

omit [DecidableEq P] in
theorem nD_pos [NeZero bD] [Nonempty P] : 0 < nD (Fin bD) P := by
  have : 0 < bD := NeZero.pos bD
  have := Fintype.card_pos (α := P)
  simp only [nD, Fintype.card_prod, Fintype.card_fin]
  positivity

omit [DecidableEq P] in
theorem bD_le [NeZero bD] [Nonempty P] : bD ≤ Fintype.card (Fin (nD (Fin bD) P) × P) := by
  have h1 : 0 < bD := NeZero.pos bD
  have h2 := Fintype.card_pos (α := P)
  simp only [nD, Fintype.card_prod, Fintype.card_fin]
  rcases Nat.le_total (bD * (bD * bD)) (bD * Fintype.card P) with h | h
  · rw [Nat.min_eq_left h]
    calc bD = bD * 1 * 1 := by ring
      _ ≤ bD * (bD * bD) * Fintype.card P :=
        Nat.mul_le_mul (Nat.mul_le_mul le_rfl (Nat.mul_pos h1 h1)) h2
  · rw [Nat.min_eq_right h]
    calc bD = bD * 1 * 1 := by ring
      _ ≤ bD * Fintype.card P * Fintype.card P := Nat.mul_le_mul (Nat.mul_le_mul le_rfl h2) h2

omit [DecidableEq P] in
instance [NeZero bD] [Nonempty P] : Nonempty (Fin (nD (Fin bD) P)) := ⟨⟨0, nD_pos⟩⟩

/-- `tensor_update`, full_update.py 34-63, on tensors in the bond frame.  `n12` is built from the isometric parts. -/
noncomputable def fullTensorUpdate [NeZero bD] [Nonempty P] (la : Lapack 𝕜) (fo : Als.FloatOps F) (rep : ℝ → F)
    (cfg : Settings F) (ipeps : NetT (Fin bD) P X 𝕜) (s1 s2 : Site) (k : ℤ) (gate : P → P → P → P → 𝕜)
    (a1 a2 : ATensor (Fin bD) P 𝕜) : Option (Except PyErr (ATensor (Fin bD) P 𝕜 × ATensor (Fin bD) P 𝕜)) :=
  let d := decompose la a1 a2
  let n12 := buildNormTensor ipeps s1 s2 k d.a1q d.a2q
  (updateReduced la fo rep cfg bD_le d.a1r d.a2r n12 gate).map fun r => do
    let p ← r
    let (a1, a2) := recompose d.a1q p.1 d.a2q p.2
    return (normalise a1, normalise a2)

end bond

end AceTN.Full
