import Verif.Props.GroundState
import Mathlib.LinearAlgebra.Matrix.IsDiag

/-! C102: without truncation, evolutions compose, can be undone, and have no Trotter error for diagonal models. -/

set_option autoImplicit false

namespace AceTN
open Spec Trot NormedSpace
open scoped Matrix.Norms.L2Operator

variable {𝕜 : Type} [RCLike 𝕜] {P : Type} [Fintype P] [DecidableEq P] {nx ny N : ℕ}

/-- Two states are equal up to a positive factor. -/
def Spec.SameRay {ι : Type} (φ ψ : ι → 𝕜) : Prop := ∃ κ : ℝ, 0 < κ ∧ φ = (κ : 𝕜) • ψ

theorem listAfter_self (n : ℕ) (bl : List Bond) : listAfter n (listAfter n bl) = bl := by
  rw [listAfter_add]
  unfold listAfter
  rw [if_pos (by omega)]

/-- The schedule of a run that starts where a run of the same length ended is the schedule of that run backwards. -/
theorem schedule_back (n : ℕ) (bl : List Bond) : schedule n (listAfter n bl) = (schedule n bl).reverse := by
  induction n generalizing bl with
  | zero => simp [schedule]
  | succ n ih =>
    have h : schedule (n + 1) (listAfter (n + 1) bl) = schedule n (listAfter (n + 1) bl) ++ bl.reverse := by
      have h1 := schedule_add n 1 (listAfter (n + 1) bl)
      rw [h1, listAfter_add]
      congr 1
      have h2 : ∀ l, schedule 1 l = l := fun l => by simp [schedule]
      rw [h2]
      unfold listAfter
      rw [if_neg (show ¬ (n + 1 + n) % 2 = 0 by omega)]
    rw [h, schedule_succ, List.reverse_append, listAfter_succ, ih]

section ops

variable {𝔸 : Type} [NormedRing 𝔸] [NormedAlgebra ℚ 𝔸] [CompleteSpace 𝔸]

theorem exp_neg_mul_exp (a : 𝔸) : exp (-a) * exp a = 1 := by
  rw [← exp_add_of_commute (Commute.neg_left (Commute.refl a)), neg_add_cancel, exp_zero]

/-- A product of exponentials followed by the product of the inverses in reverse order. -/
theorem expProd_neg (l : List 𝔸) : expProd (l.map Neg.neg) * expProd l.reverse = 1 := by
  induction l with
  | nil => simp [expProd]
  | cons a l ih =>
    have h1 : expProd ((a :: l).map Neg.neg) = exp (-a) * expProd (l.map Neg.neg) := by simp [expProd]
    have h2 : expProd (a :: l).reverse = expProd l.reverse * exp a := by simp [expProd]
    rw [h1, h2, mul_assoc, ← mul_assoc (expProd _), ih, one_mul, exp_neg_mul_exp]

end ops

section run

variable {B : Type} [Fintype B]

/-- The accumulated gates of a run. -/
theorem exactRun_op (hx : 2 ≤ nx) (hy : 2 ≤ ny) (σ : Bond → Equiv.Perm (Fin N)) (m : ModelTerms P 𝕜) (dtau : ℝ) (n : ℕ)
    (bl : List Bond) (hbl : ∀ b ∈ bl, b ∈ buildBondList nx ny) :
    (evolveLoop (exactUpdate (coveringOps hx hy σ) m dtau) n bl 1).2.1 =
      expProd ((schedule n bl).map fun b => (-(dtau : 𝕜)) •
        (coveringOps hx hy σ).placement.pair b (bondHam m.transposed b)).reverse := by
  rw [C05_schedule (exactUpdate (coveringOps hx hy σ) m dtau) (fun _ _ => rfl),
    foldl_exactUpdate _ m dtau _ fun b hb => hbl b (mem_schedule hb), mul_one]

theorem mem_listAfter {n : ℕ} {bl : List Bond} {b : Bond} (h : b ∈ listAfter n bl) : b ∈ bl := by
  unfold listAfter at h
  split_ifs at h
  · exact h
  · exact List.mem_reverse.1 h

/-- **C102 (back).** On every finite lattice covering the cell: if a run of `n` steps with the time step `dtau` and a run of
`n` steps with `-dtau` that starts from the tensors and the bond list the first one left are exact up to positive factors,
the state of the lattice at the end is a positive multiple of the state at the start. -/
theorem C102_back {S S' : Type} (hx : 2 ≤ nx) (hy : 2 ≤ ny) (σ : Bond → Equiv.Perm (Fin N)) (m : ModelTerms P 𝕜) (dtau : ℝ)
    (A : S → Site → B → B → B → B → P → 𝕜) (upd : S → Bond → S × Option PyErr)
    (A' : S' → Site → B → B → B → B → P → 𝕜) (upd' : S' → Bond → S' × Option PyErr) (n : ℕ) (bl : List Bond)
    (hbl : ∀ b ∈ bl, b ∈ buildBondList nx ny) (s : S) (s' : S')
    (h : ExactRun (twoSiteGate m dtau) A upd (schedule n bl) s)
    (hs : A' s' = A (evolveLoop upd n bl s).2.1)
    (h' : ExactRun (twoSiteGate m (-dtau)) A' upd' (schedule n (evolveLoop upd n bl s).1) s') :
    let r := evolveLoop upd' n (evolveLoop upd n bl s).1 s'
    r.1 = bl ∧ r.2.2 = none ∧
      SameRay (latticeState (nx := nx) (ny := ny) σ (A' r.2.1)) (latticeState σ (A s)) := by
  intro r
  have hl : (evolveLoop upd n bl s).1 = listAfter n bl := by rw [evolveLoop_exact _ A upd n bl s h]
  have hr : r.1 = listAfter n (listAfter n bl) := by
    show (evolveLoop upd' n (evolveLoop upd n bl s).1 s').1 = _
    rw [evolveLoop_exact _ A' upd' n _ s' h', hl]
  obtain ⟨-, κ, hκ, e⟩ := C76_run hx hy σ m dtau A upd n bl hbl s h
  have hbl' : ∀ b ∈ (evolveLoop upd n bl s).1, b ∈ buildBondList nx ny := by
    rw [hl]; exact fun b hb => hbl b (mem_listAfter hb)
  obtain ⟨e0, κ', hκ', e'⟩ := C76_run hx hy σ m (-dtau) A' upd' n _ hbl' s' h'
  refine ⟨hr.trans (listAfter_self n bl), e0, κ' * κ, mul_pos hκ' hκ, ?_⟩
  show latticeState σ (A' (evolveLoop upd' n (evolveLoop upd n bl s).1 s').2.1) = _
  rw [e', hs, e, Matrix.mulVec_smul, Matrix.mulVec_mulVec, smul_smul, ← RCLike.ofReal_mul, exactRun_op hx hy σ m (-dtau) n _ hbl',
    exactRun_op hx hy σ m dtau n bl hbl, hl, schedule_back]
  let _ : NormedAlgebra ℚ (Matrix (BigSite nx ny N → P) (BigSite nx ny N → P) 𝕜) := NormedAlgebra.restrictScalars ℚ 𝕜 _
  have key := expProd_neg ((schedule n bl).map fun b => (-(dtau : 𝕜)) •
    (coveringOps (P := P) (𝕜 := 𝕜) hx hy σ).placement.pair b (bondHam m.transposed b))
  have h2 : ((schedule n bl).reverse.map fun b => (-((-dtau : ℝ) : 𝕜)) •
      (coveringOps (P := P) (𝕜 := 𝕜) hx hy σ).placement.pair b (bondHam m.transposed b)).reverse =
      ((schedule n bl).map fun b => (-(dtau : 𝕜)) •
        (coveringOps (P := P) (𝕜 := 𝕜) hx hy σ).placement.pair b (bondHam m.transposed b)).map Neg.neg := by
    rw [List.map_reverse, List.reverse_reverse, List.map_map]
    refine List.map_congr_left fun b _ => ?_
    simp only [Function.comp]
    rw [← neg_smul, RCLike.ofReal_neg]
  rw [h2, key, Matrix.one_mulVec]

/-- **C102 (parts).** Under the same conditions a run of `n` steps followed by a run of `n'` steps with the same time step
reaches, up to a positive factor, the same state and the same bond list as one run of `n + n'` steps. -/
theorem C102_parts {S S' S'' : Type} (hx : 2 ≤ nx) (hy : 2 ≤ ny) (σ : Bond → Equiv.Perm (Fin N)) (m : ModelTerms P 𝕜) (dtau : ℝ)
    (A : S → Site → B → B → B → B → P → 𝕜) (upd : S → Bond → S × Option PyErr)
    (A' : S' → Site → B → B → B → B → P → 𝕜) (upd' : S' → Bond → S' × Option PyErr)
    (A'' : S'' → Site → B → B → B → B → P → 𝕜) (upd'' : S'' → Bond → S'' × Option PyErr) (n n' : ℕ) (bl : List Bond)
    (hbl : ∀ b ∈ bl, b ∈ buildBondList nx ny) (s : S) (s' : S') (s'' : S'')
    (h : ExactRun (twoSiteGate m dtau) A upd (schedule n bl) s)
    (hs : A' s' = A (evolveLoop upd n bl s).2.1)
    (h' : ExactRun (twoSiteGate m dtau) A' upd' (schedule n' (evolveLoop upd n bl s).1) s')
    (hs'' : A'' s'' = A s) (h'' : ExactRun (twoSiteGate m dtau) A'' upd'' (schedule (n + n') bl) s'') :
    let r := evolveLoop upd' n' (evolveLoop upd n bl s).1 s'
    let r'' := evolveLoop upd'' (n + n') bl s''
    r.1 = r''.1 ∧
      SameRay (latticeState (nx := nx) (ny := ny) σ (A' r.2.1)) (latticeState σ (A'' r''.2.1)) := by
  intro r r''
  have hl : (evolveLoop upd n bl s).1 = listAfter n bl := by rw [evolveLoop_exact _ A upd n bl s h]
  have hr : r.1 = listAfter n' (listAfter n bl) := by
    show (evolveLoop upd' n' (evolveLoop upd n bl s).1 s').1 = _
    rw [evolveLoop_exact _ A' upd' n' _ s' h', hl]
  have hr'' : r''.1 = listAfter (n + n') bl := by
    show (evolveLoop upd'' (n + n') bl s'').1 = _
    rw [evolveLoop_exact _ A'' upd'' _ _ s'' h'']
  obtain ⟨-, κ, hκ, e⟩ := C76_run hx hy σ m dtau A upd n bl hbl s h
  have hbl' : ∀ b ∈ (evolveLoop upd n bl s).1, b ∈ buildBondList nx ny := by
    rw [hl]; exact fun b hb => hbl b (mem_listAfter hb)
  obtain ⟨-, κ', hκ', e'⟩ := C76_run hx hy σ m dtau A' upd' n' _ hbl' s' h'
  obtain ⟨-, κ'', hκ'', e''⟩ := C76_run hx hy σ m dtau A'' upd'' (n + n') bl hbl s'' h''
  refine ⟨by rw [hr, hr'', listAfter_add], κ' * κ * κ''⁻¹, by positivity, ?_⟩
  show latticeState σ (A' (evolveLoop upd' n' (evolveLoop upd n bl s).1 s').2.1) =
    _ • latticeState σ (A'' (evolveLoop upd'' (n + n') bl s'').2.1)
  rw [e', hs, e, e'', hs'', Matrix.mulVec_smul, Matrix.mulVec_mulVec, smul_smul, smul_smul, ← RCLike.ofReal_mul,
    ← RCLike.ofReal_mul, mul_assoc _ κ''⁻¹, inv_mul_cancel₀ hκ''.ne', mul_one, exactRun_op hx hy σ m dtau n' _ hbl',
    exactRun_op hx hy σ m dtau n bl hbl, exactRun_op hx hy σ m dtau _ bl hbl, hl, schedule_add, List.map_append,
    List.reverse_append, expProd_append]

end run

/-! ### Diagonal models -/

/-- The matrices of the model are diagonal, as for the Ising model without transverse field. -/
def Spec.DiagonalModel (m : ModelTerms P 𝕜) : Prop :=
  (∀ b, (m.two b).IsDiag) ∧ ∀ s h, m.one s = some h → h.IsDiag

theorem commute_diag {ι : Type} [Fintype ι] [DecidableEq ι] {M M' : Matrix ι ι 𝕜} (h : M.IsDiag) (h' : M'.IsDiag) :
    Commute M M' := by
  rw [← h.diagonal_diag, ← h'.diagonal_diag]
  unfold Commute SemiconjBy
  rw [Matrix.diagonal_mul_diagonal, Matrix.diagonal_mul_diagonal]
  congr 1
  funext i
  exact mul_comm _ _

omit [Fintype P] in
theorem isDiag_bondHam (m : ModelTerms P 𝕜) (hm : DiagonalModel m) (b : Bond) : (bondHam m b).IsDiag := by
  unfold bondHam
  split
  · next h1 h2 e1 e2 =>
    refine (hm.1 b).add (Matrix.IsDiag.smul _ (Matrix.IsDiag.add ?_ ?_))
    · exact Matrix.IsDiag.kronecker (hm.2 _ _ e1) Matrix.isDiag_one
    · exact Matrix.IsDiag.kronecker Matrix.isDiag_one (hm.2 _ _ e2)
  · exact hm.1 b

theorem isDiag_placeTwo {ι : Type} [Fintype ι] [DecidableEq ι] (i j : ι) (hij : i ≠ j) (M : Matrix (P × P) (P × P) 𝕜)
    (h : M.IsDiag) : (placeTwo i j hij M).IsDiag := by
  intro s t hst
  show pairMat i j M s t = 0
  unfold pairMat
  split_ifs with h1
  · refine h fun e => hst ?_
    obtain ⟨e1, e2⟩ := Prod.mk.inj e
    funext l
    by_cases hi : l = i
    · rw [hi, e1]
    · by_cases hj : l = j
      · rw [hj, e2]
      · exact h1 l hi hj
  · rfl

theorem isDiag_sum {ι κ : Type} (t : Finset κ) (f : κ → Matrix ι ι 𝕜) (h : ∀ k ∈ t, (f k).IsDiag) : (∑ k ∈ t, f k).IsDiag := by
  intro i j hij
  rw [Matrix.sum_apply]
  exact Finset.sum_eq_zero fun k hk => h k hk hij

theorem isDiag_pair (hx : 2 ≤ nx) (hy : 2 ≤ ny) (σ : Bond → Equiv.Perm (Fin N)) (b : Bond) (M : Matrix (P × P) (P × P) 𝕜)
    (h : M.IsDiag) : ((coveringOps hx hy σ).placement.pair b M).IsDiag := by
  simp only [LatticeOps.placement, LinearMap.sum_apply, AlgHom.toLinearMap_apply]
  refine isDiag_sum _ _ fun c _ => ?_
  unfold coveringOps
  dsimp only
  split_ifs <;> exact isDiag_placeTwo _ _ _ _ h

omit [Fintype P] [DecidableEq P] in
theorem isDiag_transposed (m : ModelTerms P 𝕜) (hm : DiagonalModel m) : DiagonalModel m.transposed := by
  refine ⟨fun b => (hm.1 b).transpose, fun s h hs => ?_⟩
  simp only [ModelTerms.transposed, Option.map_eq_some_iff] at hs
  obtain ⟨h', e, rfl⟩ := hs
  exact (hm.2 s h' e).transpose

section commuting

variable {𝔸 : Type} [AddCommMonoid 𝔸]

theorem schedule_list_sum (f : Bond → 𝔸) (n : ℕ) (bl : List Bond) : ((schedule n bl).map f).sum = n • (bl.map f).sum := by
  induction n generalizing bl with
  | zero => simp [schedule]
  | succ n ih =>
    rw [schedule_succ, List.map_append, List.sum_append, ih, List.map_reverse, List.sum_reverse, add_smul, one_smul, add_comm]

end commuting

section run

variable {B S : Type} [Fintype B]

/-- **C102 (diagonal).** For a model with diagonal matrices, one-site terms everywhere or nowhere, there is no error of the
time step: a run whose bond updates are exact up to positive factors ends, up to a positive factor, in
`exp(-n dtau H)` applied to the state at the start. -/
theorem C102_diagonal (hx : 2 ≤ nx) (hy : 2 ≤ ny) (σ : Bond → Equiv.Perm (Fin N)) (m : ModelTerms P 𝕜)
    (hd : DiagonalModel m)
    (hm : (∀ s, InCell nx ny s → (m.one s).isSome) ∨ (∀ s, InCell nx ny s → m.one s = none)) (dtau : ℝ)
    (A : S → Site → B → B → B → B → P → 𝕜) (upd : S → Bond → S × Option PyErr) (n : ℕ) (bl : List Bond)
    (hbl : bl = buildBondList nx ny ∨ bl = (buildBondList nx ny).reverse) (s : S)
    (h : ExactRun (twoSiteGate m dtau) A upd (schedule n bl) s) :
    SameRay (latticeState σ (A (evolveLoop upd n bl s).2.1))
      ((exp ((-((n * dtau : ℝ) : 𝕜)) • cellHamiltonian nx ny (coveringOps hx hy σ).placement m.transposed)).mulVec
        (latticeState σ (A s))) := by
  have hmem : ∀ b ∈ bl, b ∈ buildBondList nx ny := by
    rcases hbl with rfl | rfl
    · exact fun _ h => h
    · exact fun _ h => List.mem_reverse.1 h
  obtain ⟨-, κ, hκ, e⟩ := C76_run hx hy σ m dtau A upd n bl hmem s h
  refine ⟨κ, hκ, ?_⟩
  rw [e, exactRun_op hx hy σ m dtau n bl hmem]
  congr 2
  let _ : NormedAlgebra ℝ (Matrix (BigSite nx ny N → P) (BigSite nx ny N → P) 𝕜) := NormedAlgebra.restrictScalars ℝ 𝕜 _
  let _ : NormedAlgebra ℚ (Matrix (BigSite nx ny N → P) (BigSite nx ny N → P) 𝕜) := NormedAlgebra.restrictScalars ℚ 𝕜 _
  have hdi : ∀ b, ((-(dtau : 𝕜)) • (coveringOps (P := P) (𝕜 := 𝕜) hx hy σ).placement.pair b (bondHam m.transposed b)).IsDiag :=
    fun b => Matrix.IsDiag.smul _ (isDiag_pair hx hy σ b _ (isDiag_bondHam _ (isDiag_transposed m hd) b))
  have hpw : (((schedule n bl).map fun b => (-(dtau : 𝕜)) •
      (coveringOps (P := P) (𝕜 := 𝕜) hx hy σ).placement.pair b (bondHam m.transposed b)).reverse).Pairwise Commute := by
    refine List.pairwise_of_forall_mem_list fun a ha b hb => ?_
    simp only [List.mem_reverse, List.mem_map] at ha hb
    obtain ⟨x, -, rfl⟩ := ha
    obtain ⟨y, -, rfl⟩ := hb
    exact commute_diag (hdi x) (hdi y)
  unfold expProd
  rw [exp_sum_of_pairwise _ hpw, List.sum_reverse, schedule_list_sum]
  congr 1
  rw [← C70_hamiltonian _ m hm]
  have hs : (bl.map fun b => (-(dtau : 𝕜)) • (coveringOps (P := P) (𝕜 := 𝕜) hx hy σ).placement.pair b (bondHam m.transposed b)).sum =
      (-(dtau : 𝕜)) • evolvedHamiltonian nx ny (coveringOps hx hy σ).placement m.transposed := by
    unfold evolvedHamiltonian
    rw [List.smul_sum]
    rcases hbl with rfl | rfl
    · rw [List.map_map]; rfl
    · rw [List.map_reverse, List.sum_reverse, List.map_map]; rfl
  rw [hs, ← Nat.cast_smul_eq_nsmul 𝕜, smul_smul]
  congr 1
  push_cast
  ring

end run

/-! ### The two updates -/

section updates

open Full Simple

variable {X : Type} {bD : ℕ} [NeZero bD] [Nonempty P]

theorem bonds_of_list {bl : List Bond} (hbl : bl = buildBondList nx ny ∨ bl = (buildBondList nx ny).reverse) :
    ∀ b ∈ bl, b ∈ buildBondList nx ny := by
  rcases hbl with rfl | rfl
  · exact fun _ h => h
  · exact fun _ h => List.mem_reverse.1 h

/-- A run of the simple update in which nothing is truncated is exact. -/
theorem simple_exactRun [NeZero N] (hx : 2 ≤ nx) (hy : 2 ≤ ny) (σ : Bond → Equiv.Perm (Fin N)) (m : ModelTerms P 𝕜)
    (la : Lapack 𝕜) (dtau : ℝ) (l : List Bond) (hl : ∀ b ∈ l, b ∈ buildBondList nx ny)
    (st : NetT (Fin bD) P X 𝕜 × LambdaTensors (Weight bD))
    (h0 : latticeState (nx := nx) (ny := ny) σ (siteTensors st.1) ≠ 0)
    (h : Along (SimpleFits m dtau) (Simple.bondStep la (fun _ => none) (twoSiteGate m dtau)) l st) :
    ExactRun (twoSiteGate m dtau) (fun st => siteTensors st.1) (Simple.bondStep la (fun _ => none) (twoSiteGate m dtau)) l st := by
  have hk : ∀ b ∈ buildBondList nx ny, b.k < 4 := by
    intro b hb
    rw [mem_buildBondList] at hb
    rcases hb.2 with h | h <;> omega
  exact exactRun_of hx hy σ m dtau (fun st : NetT (Fin bD) P X 𝕜 × LambdaTensors (Weight bD) => st.1) _ _
    (fun st b hb hQ h0 => by
      obtain ⟨⟨W1, W2, hW1, hW2, hs1, hs2⟩, hf⟩ := hQ
      exact C76_simple_update la m dtau st b (hk b hb) (bond_ends_distinct nx ny hx hy b hb) W1 W2 hW1 hW2 hs1 hs2 h0 hf)
    l hl st h0 h

/-- A run of the full update, real dtypes and solver without regularisation, in which nothing is truncated is exact. -/
theorem full_exactRun [NeZero N] [Fintype X] {F : Type} (hx : 2 ≤ nx) (hy : 2 ≤ ny) (σ : Bond → Equiv.Perm (Fin N))
    (m : ModelTerms P ℝ) (la : Lapack ℝ) (fo : Als.FloatOps F) (rep : ℝ → F) (cfg : Settings F) (he : cfg.als_epsilon = 0)
    (hcut : 0 < cfg.positive_approx_cutoff) (hatol : cfg.gauge_fix_atol < Real.sqrt cfg.positive_approx_cutoff)
    (absorb : ℕ → Bond → NetT (Fin bD) P X ℝ → NetT (Fin bD) P X ℝ × Option PyErr)
    (habs : ∀ t b net s, ((absorb t b net).1 s).A = (net s).A) (dtau : ℝ) (l : List Bond)
    (hl : ∀ b ∈ l, b ∈ buildBondList nx ny) (st : NetT (Fin bD) P X ℝ × ℕ)
    (h0 : latticeState (nx := nx) (ny := ny) σ (siteTensors st.1) ≠ 0)
    (h : Along (FullFits la fo rep cfg m dtau absorb)
      (Full.bondStep la fo rep cfg (fun _ => none) (twoSiteGate m dtau) absorb) l st) :
    ExactRun (twoSiteGate m dtau) (fun st => siteTensors st.1)
      (Full.bondStep la fo rep cfg (fun _ => none) (twoSiteGate m dtau) absorb) l st :=
  exactRun_of hx hy σ m dtau (fun st : NetT (Fin bD) P X ℝ × ℕ => st.1) _ _
    (fun st b hb hQ h0 => C76_full_update la fo rep cfg he hcut hatol m dtau absorb habs st b
      (bond_ends_distinct nx ny hx hy b hb) h0 hQ.2 hQ.1) l hl st h0 h

omit [NeZero bD] [Nonempty P] in
/-- An exact run keeps the state nonzero. -/
theorem evolveLoop_ne_zero {S : Type} (hx : 2 ≤ nx) (hy : 2 ≤ ny) (σ : Bond → Equiv.Perm (Fin N)) (m : ModelTerms P 𝕜)
    (dtau : ℝ) (A : S → Site → Fin bD → Fin bD → Fin bD → Fin bD → P → 𝕜) (upd : S → Bond → S × Option PyErr)
    (n : ℕ) (bl : List Bond) (hbl : ∀ b ∈ bl, b ∈ buildBondList nx ny) (s : S)
    (h : ExactRun (twoSiteGate m dtau) A upd (schedule n bl) s)
    (hs : latticeState (nx := nx) (ny := ny) σ (A s) ≠ 0) :
    latticeState (nx := nx) (ny := ny) σ (A (evolveLoop upd n bl s).2.1) ≠ 0 := by
  rw [evolveLoop_exact _ A upd n bl s h]
  have hl : ∀ b ∈ schedule n bl, b ∈ buildBondList nx ny := fun b hb => hbl b (mem_schedule hb)
  dsimp only
  generalize schedule n bl = l at h hl
  induction l generalizing s with
  | nil => exact hs
  | cons b l ih =>
    obtain ⟨h1, h2⟩ := h
    exact ih _ (exactStep_ne_zero hx hy σ m dtau A upd s b (hl b List.mem_cons_self) h1 hs) h2
      fun b' h' => hl b' (List.mem_cons_of_mem _ h')

/-- **C102 (simple update, back).** `evolve(dtau, n)` followed by `evolve(-dtau, n)` with the simple update, on every finite
lattice covering the cell; between the calls the boundary tensors may change in any way (`net'`).  If in both calls the
weights can be divided out and nothing is truncated, neither raises, the bond list is the one of the start and the state
of the lattice is a positive multiple of the state at the start. -/
theorem C102_simple_back [NeZero N] (hx : 2 ≤ nx) (hy : 2 ≤ ny) (σ : Bond → Equiv.Perm (Fin N)) (m : ModelTerms P 𝕜)
    (la : Lapack 𝕜) (cx : Bool) (dtau : ℝ) (n : ℕ) (bl : List Bond)
    (hbl : bl = buildBondList nx ny ∨ bl = (buildBondList nx ny).reverse) (net : NetT (Fin bD) P X 𝕜)
    (h0 : latticeState (nx := nx) (ny := ny) σ (siteTensors net) ≠ 0)
    (h : Along (SimpleFits m dtau) (Simple.bondStep la (fun _ => none) (twoSiteGate m dtau)) (schedule n bl)
      (net, LambdaTensors.init bl (ones bD cx)))
    (net' : NetT (Fin bD) P X 𝕜)
    (hnet' : ∀ s, (net' s).A = ((Simple.evolve la cx (fun _ => none) (twoSiteGate m dtau) n (bl, net)).2.1 s).A)
    (h' : Along (SimpleFits m (-dtau)) (Simple.bondStep la (fun _ => none) (twoSiteGate m (-dtau)))
        (schedule n (Simple.evolve la cx (fun _ => none) (twoSiteGate m dtau) n (bl, net)).1)
        (net', LambdaTensors.init (Simple.evolve la cx (fun _ => none) (twoSiteGate m dtau) n (bl, net)).1 (ones bD cx))) :
    let r := Simple.evolve la cx (fun _ => none) (twoSiteGate m dtau) n (bl, net)
    let r' := Simple.evolve la cx (fun _ => none) (twoSiteGate m (-dtau)) n (r.1, net')
    r.2.2 = none ∧ r'.2.2 = none ∧ r'.1 = bl ∧
      SameRay (latticeState (nx := nx) (ny := ny) σ (siteTensors r'.2.1)) (latticeState σ (siteTensors net)) := by
  intro r r'
  have hmem := bonds_of_list hbl
  have e1 := simple_exactRun hx hy σ m la dtau _ (fun b hb => hmem b (mem_schedule hb)) _ h0 h
  have hr := evolveLoop_exact _ _ _ n bl _ e1
  have hr1 : r.1 = listAfter n bl := congrArg (fun x => x.1) hr
  have hA : siteTensors net' = siteTensors r.2.1 := funext hnet'
  have hne : latticeState (nx := nx) (ny := ny) σ (siteTensors net') ≠ 0 := by
    rw [hA]
    exact evolveLoop_ne_zero hx hy σ m dtau (fun st : NetT (Fin bD) P X 𝕜 × LambdaTensors (Weight bD) => siteTensors st.1) _ n bl
      hmem _ e1 h0
  have e2 := simple_exactRun hx hy σ m la (-dtau) (schedule n r.1)
    (fun b hb => hmem b (mem_listAfter (n := n) (by rw [← hr1]; exact mem_schedule hb))) _ hne h'
  obtain ⟨b1, b2, b3⟩ := C102_back hx hy σ m dtau _ _
    (fun st : NetT (Fin bD) P X 𝕜 × LambdaTensors (Weight bD) => siteTensors st.1) _ n bl hmem _
    (net', LambdaTensors.init r.1 (ones bD cx)) e1 hA e2
  exact ⟨congrArg (fun x => x.2.2) hr, b2, b1, b3⟩

/-- **C102 (full update, back).** The same for the full update, real dtypes and solver without regularisation, with any
treatment of the boundary tensors in the calls and between them: if in both calls no update raises and nothing is truncated, the bond list is the one of
the start and the state of the lattice is a positive multiple of the state at the start. -/
theorem C102_full_back [NeZero N] [Fintype X] {F : Type} (hx : 2 ≤ nx) (hy : 2 ≤ ny) (σ : Bond → Equiv.Perm (Fin N))
    (m : ModelTerms P ℝ) (la : Lapack ℝ) (fo : Als.FloatOps F) (rep : ℝ → F) (cfg : Settings F) (he : cfg.als_epsilon = 0)
    (hcut : 0 < cfg.positive_approx_cutoff) (hatol : cfg.gauge_fix_atol < Real.sqrt cfg.positive_approx_cutoff)
    (absorb absorb' : ℕ → Bond → NetT (Fin bD) P X ℝ → NetT (Fin bD) P X ℝ × Option PyErr)
    (habs : ∀ t b net s, ((absorb t b net).1 s).A = (net s).A)
    (habs' : ∀ t b net s, ((absorb' t b net).1 s).A = (net s).A) (dtau : ℝ) (n : ℕ) (bl : List Bond)
    (hbl : bl = buildBondList nx ny ∨ bl = (buildBondList nx ny).reverse) (net : NetT (Fin bD) P X ℝ)
    (h0 : latticeState (nx := nx) (ny := ny) σ (siteTensors net) ≠ 0)
    (h : Along (FullFits la fo rep cfg m dtau absorb)
      (Full.bondStep la fo rep cfg (fun _ => none) (twoSiteGate m dtau) absorb) (schedule n bl) (net, 0))
    (net' : NetT (Fin bD) P X ℝ)
    (hnet' : ∀ s, (net' s).A =
      ((Full.evolve la fo rep cfg (fun _ => none) (twoSiteGate m dtau) absorb n (bl, net)).2.1 s).A)
    (h' : Along (FullFits la fo rep cfg m (-dtau) absorb')
        (Full.bondStep la fo rep cfg (fun _ => none) (twoSiteGate m (-dtau)) absorb')
        (schedule n (Full.evolve la fo rep cfg (fun _ => none) (twoSiteGate m dtau) absorb n (bl, net)).1) (net', 0)) :
    let r := Full.evolve la fo rep cfg (fun _ => none) (twoSiteGate m dtau) absorb n (bl, net)
    let r' := Full.evolve la fo rep cfg (fun _ => none) (twoSiteGate m (-dtau)) absorb' n (r.1, net')
    r.2.2 = none ∧ r'.2.2 = none ∧ r'.1 = bl ∧
      SameRay (latticeState (nx := nx) (ny := ny) σ (siteTensors r'.2.1)) (latticeState σ (siteTensors net)) := by
  intro r r'
  have hmem := bonds_of_list hbl
  have e1 := full_exactRun hx hy σ m la fo rep cfg he hcut hatol absorb habs dtau _ (fun b hb => hmem b (mem_schedule hb)) _ h0 h
  have hr := evolveLoop_exact _ _ _ n bl _ e1
  have hr1 : r.1 = listAfter n bl := congrArg (fun x => x.1) hr
  have hA : siteTensors net' = siteTensors r.2.1 := funext hnet'
  have hne : latticeState (nx := nx) (ny := ny) σ (siteTensors net') ≠ 0 := by
    rw [hA]
    exact evolveLoop_ne_zero hx hy σ m dtau (fun st : NetT (Fin bD) P X ℝ × ℕ => siteTensors st.1) _ n bl hmem _ e1 h0
  have e2 := full_exactRun hx hy σ m la fo rep cfg he hcut hatol absorb' habs' (-dtau) (schedule n r.1)
    (fun b hb => hmem b (mem_listAfter (n := n) (by rw [← hr1]; exact mem_schedule hb))) _ hne h'
  obtain ⟨b1, b2, b3⟩ := C102_back hx hy σ m dtau _ _ (fun st : NetT (Fin bD) P X ℝ × ℕ => siteTensors st.1) _ n bl hmem _
    (net', 0) e1 hA e2
  exact ⟨congrArg (fun x => x.2.2) hr, b2, b1, b3⟩

end updates

/-! ### The hypotheses are met -/

section example_

open Full Simple

/-- Non-vacuity: a field along the axis of quantisation is a diagonal model with one-site terms everywhere. -/
example : DiagonalModel fieldTerms ∧ ∀ s, (fieldTerms.one s).isSome :=
  ⟨⟨fun _ => Matrix.isDiag_zero, fun s h hs => by
    rw [← Option.some.inj hs]; exact Matrix.isDiag_diagonal _⟩, fun _ => rfl⟩

/-- Non-vacuity: spins along the first axis are evolved in a field and back, on any lattice and for any number of steps. -/
example [NeZero N] (hx : 2 ≤ nx) (hy : 2 ≤ ny) (σ : Bond → Equiv.Perm (Fin N)) (la : Lapack ℝ) (dtau : ℝ) (n : ℕ) :
    let r := Simple.evolve la false (fun _ => none) (twoSiteGate fieldTerms dtau) n (buildBondList nx ny, plusNet)
    let r' := Simple.evolve la false (fun _ => none) (twoSiteGate fieldTerms (-dtau)) n (r.1, r.2.1)
    SameRay (latticeState (nx := nx) (ny := ny) σ (siteTensors r'.2.1)) (latticeState σ (siteTensors plusNet)) := by
  have h0 : latticeState (nx := nx) (ny := ny) σ (siteTensors plusNet) ≠ 0 :=
    fun h => plusNet_ones (nx := nx) (ny := ny) σ (congrFun h _)
  have h := plus_fits hx hy σ la dtau (buildBondList nx ny) (List.Perm.refl _) (schedule n (buildBondList nx ny))
    (fun _ hb => mem_schedule hb) (plusNet, LambdaTensors.init (buildBondList nx ny) (Simple.ones 1 false)) ⟨[], by simp, rfl⟩ h0
  have e1 := simple_exactRun hx hy σ fieldTerms la dtau _ (fun _ hb => mem_schedule hb) _ h0 h
  have hr := evolveLoop_exact _ _ _ n (buildBondList nx ny) _ e1
  have hr1 : (Simple.evolve la false (fun _ => none) (twoSiteGate fieldTerms dtau) n (buildBondList nx ny, plusNet)).1 =
      listAfter n (buildBondList nx ny) := congrArg (fun x => x.1) hr
  refine (C102_simple_back hx hy σ fieldTerms la false dtau n (buildBondList nx ny) (.inl rfl) plusNet h0 h _ (fun _ => rfl) ?_).2.2.2
  refine plus_fits hx hy σ la (-dtau) _ ?_ _ (fun b hb => ?_) _ ⟨[], by simp, rfl⟩
    (evolveLoop_ne_zero hx hy σ fieldTerms dtau (fun st : NetT (Fin 1) (Fin 2) (Fin 1) ℝ × LambdaTensors (Weight 1) =>
      siteTensors st.1) _ n _ (fun _ h => h) _ e1 h0)
  · rw [hr1]
    unfold listAfter
    split_ifs
    · exact List.Perm.refl _
    · exact List.reverse_perm _
  · exact mem_listAfter (n := n) (by rw [← hr1]; exact mem_schedule hb)

end example_

end AceTN
