import Verif.Lemmas.PairState
import Verif.Lemmas.LatticeState
import Verif.Lemmas.RayDist

/-!
How the state of a lattice depends on the two-site tensor of a bond.
-/

set_option autoImplicit false
set_option linter.unusedSectionVars false

namespace AceTN
open Spec Trot
open scoped Matrix.Norms.L2Operator

variable {nx ny N : ℕ} {𝕜 : Type} [RCLike 𝕜] {B P : Type} [Fintype B] [Fintype P] [DecidableEq P]

/-- The copies of a bond are disjoint edges. -/
theorem lattice_edges (hx : 2 ≤ nx) (hy : 2 ≤ ny) (σ : Bond → Equiv.Perm (Fin N)) (b : Bond) (hb : b ∈ buildBondList nx ny) :
    Edges (bigLeg σ) (fun c : Fin N => ((c, place hx hy b.s1), decide (b.k = 2))) (fun c => (c, place hx hy b.s1))
      (fun c => (σ b c, place hx hy b.s2)) (side b.k 0) (side b.k 2) where
  inj1 _ _ h := congrArg Prod.fst h
  inj2 _ _ h := (σ b).injective (congrArg Prod.fst h)
  apart _ _ h := place_ne hx hy b hb (congrArg Prod.snd h)
  ends c v k := bigLeg_ends hx hy σ b hb c v k

theorem bond_inCell (hx : 2 ≤ nx) (hy : 2 ≤ ny) (b : Bond) (hb : b ∈ buildBondList nx ny) : InCell nx ny b.s1 ∧ InCell nx ny b.s2 := by
  rw [mem_buildBondList] at hb
  obtain ⟨h1, ⟨_, hs⟩ | ⟨_, hs⟩⟩ := hb
  · exact ⟨h1, by rw [hs]; exact ⟨Nat.mod_lt _ (by omega), h1.2⟩⟩
  · exact ⟨h1, by rw [hs]; exact ⟨h1.1, Nat.mod_lt _ (by omega)⟩⟩

/-- The state of the lattice as a function of the two-site tensor of a bond. -/
theorem latticeState_pairs (hx : 2 ≤ nx) (hy : 2 ≤ ny) (σ : Bond → Equiv.Perm (Fin N)) (b : Bond) (hb : b ∈ buildBondList nx ny) (b0 : B)
    (A : Site → B → B → B → B → P → 𝕜) :
    latticeState (nx := nx) (ny := ny) σ A = pairState (bigLeg σ) (fun c : Fin N => ((c, place hx hy b.s1), decide (b.k = 2)))
      (fun c => (c, place hx hy b.s1)) (fun c => (σ b c, place hx hy b.s2)) b0 (fun _ => bondPair b.k (A b.s1) (A b.s2))
      fun v => A (v.2.1, v.2.2) := by
  funext p
  obtain ⟨h1, h2⟩ := bond_inCell hx hy b hb
  have h := netState_pairs (lattice_edges hx hy σ b hb) b0 (fun v => A (v.2.1, v.2.2)) p
  dsimp only at h
  rw [place_val hx hy _ h1, place_val hx hy _ h2] at h
  exact h

/-- The gate on all copies of the bond. -/
theorem everywhere_pairs (hx : 2 ≤ nx) (hy : 2 ≤ ny) (σ : Bond → Equiv.Perm (Fin N)) (b : Bond) (hb : b ∈ buildBondList nx ny) (b0 : B)
    (gate : P → P → P → P → 𝕜) (A : Site → B → B → B → B → P → 𝕜) :
    ((coveringOps hx hy σ).everywhere b (gateMatrix gate).transpose).mulVec (latticeState (nx := nx) (ny := ny) σ A) =
      pairState (bigLeg σ) (fun c : Fin N => ((c, place hx hy b.s1), decide (b.k = 2)))
        (fun c => (c, place hx hy b.s1)) (fun c => (σ b c, place hx hy b.s2)) b0
        (fun _ => gatedPair gate (bondPair b.k (A b.s1) (A b.s2))) fun v => A (v.2.1, v.2.2) := by
  rw [latticeState_pairs hx hy σ b hb b0 A]
  have h := pairState_gates (lattice_edges hx hy σ b hb) b0 (fun _ => bondPair b.k (A b.s1) (A b.s2)) (fun v => A (v.2.1, v.2.2)) gate
    (List.finRange N) (List.nodup_finRange N)
  simp only [List.mem_finRange, if_true] at h
  unfold LatticeOps.everywhere
  rw [List.ofFn_eq_map]
  have e : (fun c => (coveringOps hx hy σ).on c b (gateMatrix gate).transpose) =
      fun c => pairMat (c, place hx hy b.s1) (σ b c, place hx hy b.s2) (Matrix.of fun x y : P × P => gate y.1 y.2 x.1 x.2) := by
    funext c
    rw [coveringOps_on hx hy σ b hb]
    rfl
  rw [e]
  exact h

theorem pow_growth {R η H : ℝ} (hR : 0 ≤ R) (hη : 0 ≤ η) (hH : η ≤ H) (n : ℕ) : (R + η) ^ n - R ^ n ≤ η * (n * (R + H) ^ (n - 1)) := by
  induction n with
  | zero => simp
  | succ n ih =>
    have e : (R + η) ^ (n + 1) - R ^ (n + 1) = (R + η) * ((R + η) ^ n - R ^ n) + η * R ^ n := by ring
    have h1 : R ^ n ≤ (R + H) ^ n := pow_le_pow_left₀ hR (by linarith) n
    have h2 : (R + η) * ((R + η) ^ n - R ^ n) ≤ (R + H) * (η * (n * (R + H) ^ (n - 1))) :=
      mul_le_mul (by linarith) ih (sub_nonneg.2 (pow_le_pow_left₀ hR (by linarith) n)) (by linarith)
    have h3 : (R + H) * (η * (n * (R + H) ^ (n - 1))) = η * (n * (R + H) ^ n) := by
      cases n with
      | zero => simp
      | succ n =>
        rw [Nat.add_sub_cancel]
        ring
    have h4 : η * R ^ n ≤ η * (R + H) ^ n := mul_le_mul_of_nonneg_left h1 hη
    rw [e, Nat.add_sub_cancel]
    push_cast
    linarith

/-- If the two-site tensor of a bond is, up to a factor, close to the gate-applied one, the state of the lattice is close to the gate
applied to the state. -/
theorem latticeState_close [Nonempty B] (hx : 2 ≤ nx) (hy : 2 ≤ ny) (σ : Bond → Equiv.Perm (Fin N)) (b : Bond) (hb : b ∈ buildBondList nx ny)
    (A : Site → B → B → B → B → P → 𝕜) {R H : ℝ} (hR0 : 0 ≤ R) (hH0 : 0 ≤ H) : ∃ D : ℝ, 0 ≤ D ∧ ∀ (gate : P → P → P → P → 𝕜) (A' : Site → B → B → B → B → P → 𝕜)
      (κ : ℝ) (η : ℝ), 0 < κ → 0 ≤ η → η ≤ H → (∀ s, s ≠ b.s1 → s ≠ b.s2 → A' s = A s) →
      (∀ w1 w2 p q, ‖gatedPair gate (bondPair b.k (A b.s1) (A b.s2)) w1 w2 p q‖ ≤ R) →
      (∀ w1 w2 p q, ‖(κ : 𝕜) * bondPair b.k (A' b.s1) (A' b.s2) w1 w2 p q -
        gatedPair gate (bondPair b.k (A b.s1) (A b.s2)) w1 w2 p q‖ ≤ η) →
      rayDist (latticeState (nx := nx) (ny := ny) σ A') (((coveringOps hx hy σ).everywhere b (gateMatrix gate).transpose).mulVec
        (latticeState σ A)) ≤ D * η := by
  obtain ⟨b0⟩ := ‹Nonempty B›
  obtain ⟨M, hM, hclose⟩ := pairState_close (leg := bigLeg σ) (e := fun c : Fin N => ((c, place hx hy b.s1), decide (b.k = 2)))
    (v1 := fun c => (c, place hx hy b.s1)) (v2 := fun c => (σ b c, place hx hy b.s2)) b0 fun v => A (v.2.1, v.2.2)
  refine ⟨Real.sqrt (Fintype.card (BigSite nx ny N → P)) * (M * (N * (R + H) ^ (N - 1))), by positivity,
    fun gate A' κ η hκ hη hηH hA hR hη' => ?_⟩
  refine (rayDist_le _ _ (pow_pos hκ N)).trans ?_
  have e1 : ((κ ^ N : ℝ) : 𝕜) • latticeState (nx := nx) (ny := ny) σ A' =
      pairState (bigLeg σ) (fun c : Fin N => ((c, place hx hy b.s1), decide (b.k = 2)))
      (fun c => (c, place hx hy b.s1)) (fun c => (σ b c, place hx hy b.s2)) b0
      (fun _ w1 w2 p q => (κ : 𝕜) * bondPair b.k (A' b.s1) (A' b.s2) w1 w2 p q) fun v => A (v.2.1, v.2.2) := by
    rw [latticeState_pairs hx hy σ b hb b0 A']
    rw [pairState_congr b0 _ (fun v : BigSite nx ny N => A (v.2.1, v.2.2)) fun v => A' (v.2.1, v.2.2)]
    · funext p
      unfold pairState
      rw [Pi.smul_apply, smul_eq_mul, Finset.mul_sum]
      refine Finset.sum_congr rfl fun γ _ => ?_
      rw [Finset.prod_mul_distrib, Finset.prod_const, Finset.card_univ, Fintype.card_fin]
      push_cast
      ring
    · intro v hv
      refine hA _ (fun h => ?_) fun h => ?_
      · refine (hv v.1).1 (Prod.ext rfl ?_)
        rw [← h]
        ext <;> simp [place, Nat.mod_eq_of_lt]
      · refine (hv ((σ b).symm v.1)).2 (Prod.ext (by simp) ?_)
        rw [← h]
        ext <;> simp [place, Nat.mod_eq_of_lt]
  rw [e1, everywhere_pairs hx hy σ b hb b0 gate A]
  have h2 := fun p => hclose (fun _ w1 w2 p q => (κ : 𝕜) * bondPair b.k (A' b.s1) (A' b.s2) w1 w2 p q)
    (fun _ => gatedPair gate (bondPair b.k (A b.s1) (A b.s2))) R η hR0 hη (fun _ => hR) (fun _ => hη') p
  rw [Fintype.card_fin] at h2
  have h3 : M * ((R + η) ^ N - R ^ N) ≤ M * (η * (N * (R + H) ^ (N - 1))) := mul_le_mul_of_nonneg_left (pow_growth hR0 hη hηH N) hM
  have h4 : 0 ≤ M * (η * (N * (R + H) ^ (N - 1))) := by positivity
  unfold stateNorm
  refine Real.sqrt_le_iff.2 ⟨by positivity, ?_⟩
  calc _ ≤ ∑ _p : BigSite nx ny N → P, (M * (η * (N * (R + H) ^ (N - 1)))) ^ 2 := by
        gcongr with p _
        exact (h2 p).trans h3
    _ = _ := by
        rw [Finset.sum_const, Finset.card_univ, nsmul_eq_mul,
          show Real.sqrt (Fintype.card (BigSite nx ny N → P)) * (M * (N * (R + H) ^ (N - 1))) * η =
            Real.sqrt (Fintype.card (BigSite nx ny N → P)) * (M * (η * (N * (R + H) ^ (N - 1)))) by ring, mul_pow (Real.sqrt _), Real.sq_sqrt (by positivity)]

end AceTN
