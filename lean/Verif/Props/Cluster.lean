import Verif.Lemmas.ClusterSweep
import Verif.Lemmas.ClusterRead
import Verif.Lemmas.Regular
import Verif.Model.Measure

/-!
# C66: Without truncation the renormalization is exact

As long as no move truncates, the density matrices computed after any sequence of moves are, up to a positive factor,
those of a rectangle of the infinite lattice surrounded by the boundary tensors one started with: the moves have collected
exactly the lines of sites that they absorbed.
-/

set_option autoImplicit false

namespace AceTN

namespace Spec

/-- A site of the cell as a site of the infinite lattice. -/
def atLattice (s : Site) : ℤ × ℤ := (s.1, s.2)

/-- The density matrices of `net'` at all sites and bonds are, up to a positive factor, those of the clusters of `net` with the
rectangle `G r` in place of the rectangle `r` made of the site or the bond.  `numBondRdm` reads uninitialised memory, `init`. -/
def ExactRdms {𝕜 B : Type} [RCLike 𝕜] [Fintype B] {pD : ℕ} (net net' : Net (Ten B (Fin pD) 𝕜)) (G : Rect → Rect) : Prop :=
  (∀ s, InCell net.nx net.ny s → ∃ ρ, numSiteRdm net' s = .ok ρ ∧ ∃ c : ℝ, 0 < c ∧ ∀ bra ket,
    ρ bra ket = c * cluster net (fixSite (atLattice s) bra ket) (G ⟨s.1, s.2, 1, 1⟩)) ∧
  (∀ s, InCell net.nx net.ny s → ∀ (k : Fin 4) init, ∃ ρ, numBondRdm init net' ⟨s, neighbour net.nx net.ny s k.val, k.val⟩ = .ok ρ ∧
    ∃ c : ℝ, 0 < c ∧ ∀ b1 b2 k1 k2, ρ b1 b2 k1 k2 =
      c * cluster net (fixBond (atLattice s) (atLattice s + dir k) b1 b2 k1 k2) (G (bondRect (atLattice s) k)))

end Spec

open Spec

section exact

variable {𝕜 B : Type} [RCLike 𝕜] [Fintype B] [DecidableEq B] {pD : ℕ}

theorem exactRdms_run (st : ProjSettings 𝕜) (pk : ProjKind) (hr : CutsResolve B st pk) (ω : ℕ → Draws B 𝕜) (ms : List Move) (t : ℕ)
    (net : Net (Ten B (Fin pD) 𝕜)) (f : Site → ℕ → ℕ) (hw : Wired net f) (hx : 0 < net.nx) (hy : 0 < net.ny)
    (hm : ∀ m ∈ ms, InRange net.nx net.ny m) (hl : LooseRun st pk ω t ms net) :
    ∃ net', runDrawn st pk ω t ms net = .ok net' ∧ ExactRdms net net' (growAll net.nx net.ny ms) := by
  obtain ⟨net', h1, hnx, hny, ⟨f', hw'⟩, hv⟩ := cluster_run st pk ω hr ms t net f hw hx hy hm hl
  have hx' : 0 < net'.nx := hnx ▸ hx
  have hy' : 0 < net'.ny := hny ▸ hy
  refine ⟨net', h1, fun s hs => ?_, fun s hs k init => ?_⟩
  · have e := numSiteRdm_eq hw' hx' hy' (atLattice s)
    rw [hnx, hny, show cellSite net.nx net.ny (atLattice s) = s from cellSite_self _ _ s hs] at e
    obtain ⟨c, hc, hv⟩ := hv ⟨s.1, s.2, 1, 1⟩
    refine ⟨_, e, c, hc, fun bra ket => hv _ fun p hp => ?_⟩
    unfold fixSite
    rw [if_neg]
    rintro rfl
    refine hp ?_
    unfold Rect.Has atLattice
    push_cast
    omega
  · have e := numBondRdm_eq hw' hx' hy' init (atLattice s) k
    rw [hnx, hny, ← neighbour_cellSite _ _ hx hy, show cellSite net.nx net.ny (atLattice s) = s from cellSite_self _ _ s hs] at e
    obtain ⟨c, hc, hv⟩ := hv (bondRect (atLattice s) k)
    refine ⟨_, e, c, hc, fun b1 b2 k1 k2 => hv _ fun p hp => ?_⟩
    unfold fixBond
    rw [if_neg, if_neg]
    · rintro rfl
      refine hp ?_
      unfold Rect.Has
      match k with
      | 0 | 1 | 2 | 3 => simp only [bondRect, dir, Prod.fst_add, Prod.snd_add]; push_cast; omega
    · rintro rfl
      refine hp ?_
      unfold Rect.Has
      match k with
      | 0 | 1 | 2 | 3 => simp only [bondRect]; push_cast; omega

/-- **C66 (moves).** After any sequence of moves none of which truncates, the density matrices are those of the clusters that
have grown by the absorbed lines. -/
theorem C66_moves (st : ProjSettings 𝕜) (pk : ProjKind) (hk : pk = .half ∨ st.fullRank = true) (hcut : 0 ≤ st.cutoff)
    (hcut1 : st.cutoff < 1) (ω : ℕ → Draws B 𝕜) (ms : List Move) (t : ℕ) (net : Net (Ten B (Fin pD) 𝕜)) (f : Site → ℕ → ℕ)
    (hw : Wired net f) (hx : 0 < net.nx) (hy : 0 < net.ny) (hm : ∀ m ∈ ms, InRange net.nx net.ny m)
    (hl : LooseRun st pk ω t ms net) :
    ∃ net', runDrawn st pk ω t ms net = .ok net' ∧ ExactRdms net net' (growAll net.nx net.ny ms) := by
  refine exactRdms_run st pk ?_ ω ms t net f hw hx hy hm hl
  cases pk with
  | half => exact (cutsGood_half st hcut hcut1).resolve
  | full => exact (cutsGood_full st (hk.resolve_left (by simp)) hcut hcut1).resolve

/-- **C66 (sweeps).** After `n` sweeps of `ctmrg` without truncation, the density matrix of a site or a bond is the one of a
cluster that contains all sites at a distance of up to `n` in both directions. -/
theorem C66_sweeps (st : ProjSettings 𝕜) (pk : ProjKind) (hk : pk = .half ∨ st.fullRank = true) (hcut : 0 ≤ st.cutoff)
    (hcut1 : st.cutoff < 1) (ω : ℕ → Draws B 𝕜) (n t : ℕ) (net : Net (Ten B (Fin pD) 𝕜)) (f : Site → ℕ → ℕ)
    (hw : Wired net f) (hx : 0 < net.nx) (hy : 0 < net.ny)
    (hl : LooseRun st pk ω t (List.replicate n (sweepMoves net.nx net.ny)).flatten net) :
    ∃ net' G, ctmrgDrawn st pk ω t n net = .ok net' ∧ ExactRdms net net' G ∧
      ∀ (r : Rect) (p q : ℤ × ℤ), r.Has p → |q.1 - p.1| ≤ n → |q.2 - p.2| ≤ n → (G r).Has q := by
  obtain ⟨net', h1, h2⟩ := C66_moves st pk hk hcut hcut1 ω _ t net f hw hx hy (sweeps_range hx hy n) hl
  exact ⟨net', _, (ctmrgDrawn_eq st pk ω n t net).trans h1, h2, fun r p q hp h h' => growAll_reach hx hy n r p q hp h h'⟩

/-- **C66 (real tensors).** For real tensors the same holds for all kinds of projectors. -/
theorem C66_real (st : ProjSettings ℝ) (pk : ProjKind) (hcut : 0 ≤ st.cutoff) (hcut1 : st.cutoff < 1) (ω : ℕ → Draws B ℝ)
    (ms : List Move) (t : ℕ) (net : Net (Ten B (Fin pD) ℝ)) (f : Site → ℕ → ℕ) (hw : Wired net f) (hx : 0 < net.nx)
    (hy : 0 < net.ny) (hm : ∀ m ∈ ms, InRange net.nx net.ny m) (hl : LooseRun st pk ω t ms net) :
    ∃ net', runDrawn st pk ω t ms net = .ok net' ∧ ExactRdms net net' (growAll net.nx net.ny ms) := by
  refine exactRdms_run st pk ?_ ω ms t net f hw hx hy hm hl
  cases pk with
  | half => exact (cutsGood_half st hcut hcut1).resolve
  | full => exact (cutsGood_full_real st hcut hcut1).resolve

omit [DecidableEq B] in
/-- **C66 (values).** The factors drop out of measured values: `measure` finds, for every one-site and two-site operator, the
value that the density matrix of the cluster gives. -/
theorem C66_values (net net' : Net (Ten B (Fin pD) 𝕜)) (G : Rect → Rect) (h : ExactRdms net net' G) (s : Site)
    (hs : InCell net.nx net.ny s) :
    (∃ ρ, numSiteRdm net' s = .ok ρ ∧ ∀ op, measureOneSite ρ op / siteNorm ρ =
      RCLike.re (∑ bra, ∑ ket, cluster net (fixSite (atLattice s) bra ket) (G ⟨s.1, s.2, 1, 1⟩) * op ket bra) /
        RCLike.re (∑ p, cluster net (fixSite (atLattice s) p p) (G ⟨s.1, s.2, 1, 1⟩))) ∧
    ∀ (k : Fin 4) init, ∃ ρ, numBondRdm init net' ⟨s, neighbour net.nx net.ny s k.val, k.val⟩ = .ok ρ ∧
      ∀ op, measureTwoSite ρ op / bondNorm ρ =
        RCLike.re (∑ b1, ∑ b2, ∑ k1, ∑ k2,
          cluster net (fixBond (atLattice s) (atLattice s + dir k) b1 b2 k1 k2) (G (bondRect (atLattice s) k)) * op k1 k2 b1 b2) /
        RCLike.re (∑ p, ∑ q, cluster net (fixBond (atLattice s) (atLattice s + dir k) p q p q) (G (bondRect (atLattice s) k))) := by
  obtain ⟨hS, hB⟩ := h
  refine ⟨?_, fun k init => ?_⟩
  · obtain ⟨ρ, hρ, c, hc, e⟩ := hS s hs
    refine ⟨ρ, hρ, fun op => ?_⟩
    unfold measureOneSite siteNorm
    simp only [e, mul_assoc, ← Finset.mul_sum, RCLike.re_ofReal_mul]
    exact mul_div_mul_left _ _ hc.ne'
  · obtain ⟨ρ, hρ, c, hc, e⟩ := hB s hs k init
    refine ⟨ρ, hρ, fun op => ?_⟩
    unfold measureTwoSite bondNorm
    simp only [e, mul_assoc, ← Finset.mul_sum, RCLike.re_ofReal_mul]
    exact mul_div_mul_left _ _ hc.ne'

end exact

/-- A network on a 2 × 3 cell with two-dimensional boundary bonds whose tensors are not symmetric. -/
noncomputable def shearNet : Net (Ten Unit (Fin 2) ℝ) where
  nx := 2
  ny := 3
  chi := 2
  A s := .site fun _ _ _ _ p => s.1 + s.2 + p + 1
  B s
    | .C _ => .corner 2 2 !![1, (s.1 : ℝ); 0, 1]
    | .E _ => .edge 2 2 fun i j _ _ => !![1, 0; (s.2 : ℝ), 1] i j
  writes _ _ := 0

theorem shearNet_regular : Regular 2 shearNet where
  site p := by
    refine ⟨_, rfl, fun h => ?_⟩
    have := congrFun (congrFun (congrFun (congrFun (congrFun h ()) ()) ()) ()) 0
    simp only [Pi.zero_apply] at this
    have h1 : (0 : ℝ) ≤ ((cellSite shearNet.nx shearNet.ny p).1 : ℝ) := Nat.cast_nonneg _
    have h2 : (0 : ℝ) ≤ ((cellSite shearNet.nx shearNet.ny p).2 : ℝ) := Nat.cast_nonneg _
    simp at this
    linarith
  corner p k := by
    refine ⟨_, rfl, (Matrix.isUnit_iff_isUnit_det _).2 ?_⟩
    have e : Matrix.det (Matrix.of !![1, ((cellSite shearNet.nx shearNet.ny p).1 : ℝ); 0, 1]) = 1 := by
      rw [show (Matrix.of !![1, ((cellSite shearNet.nx shearNet.ny p).1 : ℝ); 0, 1]) = !![1, ((cellSite shearNet.nx shearNet.ny p).1 : ℝ); 0, 1] from rfl,
        Matrix.det_fin_two_of]
      ring
    rw [e]
    exact isUnit_one
  edge p k := by
    refine ⟨_, rfl, (Matrix.isUnit_iff_isUnit_det _).2 ?_⟩
    have e : Matrix.det (edgeMat fun i j (_ : Unit) (_ : Unit) => !![1, 0; ((cellSite shearNet.nx shearNet.ny p).2 : ℝ), 1] i j) = 1 := by
      rw [show (edgeMat fun i j (_ : Unit) (_ : Unit) => !![1, 0; ((cellSite shearNet.nx shearNet.ny p).2 : ℝ), 1] i j) =
        !![1, 0; ((cellSite shearNet.nx shearNet.ny p).2 : ℝ), 1] from rfl, Matrix.det_fin_two_of]
      ring
    rw [e]
    exact isUnit_one

/-- The hypotheses of C66 hold for any number of sweeps on this network. -/
example (la : Lapack ℝ) (pk : ProjKind) (ω : ℕ → Draws Unit ℝ) (n t ov ni : ℕ) :
    Wired shearNet (fun _ _ => 2) ∧
    LooseRun ⟨la, true, 0, ov, ni⟩ pk ω t (List.replicate n (sweepMoves shearNet.nx shearNet.ny)).flatten shearNet := by
  have hx : 0 < shearNet.nx := by decide
  have hy : 0 < shearNet.ny := by decide
  refine ⟨shearNet_regular.wired hx hy, (shearNet_regular.run (by decide) hx hy le_rfl one_pos ω (fun t => ?_) _ t (sweeps_range hx hy n)).1⟩
  exact ⟨le_rfl, fun M _ => cutGap_zero M, fun h => by simp at h⟩

/-! ### The same with bonds of any dimension, for one move -/

open Matrix

/-- A site in both layers of which the indices pass straight through. -/
def crossSite (m : ℕ) : ATensor (Fin m) (Fin 1) ℂ := fun l u r d _ => (if l = r then 1 else 0) * if u = d then 1 else 0

/-- An edge that joins its boundary legs with its ket and its bra leg. -/
def crossEdge (m : ℕ) : Fin m → Fin m → Fin m → Fin m → ℂ := fun i j g g' => (if i = g then 1 else 0) * if j = g' then 1 else 0

/-- A network with bonds and boundary bonds of dimension `m`. -/
noncomputable def crossNet (nx ny m chi : ℕ) : Net (Ten (Fin m) (Fin 1) ℂ) where
  nx := nx
  ny := ny
  chi := chi
  A _ := .site (crossSite m)
  B _
    | .C _ => .corner m m fun i j => if i = j then 1 else 0
    | .E _ => .edge m m (crossEdge m)
  writes _ _ := 0

theorem crossNet_wired {nx ny m chi : ℕ} (hx : 0 < nx) (hy : 0 < ny) : Wired (crossNet nx ny m chi) fun _ _ => m :=
  wired_of hx hy (fun _ => ⟨_, rfl⟩) (fun _ _ => ⟨_, rfl⟩) (fun _ _ => ⟨_, rfl⟩)

theorem crossSite_permute (m : ℕ) (k : ℤ) : bondPermute k (crossSite m) = crossSite m := by
  have h : ∀ a : ℤ, k % 4 = a % 4 → bondPermute a (crossSite m) = crossSite m → bondPermute k (crossSite m) = crossSite m :=
    fun a h1 h2 => (bondPermute_mod k a h1 _).trans h2
  have hk : k % 4 = 0 ∨ k % 4 = 1 ∨ k % 4 = 2 ∨ k % 4 = 3 := by omega
  rcases hk with hk | hk | hk | hk
  · exact h 0 hk rfl
  · refine h 1 hk ?_
    funext l u r d p
    rw [bondPermute_one]
    simp only [crossSite, mul_comm, eq_comm]
  · refine h 2 hk ?_
    funext l u r d p
    rw [bondPermute_two]
    simp only [crossSite, eq_comm]
  · refine h 3 hk ?_
    funext l u r d p
    rw [bondPermute_three]
    simp only [crossSite, mul_comm, eq_comm]

/-- The quarter tensors permute their legs. -/
theorem crossNet_quarter (m : ℕ) :
    quarterCore (𝕜 := ℂ) (fun i j : Fin m => if i = j then 1 else 0) (crossEdge m) (crossEdge m) (crossSite m) =
    (1 : Matrix (Fin m × Fin m × Fin m) (Fin m × Fin m × Fin m) ℂ).submatrix
      (fun i => (i.2.1, i.2.2, i.1)) id := by
  ext ⟨c, r, R⟩ ⟨e, d, D⟩
  unfold quarterCore
  simp only [of_apply, Pi.star_apply, submatrix_apply, id, Matrix.one_apply, Prod.mk.injEq, crossEdge, crossSite]
  simp [Finset.sum_ite_eq, Finset.sum_ite_eq', ite_and]
  simp only [eq_comm (a := r) (b := e), eq_comm (a := R) (b := d)]
  by_cases h1 : e = r <;> by_cases h2 : d = R <;> by_cases h3 : c = D <;> simp [h1, h2, h3]

theorem crossNet_quarterTensor {nx ny m chi : ℕ} (hm : 0 < m) (st : ProjSettings ℂ) (ω : Draws (Fin m) ℂ) (s : Site) (k : ℕ) :
    ∃ Q : Matrix (Fin m × Fin m × Fin m) (Fin m × Fin m × Fin m) ℂ,
      quarterTensor (numOps st ω) (crossNet nx ny m chi) s k = .quarter m m Q ∧ IsUnit Q := by
  unfold quarterTensor
  refine ⟨_, quarter_eq _ _ _ _ _ _, ?_⟩
  rw [crossSite_permute, crossNet_quarter]
  let σ : Fin m × Fin m × Fin m ≃ Fin m × Fin m × Fin m :=
    ⟨fun i => (i.2.1, i.2.2, i.1), fun i => (i.2.2, i.1, i.2.1), fun _ => rfl, fun _ => rfl⟩
  have hu : IsUnit ((1 : Matrix (Fin m × Fin m × Fin m) (Fin m × Fin m × Fin m) ℂ).submatrix σ (Equiv.refl _)) :=
    (Matrix.isUnit_submatrix_equiv _ _).2 isUnit_one
  have : Nonempty (Fin m) := ⟨⟨0, hm⟩⟩
  unfold maxNormalise
  refine isUnit_smul_of ?_ hu
  exact RCLike.ofReal_ne_zero.2 (inv_pos.2 (maxAbs_pos _ hu.ne_zero)).ne'

/-- The hypotheses of C66 hold for every move on these networks, whose bonds are not trivial. -/
theorem crossNet_loose {nx ny m chi : ℕ} (hm : 0 < m) (hc : m * (m * m) ≤ chi) (la : Lapack ℂ) (pk : ProjKind) (ov ni : ℕ)
    (ω : ℕ → Draws (Fin m) ℂ) (t : ℕ) (mv : Move) : LooseRun ⟨la, true, 0, ov, ni⟩ pk ω t [mv] (crossNet nx ny m chi) := by
  have inv : ∀ Q : Matrix (Fin m × Fin m × Fin m) (Fin m × Fin m × Fin m) ℂ, IsUnit Q → (∃ Q', Q' * Q = 1) ∧ ∃ Q', Q * Q' = 1 := by
    rintro _ ⟨u, rfl⟩
    exact ⟨⟨_, u.inv_mul⟩, _, u.mul_inv⟩
  have key : ∀ (q : ℕ) (L R : Matrix (Fin m × Fin m × Fin m) (Fin m × Fin m × Fin m) ℂ) (Ω : Matrix (Fin m × Fin m × Fin m) (Fin q) ℂ),
      IsUnit L → IsUnit R → Loose true 0 chi L R Ω := fun q L R Ω hL hR =>
    ⟨⟨(⟨0, hm⟩, ⟨0, hm⟩, ⟨0, hm⟩)⟩, (inv L hL).1, (inv R hR).2, by simpa using hc, cutGap_zero _, fun h => by simp at h⟩
  refine ⟨fun s _ _ => ?_, fun _ _ => trivial⟩
  generalize neighbour _ _ s _ = s2
  generalize neighbour _ _ s2 _ = s3
  generalize neighbour _ _ s _ = s4
  generalize moveDir mv = k
  obtain ⟨Q1, h1, u1⟩ := crossNet_quarterTensor (nx := nx) (ny := ny) (chi := chi) hm ⟨la, true, 0, ov, ni⟩ (ω t) s k
  obtain ⟨Q2, h2, u2⟩ := crossNet_quarterTensor (nx := nx) (ny := ny) (chi := chi) hm ⟨la, true, 0, ov, ni⟩ (ω t) s2 (k + 1)
  obtain ⟨Q3, h3, u3⟩ := crossNet_quarterTensor (nx := nx) (ny := ny) (chi := chi) hm ⟨la, true, 0, ov, ni⟩ (ω t) s3 (k + 2)
  obtain ⟨Q4, h4, u4⟩ := crossNet_quarterTensor (nx := nx) (ny := ny) (chi := chi) hm ⟨la, true, 0, ov, ni⟩ (ω t) s4 (k + 3)
  cases pk with
  | half => exact ⟨_, _, _, Q1, Q4, h1, h4, key _ _ _ _ u1 u4⟩
  | full => exact ⟨_, _, _, _, _, Q1, Q2, Q3, Q4, h1, h2, h3, h4, key _ _ _ _ (u2.mul u1) (u4.mul u3)⟩

example {nx ny m chi : ℕ} (hx : 0 < nx) (hy : 0 < ny) (hm : 0 < m) (hc : m * (m * m) ≤ chi) (la : Lapack ℂ) (pk : ProjKind)
    (ov ni : ℕ) (ω : ℕ → Draws (Fin m) ℂ) (t : ℕ) (mv : Move) (hmv : InRange nx ny mv) :
    ∃ net', runDrawn ⟨la, true, 0, ov, ni⟩ pk ω t [mv] (crossNet nx ny m chi) = .ok net' ∧
      ExactRdms (crossNet nx ny m chi) net' (growAll nx ny [mv]) :=
  C66_moves _ pk (.inr rfl) le_rfl one_pos ω [mv] t (crossNet nx ny m chi) _ (crossNet_wired hx hy) hx hy
    (fun m' h => by rw [List.mem_singleton] at h; exact h ▸ hmv) (crossNet_loose hm hc la pk ov ni ω t mv)

end AceTN
