import Verif.Lemmas.MoveExact
import Verif.Props.Rdm
import Verif.Props.Projectors

/-!
Property C59: an untruncated boundary move is exact.
-/

set_option autoImplicit false

namespace AceTN

open Matrix Spec

variable {𝕜 : Type} [RCLike 𝕜]

section move

variable {B P X : Type} [Fintype B] [Fintype X]

theorem siteRdmAfterMove_eq {Z Z' : Type} [Fintype Z] [Fintype Z'] (s2 : NumSite B P X 𝕜) (k : Fin 4)
    (t : (X → Z → 𝕜) × (Z' → X → 𝕜) × (Z → Z' → B → B → 𝕜)) (bra ket : P) :
    siteRdmAfterMove s2 k t bra ket = siteRdm t.2.1 (s2.E (rotIdx k.val 0)) (s2.C (rotIdx k.val 1)) (s2.E (rotIdx k.val 1))
      (s2.C (rotIdx k.val 2)) (s2.E (rotIdx k.val 2)) t.1 t.2.2 (bondPermute k.val s2.A) bra ket := by
  match k with
  | 0 => exact congrFun (congrFun (C46_site_core _ _ _ _ _ _ _ _ _) bra) ket
  | 1 => exact (congrFun (congrFun (C46_site_core _ _ _ _ _ _ _ _ _) bra) ket).trans (siteRdm_rotate _ _ _ _ _ _ _ _ _ _ _)
  | 2 =>
    exact (congrFun (congrFun (C46_site_core _ _ _ _ _ _ _ _ _) bra) ket).trans
      ((siteRdm_rotate _ _ _ _ _ _ _ _ _ _ _).trans (siteRdm_rotate _ _ _ _ _ _ _ _ _ _ _))
  | 3 =>
    exact (congrFun (congrFun (C46_site_core _ _ _ _ _ _ _ _ _) bra) ket).trans
      ((siteRdm_rotate _ _ _ _ _ _ _ _ _ _ _).trans ((siteRdm_rotate _ _ _ _ _ _ _ _ _ _ _).trans
        (siteRdm_rotate _ _ _ _ _ _ _ _ _ _ _)))

end move

namespace Spec

/-- The three contractions of a move are nonzero, so that they can be normalised. -/
def MoveNonzero {B P X : Type} [Fintype B] [Fintype P] [Fintype X] (s1 : NumSite B P X 𝕜) (pi pj : ProjPair X B 𝕜) (k : ℤ) : Prop :=
  lowerCorner (s1.C (rotIdx k 3)) (s1.E (rotIdx k 2)) pi.proj1 ≠ 0 ∧
  upperCorner (s1.C (rotIdx k 0)) (s1.E (rotIdx k 0)) pj.proj2 ≠ 0 ∧
  absorbedEdge (s1.E (rotIdx k 3)) (bondPermute k s1.A) pi.proj2 pj.proj1 ≠ 0

/-- The density matrix `ρ` of one site is, up to a positive factor, the density matrix `ρ₂` of two sites with the second
site traced out. -/
def IsPartialTrace {P Q : Type} [Fintype Q] (ρ : P → P → 𝕜) (ρ₂ : P → Q → P → Q → 𝕜) : Prop :=
  ∃ F : ℝ, 0 < F ∧ ∀ bra ket, ρ bra ket = (F : 𝕜) * ∑ q, ρ₂ bra q ket q

end Spec

section exact

variable {B X : Type} [Fintype B] [Fintype X] [DecidableEq B] [DecidableEq X] {pD : ℕ}

omit [Fintype B] [Fintype X] in
theorem norm2_pos {a b : Type} [Fintype a] [Fintype b] (c : a → b → 𝕜) (h : c ≠ 0) : 0 < norm2 c := by
  unfold norm2
  apply Real.sqrt_pos.2
  have h1 := (sum_normalised (fun i : a × b => c i.1 i.2) (fun h0 => h (by funext i j; exact congrFun h0 (i, j)))).1
  simpa only [Fintype.sum_prod_type, Real.sqrt_pos] using h1

omit [Fintype B] [Fintype X] in
theorem norm4_pos {a b c d : Type} [Fintype a] [Fintype b] [Fintype c] [Fintype d] (t : a → b → c → d → 𝕜) (h : t ≠ 0) :
    0 < norm4 t := by
  unfold norm4
  apply Real.sqrt_pos.2
  have h1 := (sum_normalised (fun i : a × b × c × d => t i.1 i.2.1 i.2.2.1 i.2.2.2)
    (fun h0 => h (by funext i j k l; exact congrFun h0 (i, j, k, l)))).1
  simpa only [Fintype.sum_prod_type, Real.sqrt_pos] using h1

/-- **C59** (projectors that resolve the identity).  If the projectors of both cuts multiply to positive multiples of the
identity, then after the move the density matrix of the receiving site is the two-site density matrix of the receiving
and the absorbed site, with the absorbed site traced out, up to a positive factor. -/
theorem C59_exact (init : Fin pD → Fin pD → Fin pD → Fin pD → 𝕜) (net : NetT B (Fin pD) X 𝕜) (s1 s2 : Site) (k : Fin 4)
    (pi pj : ProjPair X B 𝕜) (ci cj : ℝ) (hci : 0 < ci) (hcj : 0 < cj) (hi : Resolution pi.proj1 pi.proj2 (ci : 𝕜))
    (hj : Resolution pj.proj1 pj.proj2 (cj : 𝕜)) (hnz : MoveNonzero (net s1) pi pj k.val) :
    IsPartialTrace (siteRdmAfterMove (net s2) k (renormalizeBoundary3 (net s1) pi pj k.val))
      (buildBondRdm init net s2 s1 k.val) := by
  obtain ⟨h1, h2, h3⟩ := hnz
  have n1 := norm2_pos _ h1
  have n2 := norm2_pos _ h2
  have n3 := norm4_pos _ h3
  refine ⟨(norm2 (upperCorner ((net s1).C (rotIdx k.val 0)) ((net s1).E (rotIdx k.val 0)) pj.proj2))⁻¹ *
    (norm2 (lowerCorner ((net s1).C (rotIdx k.val 3)) ((net s1).E (rotIdx k.val 2)) pi.proj1))⁻¹ *
    (norm4 (absorbedEdge ((net s1).E (rotIdx k.val 3)) (bondPermute k.val (net s1).A) pi.proj2 pj.proj1))⁻¹ * (cj * ci),
    by positivity, fun bra ket => ?_⟩
  rw [siteRdmAfterMove_eq]
  unfold renormalizeBoundary3
  dsimp only
  rw [renormalizeCj1_eq, renormalizeCj2_eq, renormalizeEj_eq]
  have key := absorbed_exact ((net s2).C (rotIdx k.val 1)) ((net s2).E (rotIdx k.val 1)) ((net s2).E (rotIdx k.val 0))
    ((net s2).C (rotIdx k.val 2)) ((net s2).E (rotIdx k.val 2)) (bondPermute k.val (net s2).A)
    ((net s1).C (rotIdx k.val 0)) ((net s1).E (rotIdx k.val 0)) ((net s1).E (rotIdx k.val 3))
    ((net s1).C (rotIdx k.val 3)) ((net s1).E (rotIdx k.val 2)) (bondPermute k.val (net s1).A)
    pi.proj1 pi.proj2 pj.proj1 pj.proj2 _ _ hi hj bra ket
  have scale := siteRdm_scale ((norm2 (upperCorner ((net s1).C (rotIdx k.val 0)) ((net s1).E (rotIdx k.val 0)) pj.proj2) : 𝕜)⁻¹)
    1 1 1 1 1 ((norm2 (lowerCorner ((net s1).C (rotIdx k.val 3)) ((net s1).E (rotIdx k.val 2)) pi.proj1) : 𝕜)⁻¹)
    ((norm4 (absorbedEdge ((net s1).E (rotIdx k.val 3)) (bondPermute k.val (net s1).A) pi.proj2 pj.proj1) : 𝕜)⁻¹) 1
    (upperCorner ((net s1).C (rotIdx k.val 0)) ((net s1).E (rotIdx k.val 0)) pj.proj2)
    ((net s2).E (rotIdx k.val 0)) ((net s2).C (rotIdx k.val 1)) ((net s2).E (rotIdx k.val 1))
    ((net s2).C (rotIdx k.val 2)) ((net s2).E (rotIdx k.val 2))
    (lowerCorner ((net s1).C (rotIdx k.val 3)) ((net s1).E (rotIdx k.val 2)) pi.proj1)
    (absorbedEdge ((net s1).E (rotIdx k.val 3)) (bondPermute k.val (net s1).A) pi.proj2 pj.proj1)
    (bondPermute k.val (net s2).A) bra ket
  rw [key] at scale
  simp only [one_mul, mul_one, star_one] at scale
  have e2 : ∀ {a b : Type} [Fintype a] [Fintype b] (c : a → b → 𝕜), normalise2 c = fun i j => ((norm2 c : ℝ) : 𝕜)⁻¹ * c i j := by
    intro a b _ _ c
    funext i j
    unfold normalise2
    rw [div_eq_inv_mul]
  have e4 : ∀ {a b c d : Type} [Fintype a] [Fintype b] [Fintype c] [Fintype d] (t : a → b → c → d → 𝕜),
      normalise4 t = fun i j k l => ((norm4 t : ℝ) : 𝕜)⁻¹ * t i j k l := by
    intro a b c d _ _ _ _ t
    funext i j k l
    unfold normalise4
    rw [div_eq_inv_mul]
  rw [e2, e2, e4]
  refine scale.trans ?_
  have : ∀ q, bondRdm ((net s2).C (rotIdx k.val 1)) ((net s2).E (rotIdx k.val 1)) ((net s2).E (rotIdx k.val 0))
    ((net s2).C (rotIdx k.val 2)) ((net s2).E (rotIdx k.val 2)) (bondPermute k.val (net s2).A)
    ((net s1).C (rotIdx k.val 0)) ((net s1).E (rotIdx k.val 0)) ((net s1).E (rotIdx k.val 3))
    ((net s1).C (rotIdx k.val 3)) ((net s1).E (rotIdx k.val 2)) (bondPermute k.val (net s1).A) bra q ket q =
    buildBondRdm init net s2 s1 k.val bra q ket q := by
    intro q
    rw [C46_bond]
  rw [Finset.sum_congr rfl fun q _ => this q]
  push_cast
  ring

end exact

/-! ### Projectors of full rank resolve the identity -/

section resolution

variable {B X : Type} [Fintype B] [Fintype X] [DecidableEq B] [DecidableEq X]

theorem rankLE_of_card {m n : Type} [Fintype m] [Fintype n] [DecidableEq n] (M : Matrix m n 𝕜) (chi : ℕ)
    (h : Fintype.card n ≤ chi) : RankLE M chi := by
  obtain ⟨f⟩ : Nonempty (n ↪ Fin chi) := Function.Embedding.nonempty_of_card_le (by simpa using h)
  classical
  refine ⟨of fun i z => ∑ j, if f j = z then M i j else 0, of fun z j => if f j = z then 1 else 0, ?_⟩
  ext i j
  rw [mul_apply, Finset.sum_eq_single (f j)]
  · simp [f.injective.eq_iff]
  · intro z _ hz
    rw [of_apply, of_apply, if_neg (Ne.symm hz), mul_zero]
  · simp

/-- A cut whose projectors reproduce an environment made of two invertible halves resolves the identity. -/
theorem resolution_of_reproduces {k : ℕ} (L R : Matrix (X × B × B) (X × B × B) 𝕜) (hL : IsUnit L) (hR : IsUnit R)
    (p1 p2 : X → B → B → Fin k → 𝕜) (c : ℝ) (h : Reproduces L R p1 p2 c) : Resolution p1 p2 (c : 𝕜) := by
  obtain ⟨L', hL'⟩ := hL.exists_left_inv
  obtain ⟨R', hR'⟩ := hR.exists_right_inv
  have h1 := congrArg (fun M => L' * M * R') h
  beta_reduce at h1
  have h2 : pmat p2 * (pmat p1)ᵀ = (c : 𝕜) • (1 : Matrix _ _ 𝕜) := by
    have e1 : L' * (L * pmat p2 * (pmat p1)ᵀ * R) * R' = (L' * L) * (pmat p2 * (pmat p1)ᵀ) * (R * R') := by
      simp only [Matrix.mul_assoc]
    have e2 : L' * ((c : 𝕜) • (L * R)) * R' = (c : 𝕜) • ((L' * L) * (R * R')) := by
      simp only [Matrix.mul_assoc, Matrix.mul_smul, Matrix.smul_mul]
    rw [e1, e2, hL', hR', Matrix.one_mul, Matrix.mul_one, Matrix.mul_one] at h1
    exact h1
  intro x u u' y v v'
  have h3 := congrFun (congrFun h2 (x, u, u')) (y, v, v')
  rw [mul_apply] at h3
  refine h3.trans ?_
  rw [Matrix.smul_apply, one_apply, smul_eq_mul]
  by_cases hxy : x = y ∧ u = v ∧ u' = v'
  · obtain ⟨rfl, rfl, rfl⟩ := hxy
    simp
  · rw [if_neg hxy, if_neg (fun e => hxy (by simpa using e)), mul_zero]

theorem isUnit_ne_zero {n : Type} [Fintype n] [DecidableEq n] [Nonempty n] (M : Matrix n n 𝕜) (h : IsUnit M) : M ≠ 0 := by
  rintro rfl
  exact not_isUnit_zero h

end resolution

namespace Spec

/-- A cut that needs no truncation: both halves of its environment are invertible, `chi` is at least the dimension of the
cut, no singular value is at or below the cut-off, and the random draw, if one is used, captures the environment. -/
structure Untruncated {X B : Type} [Fintype X] [Fintype B] [DecidableEq X] [DecidableEq B] {q : ℕ} (fullRank : Bool)
    (cutoff : ℝ) (chi : ℕ) (L R : Matrix (X × B × B) (X × B × B) 𝕜) (Ω : Matrix (X × B × B) (Fin q) 𝕜) : Prop where
  left : IsUnit L
  right : IsUnit R
  large : Fintype.card (X × B × B) ≤ chi
  gap : CutGap (L * R) cutoff
  draw : fullRank = false → L * R * Ω ≠ 0 ∧ Captures (L * R) Ω

end Spec

section network

variable {B P X : Type} [Fintype B] [Fintype P] [Fintype X] [DecidableEq X] [DecidableEq B] [Nonempty X] [Nonempty B]

omit [Fintype P] in
theorem resolution_of_cutOk {q : ℕ} (fullRank : Bool) (cutoff : ℝ) (chi : ℕ) (L R : Matrix (X × B × B) (X × B × B) 𝕜)
    (Ω : Matrix (X × B × B) (Fin q) 𝕜) (p : ProjPair X B 𝕜) (h : CutOk fullRank cutoff chi L R Ω p)
    (hu : Untruncated fullRank cutoff chi L R Ω) : ∃ c : ℝ, 0 < c ∧ Resolution p.proj1 p.proj2 (c : 𝕜) := by
  obtain ⟨-, hg⟩ := h (isUnit_ne_zero _ (hu.left.mul hu.right)) fun hf => (hu.draw hf).1
  obtain ⟨-, -, c, ⟨hc, -⟩, -, hrep⟩ := hg fun hf => (hu.draw hf).2
  exact ⟨c, hc, resolution_of_reproduces L R hu.left hu.right _ _ c (hrep (rankLE_of_card _ _ hu.large) hu.gap)⟩

/-- **C59** (half-system projectors).  A move whose two cuts need no truncation is exact: afterwards the density matrix of
the receiving site is the two-site density matrix with the absorbed site traced out, up to a positive factor. -/
theorem C59_half {pD : ℕ} (la : Lapack 𝕜) (fullRank : Bool) (cutoff : ℝ) (hcut : 0 ≤ cutoff) (hcut1 : cutoff < 1) (chi : ℕ)
    (oversampling niter : ℕ) (init : Fin pD → Fin pD → Fin pD → Fin pD → 𝕜) (net : NetT B (Fin pD) X 𝕜) (s1 s2 : Site)
    (k : Fin 4) (t1 t4 w1 w4 : Site) (Ωi Ωj : Draw X B 𝕜 (chi + oversampling))
    (hi : Untruncated fullRank cutoff chi (makeQuarter (net t1) k.val) (makeQuarter (net t4) (k.val + 3)) Ωi)
    (hj : Untruncated fullRank cutoff chi (makeQuarter (net w1) k.val) (makeQuarter (net w4) (k.val + 3)) Ωj)
    (hnz : MoveNonzero (net s1) (calculateHalf la fullRank cutoff chi oversampling niter net t1 t4 k.val Ωi)
      (calculateHalf la fullRank cutoff chi oversampling niter net w1 w4 k.val Ωj) k.val) :
    IsPartialTrace (siteRdmAfterMove (net s2) k (renormalizeBoundary3 (net s1)
      (calculateHalf la fullRank cutoff chi oversampling niter net t1 t4 k.val Ωi)
      (calculateHalf la fullRank cutoff chi oversampling niter net w1 w4 k.val Ωj) k.val))
      (buildBondRdm init net s2 s1 k.val) := by
  have hchi : 0 < chi := lt_of_lt_of_le Fintype.card_pos hi.large
  obtain ⟨ci, hci, ri⟩ := resolution_of_cutOk fullRank cutoff chi _ _ Ωi _
    (C45_half B (Fin pD) X la fullRank cutoff chi oversampling niter net t1 t4 k.val Ωi hcut hcut1 hchi) hi
  obtain ⟨cj, hcj, rj⟩ := resolution_of_cutOk fullRank cutoff chi _ _ Ωj _
    (C45_half B (Fin pD) X la fullRank cutoff chi oversampling niter net w1 w4 k.val Ωj hcut hcut1 hchi) hj
  exact C59_exact init net s1 s2 k _ _ ci cj hci hcj ri rj hnz

end network

namespace Spec

/-- The intended statement of C59 for full-system projectors. -/
def MoveExactFull (𝕜 : Type) [RCLike 𝕜] (fullRank : Bool) : Prop :=
  ∀ (B X : Type) [Fintype B] [Fintype X] [DecidableEq X] [DecidableEq B] [Nonempty X] [Nonempty B] (pD : ℕ) (la : Lapack 𝕜)
    (cutoff : ℝ) (chi oversampling niter : ℕ) (init : Fin pD → Fin pD → Fin pD → Fin pD → 𝕜) (net : NetT B (Fin pD) X 𝕜)
    (s1 s2 : Site) (k : Fin 4) (t1 t2 t3 t4 w1 w2 w3 w4 : Site) (Ωi Ωj : Draw X B 𝕜 (chi + oversampling)),
    0 ≤ cutoff → cutoff < 1 →
    Untruncated fullRank cutoff chi (makeQuarter (net t2) (k.val + 1) * makeQuarter (net t1) k.val)
      (makeQuarter (net t4) (k.val + 3) * makeQuarter (net t3) (k.val + 2)) Ωi →
    Untruncated fullRank cutoff chi (makeQuarter (net w2) (k.val + 1) * makeQuarter (net w1) k.val)
      (makeQuarter (net w4) (k.val + 3) * makeQuarter (net w3) (k.val + 2)) Ωj →
    MoveNonzero (net s1) (calculateFull la fullRank cutoff chi oversampling niter net t1 t2 t3 t4 k.val Ωi)
      (calculateFull la fullRank cutoff chi oversampling niter net w1 w2 w3 w4 k.val Ωj) k.val →
    IsPartialTrace (siteRdmAfterMove (net s2) k (renormalizeBoundary3 (net s1)
      (calculateFull la fullRank cutoff chi oversampling niter net t1 t2 t3 t4 k.val Ωi)
      (calculateFull la fullRank cutoff chi oversampling niter net w1 w2 w3 w4 k.val Ωj) k.val))
      (buildBondRdm init net s2 s1 k.val)

end Spec

/-- Full-system projectors, for any dtype and SVD type for which they resolve the identity. -/
theorem moveExactFull_of (fullRank : Bool) (hF : FullCuts 𝕜 fullRank) : MoveExactFull 𝕜 fullRank := by
  intro B X _ _ _ _ _ _ pD la cutoff chi oversampling niter init net s1 s2 k t1 t2 t3 t4 w1 w2 w3 w4 Ωi Ωj hcut hcut1 hi hj hnz
  have hchi : 0 < chi := lt_of_lt_of_le Fintype.card_pos hi.large
  obtain ⟨ci, hci, ri⟩ := resolution_of_cutOk fullRank cutoff chi _ _ Ωi _
    (hF B (Fin pD) X la cutoff chi oversampling niter net t1 t2 t3 t4 k.val Ωi hcut hcut1 hchi) hi
  obtain ⟨cj, hcj, rj⟩ := resolution_of_cutOk fullRank cutoff chi _ _ Ωj _
    (hF B (Fin pD) X la cutoff chi oversampling niter net w1 w2 w3 w4 k.val Ωj hcut hcut1 hchi) hj
  exact C59_exact init net s1 s2 k _ _ ci cj hci hcj ri rj hnz

/-- **C59** (full-system projectors, full-rank SVD). -/
theorem C59_full : MoveExactFull 𝕜 true := moveExactFull_of true C45_full

/-- **C59** (full-system projectors, randomised SVD), partial: real dtypes only.  Missing: complex dtypes, for which it is
false, `C59_violated_complex`. -/
theorem C59_full_rsvd_partial : MoveExactFull ℝ false := moveExactFull_of false C45_full_rsvd_partial

/-! ### The hypotheses can be met -/

theorem cutGap_zero {m n : Type} [Fintype m] [Fintype n] (M : Matrix m n 𝕜) : CutGap M 0 := by
  intro r U S Vh h i hi
  have hpos : 0 < S i := lt_of_le_of_ne (h.nonneg i) (Ne.symm hi)
  exact div_pos hpos (firstS_pos_of S h.nonneg h.sorted ⟨i, hi⟩)

/-- A site with one-dimensional bonds and a two-dimensional boundary all of whose boundary tensors are identities. -/
noncomputable def plainSite : NumSite Unit (Fin 1) (Fin 2) 𝕜 :=
  { A := fun _ _ _ _ _ => 1
    C := fun _ a b => if a = b then 1 else 0
    E := fun _ a b _ _ => if a = b then 1 else 0 }

theorem makeQuarter_plainSite (k : ℤ) : makeQuarter (𝕜 := 𝕜) plainSite k = 1 := by
  have hb : ∀ (l u r d : Unit) (p : Fin 1), bondPermute k (fun _ _ _ _ _ => (1 : 𝕜)) l u r d p = 1 := by
    intro l u r d p
    unfold bondPermute
    all_goals rfl
  have hq : quarterCore ((plainSite (𝕜 := 𝕜)).C (rotIdx k 0)) (plainSite.E (rotIdx k 3)) (plainSite.E (rotIdx k 0))
      (bondPermute k plainSite.A) = (1 : Matrix (Fin 2 × Unit × Unit) (Fin 2 × Unit × Unit) 𝕜) := by
    ext ⟨c, u, U⟩ ⟨e, d, D⟩
    unfold quarterCore
    simp [hb, plainSite, one_apply, eq_comm]
  unfold makeQuarter
  rw [hq]
  have hmax : maxAbs (1 : Matrix (Fin 2 × Unit × Unit) (Fin 2 × Unit × Unit) 𝕜) = 1 := by
    have h : (Finset.univ.sup fun i : (Fin 2 × Unit × Unit) × (Fin 2 × Unit × Unit) =>
        ‖(1 : Matrix (Fin 2 × Unit × Unit) (Fin 2 × Unit × Unit) 𝕜) i.1 i.2‖₊) = 1 := by
      apply le_antisymm
      · refine Finset.sup_le fun i _ => ?_
        rw [one_apply]
        split <;> simp
      · refine le_trans (le_of_eq ?_) (Finset.le_sup (f := fun i : (Fin 2 × Unit × Unit) × (Fin 2 × Unit × Unit) =>
          ‖(1 : Matrix (Fin 2 × Unit × Unit) (Fin 2 × Unit × Unit) 𝕜) i.1 i.2‖₊)
          (Finset.mem_univ (((0, (), ()), (0, (), ())) : (Fin 2 × Unit × Unit) × (Fin 2 × Unit × Unit))))
        rw [one_apply, if_pos rfl, nnnorm_one]
    unfold maxAbs
    rw [h]
    rfl
  unfold maxNormalise
  rw [hmax]
  simp

theorem plain_nonzero (p : ProjPair (Fin 2) Unit 𝕜) (c : ℝ) (hc : 0 < c) (hr : Resolution p.proj1 p.proj2 (c : 𝕜)) :
    MoveNonzero plainSite p p 0 := by
  have hcne : (c : 𝕜) ≠ 0 := RCLike.ofReal_ne_zero.2 hc.ne'
  have h00 := hr 0 () () 0 () ()
  rw [if_pos ⟨rfl, rfl, rfl⟩] at h00
  refine ⟨fun h => hcne ?_, fun h => hcne ?_, fun h => hcne ?_⟩
  · rw [← h00]
    refine Finset.sum_eq_zero fun z _ => ?_
    have := congrFun (congrFun h 0) z
    simp [lowerCorner, plainSite] at this
    rw [this, mul_zero]
  · rw [← h00]
    refine Finset.sum_eq_zero fun z _ => ?_
    have := congrFun (congrFun h z) 0
    simp [upperCorner, plainSite] at this
    rw [this, zero_mul]
  · have hz : ∀ y x, ∑ a : Fin 2, p.proj1 a () () x * p.proj2 a () () y = 0 := by
      intro y x
      have := congrFun (congrFun (congrFun (congrFun h y) x) ()) ()
      simpa [absorbedEdge, plainSite, bondPermute] using this
    have hsq : ∑ b : Fin 2, (∑ z, p.proj2 0 () () z * p.proj1 b () () z) * (∑ z, p.proj2 b () () z * p.proj1 0 () () z) =
        ∑ z, ∑ w, p.proj2 0 () () z * p.proj1 0 () () w * ∑ b : Fin 2, p.proj1 b () () z * p.proj2 b () () w := by
      simp only [Finset.sum_mul, Finset.mul_sum]
      rw [Finset.sum_comm]
      conv_rhs => rw [Finset.sum_comm]
      refine Finset.sum_congr rfl fun z _ => ?_
      rw [Finset.sum_comm]
      refine Finset.sum_congr rfl fun w _ => Finset.sum_congr rfl fun b _ => ?_
      ring
    simp only [hz, mul_zero, Finset.sum_const_zero] at hsq
    rw [Fin.sum_univ_two, h00, hr 0 () () 1 () ()] at hsq
    simpa using hsq

/-- The hypotheses of `C59_half` are met by the network of plain sites: no truncation at `chi = 2`, and the contractions
are nonzero, whatever the SVD routine. -/
example (la : Lapack 𝕜) (Ω : Draw (Fin 2) Unit 𝕜 (2 + 0)) (init : Fin 1 → Fin 1 → Fin 1 → Fin 1 → 𝕜) :
    IsPartialTrace (siteRdmAfterMove (plainSite (𝕜 := 𝕜)) 0 (renormalizeBoundary3 plainSite
      (calculateHalf la true 0 2 0 0 (fun _ => plainSite) (0, 0) (0, 1) 0 Ω)
      (calculateHalf la true 0 2 0 0 (fun _ => plainSite) (0, 0) (0, 1) 0 Ω) 0))
      (buildBondRdm init (fun _ => plainSite) (1, 0) (0, 0) 0) := by
  have hu : Untruncated true 0 2 (makeQuarter (𝕜 := 𝕜) plainSite 0) (makeQuarter plainSite (0 + 3)) Ω :=
    ⟨by rw [makeQuarter_plainSite]; exact isUnit_one, by rw [makeQuarter_plainSite]; exact isUnit_one, by simp,
      cutGap_zero _, fun h => by simp at h⟩
  obtain ⟨c, hc, hr⟩ := resolution_of_cutOk true 0 2 _ _ Ω _
    (C45_half Unit (Fin 1) (Fin 2) la true 0 2 0 0 (fun _ => plainSite) (0, 0) (0, 1) 0 Ω le_rfl one_pos Nat.two_pos) hu
  exact C59_half (B := Unit) (X := Fin 2) la true 0 le_rfl one_pos 2 0 0 init (fun _ => plainSite) (0, 0) (1, 0) 0 (0, 0)
    (0, 1) (0, 0) (0, 1) Ω Ω hu hu (plain_nonzero _ c hc hr)

end AceTN
