import Verif.Lemmas.ClusterRun
import Mathlib.LinearAlgebra.Matrix.InvariantBasisNumber

/-!
Networks with one-dimensional bonds whose boundary tensors are invertible matrices: moves keep them so, and nothing is
truncated.
-/

set_option autoImplicit false

namespace AceTN

open Spec Matrix SumTac

variable {𝕜 : Type} [RCLike 𝕜] {B P : Type} [Fintype B] [Fintype P] [DecidableEq B] [Unique B] {n : ℕ}

theorem isUnit_smul_of {ι : Type} [Fintype ι] [DecidableEq ι] {κ : 𝕜} (h : κ ≠ 0) {M : Matrix ι ι 𝕜} (hM : IsUnit M) : IsUnit (κ • M) := by
  rw [Matrix.isUnit_iff_isUnit_det, Matrix.det_smul]
  exact (IsUnit.mk0 _ (pow_ne_zero _ h)).mul ((Matrix.isUnit_iff_isUnit_det _).1 hM)

theorem isUnit_of_smul_one {ι : Type} [Fintype ι] [DecidableEq ι] {κ : 𝕜} (h : κ ≠ 0) {M N : Matrix ι ι 𝕜} (hM : M * N = κ • 1) :
    IsUnit M ∧ IsUnit N := by
  have h1 : M * (κ⁻¹ • N) = 1 := by rw [Matrix.mul_smul, hM, smul_smul, inv_mul_cancel₀ h, one_smul]
  have h2 : (κ⁻¹ • M) * N = 1 := by rw [Matrix.smul_mul, hM, smul_smul, inv_mul_cancel₀ h, one_smul]
  exact ⟨IsUnit.of_mul_eq_one _ h1, IsUnit.of_mul_eq_one_right _ h2⟩

/-- An edge of a network with one-dimensional bonds as a matrix. -/
def edgeMat {m k : ℕ} (e : Fin m → Fin k → B → B → 𝕜) : Matrix (Fin m) (Fin k) 𝕜 := of fun i j => e i j default default

/-- A projector of such a network. -/
def projMat {m k : ℕ} (p : Fin m → B → B → Fin k → 𝕜) : Matrix (Fin m) (Fin k) 𝕜 := of fun i j => p i default default j

/-- The norm of a site of such a network. -/
def sqNorm (a : ATensor B P 𝕜) : 𝕜 := ∑ p, a default default default default p * star (a default default default default p)

omit [Fintype B] [DecidableEq B] in
theorem sqNorm_ne (a : ATensor B P 𝕜) (h : a ≠ 0) : sqNorm a ≠ 0 := by
  have h' : ∃ p, a default default default default p ≠ 0 := by
    by_contra hn
    push Not at hn
    refine h ?_
    funext l u r d p
    rw [Unique.eq_default l, Unique.eq_default u, Unique.eq_default r, Unique.eq_default d]
    exact hn p
  obtain ⟨p, hp⟩ := h'
  have e : sqNorm a = ((∑ p, ‖a default default default default p‖ ^ 2 : ℝ) : 𝕜) := by
    unfold sqNorm
    push_cast
    refine Finset.sum_congr rfl fun p _ => ?_
    exact RCLike.mul_conj _
  rw [e]
  have : 0 < ∑ p, ‖a default default default default p‖ ^ 2 :=
    Finset.sum_pos' (fun p _ => by positivity) ⟨p, Finset.mem_univ _, by positivity⟩
  exact_mod_cast this.ne'

omit [RCLike 𝕜] [Fintype B] [Fintype P] [DecidableEq B] in
theorem bondPermute_unique (k : ℤ) (a : ATensor B P 𝕜) : bondPermute k a = a := by
  funext l u r d p
  unfold bondPermute
  dsimp only
  congr 1
  all_goals exact Subsingleton.elim _ _

/-- The index of the boundary leg is all there is. -/
def flat (B : Type) [Unique B] (n : ℕ) : Fin n × B × B ≃ Fin n where
  toFun i := i.1
  invFun i := (i, default, default)
  left_inv := fun ⟨_, _, _⟩ => Prod.ext rfl (Prod.ext (Subsingleton.elim _ _) (Subsingleton.elim _ _))
  right_inv _ := rfl

omit [DecidableEq B] in
/-- The quarter tensor. -/
theorem quarterCore_unique (C₀ : Fin n → Fin n → 𝕜) (E₁ E₂ : Fin n → Fin n → B → B → 𝕜) (A₀ : ATensor B P 𝕜) :
    quarterCore C₀ E₁ E₂ A₀ = (sqNorm A₀ • (edgeMat E₁ * of C₀ * edgeMat E₂)ᵀ).submatrix (flat B n) (flat B n) := by
  ext ⟨x, t, t'⟩ ⟨y, m, m'⟩
  rw [Unique.eq_default t, Unique.eq_default t', Unique.eq_default m, Unique.eq_default m']
  show _ = (∑ p, A₀ default default default default p * star (A₀ default default default default p)) *
    ∑ b, (∑ i, E₁ y i default default * C₀ i b) * E₂ b x default default
  unfold quarterCore
  dsimp only [of_apply]
  simp only [Fintype.sum_unique]
  einsum_ring

theorem quarter_isUnit (hn : 0 < n) (C₀ : Fin n → Fin n → 𝕜) (E₁ E₂ : Fin n → Fin n → B → B → 𝕜) (A₀ : ATensor B P 𝕜) (hc : IsUnit (of C₀))
    (h1 : IsUnit (edgeMat E₁)) (h2 : IsUnit (edgeMat E₂)) (ha : A₀ ≠ 0) : IsUnit (maxNormalise (quarterCore C₀ E₁ E₂ A₀)) := by
  have h : IsUnit (quarterCore C₀ E₁ E₂ A₀) := by
    rw [quarterCore_unique, Matrix.isUnit_submatrix_equiv]
    exact isUnit_smul_of (sqNorm_ne A₀ ha) ((Matrix.isUnit_transpose _).2 ((h1.mul hc).mul h2))
  have : Nonempty (Fin n × B × B) := ⟨(⟨0, hn⟩, default, default)⟩
  have h0 : quarterCore C₀ E₁ E₂ A₀ ≠ 0 := h.ne_zero
  unfold maxNormalise
  refine isUnit_smul_of ?_ h
  exact_mod_cast (inv_pos.2 (maxAbs_pos _ h0)).ne'

omit [DecidableEq B] in
theorem normalise2_isUnit (hn : 0 < n) (c : Fin n → Fin n → 𝕜) (h : IsUnit (of c)) : IsUnit (of (normalise2 c)) := by
  have : Nonempty (Fin n) := ⟨⟨0, hn⟩⟩
  have e : of (normalise2 c) = (((norm2 c)⁻¹ : ℝ) : 𝕜) • of c := by
    ext i j
    rw [Matrix.smul_apply, of_apply, of_apply, normalise2, div_eq_inv_mul, RCLike.ofReal_inv, smul_eq_mul]
  rw [e]
  refine isUnit_smul_of ?_ h
  exact_mod_cast (inv_pos.2 (norm2_pos _ (fun h0 => h.ne_zero h0))).ne'

omit [DecidableEq B] in
theorem cj1_isUnit (hn : 0 < n) (C₀ : Fin n → Fin n → 𝕜) (E₀ : Fin n → Fin n → B → B → 𝕜) (p₀ : Fin n → B → B → Fin n → 𝕜) (hc : IsUnit (of C₀))
    (he : IsUnit (edgeMat E₀)) (hp : IsUnit (projMat p₀)) : IsUnit (of (renormalizeCj1 C₀ E₀ p₀)) := by
  have e : of (lowerCorner C₀ E₀ p₀) = edgeMat E₀ * of C₀ * projMat p₀ := by
    ext a₀ x₀
    show _ = ∑ c, (∑ b, E₀ a₀ b default default * C₀ b c) * p₀ c default default x₀
    unfold lowerCorner
    simp only [of_apply, Fintype.sum_unique]
    einsum_ring
  rw [renormalizeCj1_eq]
  exact normalise2_isUnit hn _ (e ▸ (he.mul hc).mul hp)

omit [DecidableEq B] in
theorem cj2_isUnit (hn : 0 < n) (C₀ : Fin n → Fin n → 𝕜) (E₀ : Fin n → Fin n → B → B → 𝕜) (p₀ : Fin n → B → B → Fin n → 𝕜) (hc : IsUnit (of C₀))
    (he : IsUnit (edgeMat E₀)) (hp : IsUnit (projMat p₀)) : IsUnit (of (renormalizeCj2 C₀ E₀ p₀)) := by
  have e : of (upperCorner C₀ E₀ p₀) = (projMat p₀)ᵀ * (of C₀ * edgeMat E₀) := by
    ext x₀ c₀
    show _ = ∑ a, p₀ a default default x₀ * ∑ b, C₀ a b * E₀ b c₀ default default
    unfold upperCorner
    simp only [of_apply, Fintype.sum_unique]
    einsum_ring
  rw [renormalizeCj2_eq]
  exact normalise2_isUnit hn _ (e ▸ ((Matrix.isUnit_transpose _).2 hp).mul (hc.mul he))

omit [DecidableEq B] in
theorem ej_isUnit (hn : 0 < n) (E₀ : Fin n → Fin n → B → B → 𝕜) (A₀ : ATensor B P 𝕜) (p₂ p₁ : Fin n → B → B → Fin n → 𝕜) (ha : A₀ ≠ 0)
    (he : IsUnit (edgeMat E₀)) (h2 : IsUnit (projMat p₂)) (h1 : IsUnit (projMat p₁)) :
    IsUnit (edgeMat (renormalizeEj E₀ A₀ p₂ p₁)) := by
  have e : edgeMat (absorbedEdge E₀ A₀ p₂ p₁) = sqNorm A₀ • ((projMat p₂)ᵀ * edgeMat E₀ * projMat p₁) := by
    ext y₀ x₀
    show _ = (∑ p, A₀ default default default default p * star (A₀ default default default default p)) *
      ∑ b, (∑ a, p₂ a default default y₀ * E₀ a b default default) * p₁ b default default x₀
    unfold absorbedEdge edgeMat
    simp only [of_apply, Fintype.sum_unique]
    einsum_ring
  have : Nonempty (Fin n) := ⟨⟨0, hn⟩⟩
  have h : IsUnit (edgeMat (absorbedEdge E₀ A₀ p₂ p₁)) :=
    e ▸ isUnit_smul_of (sqNorm_ne A₀ ha) ((((Matrix.isUnit_transpose _).2 h2).mul he).mul h1)
  rw [renormalizeEj_eq]
  have e : edgeMat (normalise4 (absorbedEdge E₀ A₀ p₂ p₁)) =
      (((norm4 (absorbedEdge E₀ A₀ p₂ p₁))⁻¹ : ℝ) : 𝕜) • edgeMat (absorbedEdge E₀ A₀ p₂ p₁) := by
    ext i j
    simp only [edgeMat, Matrix.smul_apply, of_apply, normalise4, div_eq_inv_mul, RCLike.ofReal_inv, smul_eq_mul]
  rw [e]
  refine isUnit_smul_of ?_ h
  exact_mod_cast (inv_pos.2 (norm4_pos _ (fun h0 => h.ne_zero (by rw [h0]; rfl)))).ne'

omit [Fintype B] [DecidableEq B] in
/-- Projectors that are invertible matrices. -/
def SquarePair (p : ProjPair (Fin n) B 𝕜) : Prop :=
  ∃ p1 p2 : Fin n → B → B → Fin n → 𝕜, p = ⟨n, p1, p2⟩ ∧ IsUnit (projMat p1) ∧ IsUnit (projMat p2)

/-- The projectors of a cut without truncation are square. -/
theorem proj_square {q : ℕ} {fullRank : Bool} {cutoff : ℝ} {chi : ℕ} {L R : Matrix (Fin n × B × B) (Fin n × B × B) 𝕜}
    {Ω : Matrix (Fin n × B × B) (Fin q) 𝕜} (hl : Loose fullRank cutoff chi L R Ω) (p : ProjPair (Fin n) B 𝕜)
    (hg : GoodCut L R cutoff chi p) : SquarePair p := by
  obtain ⟨L', hL⟩ := hl.left
  obtain ⟨R', hR⟩ := hl.right
  obtain ⟨-, -, c, ⟨hc, h1, -⟩, -, hrep⟩ := hg
  have hres := resolution_of_inverses L R L' R' hL hR _ _ c (hrep (rankLE_mul _ _ _ hl.large) hl.gap)
  have h2 : pmat p.proj2 * (pmat p.proj1)ᵀ = (c : 𝕜) • (1 : Matrix (Fin n × B × B) (Fin n × B × B) 𝕜) := by
    ext ⟨x, u, u'⟩ ⟨y, v, v'⟩
    have := hres x u u' y v v'
    simp only [Matrix.mul_apply, transpose_apply, Matrix.smul_apply, Matrix.one_apply, Prod.mk.injEq, smul_eq_mul, mul_ite, mul_one, mul_zero]
    exact this
  have hc' : (c : 𝕜) ≠ 0 := by exact_mod_cast hc.ne'
  obtain ⟨cD, p1, p2⟩ := p
  dsimp only at h1 h2 ⊢
  have hcard : Fintype.card (Fin n × B × B) = Fintype.card (Fin cD) := by
    refine Matrix.square_of_invertible (R := 𝕜) (pmat p2) ((c : 𝕜)⁻¹ • (pmat p1)ᵀ) ?_ ?_
    · rw [Matrix.mul_smul, h2, smul_smul, inv_mul_cancel₀ hc', one_smul]
    · rw [Matrix.smul_mul, h1, smul_smul, inv_mul_cancel₀ hc', one_smul]
  rw [Fintype.card_congr (flat B n), Fintype.card_fin, Fintype.card_fin] at hcard
  subst hcard
  refine ⟨p1, p2, rfl, ?_⟩
  have e : (projMat p1)ᵀ * projMat p2 = (c : 𝕜) • 1 := by
    rw [← h1]
    ext i j
    simp only [Matrix.mul_apply, transpose_apply, projMat, pmat, of_apply]
    rw [← (flat B n).symm.sum_comp]
    rfl
  have := isUnit_of_smul_one hc' e
  exact ⟨(Matrix.isUnit_transpose _).1 this.1, this.2⟩

theorem square_star (Q1 Q2 Q3 Q4 : Matrix (Fin n × B × B) (Fin n × B × B) 𝕜) (h1 : IsUnit Q1) (h2 : IsUnit Q2) (k : ℕ)
    (U V : Matrix (Fin n × B × B) (Fin k) 𝕜) (p1 p2 : Fin n → B → B → Fin k → 𝕜) (hp1 : (pmat p1)ᵀ = Uᴴ * (Q2 * Q1))
    (hp2 : pmat p2 = Q4 * Q3 * V) (h : SquarePair ⟨k, p1, p2⟩) :
    SquarePair ⟨k, fun e d D z => (Q1ᴴ * (Q2ᴴ * U.map star)) (e, d, D) z, fun c u w z => (Q4 * (Q3 * V)) (c, u, w) z⟩ := by
  obtain ⟨q1, q2, e, u1, u2⟩ := h
  cases e
  let fl := (flat B n).symm
  have hL : IsUnit ((Q2 * Q1).submatrix fl fl) := (Matrix.isUnit_submatrix_equiv fl fl).2 (h2.mul h1)
  have e1 : (projMat q1)ᵀ = (U.submatrix fl id)ᴴ * (Q2 * Q1).submatrix fl fl := by
    rw [conjTranspose_submatrix, submatrix_mul_equiv, ← hp1]
    rfl
  have hU : IsUnit (U.submatrix fl id)ᴴ := by
    have h := (Matrix.isUnit_transpose _).2 u1
    rw [e1] at h
    rw [Matrix.isUnit_iff_isUnit_det] at h ⊢
    rw [det_mul] at h
    exact isUnit_of_mul_isUnit_left h
  refine ⟨_, _, rfl, ?_, ?_⟩
  · have e3 : projMat (fun e d D z => (Q1ᴴ * (Q2ᴴ * U.map star)) (e, d, D) z) =
        Q1ᴴ.submatrix fl fl * (Q2ᴴ.submatrix fl fl * (U.map star).submatrix fl id) := by
      rw [submatrix_mul_equiv, submatrix_mul_equiv]
      rfl
    rw [e3]
    have hs : ∀ Q : Matrix (Fin n × B × B) (Fin n × B × B) 𝕜, IsUnit Q → IsUnit (Qᴴ.submatrix fl fl) := fun Q hQ =>
      (Matrix.isUnit_submatrix_equiv fl fl).2 ((Matrix.isUnit_conjTranspose _).2 hQ)
    exact (hs Q1 h1).mul ((hs Q2 h2).mul ((Matrix.isUnit_transpose _).1 hU))
  · have e4 : projMat (fun c u w z => (Q4 * (Q3 * V)) (c, u, w) z) = projMat q2 := by
      rw [← Matrix.mul_assoc, ← hp2]
      rfl
    rw [e4]
    exact u2

/-- The same for the full system with the randomised decomposition, where the first projector is formed with conjugate
transposes. -/
theorem fullRsvd_square (la : Lapack 𝕜) (cutoff : ℝ) (hcut : 0 ≤ cutoff) (hcut1 : cutoff < 1) (chi oversampling niter : ℕ)
    (Q1 Q2 Q3 Q4 : Matrix (Fin n × B × B) (Fin n × B × B) 𝕜) (h1 : IsUnit Q1) (h2 : IsUnit Q2)
    (Ω : Matrix (Fin n × B × B) (Fin (clipRank (Fin n × B × B) (Fin n × B × B) (chi + oversampling))) 𝕜)
    (hl : Loose false cutoff chi (Q2 * Q1) (Q4 * Q3) Ω) :
    SquarePair (fullRsvd la cutoff chi oversampling niter Q1 Q2 Q3 Q4 Ω) := by
  obtain ⟨Q, hQ, hR, -⟩ := C44_fused3 la (chi + oversampling) niter Q2 Q1 Q4 Q3 Ω
  have hex := C44_fused3_exact la (chi + oversampling) niter Q2 Q1 Q4 Q3 Ω
  rw [show Q2 * Q1 * Q4 * Q3 = (Q2 * Q1) * (Q4 * Q3) by simp only [Matrix.mul_assoc]] at hQ hR hex
  have h0 := projected_pos _ Q Ω niter _ hQ hR (hl.draw rfl).1
  have hp := pmat_proj1 (B := B) cutoff chi (Q2 * Q1) (Q4 * Q3) (fused3SvdLowrank la (chi + oversampling) niter Q2 Q1 Q4 Q3 Ω)
  have hp2 := pmat_proj2 (B := B) cutoff chi (Q2 * Q1) (Q4 * Q3) (fused3SvdLowrank la (chi + oversampling) niter Q2 Q1 Q4 Q3 Ω)
  have hg := goodCut_of cutoff hcut hcut1 chi hl.chi_pos (Q2 * Q1) (Q2 * Q1) (Q4 * Q3) (Q4 * Q3) 1 1 1 one_pos one_pos one_pos (by simp)
      (by simp) _ hQ.left (by
        refine (hex (hl.draw rfl).2).mul.trans ?_
        simp) hQ.right hQ.sorted hQ.nonneg h0 _ _ hp hp2
  have hs := proj_square hl _ hg
  exact square_star Q1 Q2 Q3 Q4 h1 h2 _ _ _ _ _ hp hp2 hs

section net

/-- All sites of the network are nonzero and all boundary tensors are invertible matrices of dimension `n`. -/
structure Regular (n : ℕ) (net : Net (Ten B P 𝕜)) : Prop where
  site : ∀ p, ∃ a, net.A (cellSite net.nx net.ny p) = .site a ∧ a ≠ 0
  corner : ∀ p (k : Fin 4), ∃ c : Fin n → Fin n → 𝕜, net.B (cellSite net.nx net.ny p) (.C k.val) = .corner n n c ∧ IsUnit (of c)
  edge : ∀ p (k : Fin 4), ∃ e : Fin n → Fin n → B → B → 𝕜, net.B (cellSite net.nx net.ny p) (.E k.val) = .edge n n e ∧
    IsUnit (edgeMat e)

/-- The settings do not truncate invertible environments of dimension `n`. -/
structure NoTrunc (n chi : ℕ) (st : ProjSettings 𝕜) (ω : Draws B 𝕜) : Prop where
  large : n ≤ chi
  gap : ∀ M : Matrix (Fin n × B × B) (Fin n × B × B) 𝕜, IsUnit M → CutGap M st.cutoff
  draw : st.fullRank = false → ∀ key, ∀ M : Matrix (Fin n × B × B) (Fin n × B × B) 𝕜, IsUnit M →
    M * ω key n n (chi + st.oversampling) ≠ 0 ∧ Captures M (ω key n n (chi + st.oversampling))

variable {net : Net (Ten B P 𝕜)} {st : ProjSettings 𝕜} {ω : Draws B 𝕜} {pk : ProjKind}

omit [Fintype B] [Fintype P] [DecidableEq B] in
theorem Regular.wired (h : Regular n net) (hx : 0 < net.nx) (hy : 0 < net.ny) : Wired net fun _ _ => n :=
  wired_of hx hy (fun p => (h.site p).imp fun _ => And.left) (fun p k => (h.corner p k).imp fun _ => And.left)
    (fun p k => (h.edge p k).imp fun _ => And.left)

theorem loose_of_units (hn : 0 < n) {chi : ℕ} (ht : NoTrunc n chi st ω) (key : ℕ × Site) {L R : Matrix (Fin n × B × B) (Fin n × B × B) 𝕜}
    (hL : IsUnit L) (hR : IsUnit R) : Loose st.fullRank st.cutoff chi L R (ω key n n (chi + st.oversampling)) where
  pos := ⟨(⟨0, hn⟩, default, default)⟩
  left := by
    obtain ⟨u, rfl⟩ := hL
    exact ⟨_, u.inv_mul⟩
  right := by
    obtain ⟨u, rfl⟩ := hR
    exact ⟨_, u.mul_inv⟩
  large := by
    rw [Fintype.card_congr (flat B n), Fintype.card_fin]
    exact ht.large
  gap := ht.gap _ (hL.mul hR)
  draw h := ht.draw h key _ (hL.mul hR)

/-- The projectors computed from invertible quarter tensors are invertible. -/
theorem halfPair_square (hn : 0 < n) {chi : ℕ} (hcut : 0 ≤ st.cutoff) (hcut1 : st.cutoff < 1) (ht : NoTrunc n chi st ω) (key : ℕ × Site)
    {Q1 Q4 : Matrix (Fin n × B × B) (Fin n × B × B) 𝕜} (h1 : IsUnit Q1) (h4 : IsUnit Q4) : SquarePair (halfPair st ω key chi Q1 Q4) := by
  have hl := loose_of_units hn ht key h1 h4
  exact proj_square hl _ (cutsGood_half st hcut hcut1 ω _ _ _ _ _ _ _ hl)

theorem fullPair_square (hn : 0 < n) {chi : ℕ} (hcut : 0 ≤ st.cutoff) (hcut1 : st.cutoff < 1) (ht : NoTrunc n chi st ω) (key : ℕ × Site)
    {Q1 Q2 Q3 Q4 : Matrix (Fin n × B × B) (Fin n × B × B) 𝕜} (h1 : IsUnit Q1) (h2 : IsUnit Q2) (h3 : IsUnit Q3) (h4 : IsUnit Q4) :
    SquarePair (fullPair st ω key chi Q1 Q2 Q3 Q4) := by
  have hl := loose_of_units hn ht key (h2.mul h1) (h4.mul h3)
  by_cases hf : st.fullRank = true
  · exact proj_square hl _ (cutsGood_full st hf hcut hcut1 ω _ _ _ _ _ _ _ _ _ _ _ hl)
  · unfold fullPair
    rw [if_neg hf]
    rw [Bool.not_eq_true] at hf
    rw [hf] at hl
    exact fullRsvd_square st.la st.cutoff hcut hcut1 chi st.oversampling st.niter Q1 Q2 Q3 Q4 h1 h2 _ hl

variable (h : Regular n net) (hn : 0 < n) (hx : 0 < net.nx) (hy : 0 < net.ny) (ht : NoTrunc n net.chi st ω)

include h hn in
theorem Regular.quarter (st : ProjSettings 𝕜) (ω : Draws B 𝕜) (p : ℤ × ℤ) (kk : ℕ) :
    ∃ Q : Matrix (Fin n × B × B) (Fin n × B × B) 𝕜,
      quarterTensor (numOps st ω) net (cellSite net.nx net.ny p) kk = .quarter n n Q ∧ IsUnit Q := by
  obtain ⟨a, ha, ha0⟩ := h.site p
  obtain ⟨c, hc, hc0⟩ := h.corner p ⟨(0 + kk) % 4, Nat.mod_lt _ (by decide)⟩
  obtain ⟨e1, he1, he10⟩ := h.edge p ⟨(3 + kk) % 4, Nat.mod_lt _ (by decide)⟩
  obtain ⟨e2, he2, he20⟩ := h.edge p ⟨(0 + kk) % 4, Nat.mod_lt _ (by decide)⟩
  unfold quarterTensor
  dsimp only at hc he1 he2
  rw [ha, hc, he1, he2, permute_eq, quarter_eq, bondPermute_unique]
  exact ⟨_, rfl, quarter_isUnit hn c e1 e2 a hc0 he10 he20 ha0⟩

include h hn hx hy ht

theorem Regular.cut (hcut : 0 ≤ st.cutoff) (hcut1 : st.cutoff < 1) (m : Move) (q : ℤ × ℤ) (hq : m.OnLine (cellSite net.nx net.ny q)) :
    (∃ p1 p2 : Fin n → B → B → Fin n → 𝕜, m.cut (numOps st ω) pk net q = (.proj n n p1, .proj n n p2) ∧
      IsUnit (projMat p1) ∧ IsUnit (projMat p2)) ∧
    LooseCut st ω pk net (cellSite net.nx net.ny q)
        (cellSite net.nx net.ny (q + dir (m.dirn + 2))) (cellSite net.nx net.ny (q + dir (m.dirn + 2) + dir (m.dirn + 3)))
        (cellSite net.nx net.ny (q + dir (m.dirn + 3))) m.dirn.val := by
  obtain ⟨Q1, hQ1, u1⟩ := h.quarter hn st ω q m.dirn.val
  obtain ⟨Q4, hQ4, u4⟩ := h.quarter hn st ω (q + dir (m.dirn + 3)) (m.dirn.val + 3)
  unfold Move.cut
  rw [m.proj_idx hx hy (numOps st ω) pk net rfl rfl q hq]
  cases pk with
  | half =>
    have hl := loose_of_units hn ht (m.dirn.val, cellSite net.nx net.ny q) u1 u4
    refine ⟨?_, n, n, n, Q1, Q4, hQ1, hQ4, hl⟩
    unfold calcProjectors
    dsimp only
    rw [hQ1, hQ4, half_eq]
    obtain ⟨p1, p2, e, u1, u2⟩ := halfPair_square hn hcut hcut1 ht (m.dirn.val, cellSite net.nx net.ny q) u1 u4
    rw [e]
    exact ⟨p1, p2, rfl, u1, u2⟩
  | full =>
    obtain ⟨Q2, hQ2, u2⟩ := h.quarter hn st ω (q + dir (m.dirn + 2)) (m.dirn.val + 1)
    obtain ⟨Q3, hQ3, u3⟩ := h.quarter hn st ω (q + dir (m.dirn + 2) + dir (m.dirn + 3)) (m.dirn.val + 2)
    have hl := loose_of_units hn ht (m.dirn.val, cellSite net.nx net.ny q) (u2.mul u1) (u4.mul u3)
    refine ⟨?_, n, n, n, n, n, Q1, Q2, Q3, Q4, hQ1, hQ2, hQ3, hQ4, hl⟩
    unfold calcProjectors
    dsimp only
    rw [hQ1, hQ2, hQ3, hQ4, full_eq]
    obtain ⟨p1, p2, e, u1, u2⟩ := fullPair_square hn hcut hcut1 ht (m.dirn.val, cellSite net.nx net.ny q) u1 u2 u3 u4
    rw [e]
    exact ⟨p1, p2, rfl, u1, u2⟩

theorem Regular.loose (hcut : 0 ≤ st.cutoff) (hcut1 : st.cutoff < 1) (m : Move) : LooseMove st ω pk net m := by
  intro s hs hm
  obtain ⟨v0, v1, v2, v3⟩ := fin4_val m.dirn
  rw [← cellSite_self _ _ s hs] at hm ⊢
  rw [moveDir_eq, v2, v3, neighbour_cellSite _ _ hx hy, neighbour_cellSite _ _ hx hy, neighbour_cellSite _ _ hx hy]
  exact (h.cut hn hx hy ht hcut hcut1 m _ ((absorbed_iff m _).1 hm)).2

theorem Regular.after (hcut : 0 ≤ st.cutoff) (hcut1 : st.cutoff < 1) (m : Move) (hm : m.Valid net.nx net.ny) : Regular n (m.after (numOps st ω) pk net) := by
  have cutOf : ∀ p, m.OnLine (cellSite net.nx net.ny (p + dir m.dirn)) → ∃ p1 p2 p1' p2' : Fin n → B → B → Fin n → 𝕜,
      m.cut (numOps st ω) pk net (p + dir m.dirn) = (.proj n n p1, .proj n n p2) ∧
      m.cut (numOps st ω) pk net (p + dir m.dirn + dir (m.dirn + 1)) = (.proj n n p1', .proj n n p2') ∧
      IsUnit (projMat p1) ∧ IsUnit (projMat p2) ∧ IsUnit (projMat p1') ∧ IsUnit (projMat p2') := by
    intro p hp
    have hp' := (m.onLine_along (nx := net.nx) (ny := net.ny) (p + dir m.dirn) 1).2 hp
    rw [one_smul] at hp'
    obtain ⟨⟨p1, p2, e, u1, u2⟩, -⟩ := h.cut hn hx hy ht hcut hcut1 m _ hp
    obtain ⟨⟨p1', p2', e', u1', u2'⟩, -⟩ := h.cut hn hx hy ht hcut hcut1 m _ hp'
    exact ⟨p1, p2, p1', p2', e, e', u1, u2, u1', u2'⟩
  refine ⟨fun p => h.site p, fun p k => ?_, fun p k => ?_⟩
  · change ∃ c : Fin n → Fin n → 𝕜, (m.after (numOps st ω) pk net).B (cellSite net.nx net.ny p) (.C k.val) = _ ∧ _
    by_cases hp : m.OnLine (cellSite net.nx net.ny (p + dir m.dirn))
    · obtain ⟨p1, p2, p1', p2', e, e', u1, u2, u1', u2'⟩ := cutOf p hp
      rw [m.after_hit (numOps st ω) pk net hx hy hm p hp]
      rw [if_neg (c := Slot.C _ = Slot.E _) (by simp)]
      split_ifs with g1 g2
      · obtain ⟨c, hc, uc⟩ := h.corner (p + dir m.dirn) (m.dirn + 3)
        obtain ⟨e2, he, ue⟩ := h.edge (p + dir m.dirn) (m.dirn + 2)
        rw [hc, he, e, cj1_eq]
        exact ⟨_, rfl, cj1_isUnit hn c e2 p1 uc ue u1⟩
      · obtain ⟨c, hc, uc⟩ := h.corner (p + dir m.dirn) m.dirn
        obtain ⟨e2, he, ue⟩ := h.edge (p + dir m.dirn) m.dirn
        rw [hc, he, e', cj2_eq]
        exact ⟨_, rfl, cj2_isUnit hn c e2 p2' uc ue u2'⟩
      · exact h.corner p k
    · rw [m.after_miss (numOps st ω) pk net hm p hp]
      exact h.corner p k
  · change ∃ c : Fin n → Fin n → B → B → 𝕜, (m.after (numOps st ω) pk net).B (cellSite net.nx net.ny p) (.E k.val) = _ ∧ _
    by_cases hp : m.OnLine (cellSite net.nx net.ny (p + dir m.dirn))
    · obtain ⟨p1, p2, p1', p2', e, e', u1, u2, u1', u2'⟩ := cutOf p hp
      rw [m.after_hit (numOps st ω) pk net hx hy hm p hp]
      rw [if_neg (by simp), if_neg (by simp)]
      split_ifs with g1
      · obtain ⟨a, ha, ha0⟩ := h.site (p + dir m.dirn)
        obtain ⟨e2, he, ue⟩ := h.edge (p + dir m.dirn) (m.dirn + 3)
        rw [ha, he, e, e', permute_eq, bondPermute_unique, ej_eq]
        exact ⟨_, rfl, ej_isUnit hn e2 a p2 p1' ha0 ue u2 u1'⟩
      · exact h.edge p k
    · rw [m.after_miss (numOps st ω) pk net hm p hp]
      exact h.edge p k

omit ht in
theorem Regular.run (hcut : 0 ≤ st.cutoff) (hcut1 : st.cutoff < 1) (ω : ℕ → Draws B 𝕜) (ht : ∀ t, NoTrunc n net.chi st (ω t)) (ms : List Move) (t : ℕ)
    (hm : ∀ m ∈ ms, InRange net.nx net.ny m) :
    LooseRun st pk ω t ms net ∧ ∃ net', runDrawn st pk ω t ms net = .ok net' ∧ Regular n net' ∧ net'.A = net.A ∧ net'.nx = net.nx ∧
      net'.ny = net.ny := by
  induction ms generalizing t net with
  | nil => exact ⟨trivial, net, rfl, h, rfl, rfl, rfl⟩
  | cons m ms ih =>
    have hv := valid_of_range m (hm m (by simp))
    have h' := h.after (pk := pk) hn hx hy (ht t) hcut hcut1 m hv
    obtain ⟨h1, net', h2, h3, h4, h5, h6⟩ := ih h' hx hy ht (t + 1) (fun m' h => hm m' (by simp [h]))
    refine ⟨⟨h.loose hn hx hy (ht t) hcut hcut1 m, fun net'' h => ?_⟩, net', ?_, h3, h4, h5, h6⟩
    · rw [Move.run_eq] at h
      cases h
      exact h1
    · simp only [runDrawn, Move.run_eq, bind, Except.bind]
      exact h2

end net

end AceTN
