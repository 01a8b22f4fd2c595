import Verif.Lemmas.Projectors
import Mathlib.Analysis.Matrix.Order

/-!
Property C45: the projectors of a cut resolve the identity on the kept subspace.
-/

set_option autoImplicit false

namespace AceTN

open Matrix ComplexOrder

namespace Spec

variable {𝕜 : Type} [RCLike 𝕜] {m n X B : Type} [Fintype m] [Fintype n] [Fintype X] [Fintype B] {k : ℕ}

/-- The projectors of the cut between `L` and `R` are biorthogonal up to the positive factor `c`, and inserting them into
the cut projects the environment `L R` on a `k`-dimensional subspace. -/
def Resolves (L : Matrix m (X × B × B) 𝕜) (R : Matrix (X × B × B) n 𝕜) (p1 p2 : X → B → B → Fin k → 𝕜) (c : ℝ) : Prop :=
  0 < c ∧ (pmat p1)ᵀ * pmat p2 = (c : 𝕜) • (1 : Matrix _ _ 𝕜) ∧
  ∃ V : Matrix n (Fin k) 𝕜, Vᴴ * V = 1 ∧
    L * pmat p2 * (pmat p1)ᵀ * R = (c : 𝕜) • (L * R * (V * Vᴴ))

/-- Inserting the projectors is an optimal truncation: no other environment of the same bond dimension is closer. -/
def Optimal (L : Matrix m (X × B × B) 𝕜) (R : Matrix (X × B × B) n 𝕜) (p1 p2 : X → B → B → Fin k → 𝕜) (c : ℝ) : Prop :=
  ∀ (Y : Matrix m (Fin k) 𝕜) (Z : Matrix (Fin k) n 𝕜),
    frobSq (L * R - (((c⁻¹ : ℝ)) : 𝕜) • (L * pmat p2 * (pmat p1)ᵀ * R)) ≤ frobSq (L * R - Y * Z)

/-- The environment has rank at most `chi`. -/
def RankLE (M : Matrix m n 𝕜) (chi : ℕ) : Prop := ∃ (Y : Matrix m (Fin chi) 𝕜) (Z : Matrix (Fin chi) n 𝕜), M = Y * Z

/-- No nonzero singular value is at or below the relative cut-off. -/
def CutGap (M : Matrix m n 𝕜) (cutoff : ℝ) : Prop :=
  ∀ (r : ℕ) (U : Matrix m (Fin r) 𝕜) (S : Fin r → ℝ) (Vh : Matrix (Fin r) n 𝕜), IsSVD M U S Vh →
    ∀ i, S i ≠ 0 → cutoff < S i / firstS S

/-- Inserting the projectors changes the environment only by the factor. -/
def Reproduces (L : Matrix m (X × B × B) 𝕜) (R : Matrix (X × B × B) n 𝕜) (p1 p2 : X → B → B → Fin k → 𝕜) (c : ℝ) : Prop :=
  L * pmat p2 * (pmat p1)ᵀ * R = (c : 𝕜) • (L * R)

/-- All of the above. -/
def GoodCut (L : Matrix m (X × B × B) 𝕜) (R : Matrix (X × B × B) n 𝕜) (cutoff : ℝ) (chi : ℕ) (p : ProjPair X B 𝕜) : Prop :=
  1 ≤ p.cD ∧ p.cD ≤ chi ∧ ∃ c, Resolves L R p.proj1 p.proj2 c ∧ Optimal L R p.proj1 p.proj2 c ∧
    (RankLE (L * R) chi → CutGap (L * R) cutoff → Reproduces L R p.proj1 p.proj2 c)

end Spec

open Spec

variable {𝕜 : Type} [RCLike 𝕜] {m n X B : Type} [Fintype m] [Fintype n] [Fintype X] [Fintype B] {r : ℕ}

theorem firstS_pos_of (S : Fin r → ℝ) (h0 : ∀ i, 0 ≤ S i) (hs : ∀ i j, i ≤ j → S j ≤ S i) (hne : ∃ i, S i ≠ 0) :
    0 < firstS S := by
  obtain ⟨i, hi⟩ := hne
  have hr : 0 < r := Nat.lt_of_le_of_lt (Nat.zero_le _) i.isLt
  unfold firstS
  rw [dif_pos hr]
  exact (lt_of_le_of_ne (h0 i) (Ne.symm hi)).trans_le (hs _ _ (Fin.mk_le_of_le_val (Nat.zero_le _)))

theorem keep_pos (cutoff : ℝ) (hc : cutoff < 1) (chi : ℕ) (hchi : 0 < chi) (S : Fin r → ℝ)
    (hs : ∀ i j, i ≤ j → S j ≤ S i) (h0 : 0 < firstS S) : 1 ≤ keep cutoff chi S := by
  have hr : 0 < r := by
    by_contra h
    unfold firstS at h0
    rw [dif_neg h] at h0
    exact lt_irrefl _ h0
  refine lt_keep cutoff chi S hs h0 ⟨0, hr⟩ hchi ?_
  have : firstS S = S ⟨0, hr⟩ := by unfold firstS; rw [dif_pos hr]
  rw [← this, div_self h0.ne']
  exact hc

/-- Resolution of the identity, for any pair of projectors of the right form. -/
theorem resolves_core (cutoff : ℝ) (hcut : 0 ≤ cutoff) (chi : ℕ) (L L' : Matrix m (X × B × B) 𝕜)
    (R R' : Matrix (X × B × B) n 𝕜) (a b f : ℝ) (hf : 0 < f) (hL : L = (a : 𝕜) • L') (hR : R = (b : 𝕜) • R')
    (x : LowRank m n r 𝕜) (hleft : x.Uᴴ * (L' * R') = (f : 𝕜) • (diagonal (fun i => (x.S i : 𝕜)) * x.Vᴴ))
    (hV : x.Vᴴ * x.V = 1) (hs : ∀ i j, i ≤ j → x.S j ≤ x.S i) (h0 : 0 < firstS x.S)
    (p1 p2 : X → B → B → Fin (keep cutoff chi x.S) → 𝕜) (hp1 : (pmat p1)ᵀ = (scaled cutoff chi x.S x.U)ᴴ * L')
    (hp2 : pmat p2 = R' * scaled cutoff chi x.S x.V) :
    0 < f * firstS x.S ∧ (pmat p1)ᵀ * pmat p2 = ((f * firstS x.S : ℝ) : 𝕜) • (1 : Matrix _ _ 𝕜) ∧
    L * pmat p2 * (pmat p1)ᵀ * R = ((f * firstS x.S : ℝ) : 𝕜) •
      (L * R * (kept (keep_le cutoff chi x.S) x.V * (kept (keep_le cutoff chi x.S) x.V)ᴴ)) := by
  obtain ⟨h1, h2⟩ := scaled_core cutoff hcut chi (L' * R') x f hleft hV hs h0
  refine ⟨mul_pos hf h0, ?_, ?_⟩
  · rw [hp1, hp2, ← h1]
    simp only [Matrix.mul_assoc]
  · have h3 : L' * R' * (scaled cutoff chi x.S x.V * (scaled cutoff chi x.S x.U)ᴴ * (L' * R')) =
        ((f * firstS x.S : ℝ) : 𝕜) • (L' * R' * (kept (keep_le cutoff chi x.S) x.V * (kept (keep_le cutoff chi x.S) x.V)ᴴ)) := by
      rw [h2, Matrix.mul_smul]
    rw [hp1, hp2, hL, hR]
    simp only [Matrix.smul_mul, Matrix.mul_smul]
    rw [smul_comm ((f * firstS x.S : ℝ) : 𝕜) (b : 𝕜), smul_comm ((f * firstS x.S : ℝ) : 𝕜) (a : 𝕜), ← h3]
    simp only [Matrix.mul_assoc]

theorem resolves_of (cutoff : ℝ) (hcut : 0 ≤ cutoff) (chi : ℕ) (L L' : Matrix m (X × B × B) 𝕜)
    (R R' : Matrix (X × B × B) n 𝕜) (a b f : ℝ) (hf : 0 < f) (hL : L = (a : 𝕜) • L') (hR : R = (b : 𝕜) • R')
    (x : LowRank m n r 𝕜) (hleft : x.Uᴴ * (L' * R') = (f : 𝕜) • (diagonal (fun i => (x.S i : 𝕜)) * x.Vᴴ))
    (hV : x.Vᴴ * x.V = 1) (hs : ∀ i j, i ≤ j → x.S j ≤ x.S i) (h0 : 0 < firstS x.S)
    (p1 p2 : X → B → B → Fin (keep cutoff chi x.S) → 𝕜) (hp1 : (pmat p1)ᵀ = (scaled cutoff chi x.S x.U)ᴴ * L')
    (hp2 : pmat p2 = R' * scaled cutoff chi x.S x.V) : Resolves L R p1 p2 (f * firstS x.S) := by
  obtain ⟨h1, h2, h3⟩ := resolves_core cutoff hcut chi L L' R R' a b f hf hL hR x hleft hV hs h0 p1 p2 hp1 hp2
  exact ⟨h1, h2, _, kept_iso _ _ hV, h3⟩

/-- With an exact SVD of the environment the insertion is an optimal truncation, and exact for low rank. -/
theorem goodCut_of (cutoff : ℝ) (hcut : 0 ≤ cutoff) (hcut1 : cutoff < 1) (chi : ℕ) (hchi : 0 < chi)
    (L L' : Matrix m (X × B × B) 𝕜) (R R' : Matrix (X × B × B) n 𝕜) (a b f : ℝ) (ha : 0 < a) (hb : 0 < b) (hf : 0 < f)
    (hL : L = (a : 𝕜) • L') (hR : R = (b : 𝕜) • R') (x : LowRank m n r 𝕜) (hU : x.Uᴴ * x.U = 1)
    (hM : L' * R' = (f : 𝕜) • (x.U * diagonal (fun i => (x.S i : 𝕜)) * x.Vᴴ)) (hV : x.Vᴴ * x.V = 1)
    (hs : ∀ i j, i ≤ j → x.S j ≤ x.S i) (hn : ∀ i, 0 ≤ x.S i) (h0 : 0 < firstS x.S)
    (p1 p2 : X → B → B → Fin (keep cutoff chi x.S) → 𝕜) (hp1 : (pmat p1)ᵀ = (scaled cutoff chi x.S x.U)ᴴ * L')
    (hp2 : pmat p2 = R' * scaled cutoff chi x.S x.V) :
    GoodCut L R cutoff chi ⟨keep cutoff chi x.S, p1, p2⟩ := by
  have hleft : x.Uᴴ * (L' * R') = (f : 𝕜) • (diagonal (fun i => (x.S i : 𝕜)) * x.Vᴴ) := by
    rw [hM, Matrix.mul_smul, ← Matrix.mul_assoc, ← Matrix.mul_assoc, hU, Matrix.one_mul]
  obtain ⟨h1, h2, h3⟩ := resolves_core cutoff hcut chi L L' R R' a b f hf hL hR x hleft hV hs h0 p1 p2 hp1 hp2
  set g : ℝ := a * b * f with hg
  have hgpos : 0 < g := by positivity
  have hLR : L * R = x.U * diagonal (fun i => ((g * x.S i : ℝ) : 𝕜)) * x.Vᴴ := by
    rw [hL, hR, Matrix.smul_mul, Matrix.mul_smul, hM, smul_smul, smul_smul, ← RCLike.ofReal_mul, ← RCLike.ofReal_mul,
      ← hg]
    have : diagonal (fun i => ((g * x.S i : ℝ) : 𝕜)) = (g : 𝕜) • diagonal (fun i => (x.S i : 𝕜)) := by
      ext i j
      by_cases hij : i = j
      · subst hij; simp
      · simp [hij]
    rw [this, Matrix.mul_smul, Matrix.smul_mul]
  have hsvd : IsSVD (L * R) x.U (fun i => g * x.S i) x.Vᴴ :=
    ⟨hLR, hU, by rw [conjTranspose_conjTranspose]; exact hV, fun i => mul_nonneg hgpos.le (hn i),
      fun i j hij => mul_le_mul_of_nonneg_left (hs i j hij) hgpos.le⟩
  have hk := keep_le cutoff chi x.S
  have htr : L * R * (kept hk x.V * (kept hk x.V)ᴴ) =
      truncSVD x.U (fun i => g * x.S i) x.Vᴴ (keep cutoff chi x.S) := by
    rw [← mul_kept hk x.U (fun i => g * x.S i) x.V hV, hLR]
  refine ⟨keep_pos cutoff hcut1 chi hchi x.S hs h0, Nat.min_le_left _ _, f * firstS x.S,
    ⟨h1, h2, _, kept_iso _ _ hV, h3⟩, fun Y Z => ?_, ?_⟩
  · have hey := eckart_young _ _ _ _ hsvd Y Z
    rw [Fintype.card_fin] at hey
    dsimp only at h3 ⊢
    rw [h3, smul_smul, ← RCLike.ofReal_mul, inv_mul_cancel₀ h1.ne', RCLike.ofReal_one, one_smul, htr]
    exact hey
  · rintro ⟨Y, Z, hYZ⟩ hgap
    have ht := truncSVD_exact _ _ _ _ hsvd Y Z hYZ
    rw [Fintype.card_fin] at ht
    have hzero : ∀ i : Fin r, chi ≤ i.val → x.S i = 0 := by
      intro i hi
      have e1 := congrArg (fun A => x.Uᴴ * A * x.V) (ht.trans hLR)
      unfold truncSVD at e1
      dsimp only at e1
      have e2 : ∀ D : Matrix (Fin r) (Fin r) 𝕜, x.Uᴴ * (x.U * D * x.Vᴴ) * x.V = D := by
        intro D
        rw [Matrix.mul_assoc, Matrix.mul_assoc (x.U * D), hV, Matrix.mul_one, ← Matrix.mul_assoc, hU, Matrix.one_mul]
      rw [e2, e2] at e1
      have e3 := congrFun (congrFun e1 i) i
      rw [diagonal_apply_eq, diagonal_apply_eq, if_neg (not_lt.2 hi)] at e3
      have e4 : g * x.S i = 0 := by
        have := e3.symm
        exact_mod_cast this
      exact (mul_eq_zero.1 e4).resolve_left hgpos.ne'
    unfold Reproduces
    dsimp only at h3 ⊢
    rw [h3, htr, hLR]
    congr 1
    unfold truncSVD
    congr 3
    funext i
    split
    · rfl
    · next hi =>
      have : x.S i = 0 := by
        by_contra hne
        apply hi
        refine lt_keep cutoff chi x.S hs h0 i ?_ ?_
        · by_contra hc
          exact hne (hzero i (not_lt.1 hc))
        · have h5 := hgap r _ _ _ hsvd i (mul_ne_zero hgpos.ne' hne)
          have h6 : firstS (fun i => g * x.S i) = g * firstS x.S := by
            unfold firstS
            split <;> simp
          rw [h6] at h5
          rwa [mul_div_mul_left _ _ hgpos.ne'] at h5
      simp [this]

section variants

variable [DecidableEq m] [DecidableEq n]

theorem fullSvd_pos (la : Lapack 𝕜) (A : Matrix m n 𝕜) (hA : A ≠ 0) : 0 < firstS (fullSvd la A).S := by
  have h := la.svd_ok A
  refine firstS_pos_of _ h.nonneg h.sorted ?_
  by_contra hc
  push Not at hc
  apply hA
  rw [h.mul]
  have : (fun i => (((la.svd A).2.1 i : ℝ) : 𝕜)) = 0 := by
    funext i
    rw [show (la.svd A).2.1 i = 0 from hc i]
    simp
  rw [this, diagonal_zero', Matrix.mul_zero, Matrix.zero_mul]

omit [DecidableEq m] [DecidableEq n] in
theorem maxNormalise_ne_zero (A : Matrix m n 𝕜) (h : A ≠ 0) : maxNormalise A ≠ 0 := by
  intro h0
  apply h
  rw [maxNormalise_eq A h, h0, smul_zero]

/-- **C45 (half system, full-rank SVD).** -/
theorem C45_half_full_rank (la : Lapack 𝕜) (cutoff : ℝ) (hcut : 0 ≤ cutoff) (hcut1 : cutoff < 1) (chi : ℕ) (hchi : 0 < chi)
    (Q1 : Matrix m (X × B × B) 𝕜) (Q4 : Matrix (X × B × B) n 𝕜) (hM : Q1 * Q4 ≠ 0) :
    GoodCut Q1 Q4 cutoff chi (halfFullRank la cutoff chi Q1 Q4) := by
  have h := la.svd_ok (maxNormalise (Q1 * Q4))
  refine goodCut_of cutoff hcut hcut1 chi hchi Q1 Q1 Q4 Q4 1 1 (maxAbs (Q1 * Q4)) one_pos one_pos (maxAbs_pos _ hM)
    (by simp) (by simp) (fullSvd la (maxNormalise (Q1 * Q4))) h.left ?_ ?_ h.sorted h.nonneg
    (fullSvd_pos la _ (maxNormalise_ne_zero _ hM)) _ _ (pmat_proj1 cutoff chi Q1 Q4 _) (pmat_proj2 cutoff chi Q1 Q4 _)
  · conv_lhs => rw [maxNormalise_eq _ hM]
    congr 1
    refine h.mul.trans ?_
    unfold fullSvd
    rw [conjTranspose_conjTranspose]
  · unfold fullSvd
    rw [conjTranspose_conjTranspose]
    exact h.right

variable {k1 k3 : Type} [Fintype k1] [Fintype k3]

/-- **C45 (full system, full-rank SVD).** -/
theorem C45_full_full_rank (la : Lapack 𝕜) (cutoff : ℝ) (hcut : 0 ≤ cutoff) (hcut1 : cutoff < 1) (chi : ℕ) (hchi : 0 < chi)
    (Q1 : Matrix k1 (X × B × B) 𝕜) (Q2 : Matrix m k1 𝕜) (Q3 : Matrix k3 n 𝕜) (Q4 : Matrix (X × B × B) k3 𝕜)
    (hM : (Q2 * Q1) * (Q4 * Q3) ≠ 0) :
    GoodCut (Q2 * Q1) (Q4 * Q3) cutoff chi (fullFullRank la cutoff chi Q1 Q2 Q3 Q4) := by
  have hL : Q2 * Q1 ≠ 0 := fun h => hM (by rw [h, Matrix.zero_mul])
  have hR : Q4 * Q3 ≠ 0 := fun h => hM (by rw [h, Matrix.mul_zero])
  set R1 := maxNormalise (Q2 * Q1) with hR1
  set R2 := maxNormalise (Q4 * Q3) with hR2
  have eL := maxNormalise_eq _ hL
  have eR := maxNormalise_eq _ hR
  rw [← hR1] at eL
  rw [← hR2] at eR
  have hF : R1 * R2 ≠ 0 := by
    intro h0
    apply hM
    rw [eL, eR, Matrix.smul_mul, Matrix.mul_smul, h0, smul_zero, smul_zero]
  have h := la.svd_ok (maxNormalise (R1 * R2))
  refine goodCut_of cutoff hcut hcut1 chi hchi (Q2 * Q1) R1 (Q4 * Q3) R2 _ _ (maxAbs (R1 * R2)) (maxAbs_pos _ hL)
    (maxAbs_pos _ hR) (maxAbs_pos _ hF) eL eR (fullSvd la (maxNormalise (R1 * R2))) h.left ?_ ?_ h.sorted h.nonneg
    (fullSvd_pos la _ (maxNormalise_ne_zero _ hF)) _ _ (pmat_proj1 cutoff chi R1 R2 _) (pmat_proj2 cutoff chi R1 R2 _)
  · conv_lhs => rw [maxNormalise_eq _ hF]
    congr 1
    refine h.mul.trans ?_
    unfold fullSvd
    rw [conjTranspose_conjTranspose]
  · unfold fullSvd
    rw [conjTranspose_conjTranspose]
    exact h.right

/-- A projected SVD of a matrix that is not annihilated by the sample has a positive leading singular value. -/
theorem projected_pos {q : ℕ} (M : Matrix m n 𝕜) (Q : Matrix m (Fin q) 𝕜) (Ω : Matrix n (Fin q) 𝕜) (niter : ℕ)
    (x : LowRank m n r 𝕜) (h : IsProjectedSVD M Q x) (hR : ∃ R, (M * Mᴴ) ^ niter * M * Ω = Q * R) (hΩ : M * Ω ≠ 0) :
    0 < firstS x.S := by
  refine firstS_pos_of _ h.nonneg h.sorted ?_
  by_contra hc
  push Not at hc
  apply hΩ
  have e1 : Q * (Qᴴ * M) = 0 := by
    rw [← h.mul]
    have : (fun i => ((x.S i : ℝ) : 𝕜)) = 0 := by funext i; rw [hc i]; simp
    rw [this, diagonal_zero', Matrix.mul_zero, Matrix.zero_mul]
  have e2 : Qᴴ * M = 0 := by
    have := congrArg (fun A => Qᴴ * A) e1
    beta_reduce at this
    rwa [← Matrix.mul_assoc, h.iso, Matrix.one_mul, Matrix.mul_zero] at this
  obtain ⟨R, hR⟩ := hR
  have hpow : ∀ i, ∃ W : Matrix n n 𝕜, (M * Mᴴ) ^ i * M = M * W := by
    intro i
    induction i with
    | zero => exact ⟨1, by simp⟩
    | succ i ih =>
      obtain ⟨W, hW⟩ := ih
      refine ⟨Mᴴ * (M * W), ?_⟩
      rw [pow_succ', Matrix.mul_assoc, hW]
      simp only [Matrix.mul_assoc]
  have e3 : (M * Mᴴ) ^ niter * M * Ω = 0 := by
    obtain ⟨W, hW⟩ := hpow niter
    have e4 : R = 0 := by
      have := congrArg (fun A => Qᴴ * A) hR
      beta_reduce at this
      rw [hW, ← Matrix.mul_assoc Qᴴ, ← Matrix.mul_assoc Qᴴ M, e2, Matrix.zero_mul, Matrix.zero_mul, ← Matrix.mul_assoc, h.iso,
        Matrix.one_mul] at this
      exact this.symm
    rw [hR, e4, Matrix.mul_zero]
  clear hR
  induction niter with
  | zero => simpa using e3
  | succ i ih =>
    apply ih
    obtain ⟨W, hW⟩ := hpow i
    rw [pow_succ', Matrix.mul_assoc, Matrix.mul_assoc, ← Matrix.mul_assoc _ M, self_mul_conjTranspose_mul_eq_zero, hW,
      Matrix.mul_assoc, ← Matrix.mul_assoc, conjTranspose_mul_self_mul_eq_zero] at e3
    rw [hW, Matrix.mul_assoc]
    exact e3

/-- **C45 (half system, randomised SVD).** For every draw that is not annihilated by the environment the projectors are
biorthogonal up to a positive factor and inserting them projects the environment; if the draw captures the range of the
environment, the insertion is optimal and exact for low rank. -/
theorem C45_half_rsvd (la : Lapack 𝕜) (cutoff : ℝ) (hcut : 0 ≤ cutoff) (hcut1 : cutoff < 1) (chi : ℕ) (hchi : 0 < chi)
    (oversampling niter : ℕ) (Q1 : Matrix m (X × B × B) 𝕜) (Q4 : Matrix (X × B × B) n 𝕜)
    (Ω : Matrix n (Fin (clipRank m n (chi + oversampling))) 𝕜) (hΩ : Q1 * Q4 * Ω ≠ 0) :
    let p := halfRsvd la cutoff chi oversampling niter Q1 Q4 Ω
    (∃ c, Resolves Q1 Q4 p.proj1 p.proj2 c) ∧ (Captures (Q1 * Q4) Ω → GoodCut Q1 Q4 cutoff chi p) := by
  intro p
  obtain ⟨Q, hQ, hR⟩ := C43_projected la (chi + oversampling) niter (Q1 * Q4) Ω
  have hex := C43_exact la (chi + oversampling) niter (Q1 * Q4) Ω
  have hp : p = projFromSvd cutoff chi Q1 Q4 (svdLowrank la (chi + oversampling) niter (Q1 * Q4) Ω) := by
    show projFromSvd cutoff chi Q1 Q4 _ = _
    rw [C44_fused]
  have h0 := projected_pos _ Q Ω niter _ hQ hR hΩ
  rw [hp]
  clear_value p
  clear hp
  revert hQ hex h0
  generalize svdLowrank la (chi + oversampling) niter (Q1 * Q4) Ω = x
  intro hQ hex h0
  refine ⟨⟨_, resolves_of cutoff hcut chi Q1 Q1 Q4 Q4 1 1 1 one_pos (by simp) (by simp) x ?_ hQ.right hQ.sorted h0 _ _
    (pmat_proj1 cutoff chi Q1 Q4 x) (pmat_proj2 cutoff chi Q1 Q4 x)⟩, fun hc => ?_⟩
  · rw [hQ.leftMul, RCLike.ofReal_one, one_smul]
  · refine goodCut_of cutoff hcut hcut1 chi hchi Q1 Q1 Q4 Q4 1 1 1 one_pos one_pos one_pos (by simp) (by simp) x hQ.left ?_
      hQ.right hQ.sorted hQ.nonneg h0 _ _ (pmat_proj1 cutoff chi Q1 Q4 x) (pmat_proj2 cutoff chi Q1 Q4 x)
    rw [RCLike.ofReal_one, one_smul]
    exact (hex hc).mul

end variants

/-- **C45 (full system, randomised SVD, real dtype).** The same for real tensors; for complex ones see
`C45_violated_complex`. -/
theorem C45_full_rsvd_real_partial [DecidableEq m] [DecidableEq n] {k1 k3 : Type} [Fintype k1] [Fintype k3] (la : Lapack ℝ)
    (cutoff : ℝ) (hcut : 0 ≤ cutoff) (hcut1 : cutoff < 1) (chi : ℕ) (hchi : 0 < chi) (oversampling niter : ℕ)
    (Q1 : Matrix k1 (X × B × B) ℝ) (Q2 : Matrix m k1 ℝ) (Q3 : Matrix k3 n ℝ) (Q4 : Matrix (X × B × B) k3 ℝ)
    (Ω : Matrix n (Fin (clipRank m n (chi + oversampling))) ℝ) (hΩ : (Q2 * Q1) * (Q4 * Q3) * Ω ≠ 0) :
    let p := fullRsvd la cutoff chi oversampling niter Q1 Q2 Q3 Q4 Ω
    (∃ c, Resolves (Q2 * Q1) (Q4 * Q3) p.proj1 p.proj2 c) ∧
    (Captures ((Q2 * Q1) * (Q4 * Q3)) Ω → GoodCut (Q2 * Q1) (Q4 * Q3) cutoff chi p) := by
  intro p
  obtain ⟨Q, hQ, hR, -⟩ := C44_fused3 la (chi + oversampling) niter Q2 Q1 Q4 Q3 Ω
  have hex := C44_fused3_exact la (chi + oversampling) niter Q2 Q1 Q4 Q3 Ω
  rw [show Q2 * Q1 * Q4 * Q3 = (Q2 * Q1) * (Q4 * Q3) by simp only [Matrix.mul_assoc]] at hQ hR hex
  have h0 := projected_pos _ Q Ω niter _ hQ hR hΩ
  have hp1 : (pmat (k := keep cutoff chi (fused3SvdLowrank la (chi + oversampling) niter Q2 Q1 Q4 Q3 Ω).S) p.proj1)ᵀ =
      (scaled cutoff chi (fused3SvdLowrank la (chi + oversampling) niter Q2 Q1 Q4 Q3 Ω).S
        (fused3SvdLowrank la (chi + oversampling) niter Q2 Q1 Q4 Q3 Ω).U)ᴴ * (Q2 * Q1) := by
    have e : pmat (k := keep cutoff chi (fused3SvdLowrank la (chi + oversampling) niter Q2 Q1 Q4 Q3 Ω).S) p.proj1 =
        Q1ᴴ * (Q2ᴴ * (scaled cutoff chi (fused3SvdLowrank la (chi + oversampling) niter Q2 Q1 Q4 Q3 Ω).S
        (fused3SvdLowrank la (chi + oversampling) niter Q2 Q1 Q4 Q3 Ω).U).map star) := rfl
    rw [e, transpose_mul, transpose_mul]
    rw [show (Q1ᴴ)ᵀ = Q1 from by ext i j; simp, show (Q2ᴴ)ᵀ = Q2 from by ext i j; simp, Matrix.mul_assoc]
    rfl
  have hp2 : pmat (k := keep cutoff chi (fused3SvdLowrank la (chi + oversampling) niter Q2 Q1 Q4 Q3 Ω).S) p.proj2 =
      Q4 * Q3 * scaled cutoff chi (fused3SvdLowrank la (chi + oversampling) niter Q2 Q1 Q4 Q3 Ω).S
        (fused3SvdLowrank la (chi + oversampling) niter Q2 Q1 Q4 Q3 Ω).V := by
    rw [Matrix.mul_assoc]
    rfl
  refine ⟨⟨_, resolves_of cutoff hcut chi _ (Q2 * Q1) _ (Q4 * Q3) 1 1 1 one_pos (by simp) (by simp) _ ?_ hQ.right hQ.sorted
    h0 _ _ hp1 hp2⟩, fun hc => ?_⟩
  · rw [hQ.leftMul]
    simp
  · refine goodCut_of cutoff hcut hcut1 chi hchi _ (Q2 * Q1) _ (Q4 * Q3) 1 1 1 one_pos one_pos one_pos (by simp) (by simp) _
      hQ.left ?_ hQ.right hQ.sorted hQ.nonneg h0 _ _ hp1 hp2
    refine (hex hc).mul.trans ?_
    simp

section network

namespace Spec

/-- The intended statement for a projector pair `p` of the cut between `L` and `R`: whenever the random draw is not
annihilated by the environment, the pair resolves the identity, and it is optimal, and exact for low rank, if the draw
captures the environment (or no draw is used at all). -/
def CutOk {𝕜 : Type} [RCLike 𝕜] {X B : Type} [Fintype X] [Fintype B] {q : ℕ} (fullRank : Bool) (cutoff : ℝ) (chi : ℕ)
    (L R : Matrix (X × B × B) (X × B × B) 𝕜) (Ω : Matrix (X × B × B) (Fin q) 𝕜) (p : ProjPair X B 𝕜) : Prop :=
  L * R ≠ 0 → (fullRank = false → L * R * Ω ≠ 0) →
    (∃ c, Resolves L R p.proj1 p.proj2 c) ∧ ((fullRank = false → Captures (L * R) Ω) → GoodCut L R cutoff chi p)

/-- C45 for half-system projectors. -/
def HalfCuts (𝕜 : Type) [RCLike 𝕜] : Prop :=
  ∀ (B P X : Type) [Fintype B] [Fintype P] [Fintype X] [DecidableEq X] [DecidableEq B] (la : Lapack 𝕜) (fullRank : Bool)
    (cutoff : ℝ) (chi oversampling niter : ℕ) (net : NetT B P X 𝕜) (s1 s4 : Site) (k : ℤ) (Ω : Draw X B 𝕜 (chi + oversampling)),
    0 ≤ cutoff → cutoff < 1 → 0 < chi →
    CutOk fullRank cutoff chi (makeQuarter (net s1) k) (makeQuarter (net s4) (k + 3)) Ω
      (calculateHalf la fullRank cutoff chi oversampling niter net s1 s4 k Ω)

/-- C45 for full-system projectors. -/
def FullCuts (𝕜 : Type) [RCLike 𝕜] (fullRank : Bool) : Prop :=
  ∀ (B P X : Type) [Fintype B] [Fintype P] [Fintype X] [DecidableEq X] [DecidableEq B] (la : Lapack 𝕜)
    (cutoff : ℝ) (chi oversampling niter : ℕ) (net : NetT B P X 𝕜) (s1 s2 s3 s4 : Site) (k : ℤ)
    (Ω : Draw X B 𝕜 (chi + oversampling)), 0 ≤ cutoff → cutoff < 1 → 0 < chi →
    CutOk fullRank cutoff chi (makeQuarter (net s2) (k + 1) * makeQuarter (net s1) k)
      (makeQuarter (net s4) (k + 3) * makeQuarter (net s3) (k + 2)) Ω
      (calculateFull la fullRank cutoff chi oversampling niter net s1 s2 s3 s4 k Ω)

end Spec

/-- **C45 (half system).** Half-system projectors are right for both SVD types and both dtypes. -/
theorem C45_half : HalfCuts 𝕜 := by
  intro B P X _ _ _ _ _ la fullRank cutoff chi ov ni net s1 s4 k Ω hcut hcut1 hchi hM hΩ
  cases fullRank with
  | true =>
    have h := C45_half_full_rank la cutoff hcut hcut1 chi hchi _ _ hM
    refine ⟨?_, fun _ => h⟩
    obtain ⟨-, -, c, hc, -⟩ := h
    exact ⟨c, hc⟩
  | false =>
    have h := C45_half_rsvd la cutoff hcut hcut1 chi hchi ov ni _ _ Ω (hΩ rfl)
    exact ⟨h.1, fun hc => h.2 (hc rfl)⟩

/-- **C45 (full system, full-rank SVD).** -/
theorem C45_full : FullCuts 𝕜 true := by
  intro B P X _ _ _ _ _ la cutoff chi ov ni net s1 s2 s3 s4 k Ω hcut hcut1 hchi hM hΩ
  have h := C45_full_full_rank la cutoff hcut hcut1 chi hchi _ _ _ _ hM
  refine ⟨?_, fun _ => h⟩
  obtain ⟨-, -, c, hc, -⟩ := h
  exact ⟨c, hc⟩

/-- **C45 (full system, randomised SVD), partial.** Full-system randomised projectors are right for real tensors; the
complex case is false, `C45_violated_complex`. -/
theorem C45_full_rsvd_partial : FullCuts ℝ false := by
  intro B P X _ _ _ _ _ la cutoff chi ov ni net s1 s2 s3 s4 k Ω hcut hcut1 hchi _ hΩ
  have h := C45_full_rsvd_real_partial la cutoff hcut hcut1 chi hchi ov ni _ _ _ _ Ω (hΩ rfl)
  exact ⟨h.1, fun hc => h.2 (hc rfl)⟩

/-- A site with one-dimensional bonds whose quarter tensors are all proportional to `Q`. -/
noncomputable def quarterSite {X : Type} [DecidableEq X] (Q : Matrix X X 𝕜) : NumSite Unit Unit X 𝕜 :=
  { A := fun _ _ _ _ _ => 1
    C := fun _ a b => Q b a
    E := fun _ a b _ _ => if a = b then 1 else 0 }

/-- The matrix of the quarter tensors of `quarterSite Q`. -/
def quarterMat {X : Type} (Q : Matrix X X 𝕜) : Matrix (X × Unit × Unit) (X × Unit × Unit) 𝕜 := Q.submatrix Prod.fst Prod.fst

theorem makeQuarter_quarterSite {X : Type} [Fintype X] [DecidableEq X] (Q : Matrix X X 𝕜) (k : ℤ) :
    makeQuarter (quarterSite Q) k = maxNormalise (quarterMat Q) := by
  have hb : ∀ l u r d p : Unit, bondPermute k (fun _ _ _ _ _ => (1 : 𝕜)) l u r d p = 1 := by
    intro l u r d p
    unfold bondPermute
    all_goals rfl
  unfold makeQuarter
  congr 1
  ext ⟨c, u, U⟩ ⟨e, d, D⟩
  unfold quarterCore
  simp [hb, quarterSite, quarterMat]

theorem quarterMat_mul {X : Type} [Fintype X] [DecidableEq X] (Q Q' : Matrix X X 𝕜) :
    quarterMat Q * quarterMat Q' = quarterMat (Q * Q') := by
  ext i j
  simp [quarterMat, mul_apply, Fintype.sum_prod_type]

theorem quarterMat_ne_zero {X : Type} (Q : Matrix X X 𝕜) (h : Q ≠ 0) : quarterMat Q ≠ 0 := by
  intro h0
  apply h
  ext i j
  exact congrFun (congrFun h0 (i, (), ())) (j, (), ())

/-- The quarter tensors of the counterexample. -/
def badQ (s : Site) : Matrix (Fin 2) (Fin 2) ℂ :=
  if s = (0, 0) then !![1, Complex.I; 0, 0] else if s = (1, 1) then !![1, 0; -Complex.I, 0] else !![1, 0; 0, 0]

/-- **C45 is violated (complex dtype).** With the randomised SVD, which is the default, and complex tensors, the
full-system projectors need not resolve the identity: they can even be orthogonal to each other. -/
theorem C45_violated_complex : ¬ FullCuts ℂ false := by
  intro h
  obtain ⟨la⟩ := nonempty_lapack (𝕜 := ℂ)
  have hQ1 : badQ (0, 0) = !![1, Complex.I; 0, 0] := rfl
  have hQ2 : badQ (0, 1) = !![1, 0; 0, 0] := rfl
  have hQ3 : badQ (1, 0) = !![1, 0; 0, 0] := rfl
  have hQ4 : badQ (1, 1) = !![1, 0; -Complex.I, 0] := rfl
  have hne : ∀ s, quarterMat (badQ s) ≠ 0 := by
    intro s
    refine quarterMat_ne_zero _ fun h0 => ?_
    have := congrFun (congrFun h0 0) 0
    unfold badQ at this
    split_ifs at this <;> simp at this
  have hq : ∀ s k, makeQuarter (quarterSite (badQ s)) k =
      (((maxAbs (quarterMat (badQ s)))⁻¹ : ℝ) : ℂ) • quarterMat (badQ s) := fun s k => makeQuarter_quarterSite _ k
  have hc : ∀ s, (((maxAbs (quarterMat (badQ s)))⁻¹ : ℝ) : ℂ) ≠ 0 := fun s =>
    Complex.ofReal_ne_zero.2 (inv_ne_zero (maxAbs_pos _ (hne s)).ne')
  have h' := h Unit Unit (Fin 2) la 0 1 0 0 (fun s => quarterSite (badQ s)) (0, 0) (0, 1) (1, 0) (1, 1) 0 (of fun _ _ => 1)
    le_rfl one_pos one_pos
  unfold CutOk at h'
  have hprod : (quarterMat (badQ (0, 1)) * quarterMat (badQ (0, 0))) * (quarterMat (badQ (1, 1)) * quarterMat (badQ (1, 0))) =
      quarterMat !![2, 0; 0, 0] := by
    rw [quarterMat_mul, quarterMat_mul, quarterMat_mul, hQ1, hQ2, hQ3, hQ4]
    congr 1
    ext i j
    fin_cases i <;> fin_cases j <;> simp [mul_apply, Fin.sum_univ_two]
    norm_num
  have hpos : 0 < clipRank (Fin 2 × Unit × Unit) (Fin 2 × Unit × Unit) (1 + 0) := by
    unfold clipRank
    simp
  have hMΩ : (makeQuarter (quarterSite (badQ (0, 1))) (0 + 1) * makeQuarter (quarterSite (badQ (0, 0))) 0) *
      (makeQuarter (quarterSite (badQ (1, 1))) (0 + 3) * makeQuarter (quarterSite (badQ (1, 0))) (0 + 2)) *
      (of fun _ _ => 1 : Draw (Fin 2) Unit ℂ (1 + 0)) ≠ 0 := by
    rw [hq, hq, hq, hq]
    simp only [Matrix.smul_mul, Matrix.mul_smul]
    rw [hprod]
    intro h0
    rw [smul_eq_zero, smul_eq_zero, smul_eq_zero, smul_eq_zero] at h0
    have h1 := h0.resolve_left (hc _) |>.resolve_left (hc _) |>.resolve_left (hc _) |>.resolve_left (hc _)
    have h2 := congrFun (congrFun h1 (0, (), ())) ⟨0, hpos⟩
    simp [quarterMat, mul_apply, Fintype.sum_prod_type] at h2
  have hM : (makeQuarter (quarterSite (badQ (0, 1))) (0 + 1) * makeQuarter (quarterSite (badQ (0, 0))) 0) *
      (makeQuarter (quarterSite (badQ (1, 1))) (0 + 3) * makeQuarter (quarterSite (badQ (1, 0))) (0 + 2)) ≠ 0 := by
    intro h0
    rw [h0, Matrix.zero_mul] at hMΩ
    exact hMΩ rfl
  obtain ⟨⟨c, hcpos, hbi, -⟩, -⟩ := h' hM (fun _ => hMΩ)
  set Q1 := makeQuarter (quarterSite (badQ (0, 0))) 0 with eQ1
  set Q2 := makeQuarter (quarterSite (badQ (0, 1))) (0 + 1) with eQ2
  set Q3 := makeQuarter (quarterSite (badQ (1, 0))) (0 + 2) with eQ3
  set Q4 := makeQuarter (quarterSite (badQ (1, 1))) (0 + 3) with eQ4
  obtain ⟨Q, hQ, hR, -⟩ := C44_fused3 la (1 + 0) 0 Q2 Q1 Q4 Q3 (of fun _ _ => 1 : Draw (Fin 2) Unit ℂ (1 + 0))
  have hassoc : Q2 * Q1 * Q4 * Q3 = (Q2 * Q1) * (Q4 * Q3) := by simp only [Matrix.mul_assoc]
  rw [hassoc] at hQ hR
  have h0 := projected_pos _ Q _ 0 _ hQ hR hMΩ
  have hk := keep_pos 0 one_pos 1 one_pos _ hQ.sorted h0
  -- the two projectors are orthogonal
  have hzero : (Q2 * Q1).map star * (Q4 * Q3) = 0 := by
    rw [eQ1, eQ2, eQ3, eQ4, hq, hq, hq, hq]
    simp only [Matrix.smul_mul, Matrix.mul_smul]
    have e : ∀ (a : ℝ) (A : Matrix (Fin 2 × Unit × Unit) (Fin 2 × Unit × Unit) ℂ), ((a : ℂ) • A).map star = (a : ℂ) • A.map star := by
      intro a A
      ext i j
      simp
    rw [e, e]
    simp only [Matrix.smul_mul]
    have e2 : (quarterMat (badQ (0, 1)) * quarterMat (badQ (0, 0))).map star *
        (quarterMat (badQ (1, 1)) * quarterMat (badQ (1, 0))) = 0 := by
      rw [quarterMat_mul, quarterMat_mul, hQ1, hQ2, hQ3, hQ4,
        show (quarterMat (!![1, 0; 0, 0] * !![1, Complex.I; 0, 0])).map star =
          quarterMat ((!![1, 0; 0, 0] * !![1, Complex.I; 0, 0] : Matrix (Fin 2) (Fin 2) ℂ).map star) from rfl, quarterMat_mul]
      have : (!![1, 0; 0, 0] * !![1, Complex.I; 0, 0] : Matrix (Fin 2) (Fin 2) ℂ).map star *
          (!![1, 0; -Complex.I, 0] * !![1, 0; 0, 0]) = 0 := by
        ext i j
        fin_cases i <;> fin_cases j <;> simp [mul_apply, Fin.sum_univ_two]
      rw [this]
      rfl
    rw [e2]
    simp
  set x := fused3SvdLowrank la (1 + 0) 0 Q2 Q1 Q4 Q3 (of fun _ _ => 1 : Draw (Fin 2) Unit ℂ (1 + 0)) with ex
  have hp : (pmat (k := keep 0 1 x.S) (fullRsvd la 0 1 0 0 Q1 Q2 Q3 Q4 (of fun _ _ => 1)).proj1)ᵀ *
      pmat (k := keep 0 1 x.S) (fullRsvd la 0 1 0 0 Q1 Q2 Q3 Q4 (of fun _ _ => 1)).proj2 = 0 := by
    have e1 : pmat (k := keep 0 1 x.S) (fullRsvd la 0 1 0 0 Q1 Q2 Q3 Q4 (of fun _ _ => 1)).proj1 =
        Q1ᴴ * (Q2ᴴ * (scaled 0 1 x.S x.U).map star) := rfl
    have e2 : pmat (k := keep 0 1 x.S) (fullRsvd la 0 1 0 0 Q1 Q2 Q3 Q4 (of fun _ _ => 1)).proj2 =
        Q4 * (Q3 * scaled 0 1 x.S x.V) := rfl
    rw [e1, e2, transpose_mul, transpose_mul]
    have e3 : Q2ᴴᵀ * Q1ᴴᵀ = (Q2 * Q1).map star := by
      rw [show (Q2 * Q1).map star = ((Q2 * Q1)ᴴ)ᵀ from rfl, conjTranspose_mul, transpose_mul]
    calc _ = ((scaled 0 1 x.S x.U).map star)ᵀ * ((Q2ᴴᵀ * Q1ᴴᵀ) * (Q4 * Q3)) * scaled 0 1 x.S x.V := by
          simp only [Matrix.mul_assoc]
      _ = 0 := by rw [e3, hzero, Matrix.mul_zero, Matrix.zero_mul]
  have hcon : (0 : Matrix (Fin (keep 0 1 x.S)) (Fin (keep 0 1 x.S)) ℂ) = ((c : ℝ) : ℂ) • 1 := hp.symm.trans hbi
  have := congrFun (congrFun hcon ⟨0, hk⟩) ⟨0, hk⟩
  simp at this
  exact hcpos.ne (by exact_mod_cast this)

/-- The hypotheses are satisfiable: an environment with a nonzero half system, for both dtypes and all draws of ones. -/
example (k : ℤ) : ∃ s : NumSite Unit Unit (Fin 2) 𝕜, makeQuarter s k * makeQuarter s (k + 3) ≠ 0 := by
  refine ⟨quarterSite 1, ?_⟩
  have hne : quarterMat (1 : Matrix (Fin 2) (Fin 2) 𝕜) ≠ 0 := quarterMat_ne_zero _ one_ne_zero
  have hc : (((maxAbs (quarterMat (1 : Matrix (Fin 2) (Fin 2) 𝕜)))⁻¹ : ℝ) : 𝕜) ≠ 0 :=
    RCLike.ofReal_ne_zero.2 (inv_ne_zero (maxAbs_pos _ hne).ne')
  rw [makeQuarter_quarterSite, makeQuarter_quarterSite]
  unfold maxNormalise
  rw [Matrix.smul_mul, Matrix.mul_smul, quarterMat_mul, Matrix.one_mul]
  intro h
  rw [smul_eq_zero, smul_eq_zero] at h
  exact hne (h.resolve_left hc |>.resolve_left hc)

end network

end AceTN
