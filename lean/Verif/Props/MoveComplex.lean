import Verif.Props.MoveExact

/-!
Property C59 fails for complex tensors with the default, randomised SVD.
-/

set_option autoImplicit false

namespace AceTN

open Matrix Spec

variable {𝕜 : Type} [RCLike 𝕜]

section rsvd

variable {X B : Type} [Fintype X] [Fintype B] [DecidableEq X] [DecidableEq B] [Nonempty X] [Nonempty B]

/-- What the projectors of `calculate_full_system` with the randomised SVD multiply to when nothing is truncated. -/
theorem fullRsvd_product (la : Lapack 𝕜) (chi oversampling niter : ℕ) (Q1 Q2 Q3 Q4 : Matrix (X × B × B) (X × B × B) 𝕜)
    (Ω : Draw X B 𝕜 (chi + oversampling)) (hu : Untruncated false 0 chi (Q2 * Q1) (Q4 * Q3) Ω) :
    ∃ c : ℝ, 0 < c ∧ (Q2 * Q1) * (pmat (fullRsvd la 0 chi oversampling niter Q1 Q2 Q3 Q4 Ω).proj2 *
      (pmat (fullRsvd la 0 chi oversampling niter Q1 Q2 Q3 Q4 Ω).proj1)ᵀ) = (c : 𝕜) • (Q2 * Q1).map star := by
  have hchi : 0 < chi := lt_of_lt_of_le Fintype.card_pos hu.large
  set L := Q2 * Q1 with hL
  set R := Q4 * Q3 with hR
  have hassoc : Q2 * Q1 * Q4 * Q3 = L * R := by simp only [hL, hR, Matrix.mul_assoc]
  obtain ⟨Q, hQ, hQR, -⟩ := C44_fused3 la (chi + oversampling) niter Q2 Q1 Q4 Q3 Ω
  have hex := C44_fused3_exact la (chi + oversampling) niter Q2 Q1 Q4 Q3 Ω
  rw [hassoc] at hQ hQR hex
  have h0 := projected_pos _ Q Ω niter _ hQ hQR (hu.draw rfl).1
  have hsvd := hex (hu.draw rfl).2
  set x := fused3SvdLowrank la (chi + oversampling) niter Q2 Q1 Q4 Q3 Ω with hx
  have e1 : pmat (k := keep 0 chi x.S) (fullRsvd la 0 chi oversampling niter Q1 Q2 Q3 Q4 Ω).proj1 =
      Q1ᴴ * (Q2ᴴ * (scaled 0 chi x.S x.U).map star) := rfl
  have e2 : pmat (k := keep 0 chi x.S) (fullRsvd la 0 chi oversampling niter Q1 Q2 Q3 Q4 Ω).proj2 =
      Q4 * (Q3 * scaled 0 chi x.S x.V) := rfl
  have hg := goodCut_of 0 le_rfl one_pos chi hchi L L R R 1 1 1 one_pos one_pos one_pos (by simp) (by simp) x hsvd.left
    (by rw [RCLike.ofReal_one, one_smul]; exact hsvd.mul) (by rw [← conjTranspose_conjTranspose x.V]; exact
      (by simpa using hsvd.right)) hsvd.sorted hsvd.nonneg h0
    (fun e d D z => ((scaled 0 chi x.S x.U)ᴴ * L) z (e, d, D)) (fun c u U z => (R * scaled 0 chi x.S x.V) (c, u, U) z) rfl rfl
  obtain ⟨-, -, c, ⟨hc, -⟩, -, hrep⟩ := hg
  have hr := hrep (rankLE_of_card _ _ hu.large) (cutGap_zero _)
  have hr' : L * (R * scaled 0 chi x.S x.V) * ((scaled 0 chi x.S x.U)ᴴ * L) * R = (c : 𝕜) • (L * R) := hr
  obtain ⟨L', hL'⟩ := hu.left.exists_right_inv
  obtain ⟨R', hR'⟩ := hu.right.exists_right_inv
  -- remove the invertible factors
  have h1 : L * (R * scaled 0 chi x.S x.V) * (scaled 0 chi x.S x.U)ᴴ = (c : 𝕜) • 1 := by
    have := congrArg (fun M => M * R' * L') hr'
    beta_reduce at this
    have f1 : L * (R * scaled 0 chi x.S x.V) * ((scaled 0 chi x.S x.U)ᴴ * L) * R * R' * L' =
        L * (R * scaled 0 chi x.S x.V) * (scaled 0 chi x.S x.U)ᴴ * (L * (R * R') * L') := by
      simp only [Matrix.mul_assoc]
    have f2 : (c : 𝕜) • (L * R) * R' * L' = (c : 𝕜) • (L * (R * R') * L') := by
      simp only [Matrix.mul_assoc, Matrix.smul_mul]
    rw [f1, f2, hR', Matrix.mul_one, hL', Matrix.mul_one] at this
    exact this
  refine ⟨c, hc, ?_⟩
  have e3 : Q2ᴴᵀ * Q1ᴴᵀ = L.map star := by
    rw [hL, show (Q2 * Q1).map star = ((Q2 * Q1)ᴴ)ᵀ from rfl, conjTranspose_mul, transpose_mul]
  have e4 : ((scaled 0 chi x.S x.U).map star)ᵀ = (scaled 0 chi x.S x.U)ᴴ := rfl
  change L * (pmat (k := keep 0 chi x.S) (fullRsvd la 0 chi oversampling niter Q1 Q2 Q3 Q4 Ω).proj2 *
    (pmat (k := keep 0 chi x.S) (fullRsvd la 0 chi oversampling niter Q1 Q2 Q3 Q4 Ω).proj1)ᵀ) = _
  rw [e1, e2, transpose_mul, transpose_mul, Matrix.mul_assoc _ Q2ᴴᵀ, e3, e4, ← Matrix.mul_assoc Q4]
  calc _ = L * (R * scaled 0 chi x.S x.V) * (scaled 0 chi x.S x.U)ᴴ * L.map star := by simp only [hR, Matrix.mul_assoc]
    _ = _ := by rw [h1, Matrix.smul_mul, Matrix.one_mul]

end rsvd

/-- A plain site whose corners carry a phase. -/
noncomputable def twistSite : NumSite Unit (Fin 1) (Fin 2) ℂ :=
  { A := fun _ _ _ _ _ => 1
    C := fun _ a b => if a = b then (if a = 0 then 1 else Complex.I) else 0
    E := fun _ a b _ _ => if a = b then 1 else 0 }

/-- Its quarter tensor up to a real factor. -/
noncomputable def twistMat : Matrix (Fin 2 × Unit × Unit) (Fin 2 × Unit × Unit) ℂ :=
  diagonal fun i => if i.1 = 0 then 1 else Complex.I

/-- The signs by which the projectors go wrong. -/
noncomputable def signMat : Matrix (Fin 2 × Unit × Unit) (Fin 2 × Unit × Unit) ℂ :=
  diagonal fun i => if i.1 = 0 then 1 else -1

theorem makeQuarter_twistSite (k : ℤ) : ∃ r : ℝ, r ≠ 0 ∧ makeQuarter twistSite k = (r : ℂ) • twistMat := by
  have hb : ∀ (l u r d : Unit) (p : Fin 1), bondPermute k (fun _ _ _ _ _ => (1 : ℂ)) l u r d p = 1 := by
    intro l u r d p
    unfold bondPermute
    all_goals rfl
  have hq : quarterCore (twistSite.C (rotIdx k 0)) (twistSite.E (rotIdx k 3)) (twistSite.E (rotIdx k 0))
      (bondPermute k twistSite.A) = twistMat := by
    ext ⟨c, u, U⟩ ⟨e, d, D⟩
    unfold quarterCore twistMat
    simp [hb, twistSite, diagonal_apply]
    fin_cases c <;> fin_cases e <;> simp
  have hne : twistMat ≠ 0 := by
    intro h0
    have := congrFun (congrFun h0 (0, (), ())) (0, (), ())
    simp [twistMat] at this
  unfold makeQuarter
  rw [hq]
  exact ⟨_, inv_ne_zero (maxAbs_pos _ hne).ne', rfl⟩

theorem twistMat_star : twistMat.map star = twistMat * signMat := by
  unfold twistMat signMat
  rw [diagonal_mul_diagonal]
  ext ⟨i, _, _⟩ ⟨j, _, _⟩
  fin_cases i <;> fin_cases j <;> simp

theorem isUnit_twistMat : IsUnit twistMat := by
  rw [isUnit_iff_isUnit_det]
  unfold twistMat
  rw [det_diagonal]
  simp [Fintype.prod_prod_type, Fin.prod_univ_two]

/-- The product of the projectors of a cut, entry by entry. -/
theorem pmat_product {k : ℕ} {X B : Type} (p1 p2 : X → B → B → Fin k → ℂ) (x : X) (u u' : B) (y : X) (v v' : B) :
    ∑ z, p2 x u u' z * p1 y v v' z = (pmat p2 * (pmat p1)ᵀ) (x, u, u') (y, v, v') := rfl

/-- After absorbing plain sites through projectors that multiply to the identity at one cut and to the signs at the other,
the density matrix is zero. -/
theorem plain_signs (pi pj : ProjPair (Fin 2) Unit ℂ) (ci cj : ℂ)
    (hi : pmat pi.proj2 * (pmat pi.proj1)ᵀ = ci • (1 : Matrix _ _ ℂ)) (hj : pmat pj.proj2 * (pmat pj.proj1)ᵀ = cj • signMat) (bra ket : Fin 1) :
    siteRdmAfterMove plainSite 0 (renormalizeBoundary3 plainSite pi pj 0) bra ket = 0 := by
  rw [siteRdmAfterMove_eq]
  unfold renormalizeBoundary3
  dsimp only
  rw [renormalizeCj1_eq, renormalizeCj2_eq, renormalizeEj_eq]
  have key := absorbed_open (plainSite.C (rotIdx 0 1)) (plainSite.E (rotIdx 0 1)) (plainSite.E (rotIdx 0 0))
    (plainSite.C (rotIdx 0 2)) (plainSite.E (rotIdx 0 2)) (bondPermute 0 plainSite.A)
    (plainSite.C (rotIdx 0 0)) (plainSite.E (rotIdx 0 0)) (plainSite.E (rotIdx 0 3))
    (plainSite.C (rotIdx 0 3)) (plainSite.E (rotIdx 0 2)) (bondPermute 0 plainSite.A)
    pi.proj1 pi.proj2 pj.proj1 pj.proj2 bra ket
  simp only [pmat_product, hi, hj] at key
  have hz : siteRdm (upperCorner (plainSite.C (rotIdx 0 0)) (plainSite.E (rotIdx 0 0)) pj.proj2) (plainSite.E (rotIdx 0 0))
      (plainSite.C (rotIdx 0 1)) (plainSite.E (rotIdx 0 1)) (plainSite.C (rotIdx 0 2)) (plainSite.E (rotIdx 0 2))
      (lowerCorner (plainSite.C (rotIdx 0 3)) (plainSite.E (rotIdx 0 2)) pi.proj1)
      (absorbedEdge (plainSite.E (rotIdx 0 3)) (bondPermute 0 plainSite.A) pi.proj2 pj.proj1) (bondPermute 0 plainSite.A) bra
      ket = 0 := by
    rw [key]
    simp [openCuts, plainSite, signMat, bondPermute, Matrix.one_apply, diagonal_apply, Fin.sum_univ_two]
  have scale := siteRdm_scale ((norm2 (upperCorner (plainSite.C (rotIdx 0 0)) (plainSite.E (rotIdx 0 0)) pj.proj2) : ℂ)⁻¹)
    1 1 1 1 1 ((norm2 (lowerCorner (plainSite.C (rotIdx 0 3)) (plainSite.E (rotIdx 0 2)) pi.proj1) : ℂ)⁻¹)
    ((norm4 (absorbedEdge (plainSite.E (rotIdx 0 3)) (bondPermute 0 plainSite.A) pi.proj2 pj.proj1) : ℂ)⁻¹) 1
    (upperCorner (plainSite.C (rotIdx 0 0)) (plainSite.E (rotIdx 0 0)) pj.proj2) (plainSite.E (rotIdx 0 0))
    (plainSite.C (rotIdx 0 1)) (plainSite.E (rotIdx 0 1)) (plainSite.C (rotIdx 0 2)) (plainSite.E (rotIdx 0 2))
    (lowerCorner (plainSite.C (rotIdx 0 3)) (plainSite.E (rotIdx 0 2)) pi.proj1)
    (absorbedEdge (plainSite.E (rotIdx 0 3)) (bondPermute 0 plainSite.A) pi.proj2 pj.proj1) (bondPermute 0 plainSite.A) bra ket
  rw [hz, mul_zero] at scale
  simp only [one_mul] at scale
  have e2 : ∀ {a b : Type} [Fintype a] [Fintype b] (c : a → b → ℂ), normalise2 c = fun i j => ((norm2 c : ℝ) : ℂ)⁻¹ * c i j := by
    intro a b _ _ c
    funext i j
    unfold normalise2
    rw [div_eq_inv_mul]
    rfl
  have e4 : ∀ {a b c d : Type} [Fintype a] [Fintype b] [Fintype c] [Fintype d] (t : a → b → c → d → ℂ),
      normalise4 t = fun i j k l => ((norm4 t : ℝ) : ℂ)⁻¹ * t i j k l := by
    intro a b c d _ _ _ _ t
    funext i j k l
    unfold normalise4
    rw [div_eq_inv_mul]
    rfl
  rw [e2, e2, e4]
  exact scale

theorem plain_signs_nonzero (pi pj : ProjPair (Fin 2) Unit ℂ) (ci cj : ℂ) (hci : ci ≠ 0) (hcj : cj ≠ 0)
    (hi : pmat pi.proj2 * (pmat pi.proj1)ᵀ = ci • (1 : Matrix _ _ ℂ)) (hj : pmat pj.proj2 * (pmat pj.proj1)ᵀ = cj • signMat) :
    MoveNonzero plainSite pi pj 0 := by
  have hi00 := congrFun (congrFun hi (0, (), ())) (0, (), ())
  have hj00 := congrFun (congrFun hj (0, (), ())) (0, (), ())
  rw [← pmat_product] at hi00 hj00
  simp [signMat] at hi00 hj00
  refine ⟨fun h => hci ?_, fun h => hcj ?_, fun h => mul_ne_zero hcj hci ?_⟩
  · rw [← hi00]
    refine Finset.sum_eq_zero fun z _ => ?_
    have := congrFun (congrFun h 0) z
    simp [lowerCorner, plainSite] at this
    rw [this, mul_zero]
  · rw [← hj00]
    refine Finset.sum_eq_zero fun z _ => ?_
    have := congrFun (congrFun h z) 0
    simp [upperCorner, plainSite] at this
    rw [this, zero_mul]
  · have hz : (pmat pj.proj1)ᵀ * pmat pi.proj2 = 0 := by
      ext x y
      have := congrFun (congrFun (congrFun (congrFun h y) x) ()) ()
      rw [mul_apply, Fintype.sum_prod_type]
      simpa [absorbedEdge, plainSite, bondPermute, pmat, Fintype.sum_prod_type] using this
    have h1 : cj • signMat * (ci • (1 : Matrix _ _ ℂ)) = 0 := by
      rw [← hi, ← hj, Matrix.mul_assoc, ← Matrix.mul_assoc _ (pmat pi.proj2), hz, Matrix.zero_mul, Matrix.mul_zero]
    have h2 := congrFun (congrFun h1 (0, (), ())) (0, (), ())
    simpa [signMat, or_comm] using h2

/-- A capturing draw. -/
theorem exists_draw : ∃ Ω : Draw (Fin 2) Unit ℂ (2 + 0), ∀ M : Matrix (Fin 2 × Unit × Unit) (Fin 2 × Unit × Unit) ℂ,
    IsUnit M → M * Ω ≠ 0 ∧ Captures M Ω := by
  obtain ⟨Ω, Z, h⟩ := rankLE_of_card (1 : Matrix (Fin 2 × Unit × Unit) (Fin 2 × Unit × Unit) ℂ)
    (clipRank (Fin 2 × Unit × Unit) (Fin 2 × Unit × Unit) (2 + 0)) (by simp [clipRank])
  refine ⟨Ω, fun M hM => ⟨fun h0 => ?_, Z, ?_⟩⟩
  · have : M = 0 := by rw [← Matrix.mul_one M, h, ← Matrix.mul_assoc, h0, Matrix.zero_mul]
    exact isUnit_ne_zero M hM this
  · rw [Matrix.mul_assoc, ← h, Matrix.mul_one]

/-- The network of the counterexample: plain sites, except for one above the site that is absorbed. -/
noncomputable def twistNet : NetT Unit (Fin 1) (Fin 2) ℂ := fun s => if s = (0, 1) then twistSite else plainSite

/-- **C59 is violated (complex dtype).**  With the randomised SVD, which is the default, and complex tensors, a left move of
the site `(0,0)` into `(1,0)` on a lattice with three rows, without any truncation, turns a positive density matrix into
zero.  The sites of the two cuts are the ones `calculate_left_projectors` uses, directional_mover.py 110-118. -/
theorem C59_violated_complex : ¬ MoveExactFull ℂ false := by
  intro h
  obtain ⟨la⟩ := nonempty_lapack (𝕜 := ℂ)
  obtain ⟨Ω, hΩ⟩ := exists_draw
  obtain ⟨r, hr, hq⟩ := makeQuarter_twistSite 0
  have n00 : twistNet (0, 0) = plainSite := rfl
  have n10 : twistNet (1, 0) = plainSite := rfl
  have n12 : twistNet (1, 2) = plainSite := rfl
  have n02 : twistNet (0, 2) = plainSite := rfl
  have n11 : twistNet (1, 1) = plainSite := rfl
  have n01 : twistNet (0, 1) = twistSite := rfl
  have hrC : (r : ℂ) ≠ 0 := Complex.ofReal_ne_zero.2 hr
  have hLu : IsUnit ((r : ℂ) • twistMat) := by
    have := isUnit_twistMat.smul (Units.mk0 (r : ℂ) hrC)
    exact this
  have hui : Untruncated false 0 2 (makeQuarter (twistNet (1, 0)) (0 + 1) * makeQuarter (twistNet (0, 0)) 0)
      (makeQuarter (twistNet (0, 2)) (0 + 3) * makeQuarter (twistNet (1, 2)) (0 + 2)) Ω := by
    rw [n00, n10, n12, n02]
    simp only [makeQuarter_plainSite, Matrix.mul_one]
    exact ⟨isUnit_one, isUnit_one, by simp, cutGap_zero _, fun _ => by rw [Matrix.mul_one]; exact hΩ 1 isUnit_one⟩
  have huj : Untruncated false 0 2 (makeQuarter (twistNet (1, 1)) (0 + 1) * makeQuarter (twistNet (0, 1)) 0)
      (makeQuarter (twistNet (0, 0)) (0 + 3) * makeQuarter (twistNet (1, 0)) (0 + 2)) Ω := by
    rw [n00, n10, n11, n01, hq]
    simp only [makeQuarter_plainSite, Matrix.mul_one, Matrix.one_mul]
    exact ⟨hLu, isUnit_one, by simp, cutGap_zero _, fun _ => by rw [Matrix.mul_one]; exact hΩ _ hLu⟩
  obtain ⟨ci, hci, ei⟩ := fullRsvd_product la 2 0 0 _ _ _ _ Ω hui
  obtain ⟨cj, hcj, ej⟩ := fullRsvd_product la 2 0 0 _ _ _ _ Ω huj
  have ei' : pmat (calculateFull la false 0 2 0 0 twistNet (0, 0) (1, 0) (1, 2) (0, 2) 0 Ω).proj2 *
      (pmat (calculateFull la false 0 2 0 0 twistNet (0, 0) (1, 0) (1, 2) (0, 2) 0 Ω).proj1)ᵀ = (ci : ℂ) • (1 : Matrix _ _ ℂ) := by
    have hL1 : makeQuarter (twistNet (1, 0)) (0 + 1) * makeQuarter (twistNet (0, 0)) 0 = 1 := by
      rw [n00, n10, makeQuarter_plainSite, makeQuarter_plainSite, Matrix.mul_one]
    have hs : (1 : Matrix (Fin 2 × Unit × Unit) (Fin 2 × Unit × Unit) ℂ).map star = 1 := by
      ext i j
      simp [one_apply, apply_ite]
    rw [hL1, hs, Matrix.one_mul] at ei
    exact ei
  have ej' : pmat (calculateFull la false 0 2 0 0 twistNet (0, 1) (1, 1) (1, 0) (0, 0) 0 Ω).proj2 *
      (pmat (calculateFull la false 0 2 0 0 twistNet (0, 1) (1, 1) (1, 0) (0, 0) 0 Ω).proj1)ᵀ = (cj : ℂ) • signMat := by
    have hL1 : makeQuarter (twistNet (1, 1)) (0 + 1) * makeQuarter (twistNet (0, 1)) 0 = (r : ℂ) • twistMat := by
      rw [n01, n11, makeQuarter_plainSite, hq, Matrix.one_mul]
    have hs : ((r : ℂ) • twistMat).map star = (r : ℂ) • twistMat * signMat := by
      rw [Matrix.smul_mul, ← twistMat_star]
      ext i j
      simp
    obtain ⟨L', hL'⟩ := hLu.exists_left_inv
    have := congrArg (fun M => L' * M) ej
    beta_reduce at this
    rw [hL1, hs, ← Matrix.mul_assoc, hL', Matrix.one_mul, Matrix.mul_smul, ← Matrix.mul_assoc, hL', Matrix.one_mul] at this
    exact this
  have hciC : (ci : ℂ) ≠ 0 := Complex.ofReal_ne_zero.2 hci.ne'
  have hcjC : (cj : ℂ) ≠ 0 := Complex.ofReal_ne_zero.2 hcj.ne'
  have hnz := plain_signs_nonzero _ _ _ _ hciC hcjC ei' ej'
  obtain ⟨F, hF, hrdm⟩ := h Unit (Fin 2) 1 la 0 2 0 0 (fun _ _ _ _ => 0) twistNet (0, 0) (1, 0) 0 (0, 0) (1, 0) (1, 2) (0, 2)
    (0, 1) (1, 1) (1, 0) (0, 0) Ω Ω le_rfl one_pos hui huj hnz
  have hzero := plain_signs _ _ _ _ ei' ej' 0 0
  have h00 := hrdm 0 0
  have e1 : siteRdmAfterMove (twistNet (1, 0)) 0 (renormalizeBoundary3 (twistNet (0, 0))
      (calculateFull la false 0 2 0 0 twistNet (0, 0) (1, 0) (1, 2) (0, 2) ((0 : Fin 4).val : ℤ) Ω)
      (calculateFull la false 0 2 0 0 twistNet (0, 1) (1, 1) (1, 0) (0, 0) ((0 : Fin 4).val : ℤ) Ω) ((0 : Fin 4).val : ℤ)) 0 0 = 0 := hzero
  rw [e1, Fintype.sum_unique, C46_bond, n00, n10] at h00
  simp [bondRdm, plainSite, bondPermute] at h00
  exact hF.ne' (by exact_mod_cast h00)

end AceTN
