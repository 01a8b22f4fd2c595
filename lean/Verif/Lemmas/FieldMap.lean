import Verif.Spec.Dtype

/-!
The contractions and routines of the model commute with a conversion of the dtype.
-/

set_option autoImplicit false
set_option linter.unusedSectionVars false

namespace AceTN

open Spec Matrix

variable {𝕜 𝕜' : Type} [RCLike 𝕜] [RCLike 𝕜'] (φ : 𝕜 →⋆ₐ[ℝ] 𝕜')

section scalars

theorem hom_real (r : ℝ) : φ (r : 𝕜) = (r : 𝕜') := by
  have h := AlgHomClass.commutes φ r
  rw [RCLike.algebraMap_eq_ofReal, RCLike.algebraMap_eq_ofReal] at h
  exact h

theorem hom_re (x : 𝕜) : RCLike.re (φ x) = RCLike.re x := by
  have h : ((RCLike.re (φ x) : ℝ) : 𝕜') = ((RCLike.re x : ℝ) : 𝕜') := by
    rw [← hom_real φ (RCLike.re x), RCLike.re_eq_add_conj, RCLike.re_eq_add_conj, map_div₀, map_add, ← RCLike.star_def,
      ← RCLike.star_def, map_star, map_ofNat]
  exact RCLike.ofReal_injective h

theorem hom_norm (x : 𝕜) : ‖φ x‖ = ‖x‖ := by
  have h : ‖φ x‖ ^ 2 = ‖x‖ ^ 2 := by
    have e : ((‖φ x‖ ^ 2 : ℝ) : 𝕜') = ((‖x‖ ^ 2 : ℝ) : 𝕜') := by
      rw [← hom_real φ (‖x‖ ^ 2), RCLike.ofReal_pow, RCLike.ofReal_pow, ← RCLike.mul_conj, ← RCLike.mul_conj, map_mul,
        ← RCLike.star_def, ← RCLike.star_def, map_star]
    exact RCLike.ofReal_injective e
  exact (sq_eq_sq₀ (norm_nonneg _) (norm_nonneg _)).1 h

theorem hom_nnnorm (x : 𝕜) : ‖φ x‖₊ = ‖x‖₊ := NNReal.eq (hom_norm φ x)

theorem hom_inj {x y : 𝕜} (h : φ x = φ y) : x = y := RingHom.injective (φ : 𝕜 →+* 𝕜') h

theorem hom_mul_step {a b : 𝕜'} {c d : 𝕜} (h1 : a = φ c) (h2 : b = φ d) : a * b = φ (c * d) := by rw [h1, h2, map_mul]

theorem hom_sum_step {ι : Type} (s : Finset ι) {F : ι → 𝕜'} {G : ι → 𝕜} (h : ∀ i, F i = φ (G i)) : ∑ i ∈ s, F i = φ (∑ i ∈ s, G i) := by
  rw [map_sum]
  exact Finset.sum_congr rfl fun i _ => h i

theorem hom_star_step {a : 𝕜'} {c : 𝕜} (h : a = φ c) : star a = φ (star c) := by rw [h, map_star]

/-- Proves `e' = φ e` for a contraction `e` and the contraction `e'` of the converted tensors. -/
macro "hom_tac" : tactic => `(tactic| (
  repeat' first
    | with_reducible exact rfl
    | (with_reducible refine hom_sum_step _ _ ?_
       intro _)
    | with_reducible refine hom_mul_step _ ?_ ?_
    | with_reducible refine hom_star_step _ ?_
    | exact (map_star _ _).symm))

variable {m n k : Type} [Fintype n]

theorem hom_mul (A : Matrix m n 𝕜) (B : Matrix n k 𝕜) : (A * B).map φ = A.map φ * B.map φ := by
  ext i j
  simp only [map_apply, mul_apply, map_sum, map_mul]

theorem hom_conjTranspose (A : Matrix m n 𝕜) : (Aᴴ).map φ = (A.map φ)ᴴ := by
  ext i j
  simp only [map_apply, conjTranspose_apply, map_star]

theorem hom_smul_real (r : ℝ) (A : Matrix m n 𝕜) : ((r : 𝕜) • A).map φ = (r : 𝕜') • A.map φ := by
  ext i j
  simp only [map_apply, Matrix.smul_apply, smul_eq_mul, map_mul, hom_real]

theorem hom_add (A B : Matrix m n 𝕜) : (A + B).map φ = A.map φ + B.map φ := by
  ext i j
  simp only [map_apply, Matrix.add_apply, map_add]

theorem hom_one [DecidableEq n] : (1 : Matrix n n 𝕜).map φ = 1 := by
  ext i j
  simp only [map_apply, one_apply]
  split <;> simp

theorem hom_diagonal [DecidableEq n] (d : n → 𝕜) : (diagonal d).map φ = diagonal fun i => φ (d i) := by
  ext i j
  simp only [map_apply, diagonal_apply]
  split <;> simp

theorem hom_matrix_inj {A B : Matrix m n 𝕜} (h : A.map φ = B.map φ) : A = B := by
  ext i j
  exact hom_inj φ (congrFun (congrFun h i) j)

end scalars

/-! ### Projectors -/

theorem iterate_map {α β : Type} (f : α → α) (g : β → β) (c : α → β) (hc : ∀ x, g (c x) = c (f x)) (j : ℕ) (x : α) :
    g^[j] (c x) = c (f^[j] x) := by
  induction j generalizing x with
  | zero => rfl
  | succ j ih => rw [Function.iterate_succ_apply, Function.iterate_succ_apply, hc, ih]

section projectors

variable {xa xb xc xe L U R D P m n X B : Type} [Fintype xa] [Fintype xb] [Fintype L] [Fintype U] [Fintype P] [Fintype m] [Fintype n]

theorem hom_maxAbs (A : Matrix m n 𝕜) : maxAbs (A.map φ) = maxAbs A := by
  unfold maxAbs
  simp only [map_apply, hom_nnnorm]

theorem hom_maxNormalise (A : Matrix m n 𝕜) : maxNormalise (A.map φ) = (maxNormalise A).map φ := by
  unfold maxNormalise
  rw [hom_smul_real, hom_maxAbs]

theorem hom_quarterCore (ck : xa → xb → 𝕜) (ek1 : xe → xa → L → L → 𝕜) (ek2 : xb → xc → U → U → 𝕜) (ak : L → U → R → D → P → 𝕜) :
    quarterCore (fun i j => φ (ck i j)) (fun i j l l' => φ (ek1 i j l l')) (fun i j l l' => φ (ek2 i j l l'))
      (fun l u r d p => φ (ak l u r d p)) = (quarterCore ck ek1 ek2 ak).map φ := by
  ext i j
  simp only [quarterCore, map_apply, of_apply, Pi.star_apply, map_sum, map_mul, map_star]

variable {r : ℕ}

theorem hom_scaled (cutoff : ℝ) (chi : ℕ) (s : Fin r → ℝ) (U : Matrix m (Fin r) 𝕜) :
    scaled cutoff chi s (U.map φ) = (scaled cutoff chi s U).map φ := by
  ext i j
  simp only [scaled, map_apply, of_apply, map_mul, hom_real]

/-- A converted pair of projectors. -/
def mapPair (p : ProjPair X B 𝕜) : ProjPair X B 𝕜' where
  cD := p.cD
  proj1 := fun i l l' j => φ (p.proj1 i l l' j)
  proj2 := fun i l l' j => φ (p.proj2 i l l' j)

/-- A converted decomposition. -/
def mapLow (x : LowRank m n r 𝕜) : LowRank m n r 𝕜' := ⟨x.U.map φ, x.S, x.V.map φ⟩

theorem hom_projFromSvd (cutoff : ℝ) (chi : ℕ) (R1 : Matrix m (X × B × B) 𝕜) (R2 : Matrix (X × B × B) n 𝕜) (x : LowRank m n r 𝕜) :
    projFromSvd cutoff chi (R1.map φ) (R2.map φ) (mapLow φ x) = mapPair φ (projFromSvd cutoff chi R1 R2 x) := by
  unfold projFromSvd mapPair
  dsimp only [mapLow]
  rw [hom_scaled, hom_scaled]
  simp only [map_apply, map_sum, map_mul]
  congr 1
  funext e d D z
  exact Finset.sum_congr rfl fun _ _ => congrArg _ (map_star φ _).symm

variable [DecidableEq m] [DecidableEq n] {la : Lapack 𝕜} {la' : Lapack 𝕜'} (h : LibraryFollows φ la la')
include h

theorem hom_fullSvd (A : Matrix m n 𝕜) : fullSvd la' (A.map φ) = mapLow φ (fullSvd la A) := by
  unfold fullSvd mapLow
  rw [h.svd, hom_conjTranspose]

theorem hom_qrQ {q : ℕ} (hq : q ≤ Fintype.card m) (Y : Matrix m (Fin q) 𝕜) : qrQ la' hq (Y.map φ) = (qrQ la hq Y).map φ := by
  unfold qrQ
  rw [h.qr]
  rfl

theorem hom_projectedSvd {q : ℕ} (Q : Matrix m (Fin q) 𝕜) (A : Matrix (Fin q) n 𝕜) :
    projectedSvd la' (Q.map φ) (A.map φ) = mapLow φ (projectedSvd la Q A) := by
  unfold projectedSvd mapLow
  dsimp only
  rw [h.svd, hom_mul, hom_conjTranspose]

variable {k k1 k2 k3 : Type} [Fintype k] [Fintype k1] [Fintype k2] [Fintype k3]

theorem hom_fused (q niter : ℕ) (A : Matrix m k 𝕜) (C : Matrix k n 𝕜) (Ω : Matrix n (Fin (clipRank m n q)) 𝕜) :
    fusedSvdLowrank la' q niter (A.map φ) (C.map φ) (Ω.map φ) = mapLow φ (fusedSvdLowrank la q niter A C Ω) := by
  unfold fusedSvdLowrank
  dsimp only
  rw [← hom_mul, ← hom_mul, iterate_map (fun Y : Matrix m (Fin (clipRank m n q)) 𝕜 => A * (C * (Cᴴ * (Aᴴ * qrQ la (clipRank_le_left q) Y)))) _
      (fun Y => Y.map φ)
    (fun Y => by simp only [hom_mul, hom_conjTranspose, hom_qrQ φ h]), hom_qrQ φ h, ← hom_conjTranspose, ← hom_mul, ← hom_mul,
    hom_projectedSvd φ h]

theorem hom_fused3 (q niter : ℕ) (A : Matrix m k1 𝕜) (C : Matrix k1 k2 𝕜) (E : Matrix k2 k3 𝕜) (F : Matrix k3 n 𝕜)
    (Ω : Matrix n (Fin (clipRank m n q)) 𝕜) :
    fused3SvdLowrank la' q niter (A.map φ) (C.map φ) (E.map φ) (F.map φ) (Ω.map φ) =
      mapLow φ (fused3SvdLowrank la q niter A C E F Ω) := by
  unfold fused3SvdLowrank
  dsimp only
  rw [← hom_mul, ← hom_mul, ← hom_mul, ← hom_mul,
    iterate_map (fun Y : Matrix m (Fin (clipRank m n q)) 𝕜 => A * (C * (E * (F * qrQ la (clipRank_le_right q) (Fᴴ * (Eᴴ * (Cᴴ * (Aᴴ * qrQ la (clipRank_le_left q) Y)))))))) _
      (fun Y => Y.map φ) (fun Y => by
        simp only [hom_mul, hom_conjTranspose, ← hom_qrQ φ h]),
    hom_qrQ φ h, ← hom_conjTranspose, ← hom_mul, ← hom_mul, ← hom_mul, ← hom_mul, hom_projectedSvd φ h]

variable [Fintype X] [Fintype B]

theorem hom_halfFullRank (cutoff : ℝ) (chi : ℕ) (Q1 : Matrix m (X × B × B) 𝕜) (Q4 : Matrix (X × B × B) n 𝕜) :
    halfFullRank la' cutoff chi (Q1.map φ) (Q4.map φ) = mapPair φ (halfFullRank la cutoff chi Q1 Q4) := by
  unfold halfFullRank
  rw [← hom_mul, hom_maxNormalise, hom_fullSvd φ h, hom_projFromSvd]

theorem hom_halfRsvd (cutoff : ℝ) (chi ov ni : ℕ) (Q1 : Matrix m (X × B × B) 𝕜) (Q4 : Matrix (X × B × B) n 𝕜)
    (Ω : Matrix n (Fin (clipRank m n (chi + ov))) 𝕜) :
    halfRsvd la' cutoff chi ov ni (Q1.map φ) (Q4.map φ) (Ω.map φ) = mapPair φ (halfRsvd la cutoff chi ov ni Q1 Q4 Ω) := by
  unfold halfRsvd
  rw [hom_fused φ h, hom_projFromSvd]

theorem hom_fullFullRank (cutoff : ℝ) (chi : ℕ) (Q1 : Matrix k1 (X × B × B) 𝕜) (Q2 : Matrix m k1 𝕜)
    (Q3 : Matrix k3 n 𝕜) (Q4 : Matrix (X × B × B) k3 𝕜) :
    fullFullRank la' cutoff chi (Q1.map φ) (Q2.map φ) (Q3.map φ) (Q4.map φ) = mapPair φ (fullFullRank la cutoff chi Q1 Q2 Q3 Q4) := by
  unfold fullFullRank
  dsimp only
  rw [← hom_mul, ← hom_mul, hom_maxNormalise, hom_maxNormalise, ← hom_mul, hom_maxNormalise, hom_fullSvd φ h, hom_projFromSvd]

theorem hom_fullRsvd (cutoff : ℝ) (chi ov ni : ℕ) (Q1 : Matrix k1 (X × B × B) 𝕜) (Q2 : Matrix m k1 𝕜)
    (Q3 : Matrix k3 n 𝕜) (Q4 : Matrix (X × B × B) k3 𝕜) (Ω : Matrix n (Fin (clipRank m n (chi + ov))) 𝕜) :
    fullRsvd la' cutoff chi ov ni (Q1.map φ) (Q2.map φ) (Q3.map φ) (Q4.map φ) (Ω.map φ) =
      mapPair φ (fullRsvd la cutoff chi ov ni Q1 Q2 Q3 Q4 Ω) := by
  unfold fullRsvd
  dsimp only
  rw [hom_fused3 φ h]
  generalize fused3SvdLowrank la (chi + ov) ni Q2 Q1 Q4 Q3 Ω = x
  have e1 : (Q1.map φ)ᴴ * ((Q2.map φ)ᴴ * (scaled cutoff chi x.S (x.U.map φ)).map star) =
      (Q1ᴴ * (Q2ᴴ * (scaled cutoff chi x.S x.U).map star)).map φ := by
    rw [hom_scaled, hom_mul, hom_mul, hom_conjTranspose, hom_conjTranspose]
    congr 2
    ext i j
    simp only [map_apply, map_star]
  have e2 : Q4.map φ * (Q3.map φ * scaled cutoff chi x.S (x.V.map φ)) = (Q4 * (Q3 * scaled cutoff chi x.S x.V)).map φ := by
    rw [hom_scaled, hom_mul, hom_mul]
  change (⟨keep cutoff chi x.S, fun e d D z => ((Q1.map φ)ᴴ * ((Q2.map φ)ᴴ * (scaled cutoff chi x.S (x.U.map φ)).map star)) (e, d, D) z,
    fun c u U z => (Q4.map φ * (Q3.map φ * scaled cutoff chi x.S (x.V.map φ))) (c, u, U) z⟩ : ProjPair X B 𝕜') = _
  rw [e1, e2]
  rfl

end projectors

end AceTN
