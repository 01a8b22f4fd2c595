import Verif.Props.Patch

/-!
# C68: Product states are measured exactly

With bond dimension one the renormalization truncates nothing, whatever the settings are, and all measured values are those of
the product state.
-/

set_option autoImplicit false

namespace AceTN

open Spec Matrix Finset

variable {𝕜 : Type} [RCLike 𝕜]

section one

variable {I : Type} [Fintype I] [DecidableEq I] [Unique I]

omit [DecidableEq I] in
theorem cutGap_one (M : Matrix I I 𝕜) (cutoff : ℝ) (h1 : cutoff < 1) : CutGap M cutoff := by
  intro r U S Vh h i hi
  have hs : Subsingleton (Fin r) := by
    refine ⟨fun a b => ?_⟩
    by_contra hab
    have e : ∀ x y, (Uᴴ * U) x y = star (U default x) * U default y := fun x y => by
      rw [Matrix.mul_apply, Fintype.sum_unique]
      rfl
    have h2 := congrFun (congrFun h.left a) b
    have h3 := congrFun (congrFun h.left a) a
    have h4 := congrFun (congrFun h.left b) b
    rw [e, Matrix.one_apply_eq] at h3 h4
    rw [e, Matrix.one_apply_ne hab] at h2
    rcases mul_eq_zero.1 h2 with h5 | h5
    · rw [h5, zero_mul] at h3
      exact zero_ne_one h3
    · rw [h5, mul_zero] at h4
      exact zero_ne_one h4
  have hr : 0 < r := lt_of_le_of_lt (Nat.zero_le _) i.isLt
  have e : firstS S = S i := by
    unfold firstS
    rw [dif_pos hr]
    congr 1
    exact Subsingleton.elim _ _
  rw [e, div_self hi]
  exact h1

theorem draw_one {q : ℕ} (M : Matrix I I 𝕜) (hM : IsUnit M) (Ω : Matrix I (Fin q) 𝕜) (h : Ω ≠ 0) : M * Ω ≠ 0 ∧ Captures M Ω := by
  have hne : M * Ω ≠ 0 := by
    intro h0
    obtain ⟨u, rfl⟩ := hM
    refine h ?_
    calc Ω = (↑u⁻¹ * ↑u) * Ω := by rw [u.inv_mul, Matrix.one_mul]
      _ = 0 := by rw [Matrix.mul_assoc, h0, Matrix.mul_zero]
  refine ⟨hne, ?_⟩
  have : ∃ j, (M * Ω) default j ≠ 0 := by
    by_contra hc
    push Not at hc
    refine hne ?_
    ext i j
    rw [Unique.eq_default i]
    exact hc j
  obtain ⟨j, hj⟩ := this
  refine ⟨of fun a _ => if a = j then ((M * Ω) default j)⁻¹ * M default default else 0, ?_⟩
  ext x y
  rw [Unique.eq_default x, Unique.eq_default y, Matrix.mul_apply]
  simp only [of_apply, mul_ite, mul_zero, sum_ite_eq', mem_univ, if_true]
  rw [← mul_assoc, mul_inv_cancel₀ hj, one_mul]

end one

section product

variable {P : Type} [Fintype P] {nx ny chi : ℕ} (A : Site → ATensor (Fin 1) P 𝕜)

/-- The vector of a site of a product state. -/
def Spec.siteVec {P 𝕜 : Type} (A : Site → ATensor (Fin 1) P 𝕜) (s : Site) (p : P) : 𝕜 := A s 0 0 0 0 p

theorem siteVec_pos (s : Site) (h : A s ≠ 0) : ∃ c : ℝ, 0 < c ∧ ∑ p, siteVec A s p * star (siteVec A s p) = c := by
  refine ⟨∑ p, ‖siteVec A s p‖ ^ 2, ?_, ?_⟩
  · refine lt_of_le_of_ne (sum_nonneg fun _ _ => sq_nonneg _) fun h0 => h ?_
    rw [eq_comm, sum_eq_zero_iff_of_nonneg fun _ _ => sq_nonneg _] at h0
    funext l u r d p
    rw [Subsingleton.elim l 0, Subsingleton.elim u 0, Subsingleton.elim r 0, Subsingleton.elim d 0]
    exact norm_eq_zero.1 (pow_eq_zero_iff two_ne_zero |>.1 (h0 p (mem_univ _)))
  · push_cast
    exact sum_congr rfl fun p _ => RCLike.mul_conj _

omit [RCLike 𝕜] [Fintype P] in
theorem bondPermute_vec (k : ℤ) (s : Site) (l u r d : Fin 1) (p : P) : bondPermute k (A s) l u r d p = siteVec A s p := by
  unfold bondPermute siteVec
  dsimp only
  congr 1
  all_goals exact Subsingleton.elim _ _

theorem corner_one (s : Site) (h : A s ≠ 0) (k : ℤ) : ∃ c : ℝ, 0 < c ∧ ∀ x y, initialCorner (A s) k x y = c := by
  obtain ⟨c, hc, e⟩ := (C53_corner _ h k).2
  obtain ⟨v, hv, ev⟩ := siteVec_pos A s h
  refine ⟨c⁻¹ * v, mul_pos (inv_pos.2 hc) hv, fun x y => ?_⟩
  have := e x y
  simp only [bondPermute_vec, Fintype.sum_unique, ev] at this
  have hne : (c : 𝕜) ≠ 0 := RCLike.ofReal_ne_zero.2 hc.ne'
  rw [RCLike.ofReal_mul, RCLike.ofReal_inv, this, inv_mul_cancel_left₀ hne]

theorem edge_one (s : Site) (h : A s ≠ 0) (k : ℤ) : ∃ c : ℝ, 0 < c ∧ ∀ x y l l', initialEdge (A s) k x y l l' = c := by
  obtain ⟨c, hc, e⟩ := (C53_edge _ h k).2
  obtain ⟨v, hv, ev⟩ := siteVec_pos A s h
  refine ⟨c⁻¹ * v, mul_pos (inv_pos.2 hc) hv, fun x y l l' => ?_⟩
  have := e x y l l'
  simp only [bondPermute_vec, Fintype.sum_unique, ev] at this
  have hne : (c : 𝕜) ≠ 0 := RCLike.ofReal_ne_zero.2 hc.ne'
  rw [RCLike.ofReal_mul, RCLike.ofReal_inv, this, inv_mul_cancel_left₀ hne]

theorem isUnit_one_by_one (M : Matrix (Fin 1) (Fin 1) 𝕜) (h : M 0 0 ≠ 0) : IsUnit M := by
  rw [Matrix.isUnit_iff_isUnit_det, Matrix.det_fin_one]
  exact IsUnit.mk0 _ h

theorem product_regular (hx : 0 < nx) (hy : 0 < ny) (hA : ∀ s, InCell nx ny s → A s ≠ 0) : Regular 1 (freshNet nx ny chi A) where
  site p := ⟨_, rfl, hA _ (cellSite_inCell nx ny hx hy p)⟩
  corner p k := by
    refine ⟨_, rfl, isUnit_one_by_one _ ?_⟩
    obtain ⟨c, hc, e⟩ := corner_one A _ (hA _ (cellSite_inCell nx ny hx hy p)) k.val
    refine (e _ _).trans_ne ?_
    exact_mod_cast hc.ne'
  edge p k := by
    refine ⟨_, rfl, isUnit_one_by_one _ ?_⟩
    obtain ⟨c, hc, e⟩ := edge_one A _ (hA _ (cellSite_inCell nx ny hx hy p)) k.val
    refine (e _ _ _ _).trans_ne ?_
    exact_mod_cast hc.ne'

/-- There is one index. -/
@[reducible] def oneIndex : Unique (Fin 1 × Fin 1 × Fin 1) := ⟨⟨(0, 0, 0)⟩, fun _ => Subsingleton.elim _ _⟩

theorem product_noTrunc (hchi : 0 < chi) (st : ProjSettings 𝕜) (hcut1 : st.cutoff < 1) (ω : Draws (Fin 1) 𝕜)
    (hd : st.fullRank = false → ∀ key, ω key 1 1 (chi + st.oversampling) ≠ 0) : NoTrunc 1 chi st ω where
  large := hchi
  gap M _ := have := oneIndex; cutGap_one M _ hcut1
  draw h key M hM := have := oneIndex; draw_one M hM _ (hd h key)

/-- The value of a rectangle of a product state. -/
theorem product_cluster (hx : 0 < nx) (hy : 0 < ny) (hA : ∀ s, InCell nx ny s → A s ≠ 0) (r : Rect) :
    ∃ c : ℝ, 0 < c ∧ ∀ o, cluster (freshNet nx ny chi A) o r =
      c * ∏ x : Fin r.w × Fin r.h, layer (A (cellSite nx ny (r.x + x.1, r.y + x.2))) (o (r.x + x.1, r.y + x.2)) (0, 0) (0, 0) (0, 0) (0, 0) := by
  have hA' : ∀ q, A (cellSite nx ny q) ≠ 0 := fun q => hA _ (cellSite_inCell nx ny hx hy q)
  choose c hc0 hc using fun (q : ℤ × ℤ) (k : ℤ) => corner_one A _ (hA' q) k
  choose e he0 he using fun (q : ℤ × ℤ) (k : ℤ) => edge_one A _ (hA' q) k
  refine ⟨(∏ i : Fin r.w, e (r.x + i, r.y + r.h - 1) 0) * (∏ j : Fin r.h, e (r.x + r.w - 1, r.y + j) 1) *
    (∏ i : Fin r.w, e (r.x + i, r.y) 2) * (∏ j : Fin r.h, e (r.x, r.y + j) 3) *
    (c (r.x, r.y + r.h - 1) 0 * c (r.x + r.w - 1, r.y + r.h - 1) 1 * c (r.x + r.w - 1, r.y) 2 * c (r.x, r.y) 3), ?_, fun o => ?_⟩
  · refine mul_pos (mul_pos (mul_pos (mul_pos ?_ ?_) ?_) ?_) (mul_pos (mul_pos (mul_pos (hc0 _ _) (hc0 _ _)) (hc0 _ _)) (hc0 _ _))
    all_goals exact prod_pos fun i _ => he0 _ _
  rw [cluster_with, freshFrame_value hx hy, value_labels, Fintype.sum_subsingleton _ ((fun _ _ => (0, 0)), (fun _ _ => (0, 0)), (fun _ => (0, 0)),
    (fun _ => (0, 0)), (fun _ => (0, 0)), fun _ => (0, 0))]
  unfold weightL Frame.weight freshFrame
  have hs : ∀ q, siteLayers (freshNet nx ny chi A) o q = layer (A (cellSite nx ny q)) (o q) := fun q => rfl
  simp only [hc, he, hs]
  rw [Fintype.prod_prod_type]
  push_cast
  ring

/-- A product of layers in which one site is fixed. -/
theorem layers_site (hx : 0 < nx) (hy : 0 < ny) (hA : ∀ s, InCell nx ny s → A s ≠ 0) (r : Rect) (p : ℤ × ℤ) (hp : r.Has p) :
    ∃ c : ℝ, 0 < c ∧ ∀ bra ket, ∏ x : Fin r.w × Fin r.h, layer (A (cellSite nx ny (r.x + x.1, r.y + x.2)))
        (fixSite p bra ket (r.x + x.1, r.y + x.2)) (0, 0) (0, 0) (0, 0) (0, 0) =
      c * (siteVec A (cellSite nx ny p) ket * star (siteVec A (cellSite nx ny p) bra)) := by
  choose v hv0 hv using fun q : ℤ × ℤ => siteVec_pos A _ (hA _ (cellSite_inCell nx ny hx hy q))
  obtain ⟨h1, h2, h3, h4⟩ := hp
  let x0 : Fin r.w × Fin r.h := (⟨(p.1 - r.x).toNat, by omega⟩, ⟨(p.2 - r.y).toNat, by omega⟩)
  have e0 : ((r.x + (x0.1 : ℕ), r.y + (x0.2 : ℕ)) : ℤ × ℤ) = p := by
    refine Prod.ext ?_ ?_ <;> simp only [x0] <;> omega
  refine ⟨∏ x ∈ univ.erase x0, v (r.x + (x.1 : ℕ), r.y + (x.2 : ℕ)), prod_pos fun x _ => hv0 _, fun bra ket => ?_⟩
  rw [← prod_erase_mul univ _ (mem_univ x0), e0, fixSite, if_pos rfl]
  congr 1
  push_cast
  refine prod_congr rfl fun x hx' => ?_
  have hne : ((r.x + (x.1 : ℕ), r.y + (x.2 : ℕ)) : ℤ × ℤ) ≠ p := by
    intro e
    refine (mem_erase.1 hx').1 ?_
    rw [← e0, Prod.mk.injEq] at e
    refine Prod.ext (Fin.ext ?_) (Fin.ext ?_) <;> omega
  rw [fixSite, if_neg hne]
  exact hv _

/-- The same for two sites. -/
theorem layers_bond (hx : 0 < nx) (hy : 0 < ny) (hA : ∀ s, InCell nx ny s → A s ≠ 0) (r : Rect) (p q : ℤ × ℤ) (hp : r.Has p) (hq : r.Has q)
    (hpq : p ≠ q) :
    ∃ c : ℝ, 0 < c ∧ ∀ b1 b2 k1 k2, ∏ x : Fin r.w × Fin r.h, layer (A (cellSite nx ny (r.x + x.1, r.y + x.2)))
        (fixBond p q b1 b2 k1 k2 (r.x + x.1, r.y + x.2)) (0, 0) (0, 0) (0, 0) (0, 0) =
      c * ((siteVec A (cellSite nx ny p) k1 * star (siteVec A (cellSite nx ny p) b1)) *
        (siteVec A (cellSite nx ny q) k2 * star (siteVec A (cellSite nx ny q) b2))) := by
  choose v hv0 hv using fun q : ℤ × ℤ => siteVec_pos A _ (hA _ (cellSite_inCell nx ny hx hy q))
  obtain ⟨h1, h2, h3, h4⟩ := hp
  obtain ⟨g1, g2, g3, g4⟩ := hq
  let x0 : Fin r.w × Fin r.h := (⟨(p.1 - r.x).toNat, by omega⟩, ⟨(p.2 - r.y).toNat, by omega⟩)
  let x1 : Fin r.w × Fin r.h := (⟨(q.1 - r.x).toNat, by omega⟩, ⟨(q.2 - r.y).toNat, by omega⟩)
  have e0 : ((r.x + (x0.1 : ℕ), r.y + (x0.2 : ℕ)) : ℤ × ℤ) = p := by
    refine Prod.ext ?_ ?_ <;> simp only [x0] <;> omega
  have e1 : ((r.x + (x1.1 : ℕ), r.y + (x1.2 : ℕ)) : ℤ × ℤ) = q := by
    refine Prod.ext ?_ ?_ <;> simp only [x1] <;> omega
  have h01 : x1 ≠ x0 := by
    intro e
    rw [e, e0] at e1
    exact hpq e1
  have inj : ∀ x y : Fin r.w × Fin r.h, ((r.x + (x.1 : ℕ), r.y + (x.2 : ℕ)) : ℤ × ℤ) = (r.x + (y.1 : ℕ), r.y + (y.2 : ℕ)) → x = y := by
    intro x y e
    rw [Prod.mk.injEq] at e
    refine Prod.ext (Fin.ext ?_) (Fin.ext ?_) <;> omega
  refine ⟨∏ x ∈ (univ.erase x0).erase x1, v (r.x + (x.1 : ℕ), r.y + (x.2 : ℕ)), prod_pos fun x _ => hv0 _, fun b1 b2 k1 k2 => ?_⟩
  rw [← prod_erase_mul univ _ (mem_univ x0), ← prod_erase_mul (univ.erase x0) _ (mem_erase.2 ⟨h01, mem_univ x1⟩), e0, e1, fixBond,
    if_pos rfl, fixBond, if_neg hpq.symm, if_pos rfl, mul_assoc, mul_comm (layer _ (some (b2, k2)) _ _ _ _)]
  congr 1
  push_cast
  refine prod_congr rfl fun x hx' => ?_
  obtain ⟨m1, m2⟩ := mem_erase.1 hx'
  rw [fixBond, if_neg fun e => (mem_erase.1 m2).1 (inj _ _ (e.trans e0.symm)), if_neg fun e => m1 (inj _ _ (e.trans e1.symm))]
  exact hv _

/-- The density matrices of `net` are, up to positive factors, those of the product of the vectors of the sites. -/
def Spec.ProductRdms {pD : ℕ} (nx ny : ℕ) (A : Site → ATensor (Fin 1) (Fin pD) 𝕜) (net : Net (Ten (Fin 1) (Fin pD) 𝕜)) : Prop :=
  ∀ s, InCell nx ny s →
    (∃ ρ, numSiteRdm net s = .ok ρ ∧ ∃ c : ℝ, 0 < c ∧ ∀ b k, ρ b k = c * (siteVec A s k * star (siteVec A s b))) ∧
    ∀ (k : Fin 4) init, ∃ ρ, numBondRdm init net ⟨s, neighbour nx ny s k.val, k.val⟩ = .ok ρ ∧ ∃ c : ℝ, 0 < c ∧
      ∀ b1 b2 k1 k2, ρ b1 b2 k1 k2 = c * ((siteVec A s k1 * star (siteVec A s b1)) *
        (siteVec A (neighbour nx ny s k.val) k2 * star (siteVec A (neighbour nx ny s k.val) b2)))

theorem productRdms_of {pD : ℕ} (A : Site → ATensor (Fin 1) (Fin pD) 𝕜) (hx : 0 < nx) (hy : 0 < ny) (hA : ∀ s, InCell nx ny s → A s ≠ 0)
    {net : Net (Ten (Fin 1) (Fin pD) 𝕜)} {G : Rect → Rect} (h : ExactRdms (freshNet nx ny chi A) net G)
    (hG : ∀ (r : Rect) p, r.Has p → (G r).Has p) : ProductRdms nx ny A net := by
  intro s hs
  have hcs : cellSite nx ny (atLattice s) = s := cellSite_self _ _ s hs
  refine ⟨?_, fun k init => ?_⟩
  · obtain ⟨ρ, hρ, c, hc, e⟩ := h.1 s hs
    have hp : Rect.Has ⟨s.1, s.2, 1, 1⟩ (atLattice s) := by
      unfold Rect.Has atLattice
      push_cast
      omega
    obtain ⟨c1, hc1, e1⟩ := product_cluster (chi := chi) A hx hy hA (G ⟨s.1, s.2, 1, 1⟩)
    obtain ⟨c2, hc2, e2⟩ := layers_site A hx hy hA (G ⟨s.1, s.2, 1, 1⟩) (atLattice s) (hG _ _ hp)
    refine ⟨ρ, hρ, c * c1 * c2, mul_pos (mul_pos hc hc1) hc2, fun b k => ?_⟩
    rw [e, e1, e2, hcs]
    push_cast
    ring
  · obtain ⟨ρ, hρ, c, hc, e⟩ := h.2 s hs k init
    have hp : (bondRect (atLattice s) k).Has (atLattice s) ∧ (bondRect (atLattice s) k).Has (atLattice s + dir k) := by
      unfold Rect.Has
      match k with
      | 0 | 1 | 2 | 3 => simp only [bondRect, dir, Prod.fst_add, Prod.snd_add]; push_cast; omega
    have hne : atLattice s ≠ atLattice s + dir k := by
      intro h
      have h0 : dir k = 0 := by simpa using h
      revert h0
      clear h hp e hρ
      revert k
      decide
    obtain ⟨c1, hc1, e1⟩ := product_cluster (chi := chi) A hx hy hA (G (bondRect (atLattice s) k))
    obtain ⟨c2, hc2, e2⟩ := layers_bond A hx hy hA (G (bondRect (atLattice s) k)) (atLattice s) (atLattice s + dir k) (hG _ _ hp.1)
      (hG _ _ hp.2) hne
    refine ⟨ρ, hρ, c * c1 * c2, mul_pos (mul_pos hc hc1) hc2, fun b1 b2 k1 k2 => ?_⟩
    rw [e, e1, e2, ← neighbour_cellSite nx ny hx hy, hcs]
    push_cast
    ring

variable {pD : ℕ}

/-- **C68 (density matrices).** After any number of sweeps from fresh boundary tensors, with any settings, the density matrices
of a product state are those of the product state. -/
theorem C68_product (A : Site → ATensor (Fin 1) (Fin pD) 𝕜) (hx : 0 < nx) (hy : 0 < ny) (hA : ∀ s, InCell nx ny s → A s ≠ 0)
    (hchi : 0 < chi) (st : ProjSettings 𝕜) (pk : ProjKind) (hk : pk = .half ∨ st.fullRank = true) (hcut : 0 ≤ st.cutoff)
    (hcut1 : st.cutoff < 1) (ω : ℕ → Draws (Fin 1) 𝕜)
    (hd : st.fullRank = false → ∀ t key, ω t key 1 1 (chi + st.oversampling) ≠ 0) (n t : ℕ) :
    ∃ net, ctmrgDrawn st pk ω t n (freshNet nx ny chi A) = .ok net ∧ ProductRdms nx ny A net := by
  have hl := ((product_regular (chi := chi) A hx hy hA).run (pk := pk) one_pos hx hy hcut hcut1 ω
    (fun t => product_noTrunc hchi st hcut1 (ω t) fun h => hd h t) _ t (sweeps_range hx hy n)).1
  obtain ⟨net, G, h1, h2, h3⟩ := C66_sweeps st pk hk hcut hcut1 ω n t _ _ (fresh_wired (chi := chi) A hx hy) hx hy hl
  exact ⟨net, h1, productRdms_of A hx hy hA h2 fun r p hp => h3 r p p hp (by simp) (by simp)⟩

/-- **C68 (real tensors).** For real tensors with all kinds of projectors. -/
theorem C68_real (A : Site → ATensor (Fin 1) (Fin pD) ℝ) (hx : 0 < nx) (hy : 0 < ny) (hA : ∀ s, InCell nx ny s → A s ≠ 0)
    (hchi : 0 < chi) (st : ProjSettings ℝ) (pk : ProjKind) (hcut : 0 ≤ st.cutoff) (hcut1 : st.cutoff < 1) (ω : ℕ → Draws (Fin 1) ℝ)
    (hd : st.fullRank = false → ∀ t key, ω t key 1 1 (chi + st.oversampling) ≠ 0) (n t : ℕ) :
    ∃ net, ctmrgDrawn st pk ω t n (freshNet nx ny chi A) = .ok net ∧ ProductRdms nx ny A net := by
  have hl := ((product_regular (chi := chi) A hx hy hA).run (pk := pk) one_pos hx hy hcut hcut1 ω
    (fun t => product_noTrunc hchi st hcut1 (ω t) fun h => hd h t) _ t (sweeps_range hx hy n)).1
  obtain ⟨net, h1, h2⟩ := C66_real st pk hcut hcut1 ω _ t _ _ (fresh_wired (chi := chi) A hx hy) hx hy (sweeps_range hx hy n) hl
  exact ⟨net, (ctmrgDrawn_eq st pk ω n t _).trans h1, productRdms_of A hx hy hA h2 fun r p hp =>
    growAll_reach hx hy n r p p hp (by simp) (by simp)⟩

/-- **C68 (values).** Every measured one-site and two-site value is the one of the product state: `⟨v|O|v⟩ / ⟨v|v⟩` for the vector
of the site or the product of the two vectors, of the transposed operator (C49), which is the operator itself for real symmetric ones. -/
theorem C68_values (A : Site → ATensor (Fin 1) (Fin pD) 𝕜) (net : Net (Ten (Fin 1) (Fin pD) 𝕜)) (h : ProductRdms nx ny A net)
    (s : Site) (hs : InCell nx ny s) :
    (∃ ρ, numSiteRdm net s = .ok ρ ∧ ∀ O : Matrix (Fin pD) (Fin pD) 𝕜,
      measureOneSite ρ O / siteNorm ρ = RCLike.re (qform Oᵀ (siteVec A s)) / normSq (siteVec A s)) ∧
    ∀ (k : Fin 4) init, ∃ ρ, numBondRdm init net ⟨s, neighbour nx ny s k.val, k.val⟩ = .ok ρ ∧
      ∀ O : Matrix (Fin pD × Fin pD) (Fin pD × Fin pD) 𝕜,
        measureTwoSite ρ (fun k1 k2 b1 b2 => O (k1, k2) (b1, b2)) / bondNorm ρ =
        RCLike.re (qform Oᵀ fun p => siteVec A s p.1 * siteVec A (neighbour nx ny s k.val) p.2) /
          normSq fun p : Fin pD × Fin pD => siteVec A s p.1 * siteVec A (neighbour nx ny s k.val) p.2 := by
  obtain ⟨⟨ρ, hρ, c, hc, e⟩, h2⟩ := h s hs
  refine ⟨⟨ρ, hρ, fun O => ?_⟩, fun k init => ?_⟩
  · have e1 : measureOneSite ρ O = c * RCLike.re (qform Oᵀ (siteVec A s)) := by
      unfold measureOneSite qform
      simp only [e]
      rw [← RCLike.re_ofReal_mul]
      congr 1
      simp only [mul_sum, transpose_apply]
      refine sum_congr rfl fun i _ => sum_congr rfl fun j _ => by ring
    have e2 : siteNorm ρ = c * normSq (siteVec A s) := by
      unfold siteNorm normSq
      simp only [e]
      rw [← mul_sum, RCLike.re_ofReal_mul, map_sum]
      congr 1
      refine sum_congr rfl fun i _ => ?_
      rw [show siteVec A s i * star (siteVec A s i) = ((‖siteVec A s i‖ ^ 2 : ℝ) : 𝕜) by push_cast; exact RCLike.mul_conj _, RCLike.ofReal_re]
    rw [e1, e2, mul_div_mul_left _ _ hc.ne']
  · obtain ⟨ρ, hρ, c, hc, e⟩ := h2 k init
    refine ⟨ρ, hρ, fun O => ?_⟩
    generalize siteVec A s = v at *
    generalize siteVec A (neighbour nx ny s k.val) = v' at *
    have e1 : measureTwoSite ρ (fun k1 k2 b1 b2 => O (k1, k2) (b1, b2)) = c * RCLike.re (qform Oᵀ fun p => v p.1 * v' p.2) := by
      unfold measureTwoSite qform
      simp only [e]
      rw [← RCLike.re_ofReal_mul]
      congr 1
      simp only [Fintype.sum_prod_type, mul_sum, transpose_apply]
      refine sum_congr rfl fun i _ => sum_congr rfl fun j _ => sum_congr rfl fun i' _ => sum_congr rfl fun j' _ => ?_
      rw [star_mul']
      ring
    have e2 : bondNorm ρ = c * normSq fun p : Fin pD × Fin pD => v p.1 * v' p.2 := by
      unfold bondNorm normSq
      simp only [e, Fintype.sum_prod_type]
      rw [← RCLike.ofReal_re (K := 𝕜) (c * _)]
      congr 1
      push_cast
      simp only [mul_sum]
      refine sum_congr rfl fun i _ => sum_congr rfl fun j _ => ?_
      congr 1
      rw [show ((‖v i * v' j‖ : ℝ) : 𝕜) ^ 2 = (v i * v' j) * star (v i * v' j) from (RCLike.mul_conj _).symm, star_mul']
      ring
    rw [e1, e2, mul_div_mul_left _ _ hc.ne']

end product

/-- A complex product state on a 2 × 3 cell: after any number of sweeps, for every SVD routine, all kinds of projectors with a full
SVD, and any environment dimension, all values are those of the product state. -/
example (la : Lapack ℂ) (pk : ProjKind) (chi ov ni n : ℕ) (hchi : 0 < chi) (ω : ℕ → Draws (Fin 1) ℂ) :
    ∃ net, ctmrgDrawn ⟨la, true, 1e-12, ov, ni⟩ pk ω 0 n
        (freshNet 2 3 chi fun s _ _ _ _ (p : Fin 2) => if p = 0 then 1 + (s.1 : ℂ) else Complex.I * s.2) = .ok net ∧
      ProductRdms 2 3 (fun s _ _ _ _ (p : Fin 2) => if p = 0 then 1 + (s.1 : ℂ) else Complex.I * s.2) net := by
  refine C68_product _ (by decide) (by decide) (fun s _ h => ?_) hchi _ pk (.inr rfl) (by norm_num) (by norm_num) ω (fun h => by simp at h) n 0
  have h1 : (1 : ℂ) + s.1 = 0 := by simpa using congrFun (congrFun (congrFun (congrFun (congrFun h 0) 0) 0) 0) 0
  have h2 := congrArg Complex.re h1
  simp at h2
  have h3 : (0 : ℝ) ≤ s.1 := Nat.cast_nonneg _
  linarith

end AceTN
