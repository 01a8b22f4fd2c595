import Verif.Lemmas.LinkTrans
import Verif.Props.Product

/-!
Environments of product states of bond dimension one: boundary tensors are numbers, and their phases cancel on every bond.
-/

set_option autoImplicit false
set_option linter.unusedSectionVars false

namespace AceTN

open Matrix Spec Finset

variable {𝕜 : Type} [RCLike 𝕜] {B P : Type} [Fintype B] [Fintype P] [DecidableEq B] [Unique B]

/-- All boundary tensors are positive numbers up to a phase for each boundary bond. -/
structure Phased (φ : ℤ × ℤ → Fin 4 → 𝕜) (net : Net (Ten B P 𝕜)) : Prop where
  unit : ∀ p k, star (φ p k) * φ p k = 1
  site : ∀ p, ∃ a, net.A (cellSite net.nx net.ny p) = .site a ∧ a ≠ 0
  corner : ∀ p (k : Fin 4), ∃ t : ℝ, 0 < t ∧ net.B (cellSite net.nx net.ny p) (.C k.val) =
    .corner 1 1 fun _ _ => (t : 𝕜) * (star (φ (p + dir (k + 1)) (k + 3)) * φ p k)
  edge : ∀ p (k : Fin 4), ∃ t : ℝ, 0 < t ∧ net.B (cellSite net.nx net.ny p) (.E k.val) =
    .edge 1 1 fun _ _ _ _ => (t : 𝕜) * (star (φ p k) * φ (p + dir (k + 2)) k)

theorem phase_ne {u : 𝕜} (h : star u * u = 1) : u ≠ 0 := by
  rintro rfl
  rw [mul_zero] at h
  exact zero_ne_one h

theorem phased_ne {t : ℝ} (ht : 0 < t) {u v : 𝕜} (hu : star u * u = 1) (hv : star v * v = 1) : (t : 𝕜) * (star u * v) ≠ 0 := by
  have h1 : (t : 𝕜) ≠ 0 := RCLike.ofReal_ne_zero.2 ht.ne'
  exact mul_ne_zero h1 (mul_ne_zero (star_ne_zero.2 (phase_ne hu)) (phase_ne hv))

theorem Phased.regular {φ : ℤ × ℤ → Fin 4 → 𝕜} {net : Net (Ten B P 𝕜)} (h : Phased φ net) : Regular 1 net where
  site := h.site
  corner p k := by
    obtain ⟨t, ht, e⟩ := h.corner p k
    exact ⟨_, e, isUnit_one_by_one _ (phased_ne ht (h.unit _ _) (h.unit _ _))⟩
  edge p k := by
    obtain ⟨t, ht, e⟩ := h.edge p k
    exact ⟨_, e, isUnit_one_by_one _ (phased_ne ht (h.unit _ _) (h.unit _ _))⟩

/-- Two numbers with a positive product have opposite phases. -/
theorem opposite_phases {x y : 𝕜} {c : ℝ} (hc : 0 < c) (h : y * x = c) :
    ∃ (u : 𝕜) (a b : ℝ), star u * u = 1 ∧ 0 < a ∧ 0 < b ∧ x = a * u ∧ y = b * star u := by
  have hc' : (c : 𝕜) ≠ 0 := RCLike.ofReal_ne_zero.2 hc.ne'
  have hx : x ≠ 0 := by
    rintro rfl
    rw [mul_zero] at h
    exact hc' h.symm
  have hn : 0 < ‖x‖ := norm_pos_iff.2 hx
  have hn' : (‖x‖ : 𝕜) ≠ 0 := RCLike.ofReal_ne_zero.2 hn.ne'
  have hs : star x * x = (‖x‖ : 𝕜) * ‖x‖ := by
    rw [← sq]
    exact RCLike.conj_mul x
  refine ⟨x / ‖x‖, ‖x‖, c / ‖x‖, ?_, hn, div_pos hc hn, ?_, ?_⟩
  · rw [star_div₀, RCLike.star_def, RCLike.conj_ofReal, ← RCLike.star_def]
    field_simp
    rw [hs]
    ring
  · field_simp
  · rw [star_div₀, RCLike.star_def, RCLike.conj_ofReal, ← RCLike.star_def, RCLike.ofReal_div]
    have : y = c / x := by
      rw [← h]
      field_simp
    rw [this]
    field_simp
    rw [sq, ← hs, mul_comm]

section move

variable {φ : ℤ × ℤ → Fin 4 → 𝕜} {net : Net (Ten B P 𝕜)} {st : ProjSettings 𝕜} {ω : Draws B 𝕜} {pk : ProjKind}
  (h : Phased φ net) (hx : 0 < net.nx) (hy : 0 < net.ny) (ht : NoTrunc 1 net.chi st ω) (hr : CutsResolve B st pk)
  (hcut : 0 ≤ st.cutoff) (hcut1 : st.cutoff < 1) (m : Move)

include h hx hy ht hr hcut hcut1

/-- The two projectors of a cut are numbers with opposite phases. -/
theorem Phased.cut (q : ℤ × ℤ) : ∃ u : 𝕜, star u * u = 1 ∧ (m.OnLine (cellSite net.nx net.ny q) → ∃ a b : ℝ, 0 < a ∧ 0 < b ∧
    m.cut (numOps st ω) pk net q = (.proj 1 1 fun _ _ _ _ => (a : 𝕜) * u, .proj 1 1 fun _ _ _ _ => (b : 𝕜) * star u)) := by
  by_cases hq : m.OnLine (cellSite net.nx net.ny q)
  · have hR := h.regular
    obtain ⟨⟨p1, p2, e, -, -⟩, hl⟩ := hR.cut (pk := pk) one_pos hx hy ht hcut hcut1 m q hq
    obtain ⟨z, p1', p2', e', hres⟩ := cut_at (hR.wired hx hy) hx hy st ω pk m q hq
    rw [e] at e'
    injection e' with e1 e2
    injection e1 with i1 i2 i3
    subst i2
    cases i3
    cases e2
    obtain ⟨c, hc, hcc⟩ := hres hr hl
    have h1 := hcc 0 default default 0 default default
    rw [Fintype.sum_unique, if_pos ⟨rfl, rfl, rfl⟩] at h1
    obtain ⟨u, a, b, hu, ha, hb, ex, ey⟩ := opposite_phases hc h1
    refine ⟨u, hu, fun _ => ⟨a, b, ha, hb, ?_⟩⟩
    rw [e]
    congr 2
    · funext i g g' j
      rw [← ex]
      congr 1 <;> exact Subsingleton.elim _ _
    · funext i g g' j
      rw [← ey]
      congr 1 <;> exact Subsingleton.elim _ _
  · exact ⟨1, by simp, fun h => absurd h hq⟩

omit h hx hy ht hr hcut hcut1 in
theorem one_lower {c e q : 𝕜} : ∃ s : ℝ, 0 < s ∧ renormalizeCj1 (fun _ _ : Fin 1 => c) (fun _ _ _ _ => e : Fin 1 → Fin 1 → B → B → 𝕜)
    (fun _ _ _ _ => q : Fin 1 → B → B → Fin 1 → 𝕜) = fun _ _ => (s : 𝕜) * (e * c * q) := by
  rw [renormalizeCj1_eq]
  obtain ⟨s, hs, e⟩ := normalise2_scale (lowerCorner (fun _ _ : Fin 1 => c) (fun _ _ _ _ => e : Fin 1 → Fin 1 → B → B → 𝕜)
    (fun _ _ _ _ => q : Fin 1 → B → B → Fin 1 → 𝕜))
  refine ⟨s, hs, ?_⟩
  funext i j
  rw [e, lowerCorner_entry]
  simp only [Fintype.sum_prod_type, Fintype.sum_unique]

omit h hx hy ht hr hcut hcut1 in
theorem one_upper {c e q : 𝕜} : ∃ s : ℝ, 0 < s ∧ renormalizeCj2 (fun _ _ : Fin 1 => c) (fun _ _ _ _ => e : Fin 1 → Fin 1 → B → B → 𝕜)
    (fun _ _ _ _ => q : Fin 1 → B → B → Fin 1 → 𝕜) = fun _ _ => (s : 𝕜) * (c * e * q) := by
  rw [renormalizeCj2_eq]
  obtain ⟨s, hs, e⟩ := normalise2_scale (upperCorner (fun _ _ : Fin 1 => c) (fun _ _ _ _ => e : Fin 1 → Fin 1 → B → B → 𝕜)
    (fun _ _ _ _ => q : Fin 1 → B → B → Fin 1 → 𝕜))
  refine ⟨s, hs, ?_⟩
  funext i j
  rw [e, upperCorner_entry]
  simp only [Fintype.sum_prod_type, Fintype.sum_unique]

omit h hx hy ht hr hcut hcut1 in
theorem sqNorm_pos (a : ATensor B P 𝕜) (ha : a ≠ 0) : ∃ v : ℝ, 0 < v ∧ sqNorm a = v := by
  have e : sqNorm a = ((∑ p, ‖a default default default default p‖ ^ 2 : ℝ) : 𝕜) := by
    unfold sqNorm
    push_cast
    exact sum_congr rfl fun p _ => RCLike.mul_conj _
  refine ⟨_, lt_of_le_of_ne (sum_nonneg fun _ _ => sq_nonneg _) fun h0 => ?_, e⟩
  rw [← h0, RCLike.ofReal_zero] at e
  exact sqNorm_ne a ha e

omit h hx hy ht hr hcut hcut1 in
theorem one_edge {e q2 q1 : 𝕜} (a : ATensor B P 𝕜) (ha : a ≠ 0) : ∃ s : ℝ, 0 < s ∧
    renormalizeEj (fun _ _ _ _ => e : Fin 1 → Fin 1 → B → B → 𝕜) a (fun _ _ _ _ => q2 : Fin 1 → B → B → Fin 1 → 𝕜)
      (fun _ _ _ _ => q1 : Fin 1 → B → B → Fin 1 → 𝕜) = fun _ _ _ _ => (s : 𝕜) * (e * q1 * q2) := by
  rw [renormalizeEj_eq]
  obtain ⟨s, hs, he⟩ := normalise4_scale (absorbedEdge (fun _ _ _ _ => e : Fin 1 → Fin 1 → B → B → 𝕜) a
    (fun _ _ _ _ => q2 : Fin 1 → B → B → Fin 1 → 𝕜) (fun _ _ _ _ => q1 : Fin 1 → B → B → Fin 1 → 𝕜))
  obtain ⟨v, hv, ev⟩ := sqNorm_pos a ha
  refine ⟨s * v, mul_pos hs hv, ?_⟩
  funext i j g g'
  rw [he, absorbedEdge_entry _ _ _ _ i j (g, g')]
  have hl : layer a none ((default, default) : B × B) (default, default) (g, g') (default, default) = sqNorm a := by
    rw [Unique.eq_default g, Unique.eq_default g']
    rfl
  simp only [Fintype.sum_prod_type, Fintype.sum_unique]
  show (s : 𝕜) * (e * layer a none ((default, default) : B × B) (default, default) (g, g') (default, default) * q1 * q2) = _
  rw [hl, ev]
  push_cast
  ring

omit ht hr hcut hcut1 in
/-- A move with any projectors that are such numbers. -/
theorem Phased.after_cuts (hm : m.Valid net.nx net.ny) (o : Ops (Ten B P 𝕜)) (o1 : o.permute = (numOps st ω).permute) (o2 : o.cj1 = (numOps st ω).cj1)
    (o3 : o.cj2 = (numOps st ω).cj2) (o4 : o.ej = (numOps st ω).ej)
    (hcuts : ∀ q, ∃ u : 𝕜, star u * u = 1 ∧ (m.OnLine (cellSite net.nx net.ny q) → ∃ a b : ℝ, 0 < a ∧ 0 < b ∧
      m.cut o pk net q = (.proj 1 1 fun _ _ _ _ => (a : 𝕜) * u, .proj 1 1 fun _ _ _ _ => (b : 𝕜) * star u))) :
    ∃ φ', Phased φ' (m.after o pk net) := by
  choose u hu hP using hcuts
  obtain ⟨i11, i12, i13, i21, i22, i23, i31, i32, i33⟩ := fin4 m.dirn
  have along : ∀ p, m.OnLine (cellSite net.nx net.ny (p + dir (m.dirn + 1) + dir m.dirn)) ↔
      m.OnLine (cellSite net.nx net.ny (p + dir m.dirn)) := by
    intro p
    have := m.onLine_along (nx := net.nx) (ny := net.ny) (p + dir m.dirn) 1
    rwa [one_smul, add_right_comm] at this
  have ne1 : ∀ k : Fin 4, k + 1 ≠ k + 3 ∧ k + 2 ≠ k + 3 ∧ k ≠ k + 3 ∧ k + 1 ≠ k ∧ k + 2 ≠ k := by decide
  have hC : ∀ a b : Fin 4, a ≠ b → Slot.C a.val ≠ Slot.C b.val := fun a b h e => h (Fin.ext (Slot.C.inj e))
  have hE : ∀ a b : Fin 4, a ≠ b → Slot.E a.val ≠ Slot.E b.val := fun a b h e => h (Fin.ext (Slot.E.inj e))
  have cases4 : ∀ d k : Fin 4, k = d ∨ k = d + 1 ∨ k = d + 2 ∨ k = d + 3 := by decide
  obtain ⟨n1, n2, n3, n4, n5⟩ := ne1 m.dirn
  classical
  set φ' : ℤ × ℤ → Fin 4 → 𝕜 := fun p k => if k = m.dirn + 3 ∧ m.OnLine (cellSite net.nx net.ny (p + dir m.dirn)) then
    φ (p + dir m.dirn) (m.dirn + 3) * u (p + dir m.dirn) else φ p k with hφ
  have hit : ∀ p, m.OnLine (cellSite net.nx net.ny (p + dir m.dirn)) → φ' p (m.dirn + 3) = φ (p + dir m.dirn) (m.dirn + 3) * u (p + dir m.dirn) :=
    fun p hp => if_pos ⟨rfl, hp⟩
  have other : ∀ p k, k ≠ m.dirn + 3 → φ' p k = φ p k := fun p k hk => if_neg fun h => hk h.1
  have miss : ∀ p k, ¬ m.OnLine (cellSite net.nx net.ny (p + dir m.dirn)) → φ' p k = φ p k := fun p k hp => if_neg fun h => hp h.2
  refine ⟨φ', fun p k => ?_, h.site, fun p k => ?_, fun p k => ?_⟩
  · by_cases hk : k = m.dirn + 3
    · subst hk
      by_cases hp : m.OnLine (cellSite net.nx net.ny (p + dir m.dirn))
      · rw [hit p hp, star_mul']
        calc _ = (star (φ (p + dir m.dirn) (m.dirn + 3)) * φ (p + dir m.dirn) (m.dirn + 3)) * (star (u (p + dir m.dirn)) * u (p + dir m.dirn)) := by ring
          _ = 1 := by rw [h.unit, hu, one_mul]
      · rw [miss p _ hp]
        exact h.unit _ _
    · rw [other p k hk]
      exact h.unit _ _
  · change ∃ t : ℝ, 0 < t ∧ (m.after o pk net).B (cellSite net.nx net.ny p) (.C k.val) = _
    by_cases hp : m.OnLine (cellSite net.nx net.ny (p + dir m.dirn))
    · rcases cases4 m.dirn k with rfl | rfl | rfl | rfl
      · obtain ⟨a, b, ha, hb, ecut⟩ := hP _ ((along p).2 hp)
        obtain ⟨t, ht, ec⟩ := h.corner (p + dir m.dirn) m.dirn
        obtain ⟨t', ht', ee⟩ := h.edge (p + dir m.dirn) m.dirn
        rw [m.after_hit o pk net hx hy hm p hp, if_neg (hC _ _ n3), if_pos rfl, ec, ee,
          add_right_comm p, ecut, o3, cj2_eq, dir_cancel]
        obtain ⟨s, hs, es⟩ := one_upper (B := B) (c := (t : 𝕜) * (star (φ (p + dir (m.dirn + 1) + dir m.dirn) (m.dirn + 3)) * φ (p + dir m.dirn) m.dirn))
          (e := (t' : 𝕜) * (star (φ (p + dir m.dirn) m.dirn) * φ p m.dirn)) (q := (b : 𝕜) * star (u (p + dir (m.dirn + 1) + dir m.dirn)))
        refine ⟨s * t * t' * b, by positivity, ?_⟩
        rw [es, hit _ ((along p).2 hp), other p _ n3]
        congr 1
        funext _ _
        have := h.unit (p + dir m.dirn) m.dirn
        push_cast
        rw [star_mul']
        linear_combination (s : 𝕜) * t * t' * b * star (φ (p + dir (m.dirn + 1) + dir m.dirn) (m.dirn + 3)) * φ p m.dirn *
          star (u (p + dir (m.dirn + 1) + dir m.dirn)) * this
      · obtain ⟨t, ht, e⟩ := h.corner p (m.dirn + 1)
        refine ⟨t, ht, ?_⟩
        rw [m.after_other o pk net hx hy hm p _ (hC _ _ n1) (hC _ _ n4) (by simp), e, i13, other _ _ n3, other _ _ n1]
      · obtain ⟨t, ht, e⟩ := h.corner p (m.dirn + 2)
        refine ⟨t, ht, ?_⟩
        rw [m.after_other o pk net hx hy hm p _ (hC _ _ n2) (hC _ _ n5) (by simp), e, i23, other _ _ n1, other _ _ n2]
      · obtain ⟨a, b, ha, hb, ecut⟩ := hP _ hp
        obtain ⟨t, ht, ec⟩ := h.corner (p + dir m.dirn) (m.dirn + 3)
        obtain ⟨t', ht', ee⟩ := h.edge (p + dir m.dirn) (m.dirn + 2)
        rw [i31, i33] at ec
        rw [i22] at ee
        rw [m.after_hit o pk net hx hy hm p hp, if_pos rfl, ec, ee, ecut, o2, cj1_eq, hit p hp, i31, i33, other _ _ n2]
        obtain ⟨s, hs, es⟩ := one_lower (B := B) (c := (t : 𝕜) * (star (φ (p + dir m.dirn + dir m.dirn) (m.dirn + 2)) * φ (p + dir m.dirn) (m.dirn + 3)))
          (e := (t' : 𝕜) * (star (φ (p + dir m.dirn) (m.dirn + 2)) * φ (p + dir m.dirn + dir m.dirn) (m.dirn + 2))) (q := (a : 𝕜) * u (p + dir m.dirn))
        refine ⟨s * t * t' * a, by positivity, ?_⟩
        rw [es]
        congr 1
        funext _ _
        have := h.unit (p + dir m.dirn + dir m.dirn) (m.dirn + 2)
        push_cast
        linear_combination (s : 𝕜) * t * t' * a * star (φ (p + dir m.dirn) (m.dirn + 2)) * φ (p + dir m.dirn) (m.dirn + 3) *
          u (p + dir m.dirn) * this
    · obtain ⟨t, ht, e⟩ := h.corner p k
      refine ⟨t, ht, ?_⟩
      rw [m.after_miss o pk net hm p hp, e, miss p _ hp]
      by_cases hk : k = m.dirn
      · subst hk
        rw [miss _ _ (fun h' => hp ((along p).1 h'))]
      · rw [other _ _ fun h' => hk (add_right_cancel h')]
  · change ∃ t : ℝ, 0 < t ∧ (m.after o pk net).B (cellSite net.nx net.ny p) (.E k.val) = _
    by_cases hk : k = m.dirn + 3
    · subst hk
      rw [i32]
      by_cases hp : m.OnLine (cellSite net.nx net.ny (p + dir m.dirn))
      · obtain ⟨a, b, ha, hb, ecut⟩ := hP _ hp
        obtain ⟨a', b', ha', hb', ecut'⟩ := hP _ ((along p).2 hp)
        obtain ⟨t, ht, ee⟩ := h.edge (p + dir m.dirn) (m.dirn + 3)
        obtain ⟨x, hxx, hx0⟩ := h.site (p + dir m.dirn)
        rw [i32] at ee
        rw [m.after_hit o pk net hx hy hm p hp, if_neg (by simp), if_neg (by simp), if_pos rfl, ee, hxx, o1, permute_eq,
          bondPermute_unique, add_right_comm p, ecut, ecut', o4, ej_eq, hit p hp, hit _ ((along p).2 hp)]
        obtain ⟨s, hs, es⟩ := one_edge (e := (t : 𝕜) * (star (φ (p + dir m.dirn) (m.dirn + 3)) * φ (p + dir (m.dirn + 1) + dir m.dirn) (m.dirn + 3)))
          (q2 := (b : 𝕜) * star (u (p + dir m.dirn))) (q1 := (a' : 𝕜) * u (p + dir (m.dirn + 1) + dir m.dirn)) x hx0
        refine ⟨s * t * a' * b, by positivity, ?_⟩
        rw [es]
        congr 1
        funext _ _ _ _
        push_cast
        rw [star_mul']
        ring
      · obtain ⟨t, ht, e⟩ := h.edge p (m.dirn + 3)
        refine ⟨t, ht, ?_⟩
        rw [m.after_miss o pk net hm p hp, e, miss p _ hp, miss _ _ (fun h' => hp ((along p).1 h')), i32]
    · obtain ⟨t, ht, e⟩ := h.edge p k
      refine ⟨t, ht, ?_⟩
      rw [m.after_other o pk net hx hy hm p _ (by simp) (by simp) (hE _ _ hk), e, other _ _ hk, other _ _ hk]

theorem Phased.after (hm : m.Valid net.nx net.ny) : ∃ φ', Phased φ' (m.after (numOps st ω) pk net) :=
  h.after_cuts hx hy m hm (numOps st ω) rfl rfl rfl rfl fun q => h.cut (pk := pk) hx hy ht hr hcut hcut1 m q

omit ht in
theorem Phased.run (ω : ℕ → Draws B 𝕜) (ht : ∀ t, NoTrunc 1 net.chi st (ω t)) (ms : List Move) (t : ℕ)
    (hm : ∀ m ∈ ms, InRange net.nx net.ny m) :
    ∃ net' φ', runDrawn st pk ω t ms net = .ok net' ∧ Phased φ' net' ∧ net'.A = net.A ∧ net'.nx = net.nx ∧ net'.ny = net.ny ∧
      net'.chi = net.chi := by
  induction ms generalizing t net φ with
  | nil => exact ⟨net, φ, rfl, h, rfl, rfl, rfl, rfl⟩
  | cons m ms ih =>
    obtain ⟨φ', h'⟩ := h.after hx hy (ht t) hr hcut hcut1 m (valid_of_range m (hm m (by simp)))
    obtain ⟨net', φ'', h2, h3, h4, h5, h6, h7⟩ := ih h' hx hy ht (t + 1) (fun m' h => hm m' (by simp [h]))
    refine ⟨net', φ'', ?_, h3, h4, h5, h6, h7⟩
    simp only [runDrawn, Move.run_eq, bind, Except.bind]
    exact h2

end move

/-- A network of product sites with fresh boundary tensors. -/
theorem phased_fresh {nx ny chi : ℕ} (A : Site → ATensor (Fin 1) P 𝕜) (hx : 0 < nx) (hy : 0 < ny) (hA : ∀ s, InCell nx ny s → A s ≠ 0) :
    Phased (fun _ _ => 1) (freshNet nx ny chi A) where
  unit _ _ := by simp
  site p := ⟨_, rfl, hA _ (cellSite_inCell nx ny hx hy p)⟩
  corner p k := by
    obtain ⟨c, hc, e⟩ := corner_one A _ (hA _ (cellSite_inCell nx ny hx hy p)) k.val
    refine ⟨c, hc, ?_⟩
    simp only [star_one, mul_one]
    unfold freshNet
    dsimp only
    congr 1
    funext i j
    exact e _ _
  edge p k := by
    obtain ⟨c, hc, e⟩ := edge_one A _ (hA _ (cellSite_inCell nx ny hx hy p)) k.val
    refine ⟨c, hc, ?_⟩
    simp only [star_one, mul_one]
    unfold freshNet
    dsimp only
    congr 1
    funext i j g g'
    exact e _ _ _ _

/-- The link between two phases. -/
noncomputable def phaseLink (u v : 𝕜) (hu : star u * u = 1) (hv : star v * v = 1) : Link 𝕜 :=
  ⟨1, 1, of fun _ _ => v * star u, ⟨by
    ext i j
    rw [Subsingleton.elim i j, one_apply_eq, mul_apply, Fintype.sum_unique, conjTranspose_apply, of_apply, star_mul', star_star]
    linear_combination (star v * v) * hu + hv, by
    ext i j
    rw [Subsingleton.elim i j, one_apply_eq, mul_apply, Fintype.sum_unique, conjTranspose_apply, of_apply, star_mul', star_star]
    linear_combination (star v * v) * hu + hv⟩⟩

theorem phase_cancel {t t' a b a' b' : 𝕜} (hne : t ≠ 0) (h1 : star a * a = 1) (h2 : star b * b = 1) :
    t' * (star a' * b') = t' / t * (star a' * a * (b' * star b) * (t * (star a * b))) := by
  field_simp
  linear_combination (-t' * star a' * b' * (star b * b)) * h1 - (t' * star a' * b') * h2

/-- Two such environments of the same sites are the same. -/
theorem phased_related [DecidableEq P] {φ φ' : ℤ × ℤ → Fin 4 → 𝕜} {net net' : Net (Ten B P 𝕜)} (h : Phased φ net) (h' : Phased φ' net')
    (hx : net'.nx = net.nx) (hy : net'.ny = net.ny) (hc : net'.chi = net.chi)
    (hA : ∀ p, net'.A (cellSite net.nx net.ny p) = net.A (cellSite net.nx net.ny p)) :
    Related (ScalarMap.id 𝕜) (fun _ => 1) (fun _ _ => 1) (fun p k => phaseLink (φ p k) (φ' p k) (h.unit p k) (h'.unit p k)) net net' where
  nx := hx
  ny := hy
  chi := hc
  trace _ := keepsTrace_one
  unit _ _ := Unit2.one
  bond _ _ := by
    ext i j
    exact (one_star i j).symm
  site p := by
    obtain ⟨a, ha, -⟩ := h.site p
    rw [hA, ha]
    exact siteRel_self a
  corner p k := by
    obtain ⟨t, ht, e⟩ := h.corner p k
    obtain ⟨t', ht', e'⟩ := h'.corner p k
    rw [hx, hy] at e'
    refine ⟨_, _, t' / t, e, e', div_pos ht' ht, fun i j => ?_⟩
    show _ = _ * ∑ x : Fin 1, ∑ y : Fin 1, star (φ' (p + dir (k + 1)) (k + 3) * star (φ (p + dir (k + 1)) (k + 3))) *
      (φ' p k * star (φ p k)) * ((t : 𝕜) * (star (φ (p + dir (k + 1)) (k + 3)) * φ p k))
    have hne : (t : 𝕜) ≠ 0 := RCLike.ofReal_ne_zero.2 ht.ne'
    have h1 := h.unit (p + dir (k + 1)) (k + 3)
    have h2 := h.unit p k
    rw [Fintype.sum_unique, Fintype.sum_unique, RCLike.ofReal_div, star_mul', star_star]
    exact phase_cancel hne h1 h2
  edge p k := by
    obtain ⟨t, ht, e⟩ := h.edge p k
    obtain ⟨t', ht', e'⟩ := h'.edge p k
    rw [hx, hy] at e'
    refine ⟨_, _, t' / t, e, e', div_pos ht' ht, fun i j g => ?_⟩
    show _ = _ * ∑ x : Fin 1, ∑ y : Fin 1, ∑ h : B × B, star (φ' p k * star (φ p k)) *
      (φ' (p + dir (k + 2)) k * star (φ (p + dir (k + 2)) k)) * star ((1 : Matrix (B × B) (B × B) 𝕜) g h) *
        ((t : 𝕜) * (star (φ p k) * φ (p + dir (k + 2)) k))
    have hne : (t : 𝕜) ≠ 0 := RCLike.ofReal_ne_zero.2 ht.ne'
    have h1 := h.unit p k
    have h2 := h.unit (p + dir (k + 2)) k
    simp only [one_star]
    simp only [one_apply, mul_ite, ite_mul, mul_one, mul_zero, zero_mul, sum_ite_eq, mem_univ, if_true]
    rw [Fintype.sum_unique, Fintype.sum_unique, RCLike.ofReal_div, star_mul', star_star]
    exact phase_cancel hne h1 h2

end AceTN
