import Verif.Lemmas.WiredMove

/-!
What a move without truncation does to clusters.
-/

set_option autoImplicit false

namespace AceTN

open Finset Spec

variable {𝕜 : Type} [RCLike 𝕜] {B P : Type} [Fintype B] [Fintype P] [DecidableEq B]

variable {net : Net (Ten B P 𝕜)} {f : Site → ℕ → ℕ} (hw : Wired net f) (hx : 0 < net.nx) (hy : 0 < net.ny)
  (st : ProjSettings 𝕜) (ω : Draws B 𝕜) (pk : ProjKind) (m : Move) (hm : m.Valid net.nx net.ny)

include hw hx hy

theorem cut_resolving (q : ℤ × ℤ) (hq : m.OnLine (cellSite net.nx net.ny q)) (hr : CutsResolve B st pk)
    (hl : LooseMove st ω pk net m) : ∃ c : ℝ, 0 < c ∧ ∀ N, projDim (m.cut (numOps st ω) pk net q).1 ≤ N →
      ∀ x y : Fin N × (B × B), x.1.val < f (cellSite net.nx net.ny q) (m.dirn + 3).val →
        y.1.val < f (cellSite net.nx net.ny q) (m.dirn + 3).val →
      ∑ z : Fin N, projEnt (m.cut (numOps st ω) pk net q).1 x.1 x.2.1 x.2.2 z *
        projEnt (m.cut (numOps st ω) pk net q).2 y.1 y.2.1 y.2.2 z = if x = y then (c : 𝕜) else 0 := by
  obtain ⟨z, p1, p2, hc, hres⟩ := cut_at hw hx hy st ω pk m q hq
  obtain ⟨t, ht, hres⟩ := hres hr (looseCut_at hx hy st ω pk m q hq hl)
  refine ⟨t, ht, ?_⟩
  rw [hc]
  rintro N (hN : z ≤ N) ⟨x, u, u'⟩ ⟨y, v, v'⟩ hx' hy'
  show ∑ i : Fin N, entP p1 x u u' i * entP p2 y v v' i = _
  rw [← sum_fin_le hN (fun i => entP p1 x u u' i * entP p2 y v v' i)
    (fun i hi => by rw [entP_zero p1 _ _ _ _ (.inr hi), zero_mul])]
  have e : ∀ i : Fin z, entP p1 x u u' i * entP p2 y v v' i = p2 ⟨y, hy'⟩ v v' i * p1 ⟨x, hx'⟩ u u' i := by
    intro i
    rw [mul_comm]
    exact congrArg₂ (· * ·) (entP_lt p2 ⟨y, hy'⟩ v v' i) (entP_lt p1 ⟨x, hx'⟩ u u' i)
  rw [sum_congr rfl fun i _ => e i, hres]
  congr 1
  simp only [Fin.mk.injEq, Prod.mk.injEq, eq_iff_iff, Fin.val_inj]
  constructor
  · rintro ⟨rfl, rfl, rfl⟩
    exact ⟨rfl, rfl, rfl⟩
  · rintro ⟨rfl, rfl, rfl⟩
    exact ⟨rfl, rfl, rfl⟩

include hm

theorem cut_le (q : ℤ × ℤ) (hq : m.OnLine (cellSite net.nx net.ny q)) :
    projDim (m.cut (numOps st ω) pk net q).1 ≤ netDim (m.after (numOps st ω) pk net) := by
  have hc : q + dir (m.dirn + 2) + dir m.dirn = q := by
    have := dir_cancel q (m.dirn + 2)
    rwa [(fin4 m.dirn).2.2.2.2.1] at this
  have h := wired_le (wired_after hw hx hy st ω pk m hm) hx hy (q + dir (m.dirn + 2)) (m.dirn + 3)
  change newDim net f st ω pk m (cellSite net.nx net.ny (q + dir (m.dirn + 2))) (m.dirn + 3).val ≤ _ at h
  rwa [newDim_hit st ω pk m hm _ (by rwa [hc]), hc] at h

omit hw in
/-- A move that does not face the rectangle does not change its value. -/
theorem cluster_miss (a : ℤ × ℤ) (w h N : ℕ) (D : ℤ × ℤ → B × B → B × B → B × B → B × B → 𝕜)
    (ha : ¬ m.OnLine (cellSite net.nx net.ny (a + dir m.dirn))) :
    rotFrame m.dirn N (m.after (numOps st ω) pk net) D a w h = rotFrame m.dirn N net D a w h := by
  have hoth : ∀ (p : ℤ × ℤ) (sl : Slot), sl ≠ .C (m.dirn + 3).val → sl ≠ .C m.dirn.val → sl ≠ .E (m.dirn + 3).val →
    (m.after (numOps st ω) pk net).B (cellSite net.nx net.ny p) sl = net.B (cellSite net.nx net.ny p) sl :=
    fun p sl h1 h2 h3 => m.after_other (numOps st ω) pk net hx hy hm p sl h1 h2 h3
  have hcol : ∀ (j : ℤ) (sl : Slot), (m.after (numOps st ω) pk net).B
      (cellSite net.nx net.ny (a + (0 : ℤ) • dir (m.dirn + 2) + j • dir (m.dirn + 1))) sl =
      net.B (cellSite net.nx net.ny (a + (0 : ℤ) • dir (m.dirn + 2) + j • dir (m.dirn + 1))) sl := by
    intro j sl
    refine m.after_miss (numOps st ω) pk net hm _ ?_ sl
    rwa [zero_smul, add_zero, add_right_comm, m.onLine_along]
  have hne : ∀ k : Fin 4, k + 1 ≠ k + 3 ∧ k + 2 ≠ k + 3 ∧ k + 1 ≠ k ∧ k + 2 ≠ k ∧ k ≠ k + 3 := by decide
  obtain ⟨n1, n2, n3, n4, n5⟩ := hne m.dirn
  have v : ∀ {i j : Fin 4}, i ≠ j → i.val ≠ j.val := fun h h' => h (Fin.ext h')
  unfold rotFrame
  dsimp only
  congr 1
  · funext i z z' g
    exact congrArg (fun t => edgeEnt t z z' g.1 g.2) (hoth _ _ (by simp) (by simp) (by simpa using v n5))
  · funext i z z' g
    exact congrArg (fun t => edgeEnt t z z' g.1 g.2) (hoth _ _ (by simp) (by simp) (by simpa using v n1))
  · funext i z z' g
    exact congrArg (fun t => edgeEnt t z z' g.1 g.2) (hoth _ _ (by simp) (by simp) (by simpa using v n2))
  · funext i z z' g
    exact congrArg (fun t => edgeEnt t z z' g.1 g.2) (hcol _ _)
  · funext z z'
    exact congrArg (fun t => cornerEnt t z z') (hcol _ _)
  · funext z z'
    exact congrArg (fun t => cornerEnt t z z') (hoth _ _ (by simpa using v n1) (by simpa using v n3) (by simp))
  · funext z z'
    exact congrArg (fun t => cornerEnt t z z') (hoth _ _ (by simpa using v n2) (by simpa using v n4) (by simp))
  · funext z z'
    exact congrArg (fun t => cornerEnt t z z') (hcol _ _)

/-- A move that faces the rectangle multiplies its value by a positive number and takes in one line more. -/
theorem cluster_hit (a : ℤ × ℤ) (w h N : ℕ) (hN : netDim net ≤ N) (hN' : netDim (m.after (numOps st ω) pk net) ≤ N)
    (ha : m.OnLine (cellSite net.nx net.ny (a + dir m.dirn))) (hr : CutsResolve B st pk) (hl : LooseMove st ω pk net m) :
    ∃ c : ℝ, 0 < c ∧ ∀ D : ℤ × ℤ → B × B → B × B → B × B → B × B → 𝕜,
      (∀ j : Fin h, D (a + dir m.dirn + (j : ℤ) • dir (m.dirn + 1)) =
        siteLayers net (fun _ => none) (a + dir m.dirn + (j : ℤ) • dir (m.dirn + 1))) →
      (rotFrame m.dirn N (m.after (numOps st ω) pk net) D a w h).value =
        c * (rotFrame m.dirn N net D (a + dir m.dirn) (w + 1) h).value := by
  have hoth : ∀ (p : ℤ × ℤ) (sl : Slot), sl ≠ .C (m.dirn + 3).val → sl ≠ .C m.dirn.val → sl ≠ .E (m.dirn + 3).val →
    (m.after (numOps st ω) pk net).B (cellSite net.nx net.ny p) sl = net.B (cellSite net.nx net.ny p) sl :=
    fun p sl h1 h2 h3 => m.after_other (numOps st ω) pk net hx hy hm p sl h1 h2 h3
  have hne : ∀ k : Fin 4, k + 1 ≠ k + 3 ∧ k + 2 ≠ k + 3 ∧ k + 1 ≠ k ∧ k + 2 ≠ k ∧ k ≠ k + 3 := by decide
  obtain ⟨n1, n2, n3, n4, n5⟩ := hne m.dirn
  obtain ⟨i11, i12, i13, i21, i22, i23, i31, i32, i33⟩ := fin4 m.dirn
  have v : ∀ {i j : Fin 4}, i ≠ j → i.val ≠ j.val := fun h h' => h (Fin.ext h')
  -- the absorbed sites
  let Q : ℤ → ℤ × ℤ := fun j => a + dir m.dirn + j • dir (m.dirn + 1)
  have hQ : ∀ j, m.OnLine (cellSite net.nx net.ny (Q j)) := fun j => (m.onLine_along _ j).2 ha
  have hQs : ∀ j, Q j + dir (m.dirn + 1) = Q (j + 1) := by
    intro j
    show a + dir m.dirn + j • dir (m.dirn + 1) + dir (m.dirn + 1) = a + dir m.dirn + (j + 1) • dir (m.dirn + 1)
    rw [add_assoc (a + dir m.dirn), add_smul, one_smul]
  have hpos : ∀ i j : ℤ, a + dir m.dirn + (i + 1) • dir (m.dirn + 2) + j • dir (m.dirn + 1) =
      a + i • dir (m.dirn + 2) + j • dir (m.dirn + 1) := by
    intro i j
    rw [dir_opp]
    module
  have hp0 : ∀ j : ℤ, a + (0 : ℤ) • dir (m.dirn + 2) + j • dir (m.dirn + 1) + dir m.dirn = Q j := by
    intro j
    show _ = a + dir m.dirn + j • dir (m.dirn + 1)
    module
  have hq0 : ∀ j : ℤ, a + dir m.dirn + (0 : ℤ) • dir (m.dirn + 2) + j • dir (m.dirn + 1) = Q j := by
    intro j
    rw [zero_smul, add_zero]
  -- the constants
  have hC3 := (new_lower hw hx hy st ω pk m hm (a + (0 : ℤ) • dir (m.dirn + 2) + (0 : ℤ) • dir (m.dirn + 1))
    (by rw [hp0]; exact hQ _)).2
  have hC0 := (new_upper hw hx hy st ω pk m hm (a + (0 : ℤ) • dir (m.dirn + 2) + ((h : ℤ) - 1) • dir (m.dirn + 1))
    (by rw [hp0]; exact hQ _)).2
  have hE := fun j : Fin h => (new_edge hw hx hy st ω pk m hm (a + (0 : ℤ) • dir (m.dirn + 2) + (j : ℤ) • dir (m.dirn + 1))
    (by rw [hp0]; exact hQ _)).2
  have hc := fun j : Fin (h + 1) => cut_resolving hw hx hy st ω pk m (Q j) (hQ j) hr hl
  choose c hc0 hc using hc
  choose e he0 he using hE
  obtain ⟨k3, hk3, hC3⟩ := hC3
  obtain ⟨k0, hk0, hC0⟩ := hC0
  refine ⟨k3 * (∏ j, e j) * k0 * ∏ j, c j, ?_, ?_⟩
  · exact mul_pos (mul_pos (mul_pos (hk3 hr hl) (prod_pos fun j _ => he0 j hr hl)) (hk0 hr hl)) (prod_pos fun j _ => hc0 j)
  intro D ho
  have habs : Absorbs (rotFrame m.dirn N net D (a + dir m.dirn) (w + 1) h) (rotFrame m.dirn N (m.after (numOps st ω) pk net) D a w h)
      (fun j x z => projEnt (m.cut (numOps st ω) pk net (Q j)).1 x.1 x.2.1 x.2.2 z)
      (fun j x z => projEnt (m.cut (numOps st ω) pk net (Q j)).2 x.1 x.2.1 x.2.2 z) (k0 : 𝕜) (k3 : 𝕜) (fun j => (e j : 𝕜)) := by
    constructor
    · intro i j
      unfold rotFrame
      dsimp only
      rw [Fin.val_succ, Nat.cast_succ, hpos]
    · intro i
      unfold rotFrame
      dsimp only
      rw [Fin.val_succ, Nat.cast_succ, hpos]
      funext z z' g
      exact congrArg (fun t => edgeEnt t z z' g.1 g.2) (hoth _ _ (by simp) (by simp) (by simpa using v n5))
    · funext j z z' g
      unfold rotFrame
      dsimp only
      rw [Nat.cast_succ, add_sub_right_comm, hpos]
      exact congrArg (fun t => edgeEnt t z z' g.1 g.2) (hoth _ _ (by simp) (by simp) (by simpa using v n1))
    · intro i
      unfold rotFrame
      dsimp only
      rw [Fin.val_succ, Nat.cast_succ, hpos]
      funext z z' g
      exact congrArg (fun t => edgeEnt t z z' g.1 g.2) (hoth _ _ (by simp) (by simp) (by simpa using v n2))
    · funext z z'
      unfold rotFrame
      dsimp only
      rw [Nat.cast_succ, add_sub_right_comm, hpos]
      exact congrArg (fun t => cornerEnt t z z') (hoth _ _ (by simpa using v n1) (by simpa using v n3) (by simp))
    · funext z z'
      unfold rotFrame
      dsimp only
      rw [Nat.cast_succ, add_sub_right_comm, hpos]
      exact congrArg (fun t => cornerEnt t z z') (hoth _ _ (by simpa using v n2) (by simpa using v n4) (by simp))
    · intro j z z' g
      have := he j N hN z z' g
      rw [hp0, hQs] at this
      refine this.trans ?_
      unfold rotFrame
      dsimp only
      rw [Fin.val_zero, Nat.cast_zero, hq0, ho j, siteLayers, turnLayer_layer]
      rfl
    · intro z t
      have := hC0 N hN z t
      rw [hp0, hQs, sub_add_cancel] at this
      refine this.trans ?_
      unfold rotFrame
      dsimp only
      rw [Fin.val_zero, Nat.cast_zero, hq0, Fin.val_last]
    · intro b z
      have := hC3 N hN b z
      rw [hp0] at this
      refine this.trans ?_
      unfold rotFrame
      dsimp only
      rw [Fin.val_zero, Nat.cast_zero, hq0, Fin.val_zero, Nat.cast_zero]
  have hsup : LeftSupport (rotFrame m.dirn N net D (a + dir m.dirn) (w + 1) h)
      (fun j x => x.val < f (cellSite net.nx net.ny (Q j)) (m.dirn + 3).val) := by
    have edge := fun j : ℤ => wired_edge hw hx hy (Q j) (Q (j + 1)) (m.dirn + 3) (by rw [i32, hQs])
    constructor
    · intro j x y g hS
      unfold rotFrame
      dsimp only
      rw [hq0]
      obtain ⟨e, he⟩ := edge j
      rw [he]
      exact ent4_zero _ _ _ _ _ (.inl (by simpa using hS))
    · intro j x y g hS
      unfold rotFrame
      dsimp only
      rw [hq0]
      obtain ⟨e, he⟩ := edge j
      rw [he]
      exact ent4_zero _ _ _ _ _ (.inr (by simpa using hS))
    · intro x t hS
      unfold rotFrame
      dsimp only
      rw [hq0]
      obtain ⟨c, hc⟩ := wired_corner hw hx hy (Q ((h : ℤ) - 1)) (Q h) m.dirn _ (by rw [hQs, sub_add_cancel]) rfl
      rw [hc]
      exact ent2_zero _ _ _ (.inl (by simpa using hS))
    · intro b x hS
      unfold rotFrame
      dsimp only
      rw [hq0]
      obtain ⟨c, hc⟩ := wired_corner hw hx hy (Q 0) _ (m.dirn + 3) _ rfl rfl
      rw [hc]
      exact ent2_zero _ _ _ (.inr (by simpa using hS))
  have hres : Resolving h (fun (j : Fin (h + 1)) (x : Fin N × (B × B)) (z : Fin N) =>
        projEnt (m.cut (numOps st ω) pk net (Q j)).1 x.1 x.2.1 x.2.2 z)
      (fun j x z => projEnt (m.cut (numOps st ω) pk net (Q j)).2 x.1 x.2.1 x.2.2 z)
      (fun j x => x.1.val < f (cellSite net.nx net.ny (Q j)) (m.dirn + 3).val) (fun j => (c j : 𝕜)) := by
    intro j x y hS hS'
    exact hc j N (le_trans (cut_le hw hx hy st ω pk m hm (Q j) (hQ j)) hN') x y hS hS'
  rw [habs.value hsup hres]
  push_cast
  rfl

end AceTN
