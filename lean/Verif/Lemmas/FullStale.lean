import Verif.Lemmas.LinkMove

/-!
A bond update leaves two edge tensors behind that still belong to the old basis of the bond.  The two moves that absorb the bond do
not read them before they write them.
-/

set_option autoImplicit false
set_option linter.unusedSectionVars false

namespace AceTN

open Spec

section geometry

variable {nx ny : ℕ}

/-- The line of a move and the one next to it are different. -/
theorem Move.onLine_next (hx : 2 ≤ nx) (hy : 2 ≤ ny) (m : Move) (p : ℤ × ℤ) (h : m.OnLine (cellSite nx ny p)) :
    ¬ m.OnLine (cellSite nx ny (p + dir m.dirn)) := by
  have key : ∀ (n : ℕ) (a c : ℤ), 2 ≤ n → (c = 1 ∨ c = -1) → (a % n).toNat ≠ ((a + c) % n).toNat := by
    intro n a c hn hc e
    have h1 := Int.emod_nonneg a (show (n : ℤ) ≠ 0 by omega)
    have h2 := Int.emod_nonneg (a + c) (show (n : ℤ) ≠ 0 by omega)
    have e : a % n = (a + c) % n := by omega
    have h4 : (n : ℤ) ∣ (a + c) - a := Int.ModEq.dvd e
    rw [add_sub_cancel_left] at h4
    rcases hc with rfl | rfl
    · have := Int.le_of_dvd one_pos h4
      omega
    · have := Int.le_of_dvd one_pos ((dvd_neg.2 h4).trans (by simp))
      omega
  cases m with
  | left x =>
    simp only [Move.OnLine, Move.src, Move.idx, cellSite, dir, Move.dirn, Prod.mk.injEq, and_true, Prod.fst_add] at h ⊢
    rw [h]
    exact key nx _ _ hx (Or.inr rfl)
  | up y =>
    simp only [Move.OnLine, Move.src, Move.idx, cellSite, dir, Move.dirn, Prod.mk.injEq, true_and, Prod.snd_add] at h ⊢
    rw [h]
    exact key ny _ _ hy (Or.inl rfl)
  | right x =>
    simp only [Move.OnLine, Move.src, Move.idx, cellSite, dir, Move.dirn, Prod.mk.injEq, and_true, Prod.fst_add] at h ⊢
    rw [h]
    exact key nx _ _ hx (Or.inl rfl)
  | down y =>
    simp only [Move.OnLine, Move.src, Move.idx, cellSite, dir, Move.dirn, Prod.mk.injEq, true_and, Prod.snd_add] at h ⊢
    rw [h]
    exact key ny _ _ hy (Or.inr rfl)

end geometry

section frame

variable {T : Type} {net net' : Net T}

/-- Two networks that agree but for edges of the line of a move that are turned away from its direction (if `Y` holds), and those of
the next line that the move writes. -/
structure SameBut (m : Move) (Y : Prop) (net net' : Net T) : Prop where
  nx : net'.nx = net.nx
  ny : net'.ny = net.ny
  chi : net'.chi = net.chi
  A : net'.A = net.A
  B : ∀ p sl, net'.B (cellSite net.nx net.ny p) sl = net.B (cellSite net.nx net.ny p) sl ∨
    (Y ∧ m.OnLine (cellSite net.nx net.ny p) ∧ sl = .E (m.dirn + 1).val) ∨
    (m.OnLine (cellSite net.nx net.ny (p + dir m.dirn)) ∧ sl = .E (m.dirn + 3).val)

variable {m : Move} {Y : Prop} (h : SameBut m Y net net') (hx : 2 ≤ net.nx) (hy : 2 ≤ net.ny)

include h hx hy

theorem SameBut.on (p : ℤ × ℤ) (hp : m.OnLine (cellSite net.nx net.ny p)) (sl : Slot) (hs : sl ≠ .E (m.dirn + 1).val) :
    net'.B (cellSite net.nx net.ny p) sl = net.B (cellSite net.nx net.ny p) sl := by
  rcases h.B p sl with e | ⟨-, -, e⟩ | ⟨e, -⟩
  · exact e
  · exact absurd e hs
  · exact absurd e (m.onLine_next hx hy p hp)

theorem SameBut.next (p : ℤ × ℤ) (hp : m.OnLine (cellSite net.nx net.ny (p + dir m.dirn))) (sl : Slot) (hs : sl ≠ .E (m.dirn + 3).val) :
    net'.B (cellSite net.nx net.ny p) sl = net.B (cellSite net.nx net.ny p) sl := by
  rcases h.B p sl with e | ⟨-, e, -⟩ | ⟨-, e⟩
  · exact e
  · exact absurd hp (m.onLine_next hx hy p e)
  · exact absurd e hs

/-- The quarters that a cut reads. -/
theorem SameBut.quarters (o : Ops T) (q : ℤ × ℤ) (hq : m.OnLine (cellSite net.nx net.ny q)) :
    quarterTensor o net' (cellSite net.nx net.ny q) m.dirn.val = quarterTensor o net (cellSite net.nx net.ny q) m.dirn.val ∧
    quarterTensor o net' (cellSite net.nx net.ny (q + dir (m.dirn + 2))) (m.dirn.val + 1) =
      quarterTensor o net (cellSite net.nx net.ny (q + dir (m.dirn + 2))) (m.dirn.val + 1) ∧
    quarterTensor o net' (cellSite net.nx net.ny (q + dir (m.dirn + 2) + dir (m.dirn + 3))) (m.dirn.val + 2) =
      quarterTensor o net (cellSite net.nx net.ny (q + dir (m.dirn + 2) + dir (m.dirn + 3))) (m.dirn.val + 2) ∧
    quarterTensor o net' (cellSite net.nx net.ny (q + dir (m.dirn + 3))) (m.dirn.val + 3) =
      quarterTensor o net (cellSite net.nx net.ny (q + dir (m.dirn + 3))) (m.dirn.val + 3) := by
  have c1 : q + dir (m.dirn + 2) + dir m.dirn = q := by rw [dir_opp]; abel
  have al : ∀ p, m.OnLine (cellSite net.nx net.ny p) → m.OnLine (cellSite net.nx net.ny (p + dir (m.dirn + 3))) := by
    intro p hp
    have := (m.onLine_along (nx := net.nx) (ny := net.ny) p (-1)).2 hp
    rwa [neg_one_smul, ← dir_opp, show m.dirn + 1 + 2 = m.dirn + 3 from by rw [add_assoc]; rfl] at this
  have h3 := al q hq
  have c2 : q + dir (m.dirn + 2) + dir (m.dirn + 3) + dir m.dirn = q + dir (m.dirn + 3) := by rw [dir_opp]; abel
  have v : ∀ k : Fin 4, (0 + k.val) % 4 = k.val ∧ (3 + k.val) % 4 = (k + 3).val ∧ (0 + (k.val + 1)) % 4 = (k + 1).val ∧
      (3 + (k.val + 1)) % 4 = k.val ∧ (0 + (k.val + 2)) % 4 = (k + 2).val ∧ (3 + (k.val + 2)) % 4 = (k + 1).val ∧
      (0 + (k.val + 3)) % 4 = (k + 3).val ∧ (3 + (k.val + 3)) % 4 = (k + 2).val := by decide
  have ne : ∀ k : Fin 4, Slot.E k.val ≠ .E (k + 1).val ∧ Slot.E (k + 3).val ≠ .E (k + 1).val ∧ Slot.E (k + 2).val ≠ .E (k + 1).val ∧
      Slot.E k.val ≠ .E (k + 3).val ∧ Slot.E (k + 1).val ≠ .E (k + 3).val ∧ Slot.E (k + 2).val ≠ .E (k + 3).val := by decide
  obtain ⟨v1, v2, v3, v4, v5, v6, v7, v8⟩ := v m.dirn
  obtain ⟨n1, n2, n3, n4, n5, n6⟩ := ne m.dirn
  unfold quarterTensor
  rw [h.A, v1, v2, v3, v4, v5, v6, v7, v8]
  have on := h.on hx hy
  have nx := h.next hx hy
  refine ⟨?_, ?_, ?_, ?_⟩
  · rw [on q hq _ (by simp), on q hq _ n1, on q hq _ n2]
  · have hp : m.OnLine (cellSite net.nx net.ny (q + dir (m.dirn + 2) + dir m.dirn)) := by rwa [c1]
    rw [nx _ hp _ (by simp), nx _ hp _ n4, nx _ hp _ n5]
  · have hp : m.OnLine (cellSite net.nx net.ny (q + dir (m.dirn + 2) + dir (m.dirn + 3) + dir m.dirn)) := by rwa [c2]
    rw [nx _ hp _ (by simp), nx _ hp _ n5, nx _ hp _ n6]
  · rw [on _ h3 _ (by simp), on _ h3 _ n2, on _ h3 _ n3]

theorem SameBut.cut (o : Ops T) (pk : ProjKind) (q : ℤ × ℤ) (hq : m.OnLine (cellSite net.nx net.ny q)) :
    m.cut o pk net' q = m.cut o pk net q := by
  obtain ⟨e1, e2, e3, e4⟩ := h.quarters hx hy o q hq
  unfold Move.cut
  rw [h.nx, h.ny, m.proj_idx (by omega) (by omega) o pk net' h.nx h.ny q hq, m.proj_idx (by omega) (by omega) o pk net rfl rfl q hq]
  unfold calcProjectors
  rw [e1, e2, e3, e4, h.chi]

/-- The edges of the next line are overwritten, those of the line are left alone. -/
theorem SameBut.after (o : Ops T) (pk : ProjKind) (hm : m.Valid net.nx net.ny) (p : ℤ × ℤ) (sl : Slot) :
    (m.after o pk net').B (cellSite net.nx net.ny p) sl = (m.after o pk net).B (cellSite net.nx net.ny p) sl ∨
    (Y ∧ m.OnLine (cellSite net.nx net.ny p) ∧ sl = .E (m.dirn + 1).val) := by
  have hx0 : 0 < net.nx := by omega
  have hy0 : 0 < net.ny := by omega
  have ah' := m.after_hit o pk net' (by rw [h.nx]; exact hx0) (by rw [h.ny]; exact hy0) (by rw [h.nx, h.ny]; exact hm)
  have am' := m.after_miss o pk net' (by rw [h.nx, h.ny]; exact hm)
  rw [h.nx, h.ny] at ah' am'
  have ne : ∀ k : Fin 4, Slot.E k.val ≠ .E (k + 1).val ∧ Slot.E (k + 3).val ≠ .E (k + 1).val ∧ Slot.E (k + 2).val ≠ .E (k + 1).val := by decide
  obtain ⟨n1, n2, n3⟩ := ne m.dirn
  by_cases hp : m.OnLine (cellSite net.nx net.ny (p + dir m.dirn))
  · left
    rw [m.after_hit o pk net hx0 hy0 hm p hp, ah' p hp]
    have hp' : m.OnLine (cellSite net.nx net.ny (p + dir m.dirn + dir (m.dirn + 1))) := by
      have := (m.onLine_along (nx := net.nx) (ny := net.ny) (p + dir m.dirn) 1).2 hp
      rwa [one_smul] at this
    have on := h.on hx hy _ hp
    rw [h.cut hx hy o pk _ hp, h.cut hx hy o pk _ hp', h.A, on _ (by simp : Slot.C (m.dirn + 3).val ≠ _), on _ n3,
      on _ (by simp : Slot.C m.dirn.val ≠ _), on _ n1, on _ n2]
    by_cases hs : sl = .E (m.dirn + 3).val
    · subst hs
      simp
    · rw [h.next hx hy p hp sl hs]
  · rw [m.after_miss o pk net hm p hp, am' p hp]
    rcases h.B p sl with e | e | ⟨e, -⟩
    · exact Or.inl e
    · exact Or.inr e
    · exact absurd e hp

end frame

section svd

variable {𝕜 : Type} [RCLike 𝕜] {B P : Type} [Fintype B] [Fintype P] [DecidableEq B] {net net' : Net (Ten B P 𝕜)}

/-- The random draws are as good for the one network as for the other. -/
theorem SameBut.svdMove {m : Move} {Y : Prop} (h : SameBut m Y net net') (hx : 2 ≤ net.nx) (hy : 2 ≤ net.ny) (st : ProjSettings 𝕜)
    (ω : Draws B 𝕜) (pk : ProjKind) (hf : SvdMove st ω pk net m) : SvdMove st ω pk net' m := by
  have hx0 : 0 < net.nx := by omega
  have hy0 : 0 < net.ny := by omega
  obtain ⟨v0, v1, v2, v3⟩ := fin4_val m.dirn
  intro s hs ha
  rw [h.nx, h.ny] at hs
  have e := cellSite_self _ _ s hs
  have hq := (absorbed_iff m s).1 ha
  rw [← e] at hq
  have hc := svdCut_at st ω pk m hx0 hy0 _ hq hf
  obtain ⟨e1, e2, e3, e4⟩ := h.quarters hx hy (numOps st ω) _ hq
  rw [h.nx, h.ny, ← e, moveDir_eq, v2, v3, neighbour_cellSite _ _ hx0 hy0, neighbour_cellSite _ _ hx0 hy0, neighbour_cellSite _ _ hx0 hy0]
  unfold SvdCut at hc ⊢
  rw [e1, e2, e3, e4, h.chi]
  exact hc

end svd

end AceTN
