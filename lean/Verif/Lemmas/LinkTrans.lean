import Verif.Lemmas.LinkFresh
import Verif.Lemmas.SvdPad

/-!
Networks that are the same up to unitaries on the boundary bonds: the relation is transitive, and runs can be split.
-/

set_option autoImplicit false
set_option linter.unusedSectionVars false

namespace AceTN

open Matrix Spec Finset SumTac

variable {𝕜 : Type} [RCLike 𝕜]

theorem unit2_mul {l m n : Type} [Fintype l] [Fintype m] [Fintype n] [DecidableEq l] [DecidableEq m] [DecidableEq n] {K : Matrix l m 𝕜}
    {J : Matrix m n 𝕜} (hK : Unit2 K) (hJ : Unit2 J) : Unit2 (K * J) where
  left := by
    rw [conjTranspose_mul, show Jᴴ * Kᴴ * (K * J) = Jᴴ * (Kᴴ * K) * J by simp only [Matrix.mul_assoc], hK.left, Matrix.mul_one, hJ.left]
  right := by
    rw [conjTranspose_mul, show K * J * (Jᴴ * Kᴴ) = K * (J * Jᴴ) * Kᴴ by simp only [Matrix.mul_assoc], hJ.right, Matrix.mul_one, hK.right]

/-- Two changes of one bond after each other. -/
noncomputable def linkComp (a b : Link 𝕜) : Link 𝕜 :=
  if h : a.m' = b.m then ⟨a.m, b.m', b.J * (h ▸ a.J), unit2_mul b.unit (by
    obtain ⟨m, m', J, hJ⟩ := a
    dsimp only at h
    subst h
    exact hJ)⟩ else a

theorem linkComp_mk {m m' m'' : ℕ} (J : Matrix (Fin m') (Fin m) 𝕜) (K : Matrix (Fin m'') (Fin m') 𝕜) (hJ : Unit2 J) (hK : Unit2 K) :
    linkComp ⟨m, m', J, hJ⟩ ⟨m', m'', K, hK⟩ = ⟨m, m'', K * J, unit2_mul hK hJ⟩ := dif_pos rfl

section trans

variable {B P : Type} [Fintype B] [Fintype P]

omit [Fintype B] [Fintype P] in
theorem bond_shift {X X' Y Y' : Type} [Fintype X] [Fintype X'] [Fintype Y] [Fintype Y'] (J : X' → X → 𝕜) (K : X' → 𝕜) (J' : Y' → Y → 𝕜)
    (K' : Y' → 𝕜) (c : X → Y → 𝕜) (s t : 𝕜) :
    s * ∑ x, ∑ y, K x * K' y * (t * ∑ x', ∑ y', J x x' * J' y y' * c x' y') =
      s * t * ∑ x, ∑ y, (∑ x', K x' * J x' x) * (∑ y', K' y' * J' y' y) * c x y := by
  einsum_ring

omit [Fintype B] [Fintype P] in
theorem corner_shift {m1 m1' m1'' m2 m2' m2'' : ℕ} (J : Matrix (Fin m1') (Fin m1) 𝕜) (K : Matrix (Fin m1'') (Fin m1') 𝕜)
    (J' : Matrix (Fin m2') (Fin m2) 𝕜) (K' : Matrix (Fin m2'') (Fin m2') 𝕜) (c : Fin m1 → Fin m2 → 𝕜) (s t : 𝕜) (i : Fin m1'') (j : Fin m2'') :
    s * ∑ x, ∑ y, star (K i x) * K' j y * (t * ∑ x', ∑ y', star (J x x') * J' y y' * c x' y') =
      s * t * ∑ x, ∑ y, star ((K * J) i x) * (K' * J') j y * c x y := by
  simp only [mul_apply, star_sum, star_mul']
  exact bond_shift (fun x x' => star (J x x')) (fun x => star (K i x)) J' (K' j) c s t

theorem cornerRel_trans {a b a2 b2 : Link 𝕜} {T T' T'' : Ten B P 𝕜} (h : CornerRel (ScalarMap.id 𝕜) a b T T')
    (h2 : CornerRel (ScalarMap.id 𝕜) a2 b2 T' T'') : CornerRel (ScalarMap.id 𝕜) (linkComp a a2) (linkComp b b2) T T'' := by
  obtain ⟨m1, m1', J, hJ⟩ := a
  obtain ⟨m2, m2', J', hJ'⟩ := b
  obtain ⟨n1, m1'', K, hK⟩ := a2
  obtain ⟨n2, m2'', K', hK'⟩ := b2
  obtain ⟨c, c', t, rfl, rfl, ht, e⟩ := h
  obtain ⟨d, d', s, hd, rfl, hs, e2⟩ := h2
  dsimp only at *
  injection hd with h1 h2 h3
  subst h1 h2
  cases h3
  rw [linkComp_mk, linkComp_mk]
  refine ⟨c, d', s * t, rfl, rfl, mul_pos hs ht, fun i j => ?_⟩
  rw [e2]
  dsimp only [ScalarMap.id, RingHom.id_apply] at e ⊢
  simp only [e, RCLike.ofReal_mul]
  exact corner_shift J K J' K' c s t i j

variable [DecidableEq B]

theorem edgeRel_trans {a b a2 b2 : Link 𝕜} {T T' T'' : Ten B P 𝕜} (h : EdgeRel (ScalarMap.id 𝕜) a b 1 T T')
    (h2 : EdgeRel (ScalarMap.id 𝕜) a2 b2 1 T' T'') : EdgeRel (ScalarMap.id 𝕜) (linkComp a a2) (linkComp b b2) 1 T T'' := by
  obtain ⟨m1, m1', J, hJ⟩ := a
  obtain ⟨m2, m2', J', hJ'⟩ := b
  obtain ⟨n1, m1'', K, hK⟩ := a2
  obtain ⟨n2, m2'', K', hK'⟩ := b2
  obtain ⟨c, c', t, rfl, rfl, ht, e⟩ := h
  obtain ⟨d, d', s, hd, rfl, hs, e2⟩ := h2
  dsimp only at *
  injection hd with h1 h2 h3
  subst h1 h2
  cases h3
  rw [linkComp_mk, linkComp_mk]
  refine ⟨c, d', s * t, rfl, rfl, mul_pos hs ht, fun i j g => ?_⟩
  rw [e2]
  dsimp only [ScalarMap.id, RingHom.id_apply] at e ⊢
  simp only [one_star] at e ⊢
  simp only [one_apply, mul_ite, ite_mul, mul_one, mul_zero, zero_mul, sum_ite_eq, mem_univ, if_true] at e ⊢
  simp only [e, RCLike.ofReal_mul]
  exact corner_shift J K J' K' (fun x y => c x y g.1 g.2) s t i j

variable [DecidableEq P]

theorem siteRel_trans {T T' T'' : Ten B P 𝕜} (h : SiteRel (ScalarMap.id 𝕜) 1 (fun _ => 1) T T')
    (h2 : SiteRel (ScalarMap.id 𝕜) 1 (fun _ => 1) T' T'') : SiteRel (ScalarMap.id 𝕜) 1 (fun _ => 1) T T'' := by
  obtain ⟨a, a', t, rfl, rfl, ht, e⟩ := h
  obtain ⟨b, b', s, hb, rfl, hs, e2⟩ := h2
  cases hb
  refine ⟨a, b', s * t, rfl, rfl, mul_pos hs ht, fun o l u r d => ?_⟩
  rw [e2]
  dsimp only [ScalarMap.id, RingHom.id_apply] at e ⊢
  simp only [one_apply, ite_mul, mul_ite, one_mul, mul_one, zero_mul, mul_zero, sum_ite_eq, mem_univ, if_true] at e ⊢
  rw [e, RCLike.ofReal_mul, mul_assoc]

/-- Networks that are the same as a third one. -/
theorem related_trans {ℓ ℓ' : ℤ × ℤ → Fin 4 → Link 𝕜} {net net' net'' : Net (Ten B P 𝕜)}
    (h : Related (ScalarMap.id 𝕜) (fun _ => 1) (fun _ _ => 1) ℓ net net')
    (h' : Related (ScalarMap.id 𝕜) (fun _ => 1) (fun _ _ => 1) ℓ' net' net'') :
    Related (ScalarMap.id 𝕜) (fun _ => 1) (fun _ _ => 1) (fun p k => linkComp (ℓ p k) (ℓ' p k)) net net'' where
  nx := h'.nx.trans h.nx
  ny := h'.ny.trans h.ny
  chi := h'.chi.trans h.chi
  trace := h.trace
  unit := h.unit
  bond := h.bond
  site p := by
    have := h'.site p
    rw [h.nx, h.ny] at this
    exact siteRel_trans (h.site p) this
  corner p k := by
    have := h'.corner p k
    rw [h.nx, h.ny] at this
    exact cornerRel_trans (h.corner p k) this
  edge p k := by
    have := h'.edge p k
    rw [h.nx, h.ny] at this
    exact edgeRel_trans (h.edge p k) this

omit [DecidableEq P]

theorem svdRun_append (st : ProjSettings 𝕜) (pk : ProjKind) (ω : ℕ → Draws B 𝕜) (ms ms' : List Move) (t : ℕ) (net : Net (Ten B P 𝕜))
    (h : SvdRun st pk ω t (ms ++ ms') net) : SvdRun st pk ω t ms net ∧
      ∀ net', runDrawn st pk ω t ms net = .ok net' → SvdRun st pk ω (t + ms.length) ms' net' := by
  induction ms generalizing t net with
  | nil =>
    refine ⟨trivial, fun net' e => ?_⟩
    cases e
    exact h
  | cons m ms ih =>
    have h2 := ih (t + 1) _ (h.2 _ (m.run_eq _ _ _))
    refine ⟨⟨h.1, fun net' e => ?_⟩, fun net' e => ?_⟩
    · rw [m.run_eq] at e
      cases e
      exact h2.1
    · simp only [runDrawn, Move.run_eq, bind, Except.bind] at e
      rw [List.length_cons, show t + (ms.length + 1) = t + 1 + ms.length by omega]
      exact h2.2 _ e

theorem dropRun_prefix (st : ProjSettings 𝕜) (pk : ProjKind) (ω : ℕ → Draws B 𝕜) (ms ms' : List Move) (t : ℕ) (net : Net (Ten B P 𝕜))
    (h : DropRun st pk ω t (ms ++ ms') net) : DropRun st pk ω t ms net := by
  induction ms generalizing t net with
  | nil => trivial
  | cons m ms ih => exact ⟨h.1, fun net' e => ih (t + 1) net' (h.2 net' e)⟩

end trans

end AceTN
