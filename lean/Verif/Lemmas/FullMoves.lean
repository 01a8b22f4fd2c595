import Verif.Lemmas.FullStale
import Verif.Lemmas.FullBond

/-!
The two moves that absorb an updated bond, in two equivalent networks.
-/

set_option autoImplicit false
set_option linter.unusedSectionVars false

namespace AceTN

open Matrix Spec Finset SumTac

variable {𝕜 : Type} [RCLike 𝕜] {B P : Type} [Fintype B] [Fintype P] [DecidableEq B]

/-! ### Normalised boundaries -/

section normal

theorem tenSq_corner {m n : ℕ} (c : Fin m → Fin n → 𝕜) : tenSq (B := B) (P := P) (.corner m n (normalise2 c)) = 0 ∨
    tenSq (B := B) (P := P) (.corner m n (normalise2 c)) = 1 := by
  have e : tenSq (B := B) (P := P) (.corner m n (normalise2 c)) = (∑ i, ∑ j, ‖c i j‖ ^ 2) / (∑ i, ∑ j, ‖c i j‖ ^ 2) := by
    show ∑ i, ∑ j, ‖c i j / (norm2 c : 𝕜)‖ ^ 2 = _
    simp only [norm_div, div_pow, RCLike.norm_ofReal, sq_abs, ← sum_div]
    congr 1
    exact Real.sq_sqrt (sum_nonneg fun _ _ => sum_nonneg fun _ _ => sq_nonneg _)
  rw [e]
  by_cases h : (∑ i, ∑ j, ‖c i j‖ ^ 2) = 0
  · exact Or.inl (by rw [h, div_zero])
  · exact Or.inr (div_self h)

theorem tenSq_edge {m n : ℕ} (e : Fin m → Fin n → B → B → 𝕜) : tenSq (B := B) (P := P) (.edge m n (normalise4 e)) = 0 ∨
    tenSq (B := B) (P := P) (.edge m n (normalise4 e)) = 1 := by
  have h : tenSq (B := B) (P := P) (.edge m n (normalise4 e)) = (∑ i, ∑ j, ∑ g, ∑ h, ‖e i j g h‖ ^ 2) / (∑ i, ∑ j, ∑ g, ∑ h, ‖e i j g h‖ ^ 2) := by
    show ∑ i, ∑ j, ∑ g, ∑ h, ‖e i j g h / (norm4 e : 𝕜)‖ ^ 2 = _
    simp only [norm_div, div_pow, RCLike.norm_ofReal, sq_abs, ← sum_div]
    congr 1
    exact Real.sq_sqrt (sum_nonneg fun _ _ => sum_nonneg fun _ _ => sum_nonneg fun _ _ => sum_nonneg fun _ _ => sq_nonneg _)
  rw [h]
  by_cases h : (∑ i, ∑ j, ∑ g, ∑ h, ‖e i j g h‖ ^ 2) = 0
  · exact Or.inl (by rw [h, div_zero])
  · exact Or.inr (div_self h)

theorem normal_cj1 (st : ProjSettings 𝕜) (ω : Draws B 𝕜) (c e p : Ten B P 𝕜) :
    tenSq ((numOps st ω).cj1 c e p) = 0 ∨ tenSq ((numOps st ω).cj1 c e p) = 1 := by
  have hb : tenSq (Ten.bad : Ten B P 𝕜) = 0 ∨ tenSq (Ten.bad : Ten B P 𝕜) = 1 := Or.inl rfl
  cases c <;> try exact hb
  cases e <;> try exact hb
  cases p <;> try exact hb
  simp only [numOps]
  split_ifs
  · exact tenSq_corner _
  · exact hb

theorem normal_cj2 (st : ProjSettings 𝕜) (ω : Draws B 𝕜) (c e p : Ten B P 𝕜) :
    tenSq ((numOps st ω).cj2 c e p) = 0 ∨ tenSq ((numOps st ω).cj2 c e p) = 1 := by
  have hb : tenSq (Ten.bad : Ten B P 𝕜) = 0 ∨ tenSq (Ten.bad : Ten B P 𝕜) = 1 := Or.inl rfl
  cases c <;> try exact hb
  cases e <;> try exact hb
  cases p <;> try exact hb
  simp only [numOps]
  split_ifs
  · exact tenSq_corner _
  · exact hb

theorem normal_ej (st : ProjSettings 𝕜) (ω : Draws B 𝕜) (e a p q : Ten B P 𝕜) :
    tenSq ((numOps st ω).ej e a p q) = 0 ∨ tenSq ((numOps st ω).ej e a p q) = 1 := by
  have hb : tenSq (Ten.bad : Ten B P 𝕜) = 0 ∨ tenSq (Ten.bad : Ten B P 𝕜) = 1 := Or.inl rfl
  cases e <;> try exact hb
  cases a <;> try exact hb
  cases p <;> try exact hb
  cases q <;> try exact hb
  simp only [numOps]
  split_ifs
  · exact tenSq_edge _
  · exact hb

/-- Every move leaves normalised boundaries. -/
theorem NormalNet_after {net : Net (Ten B P 𝕜)} (h : NormalNet net) (st : ProjSettings 𝕜) (ω : Draws B 𝕜) (pk : ProjKind) (m : Move) :
    NormalNet (m.after (numOps st ω) pk net) := by
  intro s sl
  by_cases hs : ∃ i < m.n net.nx net.ny, m.tgt net.nx net.ny i = s
  · obtain ⟨i, hi, rfl⟩ := hs
    rw [m.after_B_mem _ pk net hi sl]
    unfold newB
    split_ifs
    · exact normal_cj1 _ _ _ _ _
    · exact normal_cj2 _ _ _ _ _
    · exact normal_ej _ _ _ _ _ _
    · exact h _ _
  · push Not at hs
    rw [m.after_B_ne _ pk net hs sl]
    exact h _ _

/-- Fresh boundaries are normalised. -/
theorem NormalNet_fresh {D : ℕ} (nx ny chi : ℕ) (A : Site → ATensor (Fin D) P 𝕜) : NormalNet (freshNet nx ny chi A) := by
  intro s sl
  cases sl with
  | C k =>
    have e : ∀ c : Fin D × Fin D → Fin D × Fin D → 𝕜, (fun i j : Fin (D * D) => normalise2 c (finProdFinEquiv.symm i) (finProdFinEquiv.symm j)) =
        normalise2 fun i j => c (finProdFinEquiv.symm i) (finProdFinEquiv.symm j) := by
      intro c
      have : norm2 c = norm2 fun i j => c (finProdFinEquiv.symm i) (finProdFinEquiv.symm j) := by
        unfold norm2
        congr 1
        rw [← finProdFinEquiv.symm.sum_comp]
        exact sum_congr rfl fun i _ => (finProdFinEquiv.symm.sum_comp fun j => ‖c _ j‖ ^ 2).symm
      funext i j
      unfold normalise2
      rw [this]
    obtain ⟨c, hc⟩ : ∃ c, initialCorner (A s) (k : ℤ) = normalise2 c := ⟨_, rfl⟩
    have hT : (freshNet nx ny chi A).B s (.C k) = Ten.corner (D * D) (D * D) (normalise2 _) :=
      congrArg (Ten.corner _ _) (Eq.trans (congrArg (fun f => fun i j => f (finProdFinEquiv.symm i) (finProdFinEquiv.symm j)) hc) (e c))
    rw [hT]
    exact tenSq_corner _
  | E k =>
    have e : ∀ c : Fin D × Fin D → Fin D × Fin D → Fin D → Fin D → 𝕜,
        (fun i j : Fin (D * D) => normalise4 c (finProdFinEquiv.symm i) (finProdFinEquiv.symm j)) =
        normalise4 fun i j => c (finProdFinEquiv.symm i) (finProdFinEquiv.symm j) := by
      intro c
      have : norm4 c = norm4 fun i j => c (finProdFinEquiv.symm i) (finProdFinEquiv.symm j) := by
        unfold norm4
        congr 1
        rw [← finProdFinEquiv.symm.sum_comp]
        exact sum_congr rfl fun i _ => (finProdFinEquiv.symm.sum_comp fun j => ∑ g, ∑ h, ‖c _ j g h‖ ^ 2).symm
      funext i j
      unfold normalise4
      rw [this]
    obtain ⟨c, hc⟩ : ∃ c, initialEdge (A s) (k : ℤ) = normalise4 c := ⟨_, rfl⟩
    have hT : (freshNet nx ny chi A).B s (.E k) = Ten.edge (D * D) (D * D) (normalise4 _) :=
      congrArg (Ten.edge _ _) (Eq.trans (congrArg (fun f => fun i j => f (finProdFinEquiv.symm i) (finProdFinEquiv.symm j)) hc) (e c))
    rw [hT]
    exact tenSq_edge _

end normal

/-! ### Edges that still belong to the old basis -/

section turn

/-- An edge tensor in another basis of the site it is connected to. -/
def turnEdge (M : Matrix (B × B) (B × B) 𝕜) : Ten B P 𝕜 → Ten B P 𝕜
  | .edge m n e => .edge m n fun i j a b => ∑ h, star (M (a, b) h) * e i j h.1 h.2
  | t => t

theorem turnEdge_one (T : Ten B P 𝕜) : turnEdge 1 T = T := by
  cases T with
  | edge m n e =>
    show Ten.edge m n _ = _
    congr 1
    funext i j a b
    simp [one_apply, apply_ite star]
  | _ => rfl

theorem sum_pull {H X Y : Type} [Fintype H] [Fintype X] [Fintype Y] (K : X → 𝕜) (Γ₁ : H → X → 𝕜) (Γ₂ : H → Y → 𝕜) (F : Y → 𝕜) :
    ∑ h, (∑ x, K x * Γ₁ h x) * ∑ y, Γ₂ h y * F y = ∑ x, ∑ y, (∑ h, Γ₁ h x * Γ₂ h y) * (K x * F y) := by
  einsum_ring

theorem edgeRel_turn {σ : ScalarMap 𝕜} {a b : Link 𝕜} {Γ Γ' : Matrix (B × B) (B × B) 𝕜} (hΓ : Unit2 Γ) {T T' : Ten B P 𝕜}
    (h : EdgeRel σ a b Γ T T') : EdgeRel σ a b Γ' T (turnEdge (Γ' * Γᴴ) T') := by
  obtain ⟨e, e', t, rfl, rfl, ht, hv⟩ := h
  refine ⟨e, _, t, rfl, rfl, ht, fun i j g => ?_⟩
  show ∑ h, star ((Γ' * Γᴴ) (g.1, g.2) h) * e' i j h.1 h.2 = _
  simp only [hv]
  have hl : ∀ x y, ∑ h, Γ h x * star (Γ h y) = if x = y then 1 else 0 := by
    intro x y
    have := congrFun (congrFun hΓ.left y) x
    rw [mul_apply, one_apply] at this
    simp only [conjTranspose_apply] at this
    simp only [mul_comm (Γ _ x), this, eq_comm]
  have e1 : ∀ h, star ((Γ' * Γᴴ) (g.1, g.2) h) = ∑ x, star (Γ' g x) * Γ h x := by
    intro h
    rw [mul_apply, star_sum]
    refine sum_congr rfl fun x _ => ?_
    rw [star_mul', conjTranspose_apply, star_star]
  simp only [e1]
  have e2 : ∀ h, ∑ x, ∑ y, ∑ h', star (a.J i x) * b.J j y * star (Γ h h') * σ.f (e x y h'.1 h'.2) =
      ∑ h', star (Γ h h') * ∑ x, ∑ y, star (a.J i x) * b.J j y * σ.f (e x y h'.1 h'.2) := by
    intro h
    simp only [mul_sum]
    rw [sum_congr rfl fun x _ => sum_comm, sum_comm]
    refine sum_congr rfl fun _ _ => sum_congr rfl fun _ _ => sum_congr rfl fun _ _ => ?_
    ring
  simp only [e2, mul_left_comm _ (t : 𝕜)]
  rw [← mul_sum, sum_pull (fun x => star (Γ' g x)) (fun h x => Γ h x) (fun h y => star (Γ h y))
    (fun h' => ∑ x, ∑ y, star (a.J i x) * b.J j y * σ.f (e x y h'.1 h'.2))]
  simp only [hl, ite_mul, one_mul, zero_mul, sum_ite_eq, mem_univ, if_true]
  congr 1
  simp only [mul_sum]
  rw [sum_comm, sum_congr rfl fun x _ => sum_comm]
  refine sum_congr rfl fun _ _ => sum_congr rfl fun _ _ => sum_congr rfl fun _ _ => ?_
  ring

/-- All edges of a network in other bases. -/
def turnEdges (M : Site → Fin 4 → Matrix (B × B) (B × B) 𝕜) (net : Net (Ten B P 𝕜)) : Net (Ten B P 𝕜) :=
  { net with B := fun s sl => match sl with
    | .C k => net.B s (.C k)
    | .E k => if h : k < 4 then turnEdge (M s (⟨k, h⟩ + 1)) (net.B s (.E k)) else net.B s (.E k) }

theorem turnEdges_E (M : Site → Fin 4 → Matrix (B × B) (B × B) 𝕜) (net : Net (Ten B P 𝕜)) (s : Site) (k : Fin 4) :
    (turnEdges M net).B s (.E k.val) = turnEdge (M s (k + 1)) (net.B s (.E k.val)) := dif_pos k.isLt

end turn

section related

variable [DecidableEq P] {σ : ScalarMap 𝕜} {Φ : ℤ × ℤ → Matrix (P × P) (P × P) 𝕜} {Γ : ℤ × ℤ → Fin 4 → Matrix (B × B) (B × B) 𝕜}
  {ℓ : ℤ × ℤ → Fin 4 → Link 𝕜} {net net' net'' : Net (Ten B P 𝕜)}

/-- Only the tensors of the cell matter. -/
theorem Related_congr (hR : Related σ Φ Γ ℓ net net') (hx : net''.nx = net'.nx) (hy : net''.ny = net'.ny) (hc : net''.chi = net'.chi)
    (hA : net''.A = net'.A) (hB : ∀ p sl, net''.B (cellSite net.nx net.ny p) sl = net'.B (cellSite net.nx net.ny p) sl) :
    Related σ Φ Γ ℓ net net'' where
  nx := hx.trans hR.nx
  ny := hy.trans hR.ny
  chi := hc.trans hR.chi
  trace := hR.trace
  unit := hR.unit
  bond := hR.bond
  site p := by rw [hA]; exact hR.site p
  corner p k := by rw [hB]; exact hR.corner p k
  edge p k := by rw [hB]; exact hR.edge p k

/-- The two moves of `absorb_bond`. -/
theorem absorb_moves {nx ny : ℕ} (hx : 0 < nx) (hy : 0 < ny) (p : ℤ × ℤ) (K : Fin 4) : ∃ m1 m2 : Move,
    absorbMoves ⟨cellSite nx ny p, cellSite nx ny (p + dir K), K.val⟩ = [m1, m2] ∧ m1.dirn = K + 2 ∧ m2.dirn = K ∧
    m1.Valid nx ny ∧ m2.Valid nx ny ∧ m1.OnLine (cellSite nx ny p) ∧ m2.OnLine (cellSite nx ny (p + dir K)) ∧
    ∀ q, m2.OnLine (cellSite nx ny (q + dir K)) ↔ m1.OnLine (cellSite nx ny q) := by
  have key : ∀ (n : ℕ), 0 < n → ∀ a b c : ℤ, (((a + c) % n).toNat = ((b + c) % n).toNat ↔ (a % n).toNat = (b % n).toNat) := by
    intro n hn a b c
    have h1 := Int.emod_nonneg a (show (n : ℤ) ≠ 0 by omega)
    have h2 := Int.emod_nonneg b (show (n : ℤ) ≠ 0 by omega)
    have h3 := Int.emod_nonneg (a + c) (show (n : ℤ) ≠ 0 by omega)
    have h4 := Int.emod_nonneg (b + c) (show (n : ℤ) ≠ 0 by omega)
    have e : (a + c) % n = (b + c) % n ↔ a % n = b % n := Int.emod_add_cancel_right c
    omega
  have v1 := toNat_lt hx p.1
  have v2 := toNat_lt hy p.2
  match K with
  | 0 => exact ⟨_, _, rfl, rfl, rfl, v1, toNat_lt hx _, rfl, rfl, fun q => by
      simpa [Move.OnLine, Move.src, Move.idx, cellSite, dir] using key nx hx p.1 q.1 (-1)⟩
  | 1 => exact ⟨_, _, rfl, rfl, rfl, v2, toNat_lt hy _, rfl, rfl, fun q => by
      simpa [Move.OnLine, Move.src, Move.idx, cellSite, dir] using key ny hy p.2 q.2 1⟩
  | 2 => exact ⟨_, _, rfl, rfl, rfl, v1, toNat_lt hx _, rfl, rfl, fun q => by
      simpa [Move.OnLine, Move.src, Move.idx, cellSite, dir] using key nx hx p.1 q.1 1⟩
  | 3 => exact ⟨_, _, rfl, rfl, rfl, v2, toNat_lt hy _, rfl, rfl, fun q => by
      simpa [Move.OnLine, Move.src, Move.idx, cellSite, dir] using key ny hy p.2 q.2 (-1)⟩

/-- Two networks in which the tensors of a bond have been written, in a new basis of the bond, stay related in the moves that absorb
the bond: the stale edges are not read. -/
theorem absorb_related {g g' : Site → Fin 4 → Matrix (B × B) (B × B) 𝕜} {n0 n0' : Net (Ten B P 𝕜)} {nx ny : ℕ} (hnx : n0.nx = nx)
    (hny : n0.ny = ny) (hx : 2 ≤ nx) (hy : 2 ≤ ny)
    (hR : Related σ Φ (fun p k => g (cellSite nx ny p) k) ℓ n0 n0') (α α' : Site → Ten B P 𝕜)
    (hu : ∀ s k, Unit2 (g' s k)) (hb : ∀ p k, g' (cellSite nx ny (p + dir k)) (k + 2) = (g' (cellSite nx ny p) k).map star)
    (hs : ∀ p, SiteRel σ (Φ p) (g' (cellSite nx ny p)) (α (cellSite nx ny p)) (α' (cellSite nx ny p)))
    (p : ℤ × ℤ) (K : Fin 4)
    (hg : ∀ s k, g' s k = g s k ∨ (s = cellSite nx ny p ∧ k = K) ∨ (s = cellSite nx ny (p + dir K) ∧ k = K + 2))
    (st st' : ProjSettings 𝕜) (pk : ProjKind) (hcut : st'.cutoff = st.cutoff) (h0 : 0 ≤ st.cutoff) (ω ω' : ℕ → Draws B 𝕜) (t t' : ℕ)
    (hd : DropRun st pk ω t (absorbMoves ⟨cellSite nx ny p, cellSite nx ny (p + dir K), K.val⟩) { n0 with A := α })
    (hf : SvdRun st pk ω t (absorbMoves ⟨cellSite nx ny p, cellSite nx ny (p + dir K), K.val⟩) { n0 with A := α })
    (hf' : SvdRun st' pk ω' t' (absorbMoves ⟨cellSite nx ny p, cellSite nx ny (p + dir K), K.val⟩) { n0' with A := α' }) :
    ∃ n n' ℓ', runDrawn st pk ω t (absorbMoves ⟨cellSite nx ny p, cellSite nx ny (p + dir K), K.val⟩) { n0 with A := α } = .ok n ∧
      runDrawn st' pk ω' t' (absorbMoves ⟨cellSite nx ny p, cellSite nx ny (p + dir K), K.val⟩) { n0' with A := α' } = .ok n' ∧
      n.nx = nx ∧ n.ny = ny ∧ n.A = α ∧ n'.A = α' ∧ Related σ Φ (fun p k => g' (cellSite nx ny p) k) ℓ' n n' ∧
      (NormalNet n0 → NormalNet n) ∧ (NormalNet n0' → NormalNet n') := by
  have hx0 : 0 < nx := by omega
  have hy0 : 0 < ny := by omega
  have hnx' : n0'.nx = nx := hR.nx.trans hnx
  have hny' : n0'.ny = ny := hR.ny.trans hny
  obtain ⟨m1, m2, e, d1, d2, v1, v2, o1, o2, hl⟩ := absorb_moves hx0 hy0 p K
  rw [e] at hd hf hf' ⊢
  obtain ⟨i11, i12, i13, i21, i22, i23, i31, i32, i33⟩ := fin4 K
  -- the second network with all edges in the new basis
  obtain ⟨M, hM⟩ : ∃ M : Site → Fin 4 → Matrix (B × B) (B × B) 𝕜, M = fun s k => g' s k * (g s k)ᴴ := ⟨_, rfl⟩
  have hMR : Related σ Φ (fun p k => g' (cellSite nx ny p) k) ℓ { n0 with A := α } (turnEdges M { n0' with A := α' }) := by
    refine ⟨hR.nx, hR.ny, hR.chi, hR.trace, fun _ _ => hu _ _, hb, fun q => ?_, fun q k => hR.corner q k, fun q k => ?_⟩
    · show SiteRel _ _ _ (α (cellSite n0.nx n0.ny q)) (α' (cellSite n0.nx n0.ny q))
      rw [hnx, hny]
      exact hs q
    · rw [turnEdges_E, hM]
      have := edgeRel_turn (Γ' := g' (cellSite nx ny q) (k + 1)) (hR.unit q (k + 1)) (hR.edge q k)
      have hc : cellSite { n0 with A := α }.nx { n0 with A := α }.ny q = cellSite nx ny q := by
        show cellSite n0.nx n0.ny q = _
        rw [hnx, hny]
      rw [hc]
      rw [hnx, hny] at this
      exact this
  have hone : ∀ s k, g' s k = g s k → (∃ q, s = cellSite nx ny q) → M s k = 1 := by
    rintro s k h ⟨q, rfl⟩
    rw [hM]
    dsimp only
    rw [h]
    exact (hR.unit q k).right
  -- the first move
  have s1 : SameBut m1 True { n0' with A := α' } (turnEdges M { n0' with A := α' }) := by
    refine ⟨rfl, rfl, rfl, rfl, fun q sl => ?_⟩
    show (turnEdges M { n0' with A := α' }).B (cellSite n0'.nx n0'.ny q) sl = n0'.B (cellSite n0'.nx n0'.ny q) sl ∨
      (_ ∧ m1.OnLine (cellSite n0'.nx n0'.ny q) ∧ _) ∨ (m1.OnLine (cellSite n0'.nx n0'.ny (q + dir m1.dirn)) ∧ _)
    rw [hnx', hny', d1, i21, i23]
    cases sl with
    | C k => exact Or.inl rfl
    | E k =>
      by_cases hk : k < 4
      · obtain ⟨k, rfl⟩ : ∃ k' : Fin 4, k = k'.val := ⟨⟨k, hk⟩, rfl⟩
        rw [turnEdges_E]
        rcases hg (cellSite nx ny q) (k + 1) with h | ⟨h, h'⟩ | ⟨h, h'⟩
        · left
          rw [hone _ _ h ⟨q, rfl⟩, turnEdge_one]
        · right; left
          refine ⟨trivial, h ▸ o1, ?_⟩
          rw [show k = K + 3 from by rw [← h']; exact ((fin4 k).2.2.1).symm]
        · right; right
          refine ⟨?_, ?_⟩
          · rw [← hl, dir_opp, neg_add_cancel_right, h]
            exact o2
          · rw [show k = K + 1 from by
              have : k + 1 + 3 = K + 2 + 3 := by rw [h']
              rwa [(fin4 k).2.2.1, i23] at this]
      · exact Or.inl (dif_neg hk)
  have hx1 : 2 ≤ ({ n0' with A := α' } : Net (Ten B P 𝕜)).nx := by show 2 ≤ n0'.nx; omega
  have hy1 : 2 ≤ ({ n0' with A := α' } : Net (Ten B P 𝕜)).ny := by show 2 ≤ n0'.ny; omega
  have vv1 : m1.Valid n0.nx n0.ny := by rw [hnx, hny]; exact v1
  have vv2 : m2.Valid n0.nx n0.ny := by rw [hnx, hny]; exact v2
  have vv1' : m1.Valid n0'.nx n0'.ny := by rw [hnx', hny']; exact v1
  have vv2' : m2.Valid n0'.nx n0'.ny := by rw [hnx', hny']; exact v2
  have f1 := s1.svdMove hx1 hy1 st' (ω' t') pk hf'.1
  obtain ⟨ℓ1, hR1⟩ := related_after hMR st st' (ω t) (ω' t') pk m1 (by show 0 < n0.nx; omega) (by show 0 < n0.ny; omega) hcut h0 vv1 hd.1 hf.1 f1
  -- the second move
  have s2 : SameBut m2 False (m1.after (numOps st' (ω' t')) pk { n0' with A := α' })
      (m1.after (numOps st' (ω' t')) pk (turnEdges M { n0' with A := α' })) := by
    refine ⟨rfl, rfl, rfl, rfl, fun q sl => ?_⟩
    have := s1.after hx1 hy1 (numOps st' (ω' t')) pk vv1' q sl
    rcases this with h | ⟨-, h, h'⟩
    · exact Or.inl h
    · right; right
      have h : m1.OnLine (cellSite n0'.nx n0'.ny q) := h
      show m2.OnLine (cellSite n0'.nx n0'.ny (q + dir m2.dirn)) ∧ _
      rw [hnx', hny'] at h ⊢
      rw [d1, i21] at h'
      rw [d2]
      exact ⟨(hl q).2 h, h'⟩
  have hd2 := hd.2 _ (m1.run_eq _ _ _)
  have hf2 := hf.2 _ (m1.run_eq _ _ _)
  have hf2' := hf'.2 _ (m1.run_eq _ _ _)
  have f2 := s2.svdMove hx1 hy1 st' (ω' (t' + 1)) pk hf2'.1
  obtain ⟨ℓ2, hR2⟩ := related_after hR1 st st' (ω (t + 1)) (ω' (t' + 1)) pk m2 (by show 0 < n0.nx; omega) (by show 0 < n0.ny; omega)
    hcut h0 vv2 hd2.1 hf2.1 f2
  refine ⟨m2.after (numOps st (ω (t + 1))) pk (m1.after (numOps st (ω t)) pk { n0 with A := α }), _, ℓ2, ?_, ?_, hnx, hny, rfl, rfl,
    Related_congr (net'' := m2.after (numOps st' (ω' (t' + 1))) pk
    (m1.after (numOps st' (ω' t')) pk { n0' with A := α' })) hR2 rfl rfl rfl rfl fun q sl => ?_, fun h => ?_, fun h => ?_⟩
  · simp only [runDrawn, Move.run_eq, bind, Except.bind]
  · simp only [runDrawn, Move.run_eq, bind, Except.bind]
  · rcases s2.after hx1 hy1 (numOps st' (ω' (t' + 1))) pk vv2' q sl with h | ⟨h, -⟩
    · have h : _ = _ := h
      change _ = (m2.after (numOps st' (ω' (t' + 1))) pk (m1.after (numOps st' (ω' t')) pk { n0' with A := α' })).B (cellSite n0'.nx n0'.ny q) sl at h
      show _ = (m2.after _ pk (m1.after _ pk (turnEdges M { n0' with A := α' }))).B (cellSite n0.nx n0.ny q) sl
      rw [← hR.nx, ← hR.ny]
      exact h.symm
    · exact h.elim
  · exact NormalNet_after (NormalNet_after (net := { n0 with A := α }) h _ _ _ _) _ _ _ _
  · exact NormalNet_after (NormalNet_after (net := { n0' with A := α' }) h _ _ _ _) _ _ _ _

end related

end AceTN
