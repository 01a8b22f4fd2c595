import Verif.Lemmas.FullMoves

/-!
The full update of a bond in two equivalent networks, with the moves that absorb it.
-/

set_option autoImplicit false
set_option linter.unusedSectionVars false

namespace AceTN

open Matrix Spec Full Finset SumTac

variable {𝕜 F : Type} [RCLike 𝕜] {sgn : Bool} {ord : ∀ (n : Type) [Fintype n], n ≃ Fin (Fintype.card n)} {bD pD : ℕ} {nx ny : ℕ}

/-- The two layers of a site tensor in other bases. -/
theorem siteRel_ten {σ : ScalarMap 𝕜} {t : ℝ} (ht : 0 < t) {Γ : Fin 4 → Matrix (Fin bD) (Fin bD) 𝕜} {U : Matrix (Fin pD) (Fin pD) 𝕜}
    {a a' : ATensor (Fin bD) (Fin pD) 𝕜} (h : TenRel σ t (Γ 0) (Γ 1) (Γ 2) (Γ 3) U a a') :
    SiteRel σ (braKet U) (fun k => ketBra (Γ k)) (Ten.site a) (.site a') := by
  refine ⟨a, a', t * t, rfl, rfl, mul_pos ht ht, ?_⟩
  rintro ⟨bra, ket⟩ l u r d
  have key := layers_turn (Γ 0) (Γ 1) (Γ 2) (Γ 3) U (fun l u r d p => σ.f (a l u r d p)) l.1 u.1 r.1 d.1 l.2 u.2 r.2 d.2 ket bra
  show a' _ _ _ _ _ * star (a' _ _ _ _ _) = _
  rw [h, h, star_mul', RCLike.star_def, RCLike.conj_ofReal, mul_mul_mul_comm, RCLike.ofReal_mul]
  congr 1
  refine key.trans ?_
  refine sum_congr rfl fun q _ => sum_congr rfl fun l' _ => sum_congr rfl fun u' _ => sum_congr rfl fun r' _ => sum_congr rfl fun d' _ => ?_
  obtain ⟨b, k⟩ := q
  show _ = _ * _ * σ.f (a _ _ _ _ _ * star (a _ _ _ _ _))
  rw [map_mul, σ.star]
  rfl

/-- Two networks of real numbers that are the same in other bases, with normalised boundary tensors. -/
structure Spec.SameNet (sgn : Bool) (U : Site → Matrix (Fin pD) (Fin pD) 𝕜) (nx ny : ℕ) (net net' : Net (Ten (Fin bD) (Fin pD) 𝕜))
    (g : Gauge (Fin bD) (Fin pD) 𝕜) : Prop where
  width : net.nx = nx
  height : net.ny = ny
  unit : g.U = U
  one : ∀ s, g.t s = 1
  joined : g.Joined nx ny
  allowed : ∀ s k, Allowed sgn (g.G s k)
  sites : ∀ s, InCell nx ny s → ∃ a a', net.A s = .site a ∧ net'.A s = .site a' ∧
    TenRel (ScalarMap.id 𝕜) 1 (g.G s 0) (g.G s 1) (g.G s 2) (g.G s 3) (g.U s) a a'
  bonds : ∃ ℓ, Related (ScalarMap.id 𝕜) (fun p => braKet (g.U (cellSite nx ny p))) (fun p k => ketBra (g.G (cellSite nx ny p) k)) ℓ net net'
  normal : NormalNet net
  normal' : NormalNet net'
  mirror : Mirror net

variable [NeZero bD] [NeZero pD]

/-- When the full update of a bond leaves no choice to the library but that of bases: this holds for the update of the two tensors,
and the projectors of the moves that absorb the bond are unambiguous. -/
structure Spec.ClearStep (ord : ∀ (n : Type) [Fintype n], n ≃ Fin (Fintype.card n)) (sgn : Bool) (st : ProjSettings 𝕜) (pk : ProjKind)
    (ω : ℕ → Draws (Fin bD) 𝕜) (la : Lapack 𝕜) (fo : Als.FloatOps F) (rep : ℝ → F) (cfg : Settings F)
    (oneSite : Option (Site → Fin pD → Fin pD → 𝕜)) (gates : Bond → Fin pD → Fin pD → Fin pD → Fin pD → 𝕜)
    (s : Net (Ten (Fin bD) (Fin pD) 𝕜) × ℕ) (b : Bond) : Prop where
  bond : ∀ a1 a2, s.1.A b.s1 = .site a1 → s.1.A b.s2 = .site a2 →
    ClearBond ord sgn la fo rep cfg (gates b) s.1 b (bondPermute b.k a1) (bondPermute b.k a2)
  drop : ∀ a1 a2, numUpdate la fo rep cfg oneSite gates s.1 b = some (.ok (a1, a2)) →
    DropRun st pk ω s.2 (absorbMoves b) (writeSite (writeSite s.1 b.s1 a1) b.s2 a2)

/-- The random draws of the moves that absorb a bond capture the environments. -/
def Spec.ExactDraws (st : ProjSettings 𝕜) (pk : ProjKind)
    (ω : ℕ → Draws (Fin bD) 𝕜) (la : Lapack 𝕜) (fo : Als.FloatOps F) (rep : ℝ → F) (cfg : Settings F)
    (oneSite : Option (Site → Fin pD → Fin pD → 𝕜)) (gates : Bond → Fin pD → Fin pD → Fin pD → Fin pD → 𝕜)
    (s : Net (Ten (Fin bD) (Fin pD) 𝕜) × ℕ) (b : Bond) : Prop :=
  ∀ a1 a2, numUpdate la fo rep cfg oneSite gates s.1 b = some (.ok (a1, a2)) →
    SvdRun st pk ω s.2 (absorbMoves b) (writeSite (writeSite s.1 b.s1 a1) b.s2 a2)

theorem fin4_ne : ∀ k : Fin 4, k + 1 ≠ k ∧ k + 2 ≠ k ∧ k + 3 ≠ k ∧ k ≠ k + 2 ∧ k + 1 ≠ k + 2 ∧ k + 3 ≠ k + 2 := by decide

/-- The tensors of `update`. -/
theorem numUpdate_turn (hs : ∀ a : 𝕜, star a = a) (hx : 2 ≤ nx) (hy : 2 ≤ ny) (la la' : Lapack 𝕜)
    (hla : sgn = true → Triangular ord la ∧ Triangular ord la') (fo : Als.FloatOps F) (rep : ℝ → F) (cfg : Settings F)
    (hm : EvenSolver sgn cfg.als_method cfg.als_epsilon) (hcut : 0 < cfg.positive_approx_cutoff)
    {U : Site → Matrix (Fin pD) (Fin pD) 𝕜} (hU : ∀ s, Allowed sgn (U s))
    {one one' : Option (Site → Fin pD → Fin pD → 𝕜)} (hone : TurnedOne (ScalarMap.id 𝕜) U nx ny one one')
    {gates gates' : Bond → Fin pD → Fin pD → Fin pD → Fin pD → 𝕜} {net net' : Net (Ten (Fin bD) (Fin pD) 𝕜)}
    {g : Gauge (Fin bD) (Fin pD) 𝕜} (h : SameNet sgn U nx ny net net' g) (p : ℤ × ℤ) (K : Fin 4)
    (hgate : TurnedOp2 (ScalarMap.id 𝕜) (U (cellSite nx ny p)) (U (cellSite nx ny (p + dir K)))
      (gates ⟨cellSite nx ny p, cellSite nx ny (p + dir K), K.val⟩) (gates' ⟨cellSite nx ny p, cellSite nx ny (p + dir K), K.val⟩))
    (hc : ∀ a1 a2, net.A (cellSite nx ny p) = .site a1 → net.A (cellSite nx ny (p + dir K)) = .site a2 →
      ClearBond ord sgn la fo rep cfg (gates ⟨cellSite nx ny p, cellSite nx ny (p + dir K), K.val⟩) net
        ⟨cellSite nx ny p, cellSite nx ny (p + dir K), K.val⟩ (bondPermute K.val a1) (bondPermute K.val a2)) :
    ∃ Z : Matrix (Fin bD) (Fin bD) 𝕜, Allowed sgn Z ∧ AlikeO (fun q q' =>
        TenRel (ScalarMap.id 𝕜) 1 (Function.update (g.G (cellSite nx ny p)) K Z 0) (Function.update (g.G (cellSite nx ny p)) K Z 1)
          (Function.update (g.G (cellSite nx ny p)) K Z 2) (Function.update (g.G (cellSite nx ny p)) K Z 3) (U (cellSite nx ny p)) q.1 q'.1 ∧
        TenRel (ScalarMap.id 𝕜) 1 (Function.update (g.G (cellSite nx ny (p + dir K))) (K + 2) (Z.map star) 0)
          (Function.update (g.G (cellSite nx ny (p + dir K))) (K + 2) (Z.map star) 1)
          (Function.update (g.G (cellSite nx ny (p + dir K))) (K + 2) (Z.map star) 2)
          (Function.update (g.G (cellSite nx ny (p + dir K))) (K + 2) (Z.map star) 3) (U (cellSite nx ny (p + dir K))) q.2 q'.2)
      (numUpdate la fo rep cfg one gates net ⟨cellSite nx ny p, cellSite nx ny (p + dir K), K.val⟩)
      (numUpdate la' fo rep cfg one' gates' net' ⟨cellSite nx ny p, cellSite nx ny (p + dir K), K.val⟩) := by
  have hx0 : 0 < nx := by omega
  have hy0 : 0 < ny := by omega
  have c1 := cellSite_inCell nx ny hx0 hy0 p
  have c2 := cellSite_inCell nx ny hx0 hy0 (p + dir K)
  obtain ⟨a1, a1', e1, e1', r1⟩ := h.sites _ c1
  obtain ⟨a2, a2', e2, e2', r2⟩ := h.sites _ c2
  obtain ⟨ℓ, hR⟩ := h.bonds
  have hj : g.G (cellSite nx ny (p + dir K)) (K + 2) = (g.G (cellSite nx ny p) K).map star := by
    rw [← neighbour_cellSite nx ny hx0 hy0]
    exact h.joined _ c1 K
  have hk4 : ((K.val : ℤ)) % 4 = K.val := by have := K.isLt; omega
  rw [h.unit] at r1 r2
  obtain ⟨Z, hZ, hA⟩ := numTensorUpdate_turn (G := fun p k => g.G (cellSite nx ny p) k) hs la la' hla fo rep cfg hm hcut (fun _ _ => h.allowed _ _)
    hR h.normal h.normal' h.mirror p K hj (hU _) (hU _) hgate (tenRel_turn r1 K K.val hk4) (tenRel_turn r2 K K.val hk4) (by
      rw [h.width, h.height]
      exact hc a1 a2 e1 e2)
  rw [h.width, h.height] at hA
  refine ⟨Z, hZ, ?_⟩
  unfold numUpdate
  dsimp only
  rw [e1, e1', e2, e2']
  dsimp only
  obtain ⟨n1, n2, n3, n4, n5, n6⟩ := fin4_ne K
  have hZs : Z.map star = Z := by
    ext i j
    exact hs _
  generalize numTensorUpdate la fo rep cfg net _ _ _ _ = x at hA ⊢
  generalize numTensorUpdate la' fo rep cfg net' _ _ _ _ = y at hA ⊢
  cases x with
  | none => cases y with
    | none => trivial
    | some y => exact hA.elim
  | some x => cases y with
    | none => exact hA.elim
    | some y =>
      have hA : Alike _ x y := hA
      refine Alike.bind hA fun q q' hq => ?_
      obtain ⟨q1, q2⟩ := q
      obtain ⟨q1', q2'⟩ := q'
      have t1 := tenRel_back (Γ := Function.update (g.G (cellSite nx ny p)) K Z) K (a := q1) (a' := q1') (by
        rw [Function.update_self, Function.update_of_ne n1, Function.update_of_ne n2, Function.update_of_ne n3]
        exact hq.1)
      have t2 := tenRel_back (Γ := Function.update (g.G (cellSite nx ny (p + dir K))) (K + 2) (Z.map star)) K (a := q2) (a' := q2') (by
        rw [Function.update_self, Function.update_of_ne n4, Function.update_of_ne n5, Function.update_of_ne n6, hZs]
        exact hq.2)
      cases one with
      | none => cases one' with
        | none => exact ⟨t1, t2⟩
        | some o' => exact hone.elim
      | some o => cases one' with
        | none => exact hone.elim
        | some o' => exact ⟨applyOneSite_turn (hU _).unit t1 (hone _ c1), applyOneSite_turn (hU _).unit t2 (hone _ c2)⟩

theorem writeSite2_A (net : Net (Ten (Fin bD) (Fin pD) 𝕜)) (s1 s2 : Site) (a1 a2 : ATensor (Fin bD) (Fin pD) 𝕜) (s : Site) :
    (writeSite (writeSite net s1 a1) s2 a2).A s = if s = s2 then .site a2 else if s = s1 then .site a1 else net.A s := rfl

theorem allowed_star {n : Type} [Fintype n] [DecidableEq n] {W : Matrix n n 𝕜} (h : Allowed sgn W) : Allowed sgn (W.map star) :=
  ⟨h.unit.star, fun hs i j hij => by rw [Matrix.map_apply, h.diag hs i j hij, star_zero]⟩

/-- One bond. -/
theorem fullBondStep_turn (hs : ∀ a : 𝕜, star a = a) (hx : 2 ≤ nx) (hy : 2 ≤ ny) (st st' : ProjSettings 𝕜) (pk : ProjKind)
    (hst : st'.cutoff = st.cutoff) (h0 : 0 ≤ st.cutoff) (ω ω' : ℕ → Draws (Fin bD) 𝕜) (la la' : Lapack 𝕜)
    (hla : sgn = true → Triangular ord la ∧ Triangular ord la') (fo : Als.FloatOps F) (rep : ℝ → F) (cfg : Settings F)
    (hm : EvenSolver sgn cfg.als_method cfg.als_epsilon) (hcut : 0 < cfg.positive_approx_cutoff)
    {U : Site → Matrix (Fin pD) (Fin pD) 𝕜} (hU : ∀ s, Allowed sgn (U s))
    {one one' : Option (Site → Fin pD → Fin pD → 𝕜)} (hone : TurnedOne (ScalarMap.id 𝕜) U nx ny one one')
    {gates gates' : Bond → Fin pD → Fin pD → Fin pD → Fin pD → 𝕜} {s s' : Net (Ten (Fin bD) (Fin pD) 𝕜) × ℕ}
    {g : Gauge (Fin bD) (Fin pD) 𝕜} (h : SameNet sgn U nx ny s.1 s'.1 g) {b : Bond} (hb : b ∈ buildBondList nx ny)
    (hgate : TurnedOp2 (ScalarMap.id 𝕜) (U b.s1) (U b.s2) (gates b) (gates' b))
    (hc : ClearStep ord sgn st pk ω la fo rep cfg one gates s b) (hf : ExactDraws st pk ω la fo rep cfg one gates s b)
    (hf' : ExactDraws st' pk ω' la' fo rep cfg one' gates' s' b) :
    (fullBondStep st' pk ω' la' fo rep cfg one' gates' s' b).2 = (fullBondStep st pk ω la fo rep cfg one gates s b).2 ∧
    ∃ g', SameNet sgn U nx ny (fullBondStep st pk ω la fo rep cfg one gates s b).1.1
      (fullBondStep st' pk ω' la' fo rep cfg one' gates' s' b).1.1 g' := by
  have hx0 : 0 < nx := by omega
  have hy0 : 0 < ny := by omega
  obtain ⟨h1, hk12, h2⟩ := ((C02_bond_list nx ny).2.2 b).1 hb
  have hne := bond_ends_distinct nx ny hx hy b hb
  obtain ⟨s1, s2, bk⟩ := b
  dsimp only at h1 hk12 h2 hne
  have hk4 : bk < 4 := by omega
  obtain ⟨K, rfl⟩ : ∃ K : Fin 4, bk = K.val := ⟨⟨bk, hk4⟩, rfl⟩
  obtain ⟨p, rfl⟩ : ∃ p, s1 = cellSite nx ny p := ⟨_, (cellSite_self nx ny s1 h1).symm⟩
  have hn := h2
  rw [neighbour_cellSite nx ny hx0 hy0] at h2
  subst h2
  obtain ⟨Z, hZ, hA⟩ := numUpdate_turn hs hx hy la la' hla fo rep cfg hm hcut hU hone h p K hgate hc.bond
  obtain ⟨net, t⟩ := s
  obtain ⟨net', t'⟩ := s'
  have hd := hc.drop
  unfold ExactDraws at hf hf'
  unfold fullBondStep
  dsimp only at hd hf hf' hA h ⊢
  generalize numUpdate la fo rep cfg one gates net _ = x at hA hd hf ⊢
  generalize numUpdate la' fo rep cfg one' gates' net' _ = y at hA hf' ⊢
  cases x with
  | none => cases y with
    | none => exact ⟨rfl, g, h⟩
    | some y => exact hA.elim
  | some x => cases y with
    | none => exact hA.elim
    | some y => cases x with
      | error e => cases y with
        | error e' =>
          obtain rfl : e = e' := hA
          exact ⟨rfl, g, h⟩
        | ok q' => exact hA.elim
      | ok q => cases y with
        | error e' => exact hA.elim
        | ok q' =>
          obtain ⟨a1, a2⟩ := q
          obtain ⟨a1', a2'⟩ := q'
          obtain ⟨t1, t2⟩ : _ ∧ _ := hA
          dsimp only at t1 t2 ⊢
          have hj' := after_joined h.joined ⟨cellSite nx ny p, cellSite nx ny (p + dir K), K.val⟩ K rfl Z hZ.unit hne h1 hn
          have G1 := after_G1 g ⟨cellSite nx ny p, cellSite nx ny (p + dir K), K.val⟩ K Z hZ.unit
          have G2 := after_G2 g ⟨cellSite nx ny p, cellSite nx ny (p + dir K), K.val⟩ K Z hZ.unit hne
          have G3 : ∀ s : Site, s ≠ cellSite nx ny p → s ≠ cellSite nx ny (p + dir K) → _ := fun s h1 h2 =>
            after_G g ⟨cellSite nx ny p, cellSite nx ny (p + dir K), K.val⟩ K Z hZ.unit h1 h2
          have hcs := after_cases g ⟨cellSite nx ny p, cellSite nx ny (p + dir K), K.val⟩ K Z hZ.unit hne
          have hgU : (g.after ⟨cellSite nx ny p, cellSite nx ny (p + dir K), K.val⟩ K Z hZ.unit).U = g.U := rfl
          have hgt : ∀ s, (g.after ⟨cellSite nx ny p, cellSite nx ny (p + dir K), K.val⟩ K Z hZ.unit).t s = 1 := by
            intro s
            show (if _ then _ else _) = _
            split_ifs
            · rfl
            · exact h.one s
          generalize g.after ⟨cellSite nx ny p, cellSite nx ny (p + dir K), K.val⟩ K Z hZ.unit = g' at hj' G1 G2 G3 hcs hgU hgt
          dsimp only at G1 G2 hcs
          have hsites : ∀ s, InCell nx ny s → ∃ b b', (writeSite (writeSite net (cellSite nx ny p) a1) (cellSite nx ny (p + dir K)) a2).A s = .site b ∧
              (writeSite (writeSite net' (cellSite nx ny p) a1') (cellSite nx ny (p + dir K)) a2').A s = .site b' ∧
              TenRel (ScalarMap.id 𝕜) 1 (g'.G s 0) (g'.G s 1) (g'.G s 2) (g'.G s 3) (g'.U s) b b' := by
            intro s hs
            rw [writeSite2_A, writeSite2_A, hgU]
            by_cases hs2 : s = cellSite nx ny (p + dir K)
            · subst hs2
              rw [if_pos rfl, if_pos rfl, G2, h.unit]
              exact ⟨_, _, rfl, rfl, t2⟩
            rw [if_neg hs2, if_neg hs2]
            by_cases hs1 : s = cellSite nx ny p
            · subst hs1
              rw [if_pos rfl, if_pos rfl, G1, h.unit]
              exact ⟨_, _, rfl, rfl, t1⟩
            · rw [if_neg hs1, if_neg hs1, G3 s hs1 hs2]
              exact h.sites s hs
          obtain ⟨ℓ, hR⟩ := h.bonds
          obtain ⟨n, n', ℓ', e, e', enx, eny, eA, eA', hR', hN, hN'⟩ := absorb_related (g := fun s k => ketBra (g.G s k))
            (g' := fun s k => ketBra (g'.G s k)) h.width h.height hx hy hR
            (writeSite (writeSite net (cellSite nx ny p) a1) (cellSite nx ny (p + dir K)) a2).A
            (writeSite (writeSite net' (cellSite nx ny p) a1') (cellSite nx ny (p + dir K)) a2').A
            (fun s k => ketBra_unit (g'.unitG s k)) (fun q k => by
              rw [← neighbour_cellSite nx ny hx0 hy0, hj' _ (cellSite_inCell nx ny hx0 hy0 q) k, ketBra_map]) (fun q => by
              obtain ⟨b, b', f1, f2, f3⟩ := hsites _ (cellSite_inCell nx ny hx0 hy0 q)
              rw [f1, f2, ← hgU]
              exact siteRel_ten one_pos f3) p K (fun s k => by
              rcases hcs s k with ⟨d1, d2, -⟩ | ⟨d1, d2, -⟩ | ⟨-, -, d⟩
              · exact Or.inr (Or.inl ⟨d1, d2⟩)
              · exact Or.inr (Or.inr ⟨d1, d2⟩)
              · exact Or.inl (by rw [d])) st st' pk hst h0 ω ω' t t' (hd a1 a2 rfl) (hf a1 a2 rfl) (hf' a1' a2' rfl)
          have e : runDrawn st pk ω t (absorbMoves ⟨cellSite nx ny p, cellSite nx ny (p + dir K), K.val⟩)
            (writeSite (writeSite net (cellSite nx ny p) a1) (cellSite nx ny (p + dir K)) a2) = .ok n := e
          have e' : runDrawn st' pk ω' t' (absorbMoves ⟨cellSite nx ny p, cellSite nx ny (p + dir K), K.val⟩)
            (writeSite (writeSite net' (cellSite nx ny p) a1') (cellSite nx ny (p + dir K)) a2') = .ok n' := e'
          have hmir : Mirror n := by
            obtain ⟨ℓm, hRm⟩ := (h.mirror.write (cellSite nx ny p) a1).write (cellSite nx ny (p + dir K)) a2
            obtain ⟨m1, m2, em, -, -, v1, v2, -⟩ := absorb_moves hx0 hy0 p K
            have hr : ∀ m ∈ absorbMoves ⟨cellSite nx ny p, cellSite nx ny (p + dir K), K.val⟩, InRange net.nx net.ny m := by
              rw [em, h.width, h.height]
              intro m hm
              simp only [List.mem_cons, List.not_mem_nil, or_false] at hm
              rcases hm with rfl | rfl
              · cases m <;> exact v1
              · cases m <;> exact v2
            obtain ⟨k, k', ℓk, f, f', -, -, hk⟩ := related_run st st pk rfl h0 ω ω _ t t _ _ ℓm hRm (by rw [← h.width] at hx0; exact hx0)
              (by rw [← h.height] at hy0; exact hy0) hr (hd a1 a2 rfl) (hf a1 a2 rfl) (hf a1 a2 rfl)
            rw [e] at f f'
            obtain rfl := Except.ok.inj f
            obtain rfl := Except.ok.inj f'
            exact ⟨ℓk, hk⟩
          rw [e, e']
          refine ⟨rfl, g', enx, eny, hgU.trans h.unit, hgt, hj', fun s k => ?_, fun s hs => ?_, ⟨ℓ', hgU ▸ hR'⟩, hN h.normal, hN' h.normal', hmir⟩
          · rcases hcs s k with ⟨-, -, d⟩ | ⟨-, -, d⟩ | ⟨-, -, d⟩
            · rw [d]; exact hZ
            · rw [d]; exact allowed_star hZ
            · rw [d]; exact h.allowed s k
          · rw [show n.A = _ from eA, show n'.A = _ from eA']
            exact hsites s hs

/-! ### Runs -/

section loop

variable {S S' : Type} (upd : S → Bond → S × Option PyErr) (upd' : S' → Bond → S' × Option PyErr) (R : S → S' → Prop)
  (Q : S → Bond → Prop) (Q' : S' → Bond → Prop) (M : Bond → Prop)
  (step : ∀ s s' b, R s s' → M b → Q s b → Q' s' b → (upd' s' b).2 = (upd s b).2 ∧ R (upd s b).1 (upd' s' b).1)

include step

theorem bondPass_rel2 (l rest : List Bond) (hl : ∀ b ∈ l, M b) (s : S) (s' : S') (h : R s s') (hQ : Along Q upd (l ++ rest) s)
    (hQ' : Along Q' upd' (l ++ rest) s') :
    (bondPass upd' l s').2 = (bondPass upd l s).2 ∧ R (bondPass upd l s).1 (bondPass upd' l s').1 ∧
      ((bondPass upd l s).2 = none → Along Q upd rest (bondPass upd l s).1 ∧ Along Q' upd' rest (bondPass upd' l s').1) := by
  induction l generalizing s s' with
  | nil => exact ⟨rfl, h, fun _ => ⟨hQ, hQ'⟩⟩
  | cons b l ih =>
    obtain ⟨q1, q2⟩ := hQ
    obtain ⟨q1', q2'⟩ := hQ'
    obtain ⟨e, r⟩ := step s s' b h (hl b List.mem_cons_self) q1 q1'
    unfold bondPass
    cases hu : upd s b with
    | mk t o =>
      cases hu' : upd' s' b with
      | mk t' o' =>
        rw [hu, hu'] at e r
        rw [hu] at q2
        rw [hu'] at q2'
        dsimp only at e r q2 q2'
        subst e
        cases o' with
        | some e => exact ⟨rfl, r, fun hn => absurd hn (by simp)⟩
        | none => exact ih (fun b' hb' => hl b' (List.mem_cons_of_mem _ hb')) t t' r q2 q2'

theorem evolveLoop_rel2 (n : ℕ) (bl : List Bond) (hl : ∀ b ∈ bl, M b) (s : S) (s' : S') (h : R s s')
    (hQ : Along Q upd (schedule n bl) s) (hQ' : Along Q' upd' (schedule n bl) s') :
    (evolveLoop upd' n bl s').1 = (evolveLoop upd n bl s).1 ∧ (evolveLoop upd' n bl s').2.2 = (evolveLoop upd n bl s).2.2 ∧
      R (evolveLoop upd n bl s).2.1 (evolveLoop upd' n bl s').2.1 := by
  induction n generalizing bl s s' with
  | zero => exact ⟨rfl, rfl, h⟩
  | succ n ih =>
    rw [schedule_succ] at hQ hQ'
    obtain ⟨e, r, q⟩ := bondPass_rel2 upd upd' R Q Q' M step bl _ hl s s' h hQ hQ'
    unfold evolveLoop
    cases hu : bondPass upd bl s with
    | mk t o =>
      cases hu' : bondPass upd' bl s' with
      | mk t' o' =>
        rw [hu, hu'] at e r
        rw [hu, hu'] at q
        dsimp only at e r q
        subst e
        cases o' with
        | some e => exact ⟨rfl, rfl, r⟩
        | none => exact ih bl.reverse (fun b hb => hl b (List.mem_reverse.1 hb)) t t' r (q rfl).1 (q rfl).2

end loop

end AceTN
