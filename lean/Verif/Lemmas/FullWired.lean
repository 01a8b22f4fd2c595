import Verif.Lemmas.FullStep
import Verif.Lemmas.ClusterRead
import Verif.Props.FullUpdateExact

/-!
Runs of the full update on networks whose tensors fit together.
-/

set_option autoImplicit false

set_option linter.unusedSectionVars false

namespace AceTN

open Spec Full

variable {𝕜 F : Type} [RCLike 𝕜]

section moves

variable {B P : Type} [Fintype B] [Fintype P] [DecidableEq B]

/-- A list of moves does not raise, keeps the site tensors and leaves tensors that fit together. -/
theorem wired_run (st : ProjSettings 𝕜) (pk : ProjKind) (ω : ℕ → Draws B 𝕜) (ms : List Move) (t : ℕ) (net : Net (Ten B P 𝕜))
    (f : Site → ℕ → ℕ) (hw : Wired net f) (hx : 0 < net.nx) (hy : 0 < net.ny) (hm : ∀ m ∈ ms, m.Valid net.nx net.ny) :
    ∃ n f', runDrawn st pk ω t ms net = .ok n ∧ Wired n f' ∧ n.nx = net.nx ∧ n.ny = net.ny ∧ n.A = net.A := by
  induction ms generalizing t net f with
  | nil => exact ⟨net, f, rfl, hw, rfl, rfl, rfl⟩
  | cons m ms ih =>
    obtain ⟨c1, c2, -, c4⟩ := m.after_consts (numOps st (ω t)) pk net
    obtain ⟨n, f', e, h1, h2, h3, h4⟩ := ih (t + 1) (m.after (numOps st (ω t)) pk net) _
      (wired_after hw hx hy st (ω t) pk m (hm m List.mem_cons_self)) (c1 ▸ hx) (c2 ▸ hy)
      (fun m' h => by rw [c1, c2]; exact hm m' (List.mem_cons_of_mem _ h))
    refine ⟨n, f', ?_, h1, h2.trans c1, h3.trans c2, h4.trans (funext fun s => congrFun c4 s)⟩
    simp only [runDrawn, Move.run_eq, bind, Except.bind]
    exact e

theorem wired_write {net : Net (Ten B P 𝕜)} {f : Site → ℕ → ℕ} (hw : Wired net f) (s : Site) (a : ATensor B P 𝕜) :
    Wired (writeSite net s a) f := by
  refine ⟨fun s' h => ?_, fun s' h k hk => hw.corner s' h k hk, fun s' h k hk => hw.edge s' h k hk⟩
  by_cases e : s' = s
  · exact ⟨a, if_pos e⟩
  · obtain ⟨b, hb⟩ := hw.site s' h
    exact ⟨b, (if_neg e).trans hb⟩

/-- The norm tensor of a bond can be built. -/
theorem numNorm_wired {N : Type} {net : Net (Ten B P 𝕜)} {f : Site → ℕ → ℕ} (hw : Wired net f) (hx : 0 < net.nx) (hy : 0 < net.ny)
    (p : ℤ × ℤ) (K : Fin 4) (a1q a2q : B → B → B → N → 𝕜) :
    ∃ n, numNorm net ⟨cellSite net.nx net.ny p, cellSite net.nx net.ny (p + dir K), K.val⟩ a1q a2q = .ok n := by
  obtain ⟨i11, i12, i13, i21, i22, i23, i31, i32, i33⟩ := fin4 K
  have m0 : (K.val + 0) % 4 = K.val := (fin4_val K).1
  have m1 : (K.val + 1) % 4 = (K + 1).val := (fin4_val K).2.1
  have m2 : (K.val + 2) % 4 = (K + 2).val := (fin4_val K).2.2.1
  have m3 : (K.val + 3) % 4 = (K + 3).val := (fin4_val K).2.2.2
  have hback := dir_cancel p K
  obtain ⟨c12, h12⟩ := wired_corner hw hx hy p (p + dir (K + 2)) (K + 1) K (by rw [i11]) (by rw [i13])
  obtain ⟨e12, g12⟩ := wired_edge hw hx hy p (p + dir (K + 3)) (K + 1) (by rw [i12])
  obtain ⟨e11, g11⟩ := wired_edge hw hx hy p (p + dir (K + 2)) K rfl
  obtain ⟨c13, h13⟩ := wired_corner hw hx hy p (p + dir (K + 3)) (K + 2) (K + 1) (by rw [i21]) (by rw [i23])
  obtain ⟨e13, g13⟩ := wired_edge hw hx hy p (p + dir K) (K + 2) (by rw [i22])
  obtain ⟨c21, h21⟩ := wired_corner hw hx hy (p + dir K) (p + dir K + dir (K + 1)) K (K + 3) rfl rfl
  obtain ⟨e21, g21⟩ := wired_edge hw hx hy (p + dir K) p K hback.symm
  obtain ⟨e24, g24⟩ := wired_edge hw hx hy (p + dir K) (p + dir K + dir (K + 1)) (K + 3) (by rw [i32])
  obtain ⟨c24, h24⟩ := wired_corner hw hx hy (p + dir K) (p + dir K + dir K) (K + 3) (K + 2) (by rw [i31]) (by rw [i33])
  obtain ⟨e23, g23⟩ := wired_edge hw hx hy (p + dir K) (p + dir K + dir K) (K + 2) (by rw [i22])
  unfold numNorm
  dsimp only
  rw [m0, m1, m2, m3, h12, g12, g11, h13, g13, h21, g21, g24, h24, g23]
  dsimp only
  rw [if_pos ⟨rfl, rfl, rfl, rfl, rfl, rfl, rfl, rfl, rfl, rfl⟩]
  exact ⟨_, rfl⟩

end moves

section update

variable {P : Type} [Fintype P] [DecidableEq P] {bD : ℕ} [NeZero bD] [Nonempty P]

/-- The two sites of a bond of the list on the infinite lattice. -/
theorem bond_cellSite {nx ny : ℕ} (hx : 0 < nx) (hy : 0 < ny) {b : Bond} (hb : b ∈ buildBondList nx ny) :
    ∃ (p : ℤ × ℤ) (K : Fin 4), b = ⟨cellSite nx ny p, cellSite nx ny (p + dir K), K.val⟩ := by
  obtain ⟨h1, hk12, h2⟩ := ((C02_bond_list nx ny).2.2 b).1 hb
  obtain ⟨s1, s2, bk⟩ := b
  dsimp only at h1 hk12 h2
  have hk4 : bk < 4 := by omega
  obtain ⟨p, rfl⟩ : ∃ p, s1 = cellSite nx ny p := ⟨_, (cellSite_self nx ny s1 h1).symm⟩
  refine ⟨p, ⟨bk, hk4⟩, ?_⟩
  rw [h2, ← neighbour_cellSite nx ny hx hy]

/-- The result of `tensor_update` is that of the reduced tensors for some norm tensor. -/
theorem numTensorUpdate_wired {net : Net (Ten (Fin bD) P 𝕜)} {f : Site → ℕ → ℕ} (hw : Wired net f) (hx : 0 < net.nx) (hy : 0 < net.ny)
    {b : Bond} (hb : b ∈ buildBondList net.nx net.ny) (la : Lapack 𝕜) (fo : Als.FloatOps F) (rep : ℝ → F) (cfg : Settings F)
    (gate : P → P → P → P → 𝕜) (a1 a2 : ATensor (Fin bD) P 𝕜) :
    ∃ n12, numTensorUpdate la fo rep cfg net b gate a1 a2 =
      (updateReduced la fo rep cfg bD_le (decompose la a1 a2).a1r (decompose la a1 a2).a2r n12 gate).map fun r => do
        let p ← r
        let (a1, a2) := recompose (decompose la a1 a2).a1q p.1 (decompose la a1 a2).a2q p.2
        return (normalise a1, normalise a2) := by
  obtain ⟨p, K, rfl⟩ := bond_cellSite hx hy hb
  obtain ⟨n, hn⟩ := numNorm_wired hw hx hy p K (decompose la a1 a2).a1q (decompose la a1 a2).a2q
  refine ⟨n, ?_⟩
  unfold numTensorUpdate
  dsimp only
  rw [hn]

/-- With the pseudo-inverse a bond update returns. -/
theorem numUpdate_returns {net : Net (Ten (Fin bD) P 𝕜)} {f : Site → ℕ → ℕ} (hw : Wired net f) (hx : 0 < net.nx) (hy : 0 < net.ny)
    {b : Bond} (hb : b ∈ buildBondList net.nx net.ny) (la : Lapack 𝕜) (fo : Als.FloatOps F) (rep : ℝ → F) (cfg : Settings F)
    (hm : cfg.als_method = .pinv) (oneSite : Option (Site → P → P → 𝕜)) (gates : Bond → P → P → P → P → 𝕜) :
    ∃ q, numUpdate la fo rep cfg oneSite gates net b = some (.ok q) := by
  have hb' := hb
  obtain ⟨p, K, rfl⟩ := bond_cellSite hx hy hb
  obtain ⟨a1, h1⟩ := wired_site hw hx hy p
  obtain ⟨a2, h2⟩ := wired_site hw hx hy (p + dir K)
  obtain ⟨n, hn⟩ := numTensorUpdate_wired hw hx hy hb' la fo rep cfg (gates ⟨cellSite net.nx net.ny p, cellSite net.nx net.ny (p + dir K), K.val⟩)
    (bondPermute K.val a1) (bondPermute K.val a2)
  obtain ⟨r, hr⟩ := updateReduced_total la fo rep cfg bD_le hm (decompose la (bondPermute K.val a1) (bondPermute K.val a2)).a1r
    (decompose la (bondPermute K.val a1) (bondPermute K.val a2)).a2r n
    (gates ⟨cellSite net.nx net.ny p, cellSite net.nx net.ny (p + dir K), K.val⟩)
  unfold numUpdate
  dsimp only
  rw [h1, h2]
  dsimp only
  rw [hn, hr]
  cases oneSite <;> exact ⟨_, rfl⟩

/-- What a bond update does to a network whose tensors fit together. -/
theorem fullBondStep_wired (st : ProjSettings 𝕜) (pk : ProjKind) (ω : ℕ → Draws (Fin bD) 𝕜) (la : Lapack 𝕜) (fo : Als.FloatOps F)
    (rep : ℝ → F) (cfg : Settings F) (oneSite : Option (Site → P → P → 𝕜)) (gates : Bond → P → P → P → P → 𝕜)
    (s : Net (Ten (Fin bD) P 𝕜) × ℕ) {f : Site → ℕ → ℕ} (hw : Wired s.1 f) (hx : 0 < s.1.nx) (hy : 0 < s.1.ny) {b : Bond}
    (hb : b ∈ buildBondList s.1.nx s.1.ny) :
    let r := fullBondStep st pk ω la fo rep cfg oneSite gates s b
    (∃ f', Wired r.1.1 f') ∧ r.1.1.nx = s.1.nx ∧ r.1.1.ny = s.1.ny ∧
    (match numUpdate la fo rep cfg oneSite gates s.1 b with
      | some (.ok q) => r.2 = none ∧ r.1.1.A = (writeSite (writeSite s.1 b.s1 q.1) b.s2 q.2).A
      | _ => r.2 ≠ none ∧ r.1 = s) := by
  obtain ⟨net, t⟩ := s
  dsimp only at hw hx hy hb ⊢
  unfold fullBondStep
  dsimp only
  cases hu : numUpdate la fo rep cfg oneSite gates net b with
  | none => exact ⟨⟨f, hw⟩, rfl, rfl, Option.some_ne_none _, rfl⟩
  | some r =>
    cases r with
    | error e => exact ⟨⟨f, hw⟩, rfl, rfl, Option.some_ne_none _, rfl⟩
    | ok q =>
      have hr : ∀ m ∈ absorbMoves b, m.Valid net.nx net.ny := by
        obtain ⟨p, K, rfl⟩ := bond_cellSite hx hy hb
        obtain ⟨m1, m2, em, -, -, v1, v2, -⟩ := absorb_moves hx hy p K
        rw [em]
        intro m hm
        simp only [List.mem_cons, List.not_mem_nil, or_false] at hm
        rcases hm with rfl | rfl
        · exact v1
        · exact v2
      obtain ⟨n, f', e, h1, h2, h3, h4⟩ := wired_run st pk ω (absorbMoves b) t (writeSite (writeSite net b.s1 q.1) b.s2 q.2) f
        (wired_write (wired_write hw _ _) _ _) hx hy hr
      obtain ⟨q1, q2⟩ := q
      dsimp only at e h4 ⊢
      rw [e]
      exact ⟨⟨f', h1⟩, h2, h3, rfl, h4⟩

end update

end AceTN
