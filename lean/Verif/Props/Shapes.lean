import Verif.Lemmas.Shapes
import Verif.Lemmas.EinsumShape
import Verif.Lemmas.Lattice

/-! C10, C11: dimensions of boundary links. -/

set_option autoImplicit false

namespace AceTN
variable {T : Type}

namespace Spec

/-- Shapes of a freshly built network with bond dimension `D` and physical dimension `p`. -/
def FreshShapes (sh : T → Option Shape) (D p : ℕ) (net : Net T) : Prop :=
  ∀ s, InCell net.nx net.ny s → sh (net.A s) = some [D, D, D, D, p] ∧
    ∀ k < 4, sh (net.B s (.C k)) = some (initCornerShape D) ∧ sh (net.B s (.E k)) = some (initEdgeShape D)

/-- A history step that the API allows: moves inside the cell, positive chi, and bond updates whose new site
tensors were put together by `recompose_site_tensors` (tensor_update.py 70-75) from reduced tensors of the
shapes produced by `decompose_site_tensors`, and permuted back (tensor_update.py 34). -/
def ValidAct (sh : T → Option Shape) (D p : ℕ) (nx ny : ℕ) : Act T → Prop
  | .move (.left x) | .move (.right x) => x < nx
  | .move (.up y) | .move (.down y) => y < ny
  | .renormalize _ => True
  | .update b a1 a2 =>
    let (q, r) := decomposeShape D p
    sh a1 = (recompose1Shape q r).bind (permuteShape (4 - b.k)) ∧
    sh a2 = (recompose2Shape q r).bind (permuteShape (4 - b.k))
  | .setChi chi => 1 ≤ chi

/-- Neighbouring boundary tensors agree on the dimension of the link they share.  Around a site the cyclic order
is `C0 E0 C1 E1 C2 E2 C3 E3`, the second index of each joined to the first index of the next; along a row of
edges `E[k]`, the second index is joined to the first index of the `E[k]` of the next site clockwise (to the
right for up edges, down for right edges, ...). -/
def LinksAgree (sh : T → Option Shape) (D : ℕ) (net : Net T) : Prop :=
  ∀ s, InCell net.nx net.ny s → ∀ k < 4, ∃ a b c d : ℕ,
    sh (net.B s (.E k)) = some [a, b, D, D] ∧
    sh (net.B s (.C k)) = some [c, a] ∧
    sh (net.B s (.C ((k + 1) % 4))) = some [b, d] ∧
    ∃ b', sh (net.B (neighbour net.nx net.ny s ((k + 2) % 4)) (.E k)) = some [b, b', D, D]

end Spec

theorem neighbour_eq_nxt {nx ny : ℕ} {s : Site} (hs : Spec.InCell nx ny s) (e : ℕ) :
    Spec.neighbour nx ny s ((e + 2) % 4) = nxt nx ny e s := by
  obtain ⟨h1, h2⟩ := hs
  have : e % 4 = 0 ∨ e % 4 = 1 ∨ e % 4 = 2 ∨ e % 4 = 3 := by omega
  rcases this with h | h | h | h
  · rw [show (e + 2) % 4 = 2 by omega]; simp only [Spec.neighbour, nxt, h, int_mod_toNat_succ]; rfl
  · rw [show (e + 2) % 4 = 3 by omega]
    simp only [Spec.neighbour, nxt, h, int_mod_toNat_pred s.2 ny (by omega)]; rfl
  · rw [show (e + 2) % 4 = 0 by omega]
    simp only [Spec.neighbour, nxt, h, int_mod_toNat_pred s.1 nx (by omega)]; rfl
  · rw [show (e + 2) % 4 = 1 by omega]; simp only [Spec.neighbour, nxt, h, int_mod_toNat_succ]; rfl

theorem recompose1_ok (D p : ℕ) :
    recompose1Shape (decomposeShape D p).1 (decomposeShape D p).2 = some [D, D, D, D, p] := by
  simp [recompose1Shape, decomposeShape, einsumShape, bindAll, bindIdx, outShape]

theorem recompose2_ok (D p : ℕ) :
    recompose2Shape (decomposeShape D p).1 (decomposeShape D p).2 = some [D, D, D, D, p] := by
  simp [recompose2Shape, decomposeShape, einsumShape, bindAll, bindIdx, outShape]

theorem fresh_fits {sh : T → Option Shape} {D p : ℕ} {net : Net T} (h : Spec.FreshShapes sh D p net) :
    Fits sh D p net (fun _ _ => D * D) :=
  ⟨fun s hs => (h s hs).1, fun s hs k hk => ((h s hs).2 k hk).2, fun s hs k hk => ((h s hs).2 k hk).1⟩

theorem act_fits {o : Ops T} {sh : T → Option Shape} (L : ShapeLaws o sh) (pk : ProjKind)
    {D p : ℕ} (a : Act T) {net : Net T} {lk : ℕ → Site → ℕ} (h : Fits sh D p net lk) (hchi : 1 ≤ net.chi)
    (ha : Spec.ValidAct sh D p net.nx net.ny a) :
    ∃ net' lk', a.run o pk net = .ok net' ∧ Fits sh D p net' lk' ∧ net'.nx = net.nx ∧ net'.ny = net.ny ∧
      1 ≤ net'.chi := by
  cases a with
  | move m =>
    obtain ⟨lk', f, -⟩ := move_fits L pk h hchi m (by cases m <;> exact ha)
    exact ⟨_, lk', m.run_eq o pk net, f, rfl, rfl, hchi⟩
  | renormalize n =>
    obtain ⟨net', lk', r, f, e1, e2, e3, -⟩ := ctmrg_fits L pk n h hchi
    exact ⟨net', lk', r, f, e1, e2, by rw [e3]; exact hchi⟩
  | update b a1 a2 =>
    obtain ⟨h1, h2⟩ := ha
    have r1 := recompose1_ok D p
    have r2 := recompose2_ok D p
    simp only [decomposeShape] at r1 r2
    rw [r1] at h1; rw [r2] at h2
    simp only [Option.bind_some, permute_ok] at h1 h2
    refine ⟨_, lk, rfl, ⟨?_, h.e, h.c⟩, rfl, rfl, hchi⟩
    intro s hs
    simp only [Net.setA]
    split
    · exact h2
    · split
      · exact h1
      · exact h.a s hs
  | setChi chi => exact ⟨_, lk, rfl, ⟨h.a, h.e, h.c⟩, rfl, rfl, ha⟩

theorem acts_fits {o : Ops T} {sh : T → Option Shape} (L : ShapeLaws o sh) (pk : ProjKind)
    {D p : ℕ} (as : List (Act T)) {net : Net T} {lk : ℕ → Site → ℕ} (h : Fits sh D p net lk)
    (hchi : 1 ≤ net.chi) (ha : ∀ a ∈ as, Spec.ValidAct sh D p net.nx net.ny a) :
    ∃ net' lk', runActs o pk as net = .ok net' ∧ Fits sh D p net' lk' ∧ net'.nx = net.nx ∧
      net'.ny = net.ny ∧ 1 ≤ net'.chi := by
  induction as generalizing net lk with
  | nil => exact ⟨net, lk, rfl, h, rfl, rfl, hchi⟩
  | cons a as ih =>
    obtain ⟨n1, l1, r1, f1, x1, y1, c1⟩ := act_fits L pk a h hchi (ha a (List.mem_cons_self ..))
    obtain ⟨n2, l2, r2, f2, x2, y2, c2⟩ := ih f1 c1 (by
      rw [x1, y1]; exact fun a' h' => ha a' (List.mem_cons_of_mem _ h'))
    refine ⟨n2, l2, ?_, f2, x2.trans x1, y2.trans y1, c2⟩
    simp only [runActs, r1]; exact r2

theorem runActs_append (o : Ops T) (pk : ProjKind) (as bs : List (Act T)) (net : Net T) :
    runActs o pk (as ++ bs) net = runActs o pk as net >>= runActs o pk bs := by
  induction as generalizing net with
  | nil => rfl
  | cons a as ih =>
    simp only [List.cons_append, runActs]
    cases a.run o pk net with
    | error e => rfl
    | ok n => exact ih n

/-- **C10 (the check).** The check that the contractions below pass is that of `torch.einsum` without broadcasting: it succeeds exactly if sizes can be
given to the names of the indices such that all operands have the sizes of their indices and all indices of the result are indices of operands. -/
theorem C10_check (subs : Subs) (ops : List Shape) (out : Shape) :
    einsumShape subs ops = some out ↔ ∃ size : ℕ → ℕ, ops = subs.1.map (List.map size) ∧ out = subs.2.map size ∧ ∀ c ∈ subs.2, ∃ l ∈ subs.1, c ∈ l := by
  unfold einsumShape
  constructor
  · intro h
    obtain ⟨env, h1, h2⟩ := Option.bind_eq_some_iff.1 h
    obtain ⟨-, a2, a3⟩ := bindAll_sound _ _ _ _ h1
    obtain ⟨b1, b2⟩ := (outShape_eq _ _ _).1 h2
    exact ⟨_, a2, b1, fun c hc => (a3 c (b2 c hc)).resolve_left (by simp)⟩
  · rintro ⟨size, rfl, rfl, h⟩
    obtain ⟨env, h1, h2⟩ := bindAll_complete size subs.1 (fun _ => none) (by simp)
    obtain ⟨-, a2, -⟩ := bindAll_sound _ _ _ _ h1
    have hs : ∀ c ∈ subs.2, env c = some (size c) := by
      intro c hc
      obtain ⟨l, hl, hcl⟩ := h c hc
      obtain ⟨d, hd⟩ := Option.isSome_iff_exists.1 (bindAll_bound _ _ _ _ h1 c l hl hcl)
      rw [hd, h2 c d hd]
    rw [h1, Option.bind_some, outShape_eq]
    exact ⟨List.map_congr_left fun c hc => by rw [hs c hc]; rfl, fun c hc => by rw [hs c hc]; rfl⟩

/-- A product of matrices is checked, and one that does not fit is found. -/
example : einsumShape (subs% "ab,bc->ac") [[2, 3], [3, 5]] = some [2, 5] ∧ einsumShape (subs% "ab,bc->ac") [[2, 3], [4, 5]] = none := ⟨rfl, rfl⟩

/-- C10: starting from a freshly built network, after any history of boundary moves, sweeps, bond updates and
changes of chi, whatever numbers of singular values the individual truncations keep: no tensor of the network is
the result of a failed contraction, neighbouring tensors agree on the link they share, and the contractions for
every site density matrix, every block of every bond density matrix and every norm tensor succeed with the
documented result shapes. -/
theorem C10_no_size_mismatch {o : Ops T} {sh : T → Option Shape} (L : ShapeLaws o sh) (pk : ProjKind)
    (D p : ℕ) (net : Net T) (hfresh : Spec.FreshShapes sh D p net) (hchi : 1 ≤ net.chi)
    (acts : List (Act T)) (hacts : ∀ a ∈ acts, Spec.ValidAct sh D p net.nx net.ny a) :
    ∃ net', runActs o pk acts net = .ok net' ∧
      Spec.LinksAgree sh D net' ∧
      (∀ s, Spec.InCell net.nx net.ny s → sh (net'.A s) = some [D, D, D, D, p]) ∧
      (∀ s, Spec.InCell net.nx net.ny s → siteRdmOf sh net' s = some [p, p]) ∧
      (∀ s, Spec.InCell net.nx net.ny s → ∀ k < 4,
        let b : Bond := ⟨s, Spec.neighbour net.nx net.ny s k, k⟩
        (∀ w1 w2, bondRdmOf o sh net' b w1 w2 = some [w1, w2, p, p]) ∧
        ∀ n, normOf sh net' b [D, D, D, n] [D, D, D, n] = some [n, n, n, n]) := by
  obtain ⟨net', lk, r, f, e1, e2, -⟩ := acts_fits L pk acts (fresh_fits hfresh) hchi hacts
  rw [← e1, ← e2]
  refine ⟨net', r, ?_, f.a, ?_, ?_⟩
  · intro s hs k hk
    refine ⟨_, _, _, lk ((k + 1) % 4) s, f.e s hs k hk, f.c s hs k hk, ?_, ?_⟩
    · rw [f.cMod hs, show (k + 1 + 3) % 4 = k by omega,
        nxt_congr (show (k + 1 + 3) % 4 = k % 4 by omega)]
    · rw [neighbour_eq_nxt hs]
      exact ⟨_, f.e _ (nxt_inCell _ hs) k hk⟩
  · intro s hs
    have c0 := f.c s hs 0 (by omega)
    have c1 := f.c s hs 1 (by omega)
    have c2 := f.c s hs 2 (by omega)
    have c3 := f.c s hs 3 (by omega)
    rw [nxt_congr (show (1 + 3) % 4 = 0 % 4 from rfl)] at c1
    rw [nxt_congr (show (2 + 3) % 4 = 1 % 4 from rfl)] at c2
    rw [nxt_congr (show (3 + 3) % 4 = 2 % 4 from rfl)] at c3
    simp only [siteRdmOf, c0, c1, c2, c3, f.e s hs 0 (by omega), f.e s hs 1 (by omega),
      f.e s hs 2 (by omega), f.e s hs 3 (by omega), f.a s hs, Option.bind_eq_bind, Option.bind_some]
    exact siteRdm_ok _ _ _ _ _ _ _ _ _ _
  · intro s hs k hk
    have hnb : Spec.neighbour net'.nx net'.ny s k = nxt net'.nx net'.ny (k + 2) s := by
      rw [← neighbour_eq_nxt hs, show (k + 2 + 2) % 4 = k by omega]
    rw [hnb]
    set s2 := nxt net'.nx net'.ny (k + 2) s with hs2
    have i2 : Spec.InCell net'.nx net'.ny s2 := nxt_inCell _ hs
    have bk : nxt net'.nx net'.ny k s2 = s := nxt_back' k hs
    have c12 := f.cMod hs (k + 1)
    have c13 := f.cMod hs (k + 2)
    have e11 := f.eMod hs k
    have e12 := f.eMod hs (k + 1)
    have e13 := f.eMod hs (k + 2)
    have c21 := f.cMod i2 k
    have c24 := f.cMod i2 (k + 3)
    have e21 := f.eMod i2 k
    have e24 := f.eMod i2 (k + 3)
    have e23 := f.eMod i2 (k + 2)
    have a1 := f.a s hs
    have a2 := f.a s2 i2
    rw [← hs2] at e13
    rw [bk] at e21
    rw [nxt_congr (show (k + 1 + 3) % 4 = k % 4 by omega), show (k + 1 + 3) % 4 = k % 4 by omega] at c12
    rw [nxt_congr (show (k + 2 + 3) % 4 = (k + 1) % 4 by omega),
      show (k + 2 + 3) % 4 = (k + 1) % 4 by omega] at c13
    rw [nxt_congr (show (k + 3 + 3) % 4 = (k + 2) % 4 by omega),
      show (k + 3 + 3) % 4 = (k + 2) % 4 by omega] at c24
    constructor
    · intro w1 w2
      simp only [bondRdmOf, Nat.add_zero, c12, c13, e11, e12, e13, c21, c24, e21, e24, e23, L.permute, a1, a2,
        Option.bind_eq_bind, Option.bind_some, permute_ok]
      exact bondRdm_ok _ _ _ _ _ _ _ _ _ _ _ _ _ _
    · intro n
      simp only [normOf, Nat.add_zero, c12, c13, e11, e12, e13, c21, c24, e21, e24, e23, Option.bind_eq_bind,
        Option.bind_some]
      exact norm_ok _ _ _ _ _ _ _ _ _ _ _ _

/-- C11: after any such history followed by `renormalize` with at least one sweep, every boundary link of every
site has dimension between 1 and the current chi, however large the links were before (freshly built networks
have `D·D`, possibly more than chi; chi may have been lowered). -/
theorem C11_links_capped {o : Ops T} {sh : T → Option Shape} (L : ShapeLaws o sh) (pk : ProjKind)
    (D p : ℕ) (net : Net T) (hfresh : Spec.FreshShapes sh D p net) (hchi : 1 ≤ net.chi)
    (acts : List (Act T)) (hacts : ∀ a ∈ acts, Spec.ValidAct sh D p net.nx net.ny a) (n : ℕ) (hn : 1 ≤ n) :
    ∃ net', runActs o pk (acts ++ [.renormalize n]) net = .ok net' ∧
      ∀ s, Spec.InCell net.nx net.ny s → ∀ k < 4,
        (∃ a b, sh (net'.B s (.E k)) = some [a, b, D, D] ∧
          1 ≤ a ∧ a ≤ net'.chi ∧ 1 ≤ b ∧ b ≤ net'.chi) ∧
        (∃ a b, sh (net'.B s (.C k)) = some [a, b] ∧
          1 ≤ a ∧ a ≤ net'.chi ∧ 1 ≤ b ∧ b ≤ net'.chi) := by
  obtain ⟨n1, lk1, r1, f1, x1, y1, c1⟩ := acts_fits L pk acts (fresh_fits hfresh) hchi hacts
  obtain ⟨n2, lk2, r2, f2, x2, y2, c2, b⟩ := ctmrg_fits L pk n f1 c1
  refine ⟨n2, ?_, ?_⟩
  · rw [runActs_append, r1]
    show runActs o pk [.renormalize n] n1 = _
    simp only [runActs, Act.run, r2]; rfl
  · intro s hs k hk
    have b' := b (Or.inl hn)
    rw [← x1, ← y1] at hs
    rw [c2]
    have hs2 := hs
    rw [← x2, ← y2] at hs2
    have inn := fun e => nxt_inCell (nx := n1.nx) (ny := n1.ny) e hs
    rw [← x2, ← y2] at inn b'
    exact ⟨⟨_, _, f2.e s hs2 k hk, (b' s hs2 k hk).1, (b' s hs2 k hk).2, (b' _ (inn k) k hk).1,
      (b' _ (inn k) k hk).2⟩, ⟨_, _, f2.c s hs2 k hk, (b' _ (inn (k + 3)) _ (Nat.mod_lt _ (by omega))).1,
      (b' _ (inn (k + 3)) _ (Nat.mod_lt _ (by omega))).2, (b' s hs2 k hk).1, (b' s hs2 k hk).2⟩⟩

/-! ### witnesses -/

/-- Shapes themselves as "tensors": each projector keeps a number of singular values that depends on the cut
(1 for the first row, the full chi elsewhere). -/
def shapeOps : Ops (Option Shape) where
  permute k a := a.bind (permuteShape k)
  quarter a c e1 e2 := a.bind fun a => c.bind fun c => e1.bind fun e1 => e2.bind fun e2 => quarterShape a c e1 e2
  half key chi q1 q4 :=
    let r := q1.bind fun q1 => q4.bind fun q4 => halfShape (if key.2.2 = 0 then 1 else chi) q1 q4
    (r.map (·.1), r.map (·.2))
  full key chi q1 q2 q3 q4 :=
    let r := q1.bind fun q1 => q2.bind fun q2 => q3.bind fun q3 => q4.bind fun q4 =>
      fullShape (if key.2.2 = 0 then 1 else chi) q1 q2 q3 q4
    (r.map (·.1), r.map (·.2))
  cj1 c e p := c.bind fun c => e.bind fun e => p.bind fun p => cj1Shape c e p
  cj2 c e p := c.bind fun c => e.bind fun e => p.bind fun p => cj2Shape c e p
  ej e a p2 p1 := e.bind fun e => a.bind fun a => p2.bind fun p2 => p1.bind fun p1 => ejShape e a p2 p1

/-- The shape laws can be met, with truncations that differ from cut to cut. -/
theorem shapeOps_laws : ShapeLaws shapeOps id where
  permute _ _ := rfl
  quarter _ _ _ _ := rfl
  half key chi q1 q4 h := ⟨if key.2.2 = 0 then 1 else chi, by split <;> omega, by split <;> omega, rfl, rfl⟩
  full key chi q1 q2 q3 q4 h :=
    ⟨if key.2.2 = 0 then 1 else chi, by split <;> omega, by split <;> omega, rfl, rfl⟩
  cj1 _ _ _ := rfl
  cj2 _ _ _ := rfl
  ej _ _ _ _ := rfl

/-- A fresh 2 by 3 network with D = 2, p = 3, chi = 3 < D·D. -/
def shapeNet : Net (Option Shape) where
  nx := 2
  ny := 3
  chi := 3
  A _ := some [2, 2, 2, 2, 3]
  B _ sl := match sl with
    | .C _ => some (initCornerShape 2)
    | .E _ => some (initEdgeShape 2)
  writes _ _ := 0

example : Spec.FreshShapes id 2 3 shapeNet := fun _ _ => ⟨rfl, fun _ _ => ⟨rfl, rfl⟩⟩

/-- A history using every kind of step. -/
example : ∀ a ∈ ([.move (.left 1), .setChi 2, .update ⟨(0, 0), (1, 0), 2⟩ (some [2, 2, 2, 2, 3])
    (some [2, 2, 2, 2, 3]), .renormalize 2, .move (.down 2)] : List (Act (Option Shape))),
    Spec.ValidAct id 2 3 shapeNet.nx shapeNet.ny a := by
  have h1 : recompose1Shape [2, 2, 2, 6] [6, 2, 3] = some [2, 2, 2, 2, 3] := by
    simpa [decomposeShape] using recompose1_ok 2 3
  have h2 : recompose2Shape [2, 2, 2, 6] [6, 2, 3] = some [2, 2, 2, 2, 3] := by
    simpa [decomposeShape] using recompose2_ok 2 3
  simp [Spec.ValidAct, shapeNet, decomposeShape, h1, h2, permute_ok]

end AceTN
