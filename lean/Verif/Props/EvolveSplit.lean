import Verif.Model.SimpleEvolve
import Verif.Lemmas.GhzRun
import Verif.Lemmas.Svd
import Verif.Props.EvolveSchedule

/-!
Property C06 for the simple update: two calls of `evolve` with `n` and `m` steps are not one call with `n + m` steps.
-/

set_option autoImplicit false

namespace AceTN

open Spec Simple

variable {X : Type}

section weights_kept

variable {σ : Type}

/-- **C06 (the loop).** If whatever the updater remembers were kept from call to call, `n` steps followed by `m` steps would be
`n + m` steps, for every bond update; an exception in the first part is the exception of the whole. -/
theorem C06_loop_partial (upd : σ → Bond → σ × Option PyErr) (n m : ℕ) (bl : List Bond) (s : σ) :
    evolveLoop upd (n + m) bl s =
      match evolveLoop upd n bl s with
      | (bl', s', none) => evolveLoop upd m bl' s'
      | (bl', s', some e) => (bl', s', some e) := by
  induction n generalizing bl s with
  | zero => rw [Nat.zero_add]; rfl
  | succ n ih =>
    rw [Nat.add_right_comm, evolveLoop, evolveLoop]
    rcases bondPass upd bl s with ⟨s', _ | e⟩
    · exact ih bl.reverse s'
    · rfl

/-- **C06 (full update, with exceptions).** For an updater that remembers nothing, such as that of the full update: if
`evolve` with `n` steps succeeds, evolving the result by `m` steps is evolving by `n + m` steps, whether or not that
raises; if it raises, evolving by `n + m` steps raises the same exception and leaves the same network. -/
theorem C06_full (upd : σ × Unit → Bond → (σ × Unit) × Option PyErr) (n m : ℕ) (st : List Bond × σ) :
    let r := evolveCall (fun _ => ()) upd n st
    (r.2.2 = none → evolveCall (fun _ => ()) upd m (r.1, r.2.1) = evolveCall (fun _ => ()) upd (n + m) st) ∧
    (r.2.2 ≠ none → evolveCall (fun _ => ()) upd (n + m) st = r) := by
  intro r
  have hr : r = evolveCall (fun _ => ()) upd n st := rfl
  unfold evolveCall at hr ⊢
  dsimp only at hr ⊢
  rw [C06_loop_partial]
  rw [hr]
  rcases evolveLoop upd n st.1 (st.2, ()) with ⟨bl', ⟨s', _⟩, _ | e⟩
  · exact ⟨fun _ => rfl, fun h => absurd rfl h⟩
  · exact ⟨fun h => by simp at h, fun _ => rfl⟩

/-- Non-vacuity: an update that raises at the sixth bond update on a 2 × 1 cell; two steps, split or not. -/
example : let upd : List Bond × Unit → Bond → (List Bond × Unit) × Option PyErr := fun s b =>
      if s.1.length = 5 then (s, some .valueError) else ((s.1 ++ [b], ()), none)
    let r := evolveCall (fun _ => ()) upd 1 (buildBondList 2 1, [])
    r.2.2 = none ∧ (evolveCall (fun _ => ()) upd 1 (r.1, r.2.1)).2.2 = some .valueError ∧
      (evolveCall (fun _ => ()) upd 2 (buildBondList 2 1, [])).2.2 = some .valueError := by decide

end weights_kept

section run

variable (la : Lapack ℝ)

/-- The updates of the witness: no one-site gates, the same gate on all bonds. -/
noncomputable abbrev ghzStep (st : NetT (Fin 2) P2 X ℝ × LambdaTensors (Weight 2)) (b : Bond) :=
  bondStep la (fun _ => none) (fun _ => flipGate kk) st b

/-- Follow the exponents through a list of updates that keep the form of the state. -/
def ghzRun : List Bond → (Bond → ℕ) → Option (Bond → ℕ)
  | [], ρ => some ρ
  | b :: l, ρ =>
    if b ∈ buildBondList 2 2 ∧ expo ρ b.s2 ((b.k + 2) % 4) = expo ρ b.s1 b.k ∧ expo ρ b.s1 b.k + 1 ≤ 8 then
      ghzRun l (Function.update ρ b (expo ρ b.s1 b.k + 1))
    else none

theorem ghzRun_pass (l : List Bond) (ρ ρ' : Bond → ℕ) (h : ghzRun l ρ = some ρ')
    (st : NetT (Fin 2) P2 X ℝ × LambdaTensors (Weight 2)) (hst : GhzInv ρ st) :
    ∃ st', bondPass (ghzStep la) l st = (st', none) ∧ GhzInv ρ' st' := by
  induction l generalizing ρ st with
  | nil =>
    rw [ghzRun, Option.some.injEq] at h
    subst h
    exact ⟨st, rfl, hst⟩
  | cons b l ih =>
    rw [ghzRun] at h
    split_ifs at h with hc
    obtain ⟨st1, h1, hinv⟩ := hst.keep b hc.1 _ rfl hc.2.1 hc.2.2 la
    obtain ⟨st', h2, hinv'⟩ := ih _ h st1 hinv
    refine ⟨st', ?_, hinv'⟩
    have : ghzStep la st b = (st1, none) := by
      unfold ghzStep bondStep
      rw [h1]
    rw [bondPass, this]
    exact h2

theorem good_pass (l : List Bond) (hl : ∀ b ∈ l, b ∈ buildBondList 2 2)
    (st : NetT (Fin 2) P2 X ℝ × LambdaTensors (Weight 2)) (hst : Good st) :
    ∃ st', bondPass (ghzStep la) l st = (st', none) ∧ ∀ s, Lost st s → Lost st' s := by
  induction l generalizing st with
  | nil => exact ⟨st, rfl, fun _ h => h⟩
  | cons b l ih =>
    obtain ⟨st1, h1, hg, hl1⟩ := hst.step b (hl b (by simp)) la
    obtain ⟨st', h2, hl2⟩ := ih (fun b' hb' => hl b' (by simp [hb'])) st1 hg
    refine ⟨st', ?_, fun s hs => hl2 s (hl1 s hs)⟩
    have : ghzStep la st b = (st1, none) := by
      unfold ghzStep bondStep
      rw [h1]
    rw [bondPass, this]
    exact h2

theorem ghzInv_init (L : List Bond) (hL : L.Perm (buildBondList 2 2)) (n : NetT (Fin 2) P2 X ℝ)
    (h : ∀ s, InCell 2 2 s → ∃ v, (n s).A = ghz v ∧ v 0 ≠ 0 ∧ |v 1| = yy * |v 0|) :
    GhzInv (fun _ => 0) (n, LambdaTensors.init L (ones 2 false)) :=
  ⟨h, _, Table.init L hL, fun b _ => ⟨rfl, by norm_num [ones], by simp [ones], by omega⟩⟩

end run

/-- One call of `evolve` with the simple update of a real network, if it succeeds: the network and the bond list
afterwards. -/
def Spec.EvolvesTo {bD : ℕ} {P : Type} [Fintype P] [DecidableEq P] [NeZero bD] [Nonempty P] (la : Lapack ℝ)
    (gate : P → P → P → P → ℝ) (steps : ℕ) (st st' : List Bond × NetT (Fin bD) P X ℝ) : Prop :=
  Simple.evolve la false (fun _ => none) (fun _ => gate) steps st = (st'.1, st'.2, none)

theorem evolvesTo_of (la : Lapack ℝ) (k : ℕ) (bl bl' : List Bond) (n : NetT (Fin 2) P2 X ℝ)
    (t : NetT (Fin 2) P2 X ℝ × LambdaTensors (Weight 2))
    (h : evolveLoop (ghzStep la) k bl (n, LambdaTensors.init bl (ones 2 false)) = (bl', t, none)) :
    EvolvesTo la (flipGate kk) k (bl, n) (bl', t.1) := by
  unfold EvolvesTo Simple.evolve evolveCall
  dsimp only
  rw [show evolveLoop (bondStep la (fun _ => none) fun _ => flipGate kk) k bl
    (n, LambdaTensors.init bl (ones 2 false)) = (bl', t, none) from h]

/-- **C06 (violated for the simple update, with the states).** Two rows and two columns, bond dimension two, four physical
states, the gate `1 + X ⊗ X / 100` on every bond and a translation invariant start.  Whatever singular value
decomposition is used: after `evolve` with one step, twice, every site has a non-zero amplitude for the physical state
`(1, 0)`; after `evolve` with two steps the site `(1, 0)` has lost it.  None of the calls raises. -/
theorem C06_violated_states (la : Lapack ℝ) (n : NetT (Fin 2) P2 X ℝ)
    (hn : ∀ s, InCell 2 2 s → (n s).A = ghz ![1, 4 / 5]) :
    ∃ st1 st2 st12 : List Bond × NetT (Fin 2) P2 X ℝ,
      EvolvesTo la (flipGate (1 / 100)) 1 (buildBondList 2 2, n) st1 ∧ EvolvesTo la (flipGate (1 / 100)) 1 st1 st2 ∧
      EvolvesTo la (flipGate (1 / 100)) 2 (buildBondList 2 2, n) st12 ∧ st12.1 = st2.1 ∧
      (∀ s, InCell 2 2 s → (st2.2 s).A 1 1 1 1 (1, 0) ≠ 0) ∧
      ∀ l u r d j, (st12.2 (1, 0)).A l u r d (1, j) = 0 := by
  rw [show (1 / 100 : ℝ) = kk from rfl]
  have hstart : ∀ s, InCell 2 2 s → ∃ v, (n s).A = ghz v ∧ v 0 ≠ 0 ∧ |v 1| = yy * |v 0| := fun s hs =>
    ⟨_, hn s hs, by norm_num, by norm_num [yy, abs_of_pos]⟩
  -- the first step, and the second one with fresh weights
  have hs1 : (ghzRun (buildBondList 2 2) fun _ => 0).isSome = true := by decide
  have hs2 : (ghzRun (buildBondList 2 2).reverse fun _ => 0).isSome = true := by decide
  obtain ⟨ρ1, hρ1⟩ := Option.isSome_iff_exists.1 hs1
  obtain ⟨ρ2, hρ2⟩ := Option.isSome_iff_exists.1 hs2
  obtain ⟨t1, hp1, hi1⟩ := ghzRun_pass la _ _ ρ1 hρ1 _ (ghzInv_init (buildBondList 2 2) (List.Perm.refl _) n hstart)
  obtain ⟨t2, hp2, hi2⟩ := ghzRun_pass la _ _ ρ2 hρ2 _
    (ghzInv_init (buildBondList 2 2).reverse (List.reverse_perm _) t1.1 hi1.site)
  -- both steps with the same weights
  have hs3 : (ghzRun (buildBondList 2 2 ++ (buildBondList 2 2).reverse.take 2) fun _ => 0).map
      (fun ρ => (expo ρ (1, 0) 1, expo ρ (1, 1) 3)) = some (11, 11) := by decide
  obtain ⟨ρ3, hρ3, he⟩ := Option.map_eq_some_iff.1 hs3
  rw [Prod.mk.injEq] at he
  obtain ⟨t3, hp3, hi3⟩ := ghzRun_pass la _ _ ρ3 hρ3 _ (ghzInv_init (buildBondList 2 2) (List.Perm.refl _) n hstart)
  obtain ⟨t4, hp4, hg4, hl4⟩ := hi3.lose ⟨(1, 0), (1, 1), 1⟩ (by decide) 11 he.1 he.2 (by omega) la
  obtain ⟨t5, hp5, hl5⟩ := good_pass la ((buildBondList 2 2).reverse.drop 3) (by decide) t4 hg4
  have hb4 : ghzStep la t3 ⟨(1, 0), (1, 1), 1⟩ = (t4, none) := by
    unfold ghzStep bondStep
    rw [hp4]
  have hp345 : bondPass (ghzStep la) (buildBondList 2 2 ++ (buildBondList 2 2).reverse)
      (n, LambdaTensors.init (buildBondList 2 2) (ones 2 false)) = (t5, none) := by
    have hsplit : buildBondList 2 2 ++ (buildBondList 2 2).reverse =
        (buildBondList 2 2 ++ (buildBondList 2 2).reverse.take 2) ++
          (⟨(1, 0), (1, 1), 1⟩ :: (buildBondList 2 2).reverse.drop 3) := by decide
    rw [hsplit, bondPass_append, hp3]
    dsimp only
    rw [bondPass, hb4]
    exact hp5
  refine ⟨((buildBondList 2 2).reverse, t1.1), (buildBondList 2 2, t2.1), (buildBondList 2 2, t5.1), ?_, ?_, ?_, rfl, ?_, ?_⟩
  · refine evolvesTo_of la _ _ _ _ _ ?_
    rw [evolveLoop, hp1]
    rfl
  · refine evolvesTo_of la _ _ _ _ _ ?_
    rw [evolveLoop, hp2, List.reverse_reverse]
    rfl
  · refine evolvesTo_of la _ _ _ _ _ ?_
    rw [bondPass_append, hp1] at hp345
    dsimp only at hp345
    rw [evolveLoop, hp1]
    dsimp only
    rw [evolveLoop, hp345, List.reverse_reverse]
    rfl
  · intro s hs
    obtain ⟨v, hv, h0, h1⟩ := hi2.site s hs
    dsimp only
    rw [hv, ghz_same]
    exact abs_pos.1 (by rw [h1]; exact mul_pos yy_pos (abs_pos.2 h0))
  · exact fun l u r d j => hl5 _ hl4 l u r d j

/-- The intended statement for the simple update of real networks of at least two rows and columns: evolving `n` steps and
then `m` steps is evolving `n + m` steps. -/
def Spec.SimpleSplits : Prop :=
  ∀ (nx ny bD : ℕ) (P X : Type) [Fintype P] [DecidableEq P] [NeZero bD] [Nonempty P] (la : Lapack ℝ)
    (gate : P → P → P → P → ℝ) (n m : ℕ) (ipeps : NetT (Fin bD) P X ℝ) (st1 st2 : List Bond × NetT (Fin bD) P X ℝ),
    2 ≤ nx → 2 ≤ ny → EvolvesTo la gate n (buildBondList nx ny, ipeps) st1 → EvolvesTo la gate m st1 st2 →
    EvolvesTo la gate (n + m) (buildBondList nx ny, ipeps) st2

/-- **C06 (violated for the simple update).** The bond weights start from one again in every call. -/
theorem C06_violated : ¬ SimpleSplits := by
  intro h
  obtain ⟨la⟩ := nonempty_lapack (𝕜 := ℝ)
  obtain ⟨st1, st2, st12, h1, h2, h12, -, hne, hz⟩ := C06_violated_states (X := Unit) la
    (fun _ => ⟨ghz ![1, 4 / 5], fun _ _ _ => 0, fun _ _ _ _ _ => 0⟩) fun _ _ => rfl
  have h3 := h 2 2 2 P2 Unit la (flipGate (1 / 100)) 1 1 _ st1 st2 le_rfl le_rfl h1 h2
  have h4 : (st2.1, st2.2, (none : Option PyErr)) = (st12.1, st12.2, none) := Eq.trans (Eq.symm h3) h12
  have h5 : st2.2 = st12.2 := congrArg (fun r => r.2.1) h4
  exact hne (1, 0) ⟨by decide, by decide⟩ (by rw [h5]; exact hz 1 1 1 1 0)

end AceTN
