import Verif.Lemmas.SimpleSplit
import Verif.Props.LambdaRegistry
import Verif.Props.Rdm
import Verif.Props.FullUpdateExact

/-!
Properties C40 (a simple update is an optimally truncated, normalised split), C41 (absorbing and stripping weights) and
C42 (both tensors are stored).
-/

set_option autoImplicit false

namespace AceTN

open Matrix Spec Simple Full

variable {𝕜 : Type} [RCLike 𝕜] {bD : ℕ} {P : Type}

/-- The weights around a site, as found through the four look-ups. -/
def Weights (lt : LambdaTensors (Weight bD)) (s : Site) (W : ℕ → Weight bD) : Prop := ∀ d < 4, lt.get s d = .ok (W d)

/-- The weights around a site that can be divided out: stored with a real dtype and not below the cut-off `1e-12`. -/
def Strippable (W : ℕ → Weight bD) (ex : ℕ) : Prop := ∀ d < 4, d ≠ ex → (W d).cx = false ∧ ∀ i, 1e-12 ≤ (W d).v i

theorem absorbWeight_eq (lt : LambdaTensors (Weight bD)) (s : Site) (ex d : ℕ) (W : ℕ → Weight bD)
    (h : lt.get s d = .ok (W d)) :
    absorbWeight (𝕜 := 𝕜) lt s ex d = .ok fun i => ((legWeight (fun d => (W d).v) ex d i : ℝ) : 𝕜) := by
  unfold absorbWeight legWeight
  rw [h]
  by_cases hd : d = ex
  · subst hd; simp [bind, Except.bind, pure, Except.pure]
  · simp [hd, bind, Except.bind, pure, Except.pure]

/-- What `absorb` computes. -/
theorem absorb_eq (lt : LambdaTensors (Weight bD)) (a : ATensor (Fin bD) P 𝕜) (s : Site) (ex : ℕ) (W : ℕ → Weight bD)
    (hW : Weights lt s W) : absorb lt a s ex = .ok (weighted (fun d => (W d).v) ex a) := by
  unfold absorb
  rw [absorbWeight_eq lt s ex 0 W (hW 0 (by omega)), absorbWeight_eq lt s ex 1 W (hW 1 (by omega)),
    absorbWeight_eq lt s ex 2 W (hW 2 (by omega)), absorbWeight_eq lt s ex 3 W (hW 3 (by omega))]
  refine congrArg Except.ok ?_
  funext l u r d p
  unfold applyWeights weighted
  push_cast
  rfl

/-- The factors `strip` divides by. -/
noncomputable def divisor (W : ℕ → Weight bD) (d : ℕ) (i : Fin bD) : ℝ := max ((W d).v i) cutoff

theorem stripWeight_eq (lt : LambdaTensors (Weight bD)) (s : Site) (ex d : ℕ) (W : ℕ → Weight bD)
    (h : lt.get s d = .ok (W d)) (hr : d ≠ ex → (W d).cx = false) :
    stripWeight (𝕜 := 𝕜) lt s ex d = .ok fun i => (((legWeight (divisor W) ex d i)⁻¹ : ℝ) : 𝕜) := by
  unfold stripWeight legWeight divisor
  rw [h]
  by_cases hd : d = ex
  · subst hd; simp [bind, Except.bind, pure, Except.pure]
  · simp [hd, hr hd, bind, Except.bind, pure, Except.pure]

/-- What `strip` computes for weights of a real dtype. -/
theorem strip_eq (lt : LambdaTensors (Weight bD)) (a : ATensor (Fin bD) P 𝕜) (s : Site) (ex : ℕ) (W : ℕ → Weight bD)
    (hW : Weights lt s W) (hr : ∀ d < 4, d ≠ ex → (W d).cx = false) :
    strip lt a s ex = .ok fun l u r d p => (((legWeight (divisor W) ex 0 l * legWeight (divisor W) ex 1 u *
      legWeight (divisor W) ex 2 r * legWeight (divisor W) ex 3 d)⁻¹ : ℝ) : 𝕜) * a l u r d p := by
  unfold strip
  rw [stripWeight_eq lt s ex 0 W (hW 0 (by omega)) (hr 0 (by omega)),
    stripWeight_eq lt s ex 1 W (hW 1 (by omega)) (hr 1 (by omega)),
    stripWeight_eq lt s ex 2 W (hW 2 (by omega)) (hr 2 (by omega)),
    stripWeight_eq lt s ex 3 W (hW 3 (by omega)) (hr 3 (by omega))]
  refine congrArg Except.ok ?_
  funext l u r d p
  unfold applyWeights
  push_cast
  simp only [mul_inv]

theorem divisor_legWeight (W : ℕ → Weight bD) (ex d : ℕ) (hd : d < 4) (hs : Strippable W ex) (i : Fin bD) :
    legWeight (divisor W) ex d i = legWeight (fun d => (W d).v) ex d i := by
  unfold legWeight divisor
  by_cases h : d = ex
  · simp [h]
  · simp only [h, if_false]
    exact max_eq_left ((hs d hd h).2 i)

theorem legWeight_pos (W : ℕ → Weight bD) (ex d : ℕ) (hd : d < 4) (hs : Strippable W ex) (i : Fin bD) :
    0 < legWeight (fun d => (W d).v) ex d i := by
  unfold legWeight
  by_cases h : d = ex
  · simp [h]
  · simp only [h, if_false]
    exact lt_of_lt_of_le (by norm_num) ((hs d hd h).2 i)

theorem prod_legWeight_ne (W : ℕ → Weight bD) (ex : ℕ) (hs : Strippable W ex) (l u r d : Fin bD) :
    legWeight (fun d => (W d).v) ex 0 l * legWeight (fun d => (W d).v) ex 1 u *
      legWeight (fun d => (W d).v) ex 2 r * legWeight (fun d => (W d).v) ex 3 d ≠ 0 := by
  have h0 := legWeight_pos W ex 0 (by omega) hs l
  have h1 := legWeight_pos W ex 1 (by omega) hs u
  have h2 := legWeight_pos W ex 2 (by omega) hs r
  have h3 := legWeight_pos W ex 3 (by omega) hs d
  positivity

/-- Stripping is an inverse of the weighting. -/
theorem strip_ok (lt : LambdaTensors (Weight bD)) (a : ATensor (Fin bD) P 𝕜) (s : Site) (ex : ℕ) (W : ℕ → Weight bD)
    (hW : Weights lt s W) (hs : Strippable W ex) :
    ∃ b, strip lt a s ex = .ok b ∧ weighted (fun d => (W d).v) ex b = a := by
  refine ⟨_, strip_eq lt a s ex W hW fun d hd he => (hs d hd he).1, ?_⟩
  funext l u r d p
  unfold weighted
  dsimp only
  rw [divisor_legWeight W ex 0 (by omega) hs, divisor_legWeight W ex 1 (by omega) hs,
    divisor_legWeight W ex 2 (by omega) hs, divisor_legWeight W ex 3 (by omega) hs, ← mul_assoc, ← RCLike.ofReal_mul,
    mul_inv_cancel₀ (prod_legWeight_ne W ex hs l u r d), RCLike.ofReal_one, one_mul]

/-- **C41 (partial).** Absorbing the weights of a site into a tensor and stripping them again returns the tensor, and so
does stripping first, for every tensor, excluded direction and weights that are at least `1e-12` and of a real dtype.
What is missing are smaller weights and complex dtypes, where the claim is false (`C41_violated`,
`C41_violated_complex`). -/
theorem C41_partial (lt : LambdaTensors (Weight bD)) (a : ATensor (Fin bD) P 𝕜) (s : Site) (ex : ℕ) (W : ℕ → Weight bD)
    (hW : Weights lt s W) (hs : Strippable W ex) :
    (absorb lt a s ex >>= fun b => strip lt b s ex) = .ok a ∧
    (strip lt a s ex >>= fun b => absorb lt b s ex) = .ok a := by
  constructor
  · rw [absorb_eq lt a s ex W hW]
    refine Eq.trans (strip_eq lt _ s ex W hW fun d hd he => (hs d hd he).1) (congrArg Except.ok ?_)
    funext l u r d p
    unfold weighted
    rw [divisor_legWeight W ex 0 (by omega) hs, divisor_legWeight W ex 1 (by omega) hs,
      divisor_legWeight W ex 2 (by omega) hs, divisor_legWeight W ex 3 (by omega) hs, ← mul_assoc, ← RCLike.ofReal_mul,
      inv_mul_cancel₀ (prod_legWeight_ne W ex hs l u r d), RCLike.ofReal_one, one_mul]
  · obtain ⟨b, hb, hw⟩ := strip_ok lt a s ex W hW hs
    rw [hb]
    exact (absorb_eq lt b s ex W hW).trans (congrArg Except.ok hw)

/-- **C41 (what is lost).** For arbitrary weights of a real dtype, the entry `(l,u,r,d,p)` comes back multiplied by
`w / max w 1e-12` for each of the weights `w` of its legs; the excluded leg does not count. -/
theorem C41_defect (lt : LambdaTensors (Weight bD)) (a : ATensor (Fin bD) P 𝕜) (s : Site) (ex : ℕ) (W : ℕ → Weight bD)
    (hW : Weights lt s W) (hr : ∀ d < 4, d ≠ ex → (W d).cx = false) :
    ∃ b, (absorb lt a s ex >>= fun b => strip lt b s ex) = .ok b ∧ ∀ l u r d p,
      b l u r d p = ((∏ j : Fin 4, if j.val = ex then 1 else
        (W j).v (![l, u, r, d] j) / max ((W j).v (![l, u, r, d] j)) 1e-12 : ℝ) : 𝕜) * a l u r d p := by
  refine ⟨weighted (fun d i => (W d).v i / divisor W d i) ex a, ?_, ?_⟩
  · rw [absorb_eq lt a s ex W hW]
    refine Eq.trans (strip_eq lt _ s ex W hW hr) (congrArg Except.ok ?_)
    funext l u r d p
    unfold weighted
    rw [← mul_assoc, ← RCLike.ofReal_mul]
    congr 2
    have : ∀ d i, legWeight (fun d i => (W d).v i / divisor W d i) ex d i =
        legWeight (fun d => (W d).v) ex d i * (legWeight (divisor W) ex d i)⁻¹ := by
      intro d i
      unfold legWeight
      split
      · simp
      · rfl
    rw [this, this, this, this, mul_inv, mul_inv, mul_inv]
    ring
  · intro l u r d p
    unfold weighted legWeight divisor cutoff
    rw [Fin.prod_univ_four]
    rfl

/-- The intended law, for networks with real (`cx = false`) or complex (`cx = true`) dtype: absorbing positive weights and
stripping them again is the identity.  The weights of a complex network are created complex. -/
def Spec.StripUndoesAbsorb (𝕜 : Type) [RCLike 𝕜] (cx : Bool) : Prop :=
  ∀ (bD : ℕ) (lt : LambdaTensors (Weight bD)) (a : ATensor (Fin bD) Unit 𝕜) (s : Site) (ex : ℕ) (W : ℕ → Weight bD),
    Weights lt s W → (∀ d < 4, (W d).cx = cx ∧ ∀ i, 0 < (W d).v i) →
    (absorb lt a s ex >>= fun b => strip lt b s ex) = .ok a

/-- A look-up table with the same weight everywhere, on a 1 × 1 lattice. -/
theorem uniform_weights (w : Weight bD) : Weights (LambdaTensors.init (buildBondList 1 1) w) (0, 0) fun _ => w := by
  intro d hd
  obtain ⟨b, ⟨hb, hE⟩, _⟩ := C03_unique_bond_per_side 1 1 (0, 0) ⟨by decide, by decide⟩ d hd
  exact C03_weight_lookup 1 1 _ (List.Perm.refl _) w [] (0, 0) ⟨by decide, by decide⟩ d hd b hb hE

/-- **C41 (violated for small weights).** With positive weights below `1e-12` the tensor that comes back is a different
one: here a weight of `1e-13` shrinks it by a factor of one thousand. -/
theorem C41_violated : ¬ StripUndoesAbsorb ℝ false := by
  intro h
  have h1 := h 1 (LambdaTensors.init (buildBondList 1 1) ⟨false, fun _ => 1e-13⟩) (fun _ _ _ _ _ => 1) (0, 0) 0
    (fun _ => ⟨false, fun _ => 1e-13⟩) (uniform_weights _) fun d _ => ⟨rfl, fun _ => by norm_num⟩
  obtain ⟨b, hb, hv⟩ := C41_defect (LambdaTensors.init (buildBondList 1 1) ⟨false, fun _ => 1e-13⟩)
    (fun _ _ _ _ (_ : Unit) => (1 : ℝ)) (0, 0) 0 (fun _ => ⟨false, fun _ : Fin 1 => 1e-13⟩) (uniform_weights _) fun _ _ _ => rfl
  rw [h1] at hb
  have hb := Except.ok.inj hb
  have h2 := hv 0 0 0 0 ()
  rw [← hb, Fin.prod_univ_four] at h2
  norm_num at h2

/-- **C41 (violated for complex dtypes).** The weights of a complex network are created with a complex dtype, for which
`clamp` is not implemented: stripping raises. -/
theorem C41_violated_complex (lt : LambdaTensors (Weight bD)) (a : ATensor (Fin bD) P 𝕜) (s : Site) (ex : ℕ)
    (W : ℕ → Weight bD) (hW : Weights lt s W) (hc : ∀ d < 4, (W d).cx = true) : strip lt a s ex = .error .runtimeError := by
  have key : ∀ d < 4, d ≠ ex → stripWeight (𝕜 := 𝕜) lt s ex d = .error .runtimeError := by
    intro d hd he
    unfold stripWeight
    rw [hW d hd]
    simp [he, hc d hd, bind, Except.bind, throw, throwThe, MonadExceptOf.throw]
  unfold strip
  by_cases h0 : ex = 0
  · subst h0
    have : stripWeight (𝕜 := 𝕜) lt s 0 0 = .ok fun _ => 1 := by
      unfold stripWeight
      rw [hW 0 (by omega)]
      simp [bind, Except.bind, pure, Except.pure]
    rw [this, key 1 (by omega) (by omega)]
    rfl
  · rw [key 0 (by omega) (Ne.symm h0)]
    rfl

theorem C41_violated_complex' : ¬ StripUndoesAbsorb ℂ true := by
  intro h
  have h1 := h 1 (LambdaTensors.init (buildBondList 1 1) ⟨true, fun _ => 1⟩) (fun _ _ _ _ _ => 1) (0, 0) 0
    (fun _ => ⟨true, fun _ => 1⟩) (uniform_weights _) fun d _ => ⟨rfl, fun _ => by norm_num⟩
  rw [absorb_eq _ _ _ _ _ (uniform_weights _)] at h1
  have h2 := C41_violated_complex (𝕜 := ℂ) (LambdaTensors.init (buildBondList 1 1) ⟨true, fun _ : Fin 1 => 1⟩)
    (weighted (fun d => ((fun _ => ⟨true, fun _ => 1⟩ : ℕ → Weight 1) d).v) 0 fun _ _ _ _ (_ : Unit) => (1 : ℂ)) (0, 0) 0 _
    (uniform_weights _) fun _ _ => rfl
  have h3 := h2.symm.trans h1
  cases h3

/-- Non-vacuity of `C41_partial`: weights `1/2` on a 1 × 1 lattice, bond dimension two. -/
example : (absorb (LambdaTensors.init (buildBondList 1 1) (⟨false, fun _ => 1 / 2⟩ : Weight 2))
    (fun l _ _ d _ => if l = d then (1 : ℝ) else 3 : ATensor (Fin 2) (Fin 2) ℝ) (0, 0) 2 >>= fun b =>
      strip (LambdaTensors.init (buildBondList 1 1) (⟨false, fun _ => 1 / 2⟩ : Weight 2)) b (0, 0) 2) =
    .ok fun l _ _ d _ => if l = d then (1 : ℝ) else 3 :=
  (C41_partial _ _ _ _ _ (uniform_weights _) fun _ _ _ => ⟨rfl, fun _ => by norm_num⟩).1

section update

variable [Fintype P] [DecidableEq P] [NeZero bD] [Nonempty P]

/-- The two-site tensor of a bond in its surroundings: both site tensors with the weights of their outer legs,
turned into the bond frame and contracted over the bond. -/
noncomputable def bondState (W1 W2 : ℕ → Weight bD) (k : ℕ) (a1 a2 : ATensor (Fin bD) P 𝕜) :=
  twoSite (bondPermute k (weighted (fun d => (W1 d).v) k a1))
    (bondPermute k (weighted (fun d => (W2 d).v) ((k + 2) % 4) a2))

/-- **C40 (partial).** A simple update of a bond whose surrounding weights are at least `1e-12` and of a real dtype
returns two tensors and new weights such that
* the weights are non-negative, descending, at most one and have unit fourth-power sum,
* in the unchanged surroundings, the new pair is, up to a positive factor, a best approximation of the gate-applied old
  pair among all pairs of site tensors with the same bond dimension,
for all tensors, gates, weights, directions and dimensions, real and complex, provided the gate-applied pair is not zero.
Missing: smaller weights and weights of a complex dtype, where the environment weights are not taken out again
(`C40_violated_complex`, `C41_violated`). -/
theorem C40_partial (la : Lapack 𝕜) (lt : LambdaTensors (Weight bD)) (gate : P → P → P → P → 𝕜) (bond : Bond)
    (a1 a2 : ATensor (Fin bD) P 𝕜) (W1 W2 : ℕ → Weight bD) (hW1 : Weights lt bond.s1 W1)
    (hW2 : Weights lt bond.s2 W2) (hs1 : Strippable W1 bond.k) (hs2 : Strippable W2 ((bond.k + 2) % 4))
    (hne : gated gate (bondState W1 W2 bond.k a1 a2) ≠ 0) :
    ∃ b1 b2 lambda, bondTensors la lt none gate bond a1 a2 = .ok (b1, b2, lambda) ∧ Normalised lambda ∧
      ∃ c, BestBond (gated gate (bondState W1 W2 bond.k a1 a2)) (bondState W1 W2 bond.k b1 b2) c := by
  set s := splitBond la gate (bondPermute bond.k (weighted (fun d => (W1 d).v) bond.k a1))
    (bondPermute bond.k (weighted (fun d => (W2 d).v) ((bond.k + 2) % 4) a2)) with hs
  obtain ⟨hn, c, hc⟩ := splitBond_spec la gate _ _ hne
  obtain ⟨b1, hb1, hw1⟩ := strip_ok lt (bondPermute (4 - bond.k) s.1) bond.s1 bond.k W1 hW1 hs1
  obtain ⟨b2, hb2, hw2⟩ := strip_ok lt (bondPermute (4 - bond.k) s.2.1) bond.s2 ((bond.k + 2) % 4) W2 hW2 hs2
  refine ⟨b1, b2, s.2.2, ?_, hn, c, ?_⟩
  · unfold bondTensors
    rw [absorb_eq lt a1 bond.s1 bond.k W1 hW1, absorb_eq lt a2 bond.s2 _ W2 hW2]
    show (strip lt (bondPermute (4 - bond.k) s.1) bond.s1 bond.k >>= fun a1 =>
      strip lt (bondPermute (4 - bond.k) s.2.1) bond.s2 ((bond.k + 2) % 4) >>= fun a2 => pure (a1, a2, s.2.2)) = _
    rw [hb1, hb2]
    rfl
  · have e : bondState W1 W2 bond.k b1 b2 = twoSite s.1 s.2.1 := by
      unfold bondState
      rw [hw1, hw2, C29_round_trip', C29_round_trip']
    rw [e]
    exact hc

omit [DecidableEq P] [NeZero bD] [Nonempty P] in
theorem normSq8_eq_zero (T : Fin bD → Fin bD → Fin bD → Fin bD → Fin bD → Fin bD → P → P → 𝕜) (h : normSq8 T ≤ 0) :
    T = 0 := by
  have := (frobSq_twoMat T).trans (le_antisymm h (by unfold normSq8; positivity))
  funext u r d l' u' d' p q
  have h2 := congrFun (congrFun ((frobSq_eq_zero _).1 this) ((r, d, u), p)) ((d', l', u'), q)
  exact h2

/-- **C40 (without truncation).** If the gate-applied pair can be represented with the given bond dimension at all, the
new pair is exactly a positive multiple of it. -/
theorem C40_exact (la : Lapack 𝕜) (lt : LambdaTensors (Weight bD)) (gate : P → P → P → P → 𝕜) (bond : Bond)
    (a1 a2 : ATensor (Fin bD) P 𝕜) (W1 W2 : ℕ → Weight bD) (hW1 : Weights lt bond.s1 W1)
    (hW2 : Weights lt bond.s2 W2) (hs1 : Strippable W1 bond.k) (hs2 : Strippable W2 ((bond.k + 2) % 4))
    (hne : gated gate (bondState W1 W2 bond.k a1 a2) ≠ 0)
    (hfit : ∃ c1 c2, gated gate (bondState W1 W2 bond.k a1 a2) = twoSite c1 c2) :
    ∃ b1 b2 lambda, bondTensors la lt none gate bond a1 a2 = .ok (b1, b2, lambda) ∧
      ∃ c : ℝ, 0 < c ∧ gated gate (bondState W1 W2 bond.k a1 a2) = fun u r d l' u' d' p q =>
        (c : 𝕜) * bondState W1 W2 bond.k b1 b2 u r d l' u' d' p q := by
  obtain ⟨b1, b2, lambda, h1, -, c, hc, hbest⟩ := C40_partial la lt gate bond a1 a2 W1 W2 hW1 hW2 hs1 hs2 hne
  refine ⟨b1, b2, lambda, h1, c, hc, ?_⟩
  obtain ⟨c1, c2, hf⟩ := hfit
  have h2 := hbest c1 c2
  have h3 : normSq8 (fun u r d l' u' d' p q => gated gate (bondState W1 W2 bond.k a1 a2) u r d l' u' d' p q -
      twoSite c1 c2 u r d l' u' d' p q) = 0 := by
    rw [hf]
    simp [normSq8]
  rw [h3] at h2
  have h4 := normSq8_eq_zero _ h2
  funext u r d l' u' d' p q
  exact sub_eq_zero.1 (congrFun (congrFun (congrFun (congrFun (congrFun (congrFun (congrFun (congrFun h4 u) r) d) l') u') d') p) q)

/-- **C40 (one-site gates).** If the one-site terms are not wrapped into the bond gates, the result is that of the bond
gate with the one-site gates applied afterwards; the weights are the same. -/
theorem C40_one_site (la : Lapack 𝕜) (lt : LambdaTensors (Weight bD)) (gate : P → P → P → P → 𝕜) (g1 g2 : P → P → 𝕜)
    (bond : Bond) (a1 a2 b1 b2 : ATensor (Fin bD) P 𝕜) (lambda : Fin bD → ℝ)
    (h : bondTensors la lt none gate bond a1 a2 = .ok (b1, b2, lambda)) :
    bondTensors la lt (some (g1, g2)) gate bond a1 a2 =
      .ok (fun l u r d q => ∑ p, g1 p q * b1 l u r d p, fun l u r d q => ∑ p, g2 p q * b2 l u r d p, lambda) := by
  unfold bondTensors at h ⊢
  cases e1 : absorb lt a1 bond.s1 bond.k with
  | error e => rw [e1] at h; exact absurd h (by simp [bind, Except.bind])
  | ok x1 =>
  rw [e1] at h
  cases e2 : absorb lt a2 bond.s2 ((bond.k + 2) % 4) with
  | error e => rw [e2] at h; exact absurd h (by simp [bind, Except.bind])
  | ok x2 =>
  rw [e2] at h
  simp only [bind, Except.bind] at h ⊢
  revert h
  generalize splitBond la gate (bondPermute bond.k x1) (bondPermute bond.k x2) = s
  intro h
  cases e3 : strip lt (bondPermute (4 - bond.k) s.1) bond.s1 bond.k with
  | error e => rw [e3] at h; exact absurd h (by simp)
  | ok y1 =>
  rw [e3] at h
  cases e4 : strip lt (bondPermute (4 - bond.k) s.2.1) bond.s2 ((bond.k + 2) % 4) with
  | error e => rw [e4] at h; exact absurd h (by simp)
  | ok y2 =>
  rw [e4] at h
  have h := Except.ok.inj h
  obtain rfl : y1 = b1 := congrArg Prod.fst h
  obtain rfl : y2 = b2 := congrArg (fun x => x.2.1) h
  obtain rfl : s.2.2 = lambda := congrArg (fun x => x.2.2) h
  rfl

/-- **C40 (violated for complex dtypes).** The very first simple update of a complex network raises, whatever the
tensors and gates: all weights are still the initial ones. -/
theorem C40_violated_complex (la : Lapack 𝕜) (oneSite : Option ((P → P → 𝕜) × (P → P → 𝕜))) (gate : P → P → P → P → 𝕜)
    (nx ny : ℕ) (bond : Bond) (hb : bond ∈ buildBondList nx ny) (a1 a2 : ATensor (Fin bD) P 𝕜) :
    bondTensors la (LambdaTensors.init (buildBondList nx ny) (ones bD true)) oneSite gate bond a1 a2 =
      .error .runtimeError := by
  obtain ⟨h1, h2⟩ := C02_bond_ends_in_cell nx ny bond hb
  rw [mem_buildSiteList] at h1 h2
  have hw : ∀ s, InCell nx ny s → Weights (LambdaTensors.init (buildBondList nx ny) (ones bD true)) s fun _ => ones bD true := by
    intro s hs d hd
    obtain ⟨b, ⟨hb, hE⟩, _⟩ := C03_unique_bond_per_side nx ny s hs d hd
    exact C03_weight_lookup nx ny _ (List.Perm.refl _) _ [] s hs d hd b hb hE
  unfold bondTensors
  rw [absorb_eq _ a1 bond.s1 bond.k _ (hw _ h1), absorb_eq _ a2 bond.s2 _ _ (hw _ h2)]
  show (strip _ _ bond.s1 bond.k >>= _) = _
  rw [C41_violated_complex _ _ _ _ _ (hw _ h1) fun _ _ => rfl]
  rfl

end update

end AceTN
