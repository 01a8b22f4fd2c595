import Verif.Props.FreeSites
import Verif.Props.MeanTheory

/-! C113: sessions at bond dimension one with models without interactions evolve every site on its own. -/

set_option autoImplicit false
set_option linter.unusedSectionVars false

namespace AceTN
open Matrix Spec NormedSpace Full Session
open scoped Matrix.Norms.L2Operator

variable {P : Type} [Fintype P] [DecidableEq P] {nx ny : ℕ}

/-- How many ends of the bond are at the site. -/
def touches (s : Site) (b : Bond) : ℝ := (if b.s1 = s then 1 else 0) + if b.s2 = s then 1 else 0

theorem exp_smul_add (h : Matrix P P ℝ) (x y : ℝ) : exp (-(x + y) • h) = exp (-x • h) * exp (-y • h) := by
  rw [← Matrix.exp_add_of_commute _ _ (((Commute.refl h).smul_left (-x)).smul_right (-y)), ← add_smul, neg_add]

theorem vecMul_exp_ne (h : Matrix P P ℝ) (x : ℝ) {v : P → ℝ} (hv : v ≠ 0) : v ᵥ* exp (-x • h) ≠ 0 := by
  intro h0
  apply hv
  have e : exp (-x • h) * exp (-(-x) • h) = 1 := by
    rw [← exp_smul_add]
    simp
  have h1 : v ᵥ* exp (-x • h) ᵥ* exp (-(-x) • h) = v := by rw [Matrix.vecMul_vecMul, e, Matrix.vecMul_one]
  rw [← h1, h0, Matrix.zero_vecMul]

/-- The nearest product to a product is that product. -/
theorem bestProduct_of_product {X Y x y : P → ℝ} (hX : X ≠ 0) (hY : Y ≠ 0) (h : BestProduct (fun p q => X p * Y q) x y) :
    (∃ d : ℝ, d ≠ 0 ∧ x = d • X) ∧ ∃ d : ℝ, d ≠ 0 ∧ y = d • Y := by
  obtain ⟨p, hp⟩ := Function.ne_iff.1 hX
  obtain ⟨q, hq⟩ := Function.ne_iff.1 hY
  have hne := bestProduct_ne ⟨p, q, mul_ne_zero hp hq⟩ h
  obtain ⟨κ, hκ, h⟩ := h
  have h0 := h X Y
  simp only [sub_self, ne_eq, OfNat.ofNat_ne_zero, not_false_eq_true, zero_pow, Finset.sum_const_zero] at h0
  have hz := le_antisymm h0 (Finset.sum_nonneg fun p _ => Finset.sum_nonneg fun q _ => sq_nonneg _)
  rw [Finset.sum_eq_zero_iff_of_nonneg fun p _ => Finset.sum_nonneg fun q _ => sq_nonneg _] at hz
  refine factors_agree (c := κ⁻¹) (fun p q => ?_) hne
  have h1 := hz p (Finset.mem_univ _)
  rw [Finset.sum_eq_zero_iff_of_nonneg fun q _ => sq_nonneg _] at h1
  have h2 := pow_eq_zero_iff two_ne_zero |>.1 (h1 q (Finset.mem_univ _))
  rw [sub_eq_zero.1 h2, inv_mul_cancel_left₀ hκ.ne']

theorem free_pair (m : ModelTerms P ℝ) (h : Site → Matrix P P ℝ) (hi : Independent nx ny m h) (dtau : ℝ) {b : Bond}
    (hb : b ∈ buildBondList nx ny) (x y : P → ℝ) :
    pairAfter (twoSiteGate m dtau b) x y = fun p q => (x ᵥ* exp (-(dtau / 4) • h b.s1)) p * (y ᵥ* exp (-(dtau / 4) • h b.s2)) q := by
  funext p q
  unfold pairAfter
  simp only [Matrix.vecMul, dotProduct]
  rw [Finset.sum_mul_sum]
  refine Finset.sum_congr rfl fun p' _ => Finset.sum_congr rfl fun q' _ => ?_
  rw [C113_gate m h hi dtau b hb]
  simp only [RCLike.ofReal_real_eq_id, id]
  ring

/-- A step of mean-field theory without interactions. -/
theorem free_step (hx : 2 ≤ nx) (hy : 2 ≤ ny) (m : ModelTerms P ℝ) (h : Site → Matrix P P ℝ) (hi : Independent nx ny m h) (dtau : ℝ) {b : Bond}
    (hb : b ∈ buildBondList nx ny) {v w : Site → P → ℝ} (hv : ∀ s, InCell nx ny s → v s ≠ 0)
    (hs : MeanStep nx ny (twoSiteGate m dtau b) b v w) :
    UpToFactors nx ny (fun s => v s ᵥ* exp (-(dtau / 4 * touches s b) • h s)) w := by
  have hne := bond_ends_distinct nx ny hx hy b hb
  obtain ⟨c1, c2⟩ := bond_cell hb
  obtain ⟨hbest, hoff⟩ := hs
  rw [free_pair m h hi dtau hb] at hbest
  obtain ⟨⟨d1, hd1, e1⟩, d2, hd2, e2⟩ := bestProduct_of_product (vecMul_exp_ne _ _ (hv _ c1)) (vecMul_exp_ne _ _ (hv _ c2)) hbest
  intro s hsc
  by_cases h1 : s = b.s1
  · subst h1
    refine ⟨d1, hd1, ?_⟩
    simp only [touches, if_neg (Ne.symm hne), if_true, add_zero, mul_one]
    exact e1
  by_cases h2 : s = b.s2
  · subst h2
    refine ⟨d2, hd2, ?_⟩
    simp only [touches, if_neg hne, if_true, zero_add, mul_one]
    exact e2
  · refine ⟨1, one_ne_zero, ?_⟩
    simp only [touches, if_neg (Ne.symm h1), if_neg (Ne.symm h2), add_zero, mul_zero, neg_zero, zero_smul, exp_zero, Matrix.vecMul_one, one_smul]
    exact hoff s hsc h1 h2

theorem free_run (hx : 2 ≤ nx) (hy : 2 ≤ ny) (m : ModelTerms P ℝ) (h : Site → Matrix P P ℝ) (hi : Independent nx ny m h) (dtau : ℝ) {l : List Bond}
    (hl : ∀ b ∈ l, b ∈ buildBondList nx ny) {v w : Site → P → ℝ} (hv : ∀ s, InCell nx ny s → v s ≠ 0)
    (hs : MeanRun nx ny (twoSiteGate m dtau) l v w) :
    UpToFactors nx ny (fun s => v s ᵥ* exp (-(dtau / 4 * (l.map (touches s)).sum) • h s)) w := by
  induction l generalizing v with
  | nil =>
    intro s hsc
    refine ⟨1, one_ne_zero, ?_⟩
    simp only [List.map_nil, List.sum_nil, mul_zero, neg_zero, zero_smul, exp_zero, Matrix.vecMul_one, one_smul]
    exact hs s hsc
  | cons b l ih =>
    obtain ⟨u, hu, hw⟩ := hs
    have h1 := free_step hx hy m h hi dtau (hl b (by simp)) hv hu
    have hu0 : ∀ s, InCell nx ny s → u s ≠ 0 := fun s hsc => by
      obtain ⟨c, hc, e⟩ := h1 s hsc
      rw [e]
      exact smul_ne_zero hc (vecMul_exp_ne _ _ (hv s hsc))
    have h2 := ih (fun b hb => hl b (by simp [hb])) hu0 hw
    intro s hsc
    obtain ⟨c, hc, e⟩ := h1 s hsc
    obtain ⟨d, hd, e'⟩ := h2 s hsc
    refine ⟨d * c, mul_ne_zero hd hc, ?_⟩
    dsimp only at e e' ⊢
    rw [e', e, List.map_cons, List.sum_cons, mul_add, exp_smul_add, ← Matrix.vecMul_vecMul, Matrix.smul_vecMul, smul_smul]

/-- Every site of the cell is an end of four bonds. -/
theorem touches_sum {s : Site} (hs : InCell nx ny s) : ((buildBondList nx ny).map (touches s)).sum = 4 := by
  have h := sum_bond_ends nx ny fun a _ : Site => if a = s then (1 : ℝ) else 0
  rw [show ((buildBondList nx ny).map fun b : Bond => (if b.s1 = s then (1 : ℝ) else 0) + if b.s2 = s then 1 else 0).sum =
    ((buildBondList nx ny).map (touches s)).sum from rfl] at h
  rw [h, sum_sites]
  simp only [Finset.sum_const, Finset.card_range, nsmul_eq_mul]
  rw [Finset.sum_eq_single s.1, Finset.sum_eq_single s.2]
  · simp
  · intro y _ hy
    rw [if_neg fun e => hy (congrArg Prod.snd e), mul_zero]
  · intro h'
    exact absurd (Finset.mem_range.2 hs.2) h'
  · intro x _ hx
    exact Finset.sum_eq_zero fun y _ => by rw [if_neg fun e => hx (congrArg Prod.fst e), mul_zero]
  · intro h'
    exact absurd (Finset.mem_range.2 hs.1) h'

theorem free_schedule (hx : 2 ≤ nx) (hy : 2 ≤ ny) (m : ModelTerms P ℝ) (h : Site → Matrix P P ℝ) (hi : Independent nx ny m h) (dtau : ℝ) (n : ℕ)
    {bl : List Bond} (hbl : bl = buildBondList nx ny ∨ bl = (buildBondList nx ny).reverse) {v w : Site → P → ℝ}
    (hv : ∀ s, InCell nx ny s → v s ≠ 0) (hs : MeanRun nx ny (twoSiteGate m dtau) (schedule n bl) v w) :
    UpToFactors nx ny (fun s => v s ᵥ* exp (-((n : ℝ) * dtau) • h s)) w := by
  intro s hsc
  obtain ⟨c, hc, e⟩ := free_run hx hy m h hi dtau (fun b hb => bonds_of_list hbl b (mem_schedule hb)) hv hs s hsc
  refine ⟨c, hc, ?_⟩
  have h4 : (bl.map (touches s)).sum = 4 := by
    rcases hbl with rfl | rfl
    · exact touches_sum hsc
    · rw [List.map_reverse, List.sum_reverse, touches_sum hsc]
  dsimp only at e ⊢
  rw [e, schedule_list_sum, h4, show dtau / 4 * (n • (4 : ℝ)) = n * dtau from by rw [nsmul_eq_mul]; ring]

/-! ### Sessions -/

variable {F : Type} {pD : ℕ} [NeZero pD]

/-- Imaginary-time evolution of one site during calls of `evolve`. -/
noncomputable def Spec.siteEvolution (h : Evolution 1 pD ℝ → Site → Matrix (Fin pD) (Fin pD) ℝ) (es : List (Evolution 1 pD ℝ)) (s : Site) :
    Matrix (Fin pD) (Fin pD) ℝ := (es.map fun e => exp (-((e.steps : ℝ) * e.dtau) • h e s)).prod

theorem free_meanField (hx : 2 ≤ nx) (hy : 2 ≤ ny) (h : Evolution 1 pD ℝ → Site → Matrix (Fin pD) (Fin pD) ℝ) (es : List (Evolution 1 pD ℝ))
    (hi : ∀ e ∈ es, Independent nx ny e.model (h e)) (bl : List Bond) (hbl : bl = buildBondList nx ny ∨ bl = (buildBondList nx ny).reverse)
    (v w : Site → Fin pD → ℝ) (hv : ∀ s, InCell nx ny s → v s ≠ 0) (hs : MeanField nx ny es bl v w) :
    UpToFactors nx ny (fun s => v s ᵥ* siteEvolution h es s) w := by
  induction es generalizing bl v with
  | nil =>
    intro s hsc
    refine ⟨1, one_ne_zero, ?_⟩
    simp only [siteEvolution, List.map_nil, List.prod_nil, Matrix.vecMul_one, one_smul]
    exact hs s hsc
  | cons e es ih =>
    obtain ⟨u, hu, hw⟩ := hs
    have h1 := free_schedule hx hy e.model (h e) (hi e (by simp)) e.dtau e.steps hbl hv hu
    have hu0 : ∀ s, InCell nx ny s → u s ≠ 0 := fun s hsc => by
      obtain ⟨c, hc, e⟩ := h1 s hsc
      rw [e]
      exact smul_ne_zero hc (vecMul_exp_ne _ _ (hv s hsc))
    have hbl' : listAfter e.steps bl = buildBondList nx ny ∨ listAfter e.steps bl = (buildBondList nx ny).reverse := by
      unfold listAfter
      split_ifs
      · exact hbl
      · rcases hbl with rfl | rfl
        · exact .inr rfl
        · exact .inl (List.reverse_reverse _)
    have h2 := ih (fun e he => hi e (by simp [he])) _ hbl' u hu0 hw
    intro s hsc
    obtain ⟨c, hc, e1⟩ := h1 s hsc
    obtain ⟨d, hd, e2⟩ := h2 s hsc
    refine ⟨d * c, mul_ne_zero hd hc, ?_⟩
    dsimp only at e1 e2 ⊢
    rw [e2, e1, Matrix.smul_vecMul, smul_smul, Matrix.vecMul_vecMul]
    rfl

/-- **C113 (sessions).** Real dtype, bond dimension one, cells from 2 × 2, any script whose calls of `evolve` use models of independent sites, with
either update, any projectors, solver, library, random draws, boundary dimensions and time steps: at the end every one-site value measured is that of
the initial vector of the site evolved by the exponentials of its own terms, and every two-site value is that of two such sites. -/
theorem C113_session (hx : 2 ≤ nx) (hy : 2 ≤ ny) (M : Machine F 1 ℝ) (hM : M.cx = false) (hω : DrawsNonzero M.ω) {chi : ℕ} (hchi : 0 < chi)
    (A : Site → ATensor (Fin 1) (Fin pD) ℝ) (hA : ∀ s, InCell nx ny s → A s ≠ 0) (cs : List (Call F 1 pD ℝ))
    (hcs : ∀ c ∈ cs, Sensible nx ny c ∧ KnownNames c) (h : Evolution 1 pD ℝ → Site → Matrix (Fin pD) (Fin pD) ℝ)
    (hi : ∀ e ∈ evolutions cs, Independent nx ny e.model (h e)) :
    let s := runCatching M cs (new nx ny chi A)
    let v := fun x => startVec A (evolutions cs) x ᵥ* siteEvolution h (evolutions cs) x
    ∀ x, InCell nx ny x → v x ≠ 0 ∧
      (∀ O : Matrix (Fin pD) (Fin pD) ℝ, siteVal s.net x O = .ok (qform Oᵀ (v x) / normSq (v x))) ∧
      ∀ (k : Fin 4) (init : Fin pD → Fin pD → Fin pD → Fin pD → ℝ) (O : Matrix (Fin pD × Fin pD) (Fin pD × Fin pD) ℝ),
        bondVal init s.net ⟨x, neighbour nx ny x k.val, k.val⟩ (fun k1 k2 b1 b2 => O (k1, k2) (b1, b2)) =
          .ok (qform Oᵀ (fun p => v x p.1 * v (neighbour nx ny x k.val) p.2) /
            normSq fun p : Fin pD × Fin pD => v x p.1 * v (neighbour nx ny x k.val) p.2) := by
  intro s v x hxc
  have hf := free_meanField hx hy h _ hi _ (.inl rfl) _ _ (startVec_ne A hA cs fun c hc => (hcs c hc).1) (C111_refines hx hy M hM hω hchi A hA cs hcs)
  have hval := C110_values hx hy M hM hω hchi A hA cs (fun c hc => (hcs c hc).1) x hxc
  obtain ⟨hv0, h1, h2⟩ := hval
  have e : ∀ y, InCell nx ny y → ∃ c : ℝ, c ≠ 0 ∧ siteVec (siteTensors (bare s.net)) y = c • v y := hf
  obtain ⟨c, hc, ec⟩ := e x hxc
  refine ⟨fun h0 => hv0 ?_, fun O => (h1 O).trans ?_, fun k init O => (h2 k init O).trans ?_⟩
  · refine ec.trans ?_
    rw [h0, smul_zero]
  · rw [show siteVec (siteTensors (bare (runCatching M cs (new nx ny chi A)).net)) x = c • v x from ec, ratio_smul _ _ hc]
  · obtain ⟨d, hd, ed⟩ := e _ (neighbour_inCell hxc k.val)
    have e1 : (fun p : Fin pD × Fin pD => siteVec (siteTensors (bare (runCatching M cs (new nx ny chi A)).net)) x p.1 *
        siteVec (siteTensors (bare (runCatching M cs (new nx ny chi A)).net)) (neighbour nx ny x k.val) p.2) =
        (c * d) • fun p : Fin pD × Fin pD => v x p.1 * v (neighbour nx ny x k.val) p.2 := by
      funext p
      rw [show siteVec (siteTensors (bare (runCatching M cs (new nx ny chi A)).net)) x = c • v x from ec,
        show siteVec (siteTensors (bare (runCatching M cs (new nx ny chi A)).net)) (neighbour nx ny x k.val) = d • v (neighbour nx ny x k.val) from ed]
      simp only [Pi.smul_apply, smul_eq_mul]
      ring
    rw [e1, ratio_smul _ _ (mul_ne_zero hc hd)]

/-! ### The hypotheses are met -/

/-- Non-vacuity: the script of C110, which evolves with the full and then with the simple update, in two fields that differ from site to site. -/
example (hx : 2 ≤ nx) (hy : 2 ≤ ny) (la : Lapack ℝ) (fo : Als.FloatOps ℝ) (svd : String) (method : Als.Solver) (n : ℕ) (dtau : ℝ)
    (f f' : Site → Matrix (Fin 2) (Fin 2) ℝ) (x : Site) (hxc : InCell nx ny x) (O : Matrix (Fin 2) (Fin 2) ℝ) :
    let M : Machine ℝ 1 ℝ := ⟨la, fo, id, fun _ _ _ _ _ _ _ => 1, false⟩
    let v := siteVec (fun s => (plusNet s).A) x ᵥ* (exp (-((n : ℝ) * dtau) • f x) * exp (-((n : ℝ) * dtau) • f' x))
    siteVal (runCatching M (exampleScript svd method 4 n dtau ⟨fun _ => 0, fun s => some (f s)⟩ ⟨fun _ => 0, fun s => some (f' s)⟩)
      (new nx ny 3 fun s => (plusNet s).A)).net x O = .ok (qform Oᵀ v / normSq v) := by
  intro M v
  have h := C113_session hx hy M rfl ones_drawn (Nat.succ_pos 2) (fun s => (plusNet s).A) (fun s _ => plusNet_ne s)
    (exampleScript svd method 4 n dtau ⟨fun _ => 0, fun s => some (f s)⟩ ⟨fun _ => 0, fun s => some (f' s)⟩) (exampleScript_ok _ _ _ _ _ _ _)
    (fun e s => (e.model.one s).getD 0) (fun e he => by
      simp only [exampleScript, evolutions, List.mem_cons, List.not_mem_nil, or_false] at he
      rcases he with rfl | rfl
      · exact ⟨fun _ _ => rfl, fun _ _ => rfl⟩
      · exact ⟨fun _ _ => rfl, fun _ _ => rfl⟩) x hxc
  refine (h.2.1 O).trans ?_
  simp only [exampleScript, evolutions, siteEvolution, startVec, List.map_cons, List.map_nil, List.prod_cons, List.prod_nil, mul_one, Option.getD_some]
  rfl

end AceTN
