import Verif.Props.Hermitian
import Verif.Props.RandomDraw
import Verif.Lemmas.SmallNet
import Mathlib.Probability.ProductMeasure

/-!
# C79: Measured values do not depend on the random numbers

By default the projectors come from randomised SVDs.  If the environments that a run with full-rank SVDs meets have a rank of
at most `chi + oversampling`, a run with randomised SVDs measures the same values with probability one, whatever the number of
power iterations and the library.
-/

set_option autoImplicit false

namespace AceTN

open Matrix Spec MeasureTheory

section run

variable {𝕜 : Type} [RCLike 𝕜] [MeasurableSpace 𝕜] [BorelSpace 𝕜] {B W : Type} [Fintype B] [DecidableEq B] [MeasurableSpace W]
  (ν : Measure 𝕜) [SigmaFinite ν] [NullSingletonClass ν] (μ : Measure W) (gen : W → Draws B 𝕜) (hg : Generates ν μ gen)

include hg in
omit [DecidableEq B] in
theorem gen_captures (key : ℕ × Site) (m n q : ℕ) (A : Matrix (Fin m × B × B) (Fin n × B × B) 𝕜) (hA : RankLE A q) :
    ∀ᵐ w ∂μ, Captures A (gen w key m n q) := by
  have h := C77_captured ν q A hA
  rw [← hg.law key m n q] at h
  exact ae_of_ae_map (hg.meas key m n q) h

omit [MeasurableSpace 𝕜] [BorelSpace 𝕜] [Fintype B] [DecidableEq B] in
theorem rankLE_change {m n m' n' : Type} [Fintype m] [Fintype n] [Fintype m'] [Fintype n'] {q : ℕ} {A : Matrix m n 𝕜} (h : RankLE A q)
    (σ : ScalarMap 𝕜) (c : 𝕜) (J : Matrix m' m 𝕜) (K : Matrix n n' 𝕜) : RankLE (c • (J * A.map σ.f * K)) q := by
  obtain ⟨Y, Z, rfl⟩ := h
  refine ⟨c • (J * Y.map σ.f), Z.map σ.f * K, ?_⟩
  rw [Matrix.map_mul, Matrix.smul_mul]
  simp only [Matrix.mul_assoc]

section cut

variable {P : Type} [Fintype P]

omit [MeasurableSpace 𝕜] [BorelSpace 𝕜] in
theorem quarterTensor_draws (st st' : ProjSettings 𝕜) (ω ω' : Draws B 𝕜) (net : Net (Ten B P 𝕜)) (s : Site) (k : ℕ) :
    quarterTensor (numOps st ω) net s k = quarterTensor (numOps st' ω') net s k := by
  unfold quarterTensor
  rfl

omit [MeasurableSpace 𝕜] [BorelSpace 𝕜] in
theorem svdCut_half (st : ProjSettings 𝕜) (ω ω' : Draws B 𝕜) (net : Net (Ten B P 𝕜)) (s1 s2 s3 s4 : Site) (k : ℕ) {m x n : ℕ}
    {Q1 : Matrix (Fin m × B × B) (Fin x × B × B) 𝕜} {Q4 : Matrix (Fin x × B × B) (Fin n × B × B) 𝕜}
    (h1 : quarterTensor (numOps st ω) net s1 k = .quarter m x Q1) (h4 : quarterTensor (numOps st ω) net s4 (k + 3) = .quarter x n Q4)
    (h : Captures (Q1 * Q4) (ω' (k, s1) m n (net.chi + st.oversampling))) : SvdCut st ω' .half net s1 s2 s3 s4 k := by
  refine Or.inr ?_
  intro a y b R1 R4 g1 g4
  rw [quarterTensor_draws st st ω' ω, h1] at g1
  rw [quarterTensor_draws st st ω' ω, h4] at g4
  cases g1
  cases g4
  exact h

omit [MeasurableSpace 𝕜] [BorelSpace 𝕜] in
theorem svdCut_full (hreal : ∀ a : 𝕜, star a = a) (st : ProjSettings 𝕜) (ω ω' : Draws B 𝕜) (net : Net (Ten B P 𝕜))
    (s1 s2 s3 s4 : Site) (k : ℕ) {m x n k1 k3 : ℕ} {Q1 : Matrix (Fin k1 × B × B) (Fin x × B × B) 𝕜}
    {Q2 : Matrix (Fin m × B × B) (Fin k1 × B × B) 𝕜} {Q3 : Matrix (Fin k3 × B × B) (Fin n × B × B) 𝕜}
    {Q4 : Matrix (Fin x × B × B) (Fin k3 × B × B) 𝕜}
    (h1 : quarterTensor (numOps st ω) net s1 k = .quarter k1 x Q1) (h2 : quarterTensor (numOps st ω) net s2 (k + 1) = .quarter m k1 Q2)
    (h3 : quarterTensor (numOps st ω) net s3 (k + 2) = .quarter k3 n Q3) (h4 : quarterTensor (numOps st ω) net s4 (k + 3) = .quarter x k3 Q4)
    (h : Captures (Q2 * Q1 * Q4 * Q3) (ω' (k, s1) m n (net.chi + st.oversampling))) : SvdCut st ω' .full net s1 s2 s3 s4 k := by
  refine Or.inr ⟨hreal, ?_⟩
  intro a y b j1 j3 R1 R2 R3 R4 g1 g2 g3 g4
  rw [quarterTensor_draws st st ω' ω, h1] at g1
  rw [quarterTensor_draws st st ω' ω, h2] at g2
  rw [quarterTensor_draws st st ω' ω, h3] at g3
  rw [quarterTensor_draws st st ω' ω, h4] at g4
  cases g1
  cases g2
  cases g3
  cases g4
  exact h

end cut

section move

variable {P : Type} [Fintype P] [DecidableEq P] {σ : ScalarMap 𝕜} {Φ : ℤ × ℤ → Matrix (P × P) (P × P) 𝕜}
  {Γ : ℤ × ℤ → Fin 4 → Matrix (B × B) (B × B) 𝕜} {ℓ : ℤ × ℤ → Fin 4 → Link 𝕜} {net net' : Net (Ten B P 𝕜)}
  (hR : Related σ Φ Γ ℓ net net') (st st' : ProjSettings 𝕜) (ω : Draws B 𝕜) (pk : ProjKind) (hpk : pk = .half ∨ ∀ a : 𝕜, star a = a)
  (m : Move) (hx : 0 < net.nx) (hy : 0 < net.ny)

include hR hg hpk hx hy

omit hx hy in
/-- The draws of one move capture all its environments. -/
theorem gen_cut (q : ℤ × ℤ) (r : ℕ) (hr : r = net'.chi + st'.oversampling)
    (h : RankCut st r ω pk net (cellSite net.nx net.ny q)
        (cellSite net.nx net.ny (q + dir (m.dirn + 2))) (cellSite net.nx net.ny (q + dir (m.dirn + 2) + dir (m.dirn + 3)))
        (cellSite net.nx net.ny (q + dir (m.dirn + 3))) m.dirn.val) :
    ∀ᵐ w ∂μ, SvdCut st' (gen w) pk net' (cellSite net.nx net.ny q)
        (cellSite net.nx net.ny (q + dir (m.dirn + 2))) (cellSite net.nx net.ny (q + dir (m.dirn + 2) + dir (m.dirn + 3)))
        (cellSite net.nx net.ny (q + dir (m.dirn + 3))) m.dirn.val := by
  subst hr
  obtain ⟨v0, v1, v2, v3⟩ := fin4_val m.dirn
  obtain ⟨i11, i12, i13, i21, i22, i23, i31, i32, i33⟩ := fin4 m.dirn
  have c1 : q = q + dir (m.dirn + 3) + dir (m.dirn + 3 + 2) := (dir_cancel q _).symm
  obtain ⟨Q1, Q1', t1, ht1, hq1, hq1', r1⟩ := quarter_link hR st st' ω ω q _ m.dirn (m.dirn + 3) _ v0 rfl rfl
  obtain ⟨Q4, Q4', t4, ht4, hq4, hq4', r4⟩ := quarter_link hR st st' ω ω (q + dir (m.dirn + 3)) q (m.dirn + 3) (m.dirn + 2) _ v3
    i33.symm c1
  rw [hR.bond] at r4
  have e4 := mul_link (s := 1) (s' := 1) σ ((ℓ q (m.dirn + 3)).unit.pair (hR.unit q (m.dirn + 3)).star) r1 r4 one_pos
  rw [RCLike.ofReal_one, one_smul, one_smul] at e4
  cases pk with
  | half =>
    have hl := h _ _ _ _ _ hq1 hq4
    have hl' : RankLE (Q1' * Q4') (net'.chi + st'.oversampling) := by
      rw [e4]
      exact rankLE_change hl _ _ _ _
    filter_upwards [gen_captures ν μ gen hg (m.dirn.val, cellSite net.nx net.ny q) _ _ _ _ hl'] with w hw
    exact svdCut_half st' ω (gen w) net' _ _ _ _ _ hq1' hq4' hw
  | full =>
    have hreal : ∀ a : 𝕜, star a = a := hpk.resolve_left (by simp)
    have star2 : ∀ M : Matrix (B × B) (B × B) 𝕜, (M.map star).map star = M := by
      intro M
      ext i j
      simp
    obtain ⟨Q2, Q2', t2, ht2, hq2, hq2', r2⟩ := quarter_link hR st st' ω ω (q + dir (m.dirn + 2)) _ (m.dirn + 1) m.dirn _ v1 i13.symm rfl
    obtain ⟨Q3, Q3', t3, ht3, hq3, hq3', r3⟩ := quarter_link hR st st' ω ω (q + dir (m.dirn + 2) + dir (m.dirn + 3))
      (q + dir (m.dirn + 3)) (m.dirn + 2) (m.dirn + 1) _ v2 i23.symm (by
        rw [add_right_comm, add_right_comm, ← dir_cancel (q + dir (m.dirn + 3)) (m.dirn + 2)]
        abel)
    have b2 : (Γ (q + dir (m.dirn + 2)) m.dirn).map star = Γ q (m.dirn + 2) := by
      have := hR.bond q (m.dirn + 2)
      rw [i22] at this
      rw [this, star2]
    have b3 : Γ (q + dir (m.dirn + 2) + dir (m.dirn + 3)) (m.dirn + 2 + 2) = (Γ (q + dir (m.dirn + 3)) (m.dirn + 2)).map star := by
      have := hR.bond (q + dir (m.dirn + 3)) (m.dirn + 2)
      rwa [add_right_comm] at this
    rw [b2] at r2
    rw [b3] at r3
    have e1 := mul_link (s := 1) (s' := 1) σ ((ℓ (q + dir (m.dirn + 2)) m.dirn).unit.pair (hR.unit q (m.dirn + 2))) r2 r1 one_pos
    rw [RCLike.ofReal_one, one_smul, one_smul] at e1
    have e2 := mul_link (s := 1) (s' := 1) σ ((ℓ q (m.dirn + 3)).unit.pair (hR.unit q (m.dirn + 3)).star) e1 r4 one_pos
    rw [RCLike.ofReal_one, one_smul, one_smul] at e2
    have e3 := mul_link (s := 1) (s' := 1) σ ((ℓ (q + dir (m.dirn + 3)) (m.dirn + 2)).unit.pair
      (hR.unit (q + dir (m.dirn + 3)) (m.dirn + 2)).star) e2 r3 one_pos
    rw [RCLike.ofReal_one, one_smul, one_smul] at e3
    have hl := h _ _ _ _ _ _ _ _ _ hq1 hq2 hq3 hq4
    have hl' : RankLE (Q2' * Q1' * Q4' * Q3') (net'.chi + st'.oversampling) := by
      rw [e3]
      exact rankLE_change hl _ _ _ _
    filter_upwards [gen_captures ν μ gen hg (m.dirn.val, cellSite net.nx net.ny q) _ _ _ _ hl'] with w hw
    exact svdCut_full hreal st' ω (gen w) net' _ _ _ _ _ hq1' hq2' hq3' hq4' hw

theorem gen_move (h : RankMove st (net.chi + st'.oversampling) ω pk net m) : ∀ᵐ w ∂μ, SvdMove st' (gen w) pk net' m := by
  unfold SvdMove
  rw [hR.nx, hR.ny, ae_all_iff]
  intro s
  by_cases hs : InCell net.nx net.ny s
  · by_cases hm : IsAbsorbed m s
    · have hl := h s hs hm
      obtain ⟨v0, v1, v2, v3⟩ := fin4_val m.dirn
      have es : cellSite net.nx net.ny (atLattice s) = s := cellSite_self _ _ s hs
      rw [← es, moveDir_eq, v2, v3, neighbour_cellSite _ _ hx hy, neighbour_cellSite _ _ hx hy, neighbour_cellSite _ _ hx hy] at hl ⊢
      have := gen_cut ν μ gen hg hR st st' ω pk hpk m (atLattice s) _ (by rw [hR.chi]) hl
      filter_upwards [this] with w hw _ _
      exact hw
    · exact Filter.Eventually.of_forall fun _ _ h => absurd h hm
  · exact Filter.Eventually.of_forall fun _ h => absurd h hs

end move

omit [MeasurableSpace 𝕜] [BorelSpace 𝕜] in
theorem runDrawn_shift {P : Type} [Fintype P] (st : ProjSettings 𝕜) (pk : ProjKind) (ω : ℕ → Draws B 𝕜) (ms : List Move) (t : ℕ)
    (net : Net (Ten B P 𝕜)) : runDrawn st pk ω (t + 1) ms net = runDrawn st pk (fun i => ω (i + 1)) t ms net := by
  induction ms generalizing t net with
  | nil => rfl
  | cons m ms ih =>
    simp only [runDrawn]
    congr 1
    funext n
    exact ih (t + 1) n

omit [DecidableEq B] [Fintype B] [RCLike 𝕜] [MeasurableSpace 𝕜] [BorelSpace 𝕜] in
theorem Almost.mono {n : ℕ} {p p' : (ℕ → W) → Prop} (hp : ∀ ws, p ws → p' ws) (h : Almost μ n p) : Almost μ n p' := by
  induction n generalizing p p' with
  | zero => exact fun ws => hp ws (h ws)
  | succ n ih => exact Filter.Eventually.mono h fun w hw => ih (fun ws => hp _) hw

section runs

variable {P : Type} [Fintype P] [DecidableEq P] {σ : ScalarMap 𝕜} {Φ : ℤ × ℤ → Matrix (P × P) (P × P) 𝕜}
  {Γ : ℤ × ℤ → Fin 4 → Matrix (B × B) (B × B) 𝕜}

include hg in
theorem gen_run (st st' : ProjSettings 𝕜) (hf : st.fullRank = true) (pk : ProjKind) (hpk : pk = .half ∨ ∀ a : 𝕜, star a = a)
    (hcut : st'.cutoff = st.cutoff) (h0 : 0 ≤ st.cutoff) (ω : ℕ → Draws B 𝕜) (ms : List Move) (t : ℕ) (q : ℕ)
    (net net' : Net (Ten B P 𝕜)) (hq : q = net.chi + st'.oversampling) (ℓ : ℤ × ℤ → Fin 4 → Link 𝕜) (hR : Related σ Φ Γ ℓ net net')
    (hx : 0 < net.nx) (hy : 0 < net.ny)
    (hm : ∀ m ∈ ms, InRange net.nx net.ny m) (hd : DropRun st pk ω t ms net) (hr : RankRun st q pk ω t ms net) :
    ∃ n, runDrawn st pk ω t ms net = .ok n ∧ n.nx = net.nx ∧ n.ny = net.ny ∧ Almost μ ms.length fun ws =>
      ∃ n' ℓ', runDrawn st' pk (fun i => gen (ws i)) 0 ms net' = .ok n' ∧ Related σ Φ Γ ℓ' n n' := by
  induction ms generalizing t net net' ℓ with
  | nil => exact ⟨net, rfl, rfl, rfl, fun ws => ⟨net', ℓ, rfl, hR⟩⟩
  | cons m ms ih =>
    have hmv := valid_of_range m (hm m (by simp))
    subst hq
    have hs := gen_move ν μ gen hg hR st st' (ω t) pk hpk m hx hy hr.1
    have step : ∀ w, SvdMove st' (gen w) pk net' m → ∃ n, runDrawn st pk ω (t + 1) ms (m.after (numOps st (ω t)) pk net) = .ok n ∧
        n.nx = net.nx ∧ n.ny = net.ny ∧ Almost μ ms.length fun ws =>
          ∃ n' ℓ', runDrawn st' pk (fun i => gen (ws i)) 0 ms (m.after (numOps st' (gen w)) pk net') = .ok n' ∧ Related σ Φ Γ ℓ' n n' := by
      intro w hw
      obtain ⟨ℓ1, hR1⟩ := related_after hR st st' (ω t) (gen w) pk m hx hy hcut h0 hmv hd.1 (fun _ _ _ => Or.inl hf) hw
      exact ih (t + 1) (m.after (numOps st (ω t)) pk net) (m.after (numOps st' (gen w)) pk net') rfl ℓ1 hR1 hx hy
        (fun m' hm' => hm m' (by simp [hm'])) (hd.2 _ (m.run_eq _ _ _)) (hr.2 _ (m.run_eq _ _ _))
    obtain ⟨ℓ0, hR0⟩ := related_after hR st { st' with fullRank := true } (ω t) (ω t) pk m hx hy hcut h0 hmv hd.1 (fun _ _ _ => Or.inl hf)
      (fun _ _ _ => Or.inl rfl)
    obtain ⟨n, en, n1, n2, -⟩ := ih (t + 1) (m.after (numOps st (ω t)) pk net) _ rfl ℓ0 hR0 hx hy
        (fun m' hm' => hm m' (by simp [hm'])) (hd.2 _ (m.run_eq _ _ _)) (hr.2 _ (m.run_eq _ _ _))
    refine ⟨n, ?_, n1, n2, ?_⟩
    · simp only [runDrawn, Move.run_eq, bind, Except.bind]
      exact en
    · show ∀ᵐ w ∂μ, _
      filter_upwards [hs] with w hw
      obtain ⟨n', en', -, -, ha⟩ := step w hw
      obtain rfl : n = n' := Except.ok.inj (en.symm.trans en')
      refine Almost.mono μ ?_ ha
      rintro ws ⟨n', ℓ', e, hR'⟩
      refine ⟨n', ℓ', ?_, hR'⟩
      simp only [runDrawn, Move.run_eq, bind, Except.bind]
      rw [runDrawn_shift]
      exact e

end runs

/-! ### The property -/

section prop

variable {pD : ℕ}

include hg

/-- **C79 (moves).** -/
theorem C79_moves (st st' : ProjSettings 𝕜) (hf : st.fullRank = true) (pk : ProjKind) (hpk : pk = .half ∨ ∀ a : 𝕜, star a = a)
    (hcut : st'.cutoff = st.cutoff) (h0 : 0 ≤ st.cutoff) (ω : ℕ → Draws B 𝕜) (ms : List Move) (t : ℕ)
    (net : Net (Ten B (Fin pD) 𝕜)) (f : Site → ℕ → ℕ) (hw : Wired net f) (hx : 0 < net.nx) (hy : 0 < net.ny)
    (hm : ∀ m ∈ ms, InRange net.nx net.ny m) (hd : DropRun st pk ω t ms net)
    (hr : RankRun st (net.chi + st'.oversampling) pk ω t ms net) :
    ∃ n, runDrawn st pk ω t ms net = .ok n ∧ Almost μ ms.length fun ws =>
      ∃ n', runDrawn st' pk (fun i => gen (ws i)) 0 ms net = .ok n' ∧ SameRdms n n' := by
  obtain ⟨n, e, n1, n2, ha⟩ := gen_run ν μ gen hg st st' hf pk hpk hcut h0 ω ms t _ net net rfl _ (related_self hw hx hy) hx hy hm hd hr
  refine ⟨n, e, Almost.mono μ ?_ ha⟩
  rintro ws ⟨n', ℓ', e', hR⟩
  exact ⟨n', e', sameRdms_of_related (n1 ▸ hx) (n2 ▸ hy) hR⟩

/-- **C79 (sweeps).** The same for `ctmrg`. -/
theorem C79_sweeps (st st' : ProjSettings 𝕜) (hf : st.fullRank = true) (pk : ProjKind) (hpk : pk = .half ∨ ∀ a : 𝕜, star a = a)
    (hcut : st'.cutoff = st.cutoff) (h0 : 0 ≤ st.cutoff) (ω : ℕ → Draws B 𝕜) (n t : ℕ)
    (net : Net (Ten B (Fin pD) 𝕜)) (f : Site → ℕ → ℕ) (hw : Wired net f) (hx : 0 < net.nx) (hy : 0 < net.ny)
    (hd : DropRun st pk ω t (List.replicate n (sweepMoves net.nx net.ny)).flatten net)
    (hr : RankRun st (net.chi + st'.oversampling) pk ω t (List.replicate n (sweepMoves net.nx net.ny)).flatten net) :
    ∃ net1, ctmrgDrawn st pk ω t n net = .ok net1 ∧
      Almost μ (List.replicate n (sweepMoves net.nx net.ny)).flatten.length fun ws =>
        ∃ net2, ctmrgDrawn st' pk (fun i => gen (ws i)) 0 n net = .ok net2 ∧ SameRdms net1 net2 := by
  simp only [ctmrgDrawn_eq]
  exact C79_moves ν μ gen hg st st' hf pk hpk hcut h0 ω _ t net f hw hx hy (sweeps_range hx hy n) hd hr

end prop

end run

/-- **C79 (oversampling).** If `chi * D ^ 2` is at most `chi + oversampling`, this holds for every run from fresh boundary
tensors whose singular values drop where they are cut off. -/
theorem C79_oversampling {𝕜 : Type} [RCLike 𝕜] [MeasurableSpace 𝕜] [BorelSpace 𝕜] {W : Type} [MeasurableSpace W] {D pD : ℕ}
    (ν : Measure 𝕜) [SigmaFinite ν] [NullSingletonClass ν] (μ : Measure W)
    (gen : W → Draws (Fin D) 𝕜) (hg : Generates ν μ gen) (st st' : ProjSettings 𝕜)
    (hf : st.fullRank = true) (pk : ProjKind)
    (hpk : pk = .half ∨ ∀ a : 𝕜, star a = a) (hcut : st'.cutoff = st.cutoff) (h0 : 0 ≤ st.cutoff) (ω : ℕ → Draws (Fin D) 𝕜) (n t : ℕ)
    (nx ny chi : ℕ) (hx : 0 < nx) (hy : 0 < ny) (A : Site → ATensor (Fin D) (Fin pD) 𝕜) (hD : D * D ≤ chi)
    (hr : chi * (D * D) ≤ chi + st'.oversampling)
    (hd : DropRun st pk ω t (List.replicate n (sweepMoves nx ny)).flatten (freshNet nx ny chi A)) :
    ∃ net1, ctmrgDrawn st pk ω t n (freshNet nx ny chi A) = .ok net1 ∧
      Almost μ (List.replicate n (sweepMoves nx ny)).flatten.length fun ws =>
        ∃ net2, ctmrgDrawn st' pk (fun i => gen (ws i)) 0 n (freshNet nx ny chi A) = .ok net2 ∧ SameRdms net1 net2 :=
  C79_sweeps ν μ gen hg st st' hf pk hpk hcut h0 ω n t _ _ (fresh_wired A hx hy) hx hy hd
    ((small_fresh nx ny chi A hD).rankRun st _ (by rw [Fintype.card_fin]; exact hr) pk ω _ t)

/-! ### Non-vacuity -/

section generator

variable {𝕜 : Type} [MeasurableSpace 𝕜] {B : Type} [Fintype B]

/-- Independent draws for all calls. -/
theorem exists_generator (ν : Measure 𝕜) [IsProbabilityMeasure ν] :
    ∃ (W : Type) (_ : MeasurableSpace W) (μ : Measure W) (gen : W → Draws B 𝕜), IsProbabilityMeasure μ ∧ Generates ν μ gen := by
  let I := (ℕ × Site) × ℕ × ℕ × ℕ
  let X : I → Type := fun i => (Fin i.2.2.1 × B × B) × Fin (clipRank (Fin i.2.1 × B × B) (Fin i.2.2.1 × B × B) i.2.2.2) → 𝕜
  have : ∀ i : I, IsProbabilityMeasure (iid ν (Fin i.2.2.1 × B × B) (clipRank (Fin i.2.1 × B × B) (Fin i.2.2.1 × B × B) i.2.2.2)) := by
    intro i
    unfold iid
    infer_instance
  refine ⟨∀ i, X i, inferInstance, Measure.infinitePi fun i : I =>
    iid ν (Fin i.2.2.1 × B × B) (clipRank (Fin i.2.1 × B × B) (Fin i.2.2.1 × B × B) i.2.2.2),
    fun w key m n q => of fun i j => w (key, m, n, q) (i, j), inferInstance, ?_, ?_⟩
  · intro key m n q
    exact (measurable_pi_apply (X := X) (key, m, n, q)).aemeasurable
  · intro key m n q
    exact Measure.infinitePi_map_eval _ (key, m, n, q)

end generator

/-- The hypotheses hold for any number of sweeps on any network of product sites, with normally distributed entries. -/
example {D pD : ℕ} (st st' : ProjSettings ℝ) (hf : st.fullRank = true) (pk : ProjKind) (hcut : st'.cutoff = st.cutoff)
    (h0 : 0 ≤ st.cutoff) (ω : ℕ → Draws (Fin D) ℝ) (n t nx ny chi : ℕ) (hx : 0 < nx) (hy : 0 < ny) (hD : D * D ≤ chi)
    (hr : chi * (D * D) ≤ chi + st'.oversampling) (g : Site → Fin 4 → Fin D → ℝ) (v : Site → Fin pD → ℝ) :
    ∃ (W : Type) (_ : MeasurableSpace W) (μ : Measure W) (gen : W → Draws (Fin D) ℝ) (net1 : Net (Ten (Fin D) (Fin pD) ℝ)),
      Generates (ProbabilityTheory.gaussianReal 0 1) μ gen ∧
      ctmrgDrawn st pk ω t n (freshNet nx ny chi fun s => prodSite (g s 0) (g s 1) (g s 2) (g s 3) (v s)) = .ok net1 ∧
      Almost μ (List.replicate n (sweepMoves nx ny)).flatten.length fun ws => ∃ net2,
        ctmrgDrawn st' pk (fun i => gen (ws i)) 0 n (freshNet nx ny chi fun s => prodSite (g s 0) (g s 1) (g s 2) (g s 3) (v s)) =
          .ok net2 ∧ SameRdms net1 net2 := by
  have := ProbabilityTheory.nullSingletonClass_gaussianReal (μ := 0) (v := 1) one_ne_zero
  obtain ⟨W, i, μ, gen, -, hg⟩ := exists_generator (B := Fin D) (ProbabilityTheory.gaussianReal 0 1)
  obtain ⟨net1, h⟩ := C79_oversampling _ μ gen hg st st' hf pk (Or.inr fun _ => rfl) hcut h0 ω n t nx ny chi hx hy _ hD hr
    ((factored_fresh _ _ _ _ fun _ => prodSite_prod _ _ _ _ _).dropRun st h0 pk ω _ t)
  exact ⟨W, i, μ, gen, net1, hg, h⟩

end AceTN
