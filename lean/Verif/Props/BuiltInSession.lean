import Verif.Props.BuiltIn
import Verif.Props.Stationary

/-! C114: what sessions with the built-in models measure at bond dimension one. -/

set_option autoImplicit false
set_option linter.unusedSectionVars false

namespace AceTN
open Matrix Spec NormedSpace Full Session Pauli
open scoped Matrix.Norms.L2Operator Kronecker

variable {F : Type} {nx ny : ℕ}

/-! ### Sums over the cell -/

theorem disc_of_circle {ι : Type} (l : List ι) (f g : ι → ℝ) (h : ∀ i ∈ l, f i ^ 2 + g i ^ 2 = 1) :
    (l.map f).sum ^ 2 + (l.map g).sum ^ 2 ≤ (l.length : ℝ) ^ 2 := by
  induction l with
  | nil => simp
  | cons i l ih =>
    have h1 := ih fun j hj => h j (by simp [hj])
    have h2 := h i (by simp)
    simp only [List.map_cons, List.sum_cons, List.length_cons, Nat.cast_add, Nat.cast_one]
    set x := (l.map f).sum
    set y := (l.map g).sum
    have h3 : f i * x + g i * y ≤ l.length := by
      refine (le_abs_self _).trans (abs_le_of_sq_le_sq ?_ (Nat.cast_nonneg _))
      nlinarith [sq_nonneg (f i * y - g i * x)]
    nlinarith

theorem disc_average {ι : Type} (l : List ι) (f g : ι → ℝ) (h : ∀ i ∈ l, f i ^ 2 + g i ^ 2 = 1) : average l f ^ 2 + average l g ^ 2 ≤ 1 := by
  unfold average
  rw [div_pow, div_pow, ← add_div]
  exact div_le_one_of_le₀ (disc_of_circle l f g h) (sq_nonneg _)

theorem site_count (nx ny : ℕ) : ((buildSiteList nx ny).length : ℝ) = nx * ny := by
  rw [(C01_site_list nx ny).2.1, Nat.cast_mul]

theorem sum_ends (nx ny : ℕ) (g : Site → ℝ) :
    ((buildBondList nx ny).map fun b => g b.s1 + g b.s2).sum = 4 * ((buildSiteList nx ny).map g).sum := by
  have h := sum_bond_ends nx ny fun a _ : Site => g a
  rw [h, ← List.sum_map_mul_left]
  simp

theorem list_const_le {ι : Type} (l : List ι) (c : ℝ) (f : ι → ℝ) (h : ∀ i ∈ l, c ≤ f i) : l.length * c ≤ (l.map f).sum := by
  have := List.sum_le_sum (l := l) (f := fun _ => c) (g := f) h
  simpa using this

/-! ### The Ising model -/

theorem ising_site (jz h x z : ℝ) (hc : x ^ 2 + z ^ 2 = 1) : isingMeanField jz h ≤ -h * x - 2 * |jz| * z ^ 2 := by
  unfold isingMeanField
  have hz : z ^ 2 = 1 - x ^ 2 := by linarith
  rw [hz]
  split_ifs with hh
  · rcases eq_or_ne jz 0 with rfl | hj
    · have : h = 0 := by simpa using hh
      simp [this]
    · have hj' : 0 < |jz| := abs_pos.2 hj
      have e : -h * x - 2 * |jz| * (1 - x ^ 2) + (2 * |jz| + h ^ 2 / (8 * |jz|)) = 2 * |jz| * (x - h / (4 * |jz|)) ^ 2 := by
        field_simp
        ring
      have : 0 ≤ 2 * |jz| * (x - h / (4 * |jz|)) ^ 2 := by positivity
      linarith
  · push Not at hh
    have hx1 : |x| ≤ 1 := abs_le_one_iff_mul_self_le_one.2 (by nlinarith [sq_nonneg z])
    have h1 : h * x ≤ |h| * |x| := (le_abs_self _).trans_eq (abs_mul h x)
    have h2 : x ^ 2 = |x| ^ 2 := (sq_abs x).symm
    rw [h2]
    nlinarith [abs_nonneg x, abs_nonneg jz, mul_nonneg (sub_nonneg.2 hx1) (sub_nonneg.2 hh.le), mul_nonneg (abs_nonneg jz) (sub_nonneg.2 hx1),
      mul_nonneg (mul_nonneg (abs_nonneg jz) (sub_nonneg.2 hx1)) (sub_nonneg.2 hx1)]

theorem ising_bound_of (hx : 2 ≤ nx) (hy : 2 ≤ ny) {s : State 1 2 ℝ} (hs : MeanState nx ny s)
    (params : PyDict String ℝ) {jz h : ℝ} (hj : params.get? "jz" = some jz) (hh : params.get? "hx" = some h)
    (init : Fin 2 → Fin 2 → Fin 2 → Fin 2 → ℝ) :
    ∃ model d E mx mz, Pauli.isingMeas params = .ok model ∧ Session.measure init model s = .ok d ∧
      d.get? "Energy" = some E ∧ d.get? "sx" = some mx ∧ d.get? "sz" = some mz ∧ isingMeanField jz h ≤ E ∧ mx ^ 2 + mz ^ 2 ≤ 1 := by
  obtain ⟨hv, d, hd, hE, hO⟩ := measured_of_mean hx hy hs _ (ising_clean sigmaX sigmaZ
    (fun _ => some ((-h) • sigmaX)) (fun _ k1 k2 b1 b2 => ((-jz) • (sigmaZ ⊗ₖ sigmaZ)) (k1, k2) (b1, b2)) _ _) init
  dsimp only at hv hd hE hO
  set v := siteVec (siteTensors (bare s.net)) with hvdef
  have hcirc : ∀ s ∈ buildSiteList nx ny, polX (v s) ^ 2 + polZ (v s) ^ 2 = 1 := fun s hs => pol_circle (hv s (mem_buildSiteList.1 hs))
  refine ⟨_, d, _, _, _, (C114_ising_terms hj hh).2, hd, hE, hO "sx" (by simp [PyDict.keys]), hO "sz" (by simp [PyDict.keys]), ?_, ?_⟩
  · unfold energyPerSite siteEnergy
    simp only [bondRatio_ising, siteRatio_x]
    have hn : (0 : ℝ) < (buildSiteList nx ny).length := by
      rw [site_count]
      have : 0 < nx := by omega
      have : 0 < ny := by omega
      positivity
    rw [le_div_iff₀ hn]
    have h1 := list_const_le (buildSiteList nx ny) (isingMeanField jz h) (fun s => -h * polX (v s) - 2 * |jz| * polZ (v s) ^ 2)
      fun s hs => ising_site jz h _ _ (hcirc s hs)
    have h2 : ((buildBondList nx ny).map fun b => -(|jz| / 2 * polZ (v b.s1) ^ 2) + -(|jz| / 2 * polZ (v b.s2) ^ 2)).sum ≤
        ((buildBondList nx ny).map fun b => -jz * (polZ (v b.s1) * polZ (v b.s2))).sum := by
      refine List.sum_le_sum fun b _ => ?_
      have e1 : jz * (polZ (v b.s1) * polZ (v b.s2)) ≤ |jz| * (|polZ (v b.s1)| * |polZ (v b.s2)|) := by
        rw [← abs_mul, ← abs_mul]
        exact le_abs_self _
      have e2 : |polZ (v b.s1)| * |polZ (v b.s2)| ≤ (polZ (v b.s1) ^ 2 + polZ (v b.s2) ^ 2) / 2 := by
        rw [← sq_abs (polZ (v b.s1)), ← sq_abs (polZ (v b.s2))]
        nlinarith [sq_nonneg (|polZ (v b.s1)| - |polZ (v b.s2)|)]
      nlinarith [mul_le_mul_of_nonneg_left e2 (abs_nonneg jz)]
    rw [sum_ends nx ny fun s => -(|jz| / 2 * polZ (v s) ^ 2)] at h2
    have h3 : ((buildSiteList nx ny).map fun s => -h * polX (v s) - 2 * |jz| * polZ (v s) ^ 2).sum =
        ((buildSiteList nx ny).map fun s => -h * polX (v s)).sum + 4 * ((buildSiteList nx ny).map fun s => -(|jz| / 2 * polZ (v s) ^ 2)).sum := by
      rw [← List.sum_map_mul_left, ← List.sum_map_add]
      refine congrArg List.sum (List.map_congr_left fun s _ => ?_)
      ring
    linarith
  · refine disc_average _ _ _ fun s hs => ?_
    have e1 := siteRatio_x 1 v s
    have e2 := siteRatio_z 1 v s
    rw [one_smul, one_mul] at e1 e2
    show siteRatio v s sigmaX ^ 2 + siteRatio v s sigmaZ ^ 2 = 1
    rw [e1, e2]
    exact hcirc s hs

/-- **C114 (Ising model, bounds).** Real dtype, bond dimension one, cells from 2 × 2, all parameters and any script, whatever models it evolves
with: the energy that `measure` returns for the built-in Ising model is at least the lowest one of product states, and the averages
`sx` and `sz` are in the unit disc. -/
theorem C114_ising_bound (hx : 2 ≤ nx) (hy : 2 ≤ ny) (M : Machine F 1 ℝ) (hM : M.cx = false) (hω : DrawsNonzero M.ω) {chi : ℕ} (hchi : 0 < chi)
    (A : Site → ATensor (Fin 1) (Fin 2) ℝ) (hA : ∀ s, InCell nx ny s → A s ≠ 0) (cs : List (Call F 1 2 ℝ)) (hcs : ∀ c ∈ cs, Sensible nx ny c)
    (params : PyDict String ℝ) {jz h : ℝ} (hj : params.get? "jz" = some jz) (hh : params.get? "hx" = some h)
    (init : Fin 2 → Fin 2 → Fin 2 → Fin 2 → ℝ) :
    ∃ model d E mx mz, Pauli.isingMeas params = .ok model ∧ Session.measure init model (runCatching M cs (new nx ny chi A)) = .ok d ∧
      d.get? "Energy" = some E ∧ d.get? "sx" = some mx ∧ d.get? "sz" = some mz ∧ isingMeanField jz h ≤ E ∧ mx ^ 2 + mz ^ 2 ≤ 1 := by
  exact ising_bound_of hx hy (mean_run hx hy M hM hω cs hcs _ (mean_new (by omega) (by omega) hchi A hA)) params hj hh init

/-- Evolution in a transverse field, from a state on a branch of the hyperbola. -/
theorem field_evolution (h t a : ℝ) : ![Real.cosh a, Real.sinh a] ᵥ* exp (-t • ((-h) • sigmaX)) = ![Real.cosh (a + h * t), Real.sinh (a + h * t)] := by
  have hp := vecMul_calculateGate ((-h) • sigmaX) (-h) t ![1, 1] (fun j => by
    fin_cases j <;> simp [sigmaX, Fin.sum_univ_two])
  have hm := vecMul_calculateGate ((-h) • sigmaX) h t ![1, -1] (fun j => by
    fin_cases j <;> simp [sigmaX, Fin.sum_univ_two])
  have hG : exp (-t • ((-h) • sigmaX)) = calculateGate ((-h) • sigmaX) t := rfl
  rw [hG]
  funext j
  have h1 := hp j
  have h2 := hm j
  simp only [Fin.sum_univ_two, Matrix.cons_val_zero, Matrix.cons_val_one, one_mul, RCLike.ofReal_real_eq_id, id] at h1 h2
  simp only [Matrix.vecMul, dotProduct, Fin.sum_univ_two, Matrix.cons_val_zero, Matrix.cons_val_one]
  have e1 : -t * -h = h * t := by ring
  have e2 : -t * h = -(h * t) := by ring
  rw [e1] at h1
  rw [e2] at h2
  rw [Real.cosh_eq a, Real.sinh_eq a, Real.cosh_eq (a + h * t), Real.sinh_eq (a + h * t), neg_add, Real.exp_add, Real.exp_add]
  fin_cases j
  · simp only [Fin.zero_eta, Matrix.cons_val_zero] at h1 h2 ⊢
    linear_combination (Real.exp a / 2) * h1 + (Real.exp (-a) / 2) * h2
  · simp only [Fin.mk_one, Matrix.cons_val_one, Matrix.cons_val_fin_one] at h1 h2 ⊢
    linear_combination (Real.exp a / 2) * h1 + (Real.exp (-a) / 2) * h2

theorem field_evolutions (h a : ℝ) (es : List (Evolution 1 2 ℝ)) (x : Site) :
    ![Real.cosh a, Real.sinh a] ᵥ* siteEvolution (fun _ _ => (-h) • sigmaX) es x =
      ![Real.cosh (a + h * (es.map fun e => (e.steps : ℝ) * e.dtau).sum), Real.sinh (a + h * (es.map fun e => (e.steps : ℝ) * e.dtau).sum)] := by
  unfold siteEvolution
  induction es generalizing a with
  | nil => simp
  | cons e es ih =>
    rw [List.map_cons, List.prod_cons, ← Matrix.vecMul_vecMul, field_evolution, ih, List.map_cons, List.sum_cons, mul_add, add_assoc]

theorem pol_hyperbola (a : ℝ) : polX ![Real.cosh a, Real.sinh a] = Real.tanh (2 * a) ∧ polZ ![Real.cosh a, Real.sinh a] = 1 / Real.cosh (2 * a) := by
  unfold polX polZ
  simp only [Matrix.cons_val_zero, Matrix.cons_val_one]
  have h1 := Real.cosh_sq a
  constructor
  · rw [Real.tanh_eq_sinh_div_cosh, Real.sinh_two_mul, Real.cosh_two_mul]
    congr 1
    ring
  · rw [Real.cosh_two_mul, h1]
    congr 1
    ring

theorem startVec_of (A : Site → ATensor (Fin 1) (Fin 2) ℝ) (es : List (Evolution 1 2 ℝ)) (u : Site → Fin 2 → ℝ) (hA : ∀ s, InCell nx ny s → siteVec A s = u s)
    (hes : ∀ e ∈ es, ∀ s, InCell nx ny s → siteVec e.start s = u s) (s : Site) (hs : InCell nx ny s) : startVec A es s = u s := by
  cases es with
  | nil => exact hA s hs
  | cons e es => exact hes e (by simp) s hs

theorem tensor_ne {A : ATensor (Fin 1) (Fin 2) ℝ} {u : Fin 2 → ℝ} (h : A 0 0 0 0 = u) (hu : u ≠ 0) : A ≠ 0 := by
  rintro rfl
  exact hu h.symm

theorem site_list_const (hx : 2 ≤ nx) (hy : 2 ≤ ny) (f : Site → ℝ) (c : ℝ) (h : ∀ s, InCell nx ny s → f s = c) : average (buildSiteList nx ny) f = c := by
  have hn : ((buildSiteList nx ny).length : ℝ) ≠ 0 := by
    rw [site_count]
    have : 0 < nx := by omega
    have : 0 < ny := by omega
    positivity
  unfold average
  rw [List.map_congr_left (g := fun _ => c) fun s hs => h s (mem_buildSiteList.1 hs)]
  simp only [List.map_const', List.sum_replicate, nsmul_eq_mul]
  rw [mul_div_assoc, mul_comm, div_mul_cancel₀ _ hn]

/-- **C114 (Ising model without coupling).** Real dtype, bond dimension one, cells from 2 × 2, spins that start up as in `Model`, any script whose
calls of `evolve` use the built-in Ising model with `jz = 0`: `measure` returns the values of spins in a transverse field, for the
imaginary time evolved in total. -/
theorem C114_paramagnet (hx : 2 ≤ nx) (hy : 2 ≤ ny) (M : Machine F 1 ℝ) (hM : M.cx = false) (hω : DrawsNonzero M.ω) {chi : ℕ} (hchi : 0 < chi)
    (A : Site → ATensor (Fin 1) (Fin 2) ℝ) (hA : ∀ s, InCell nx ny s → A s 0 0 0 0 = ![1, 0]) (cs : List (Call F 1 2 ℝ))
    (hcs : ∀ c ∈ cs, Sensible nx ny c ∧ KnownNames c) (params : PyDict String ℝ) {h : ℝ} (hj : params.get? "jz" = some 0)
    (hh : params.get? "hx" = some h) (hm : ∀ e ∈ evolutions cs, Pauli.isingTerms params = .ok e.model)
    (hs : ∀ e ∈ evolutions cs, ∀ s, InCell nx ny s → e.start s 0 0 0 0 = ![1, 0]) (init : Fin 2 → Fin 2 → Fin 2 → Fin 2 → ℝ) :
    let T := ((evolutions cs).map fun e => (e.steps : ℝ) * e.dtau).sum
    ∃ model d, Pauli.isingMeas params = .ok model ∧ Session.measure init model (runCatching M cs (new nx ny chi A)) = .ok d ∧
      d.get? "Energy" = some (-h * Real.tanh (2 * h * T)) ∧ d.get? "sx" = some (Real.tanh (2 * h * T)) ∧
      d.get? "sz" = some (1 / Real.cosh (2 * h * T)) := by
  intro T
  have hu : (![1, 0] : Fin 2 → ℝ) ≠ 0 := fun h0 => one_ne_zero (congrFun h0 0)
  have hA0 : ∀ s, InCell nx ny s → A s ≠ 0 := fun s hsc => tensor_ne (hA s hsc) hu
  obtain ⟨-, d, hd, hE, hO⟩ := measured_vectors hx hy M hM hω hchi A hA0 cs (fun c hc => (hcs c hc).1) _ (ising_clean sigmaX sigmaZ
    (fun _ => some ((-h) • sigmaX)) (fun _ k1 k2 b1 b2 => ((-0 : ℝ) • (sigmaZ ⊗ₖ sigmaZ)) (k1, k2) (b1, b2)) _ _) init
  have hi : ∀ e ∈ evolutions cs, Independent nx ny e.model fun _ => (-h) • sigmaX := fun e he => by
    have := hm e he
    rw [(C114_ising_terms hj hh).1] at this
    rw [← Except.ok.inj this]
    exact ⟨fun _ _ => by simp, fun _ _ => rfl⟩
  have hf := free_meanField hx hy (fun _ _ => (-h) • sigmaX) _ hi _ (.inl rfl) _ _ (startVec_ne A hA0 cs fun c hc => (hcs c hc).1)
    (C111_refines hx hy M hM hω hchi A hA0 cs hcs)
  dsimp only at hd hE hO
  set v := siteVec (siteTensors (bare (runCatching M cs (new nx ny chi A)).net)) with hvdef
  have hpol : ∀ s, InCell nx ny s → polX (v s) = Real.tanh (2 * h * T) ∧ polZ (v s) = 1 / Real.cosh (2 * h * T) := fun s hsc => by
    obtain ⟨c, hc, e⟩ := hf s hsc
    have e0 : (![1, 0] : Fin 2 → ℝ) = ![Real.cosh 0, Real.sinh 0] := by simp
    dsimp only at e
    rw [startVec_of A _ (fun _ => ![1, 0]) hA hs s hsc, e0, field_evolutions, zero_add] at e
    rw [show v s = c • ![Real.cosh (h * T), Real.sinh (h * T)] from e, (pol_smul _ hc).1, (pol_smul _ hc).2, (pol_hyperbola _).1, (pol_hyperbola _).2, mul_assoc]
    exact ⟨rfl, rfl⟩
  refine ⟨_, d, (C114_ising_terms hj hh).2, hd, hE.trans (congrArg some ?_), (hO "sx" (by simp [PyDict.keys])).trans (congrArg some ?_),
    (hO "sz" (by simp [PyDict.keys])).trans (congrArg some ?_)⟩
  · unfold energyPerSite siteEnergy
    simp only [bondRatio_ising, siteRatio_x, neg_zero, zero_mul, List.map_const', List.sum_replicate, smul_zero, add_zero]
    exact site_list_const hx hy _ _ fun s hsc => by rw [(hpol s hsc).1]
  · refine site_list_const hx hy _ _ fun s hsc => ?_
    have e1 := siteRatio_x 1 v s
    rw [one_smul, one_mul, (hpol s hsc).1] at e1
    exact e1
  · refine site_list_const hx hy _ _ fun s hsc => ?_
    have e1 := siteRatio_z 1 v s
    rw [one_smul, one_mul, (hpol s hsc).2] at e1
    exact e1

theorem angle_pol (θ : ℝ) : polX ![Real.cos θ, Real.sin θ] = Real.sin (2 * θ) ∧ polZ ![Real.cos θ, Real.sin θ] = Real.cos (2 * θ) := by
  unfold polX polZ
  simp only [Matrix.cons_val_zero, Matrix.cons_val_one, Real.cos_sq_add_sin_sq, div_one]
  constructor
  · rw [Real.sin_two_mul]
    ring
  · rw [Real.cos_two_mul, Real.sin_sq]
    ring

theorem ising_attained (jz h : ℝ) : ∃ v : Fin 2 → ℝ, v ≠ 0 ∧ -h * polX v - 2 * |jz| * polZ v ^ 2 = isingMeanField jz h := by
  have key : ∀ x : ℝ, -1 ≤ x → x ≤ 1 → ∃ v : Fin 2 → ℝ, v ≠ 0 ∧ polX v = x ∧ polZ v ^ 2 = 1 - x ^ 2 := fun x h1 h2 => by
    refine ⟨![Real.cos (Real.arcsin x / 2), Real.sin (Real.arcsin x / 2)], fun h0 => ?_, ?_, ?_⟩
    · have e := Real.cos_sq_add_sin_sq (Real.arcsin x / 2)
      have e0 := congrFun h0 0
      have e1 := congrFun h0 1
      simp only [Matrix.cons_val_zero, Matrix.cons_val_one, Pi.zero_apply] at e0 e1
      rw [e0, e1] at e
      norm_num at e
    · rw [(angle_pol _).1, mul_div_cancel₀ _ two_ne_zero, Real.sin_arcsin h1 h2]
    · rw [(angle_pol _).2, mul_div_cancel₀ _ two_ne_zero, Real.cos_sq', Real.sin_arcsin h1 h2]
  unfold isingMeanField
  split_ifs with hh
  · rcases eq_or_ne jz 0 with rfl | hj
    · have h0 : h = 0 := by simpa using hh
      obtain ⟨v, hv, -⟩ := key 0 (by norm_num) (by norm_num)
      exact ⟨v, hv, by simp [h0]⟩
    · have hj' : 0 < |jz| := abs_pos.2 hj
      have hle : |h / (4 * |jz|)| ≤ 1 := by
        rw [abs_div, abs_of_pos (by positivity : 0 < 4 * |jz|)]
        exact div_le_one_of_le₀ hh (by positivity)
      obtain ⟨v, hv, e1, e2⟩ := key (h / (4 * |jz|)) (abs_le.1 hle).1 (abs_le.1 hle).2
      refine ⟨v, hv, ?_⟩
      rw [e1, e2]
      field_simp
      ring
  · rcases le_total 0 h with h0 | h0
    · obtain ⟨v, hv, e1, e2⟩ := key 1 (by norm_num) (by norm_num)
      refine ⟨v, hv, ?_⟩
      rw [e1, e2, abs_of_nonneg h0]
      ring
    · obtain ⟨v, hv, e1, e2⟩ := key (-1) (by norm_num) (by norm_num)
      refine ⟨v, hv, ?_⟩
      rw [e1, e2, abs_of_nonpos h0]
      ring

/-- **C114 (the bound is sharp).** For ferromagnetic couplings there are tensors for which `measure` returns exactly that energy. -/
theorem C114_ising_sharp (hx : 2 ≤ nx) (hy : 2 ≤ ny) (M : Machine F 1 ℝ) (hM : M.cx = false) (hω : DrawsNonzero M.ω) {chi : ℕ} (hchi : 0 < chi)
    (params : PyDict String ℝ) {jz h : ℝ} (hj : params.get? "jz" = some jz) (hh : params.get? "hx" = some h) (hpos : 0 ≤ jz)
    (init : Fin 2 → Fin 2 → Fin 2 → Fin 2 → ℝ) :
    ∃ (A : Site → ATensor (Fin 1) (Fin 2) ℝ) (model : _) (d : _), (∀ s, A s ≠ 0) ∧ Pauli.isingMeas params = .ok model ∧
      Session.measure init model (new nx ny chi A) = .ok d ∧ d.get? "Energy" = some (isingMeanField jz h) := by
  obtain ⟨u, hu, e⟩ := ising_attained jz h
  have hA : ∀ s : Site, (fun _ _ _ _ => u : ATensor (Fin 1) (Fin 2) ℝ) ≠ 0 := fun _ => tensor_ne (u := u) rfl hu
  obtain ⟨-, d, hd, hE, -⟩ := measured_vectors hx hy M hM hω hchi (fun _ _ _ _ _ => u) (fun s _ => hA s) [] (by simp) _ (ising_clean sigmaX sigmaZ
    (fun _ => some ((-h) • sigmaX)) (fun _ k1 k2 b1 b2 => ((-jz) • (sigmaZ ⊗ₖ sigmaZ)) (k1, k2) (b1, b2)) _ _) init
  have hv := C111_refines hx hy M hM hω hchi (fun _ _ _ _ _ => u) (fun s _ => hA s) [] (by simp)
  set v := siteVec (siteTensors (bare (runCatching M [] (new nx ny chi fun _ _ _ _ _ => u)).net)) with hvdef
  have hv' : ∀ s, InCell nx ny s → v s = u := hv
  refine ⟨_, _, d, hA, (C114_ising_terms hj hh).2, hd, hE.trans (congrArg some ?_)⟩
  unfold energyPerSite siteEnergy
  simp only [bondRatio_ising, siteRatio_x]
  have h1 : ((buildSiteList nx ny).map fun s => -h * polX (v s)).sum = (buildSiteList nx ny).length * (-h * polX u) := by
    rw [List.map_congr_left (g := fun _ => -h * polX u) fun s hs => by rw [hv' s (mem_buildSiteList.1 hs)]]
    simp
  have h2 : ((buildBondList nx ny).map fun b => -jz * (polZ (v b.s1) * polZ (v b.s2))).sum = (buildBondList nx ny).length * (-jz * (polZ u * polZ u)) := by
    rw [List.map_congr_left (g := fun _ => -jz * (polZ u * polZ u)) fun b hb => by rw [hv' _ (bond_cell hb).1, hv' _ (bond_cell hb).2]]
    simp
  rw [h1, h2, (C02_bond_list nx ny).1, site_count, ← e, abs_of_nonneg hpos]
  have : (nx : ℝ) ≠ 0 := Nat.cast_ne_zero.2 (by omega)
  have : (ny : ℝ) ≠ 0 := Nat.cast_ne_zero.2 (by omega)
  push_cast
  field_simp
  ring

end AceTN
