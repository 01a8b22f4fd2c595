import Verif.Lemmas.FieldSimple
import Verif.Spec.Conjugate
import Verif.Props.Dtype

/-!
# C106: complex conjugation

Conjugating all data conjugates all results.  Real states have no expectation value of imaginary observables.
-/

set_option autoImplicit false

namespace AceTN

open _root_.AceTN.Spec Session

variable {𝕜 F : Type} [RCLike 𝕜] {bD pD : ℕ} [NeZero bD] [NeZero pD]

/-- **C106 (sessions).** All cells, tensors, models, settings, random numbers and sequences of calls, real and complex dtypes, and libraries
of which one returns on conjugated matrices the conjugated factors of the other: the session with conjugated data raises the same exceptions
and leaves the conjugated tensors behind, and conjugated observables have the same averages. -/
theorem C106_session {M M' : Machine F bD 𝕜} (h : MachineFollows (conjHom 𝕜) M M') (hx : M'.cx = M.cx) (nx ny chi : ℕ)
    (A : Site → ATensor (Fin bD) (Fin pD) 𝕜) (cs : List (Call F bD pD 𝕜)) :
    let r := Session.run M cs (new nx ny chi A)
    let r' := Session.run M' (cs.map (mapCall (conjHom 𝕜))) (new nx ny chi (mapSiteTensors (conjHom 𝕜) A))
    r'.1 = mapState (conjHom 𝕜) r.1 ∧ r'.2 = r.2 ∧
    ∀ (init init' : Fin pD → Fin pD → Fin pD → Fin pD → 𝕜) (m : MeasModel (Fin pD → Fin pD → 𝕜) (Fin pD → Fin pD → Fin pD → Fin pD → 𝕜)),
      Session.measure init' (mapObservables (conjHom 𝕜) m) r'.1 = Session.measure init m r.1 := by
  intro r r'
  have e : r' = mapResult (mapState (conjHom 𝕜)) r := by
    have := hom_session_all (conjHom 𝕜) h hx cs (new nx ny chi A)
    rw [mapState_new] at this
    exact this
  refine ⟨congrArg Prod.fst e, (congrArg Prod.snd e : r'.2 = (mapResult (mapState (conjHom 𝕜)) r).2), fun init init' m => ?_⟩
  rw [congrArg Prod.fst e]
  exact hom_measure (conjHom 𝕜) init init' m r.1

omit [NeZero bD] in
/-- **C106 (libraries).** For every process there is such another one. -/
theorem C106_library (M : Machine F bD 𝕜) : ∃ M' : Machine F bD 𝕜, MachineFollows (conjHom 𝕜) M M' ∧ M'.cx = M.cx := by
  obtain ⟨la', hl⟩ := exists_follows (conjHom 𝕜) M.la
  exact ⟨⟨la', M.fo, M.rep, fun t => mapDraws (conjHom 𝕜) (M.ω t), M.cx⟩, ⟨hl, rfl, rfl, rfl⟩, rfl⟩

/-- **C106 (any library).** Any two libraries and all random numbers, any number of sweeps: the environment of the conjugated network measures
the same values of the conjugated operators. -/
theorem C106_any_library (st st' : ProjSettings 𝕜) (pk : ProjKind) (hr : st.fullRank = true) (hcut : st'.cutoff = st.cutoff)
    (h0 : 0 ≤ st.cutoff) (ω ω' : ℕ → Draws (Fin bD) 𝕜) (n t t' : ℕ) (net : Net (Ten (Fin bD) (Fin pD) 𝕜)) (f : Site → ℕ → ℕ) (hw : Wired net f)
    (hx : 0 < net.nx) (hy : 0 < net.ny) (hd : DropRun st pk ω t (List.replicate n (sweepMoves net.nx net.ny)).flatten net)
    (hf' : SvdRun st' pk ω' t' (List.replicate n (sweepMoves net.nx net.ny)).flatten (mapNet (mapTen (conjHom 𝕜)) net)) :
    ∃ net1 net2, ctmrgDrawn st pk ω t n net = .ok net1 ∧ ctmrgDrawn st' pk ω' t' n (mapNet (mapTen (conjHom 𝕜)) net) = .ok net2 ∧
      ∀ s, InCell net1.nx net1.ny s →
        (∀ op, siteVal net2 s (fun p q => star (op p q)) = siteVal net1 s op) ∧
        ∀ (k : Fin 4) init init' op, bondVal init' net2 ⟨s, neighbour net1.nx net1.ny s k.val, k.val⟩ (fun p q r s => star (op p q r s)) =
          bondVal init net1 ⟨s, neighbour net1.nx net1.ny s k.val, k.val⟩ op :=
  C105_any_library (conjHom 𝕜) st st' pk hr hcut h0 ω ω' n t t' net f hw hx hy hd hf'

/-! ### Odd observables -/

private theorem re_odd {x : 𝕜} (h : star x = -x) : RCLike.re x = 0 := by
  have := congrArg RCLike.re h
  rw [RCLike.star_def, RCLike.conj_re, map_neg] at this
  linarith

omit [NeZero pD] in
private theorem odd_one (φ : ℝ →⋆ₐ[ℝ] 𝕜) {ρ : Fin pD → Fin pD → ℝ} {op : Fin pD → Fin pD → 𝕜} (h : Odd₁ op) :
    measureOneSite (fun p q => φ (ρ p q)) op = 0 := by
  unfold measureOneSite
  simp only [map_sum]
  refine Finset.sum_eq_zero fun p _ => Finset.sum_eq_zero fun q _ => ?_
  rw [show φ (ρ p q) = ((ρ p q : ℝ) : 𝕜) from hom_real φ _, RCLike.re_ofReal_mul, re_odd (h _ _), mul_zero]

omit [NeZero pD] in
private theorem odd_two (φ : ℝ →⋆ₐ[ℝ] 𝕜) {ρ : Fin pD → Fin pD → Fin pD → Fin pD → ℝ} {op : Fin pD → Fin pD → Fin pD → Fin pD → 𝕜} (h : Odd₂ op) :
    measureTwoSite (fun p q r s => φ (ρ p q r s)) op = 0 := by
  unfold measureTwoSite
  simp only [map_sum]
  refine Finset.sum_eq_zero fun p _ => Finset.sum_eq_zero fun q _ => Finset.sum_eq_zero fun r _ => Finset.sum_eq_zero fun s _ => ?_
  rw [show φ (ρ p q r s) = ((ρ p q r s : ℝ) : 𝕜) from hom_real φ _, RCLike.re_ofReal_mul, re_odd (h _ _ _ _), mul_zero]

/-- **C106 (real states).** Every session, with real tensors and models in a complex dtype and a library that works on
real matrices as the one of the real dtype: the contraction of an imaginary observable with the density matrix of any site or bond is
zero. -/
theorem C106_odd_session {M : Machine F bD ℝ} {M' : Machine F bD 𝕜} (h : MachineFollows (ofRealHom 𝕜) M M') (nx ny chi : ℕ)
    (A : Site → ATensor (Fin bD) (Fin pD) ℝ) (cs : List (Call F bD pD ℝ)) :
    let net := (Session.run M' (cs.map (mapCall (ofRealHom 𝕜))) (new nx ny chi (mapSiteTensors (ofRealHom 𝕜) A))).1.net
    (∀ s ρ op, numSiteRdm net s = .ok ρ → Odd₁ op → measureOneSite ρ op = 0) ∧
    ∀ init b ρ op, numBondRdm init net b = .ok ρ → Odd₂ op → measureTwoSite ρ op = 0 := by
  intro net
  let M0 : Machine F bD ℝ := { M with cx := M'.cx }
  have e : net = mapNet (mapTen (ofRealHom 𝕜)) (Session.run M0 cs (new nx ny chi A)).1.net := by
    have := hom_session_all (ofRealHom 𝕜) (M := M0) ⟨h.la, h.fo, h.rep, h.ω⟩ rfl cs (new nx ny chi A)
    rw [mapState_new] at this
    exact congrArg (fun r => State.net r.1) this
  refine ⟨fun s ρ op hρ ho => ?_, fun init b ρ op hρ ho => ?_⟩
  · rw [e, hom_siteRdm] at hρ
    cases hr : numSiteRdm (Session.run M0 cs (new nx ny chi A)).1.net s with
    | error e => rw [hr] at hρ; cases hρ
    | ok ρ0 =>
      rw [hr] at hρ
      cases hρ
      exact odd_one (ofRealHom 𝕜) ho
  · rw [e, hom_bondRdm' (ofRealHom 𝕜) (fun _ _ _ _ => 0)] at hρ
    cases hr : numBondRdm (fun _ _ _ _ => 0) (Session.run M0 cs (new nx ny chi A)).1.net b with
    | error e => rw [hr] at hρ; cases hρ
    | ok ρ0 =>
      rw [hr] at hρ
      cases hρ
      exact odd_two (ofRealHom 𝕜) ho

omit [NeZero bD] [NeZero pD] in
private theorem conj_real (net : Net (Ten (Fin bD) (Fin pD) ℝ)) :
    mapNet (mapTen (conjHom 𝕜)) (mapNet (mapTen (ofRealHom 𝕜)) net) = mapNet (mapTen (ofRealHom 𝕜)) net := by
  have hr : ∀ x : ℝ, conjHom 𝕜 (ofRealHom 𝕜 x) = ofRealHom 𝕜 x := fun x => RCLike.conj_ofReal x
  have ht : ∀ x : Ten (Fin bD) (Fin pD) ℝ, mapTen (conjHom 𝕜) (mapTen (ofRealHom 𝕜) x) = mapTen (ofRealHom 𝕜) x := by
    intro x
    cases x with
    | quarter m n q =>
      unfold mapTen
      dsimp only
      rw [Matrix.map_map]
      congr 2
      funext x
      exact hr x
    | _ => simp only [mapTen, hr]
  unfold mapNet
  simp only [ht]

/-- **C106 (real states, any library).** Real tensors in a complex dtype, any library and random numbers, any number of sweeps: although the
tensors of the environment may be complex, imaginary observables have no expectation value. -/
theorem C106_odd_sweeps (st : ProjSettings 𝕜) (pk : ProjKind) (hr : st.fullRank = true) (h0 : 0 ≤ st.cutoff) (ω : ℕ → Draws (Fin bD) 𝕜) (n t : ℕ)
    (net0 : Net (Ten (Fin bD) (Fin pD) ℝ)) (f : Site → ℕ → ℕ) (hw : Wired net0 f) (hx : 0 < net0.nx) (hy : 0 < net0.ny)
    (hd : DropRun st pk ω t (List.replicate n (sweepMoves net0.nx net0.ny)).flatten (mapNet (mapTen (ofRealHom 𝕜)) net0)) :
    ∃ net, ctmrgDrawn st pk ω t n (mapNet (mapTen (ofRealHom 𝕜)) net0) = .ok net ∧ ∀ s, InCell net.nx net.ny s →
      (∀ ρ op, numSiteRdm net s = .ok ρ → Odd₁ op → siteNorm ρ ≠ 0 → measureOneSite ρ op = 0) ∧
      ∀ (k : Fin 4) init ρ op, numBondRdm init net ⟨s, neighbour net.nx net.ny s k.val, k.val⟩ = .ok ρ → Odd₂ op → bondNorm ρ ≠ 0 →
        measureTwoSite ρ op = 0 := by
  obtain ⟨n1, n2, e1, e2, e3⟩ := C106_any_library st st pk hr rfl h0 ω ω n t t _ _ (wired_map (ofRealHom 𝕜) hw) hx hy hd (svdRun_full hr pk ω _ t _)
  rw [conj_real, e1] at e2
  cases e2
  refine ⟨n1, e1, fun s hs => ⟨fun ρ op hρ ho hn => ?_, fun k init ρ op hρ ho hn => ?_⟩⟩
  · have h := (e3 s hs).1 op
    unfold siteVal at h
    rw [hρ] at h
    have h' : measureOneSite ρ (fun p q => star (op p q)) / siteNorm ρ = measureOneSite ρ op / siteNorm ρ := Except.ok.inj h
    rw [div_left_inj' hn] at h'
    have e : measureOneSite ρ (fun p q => star (op p q)) = -measureOneSite ρ op := by
      unfold measureOneSite
      simp only [ho _ _, mul_neg, Finset.sum_neg_distrib, map_neg]
    linarith
  · have h := (e3 s hs).2 k init init op
    unfold bondVal at h
    rw [hρ] at h
    have h' : measureTwoSite ρ (fun p q r s => star (op p q r s)) / bondNorm ρ = measureTwoSite ρ op / bondNorm ρ := Except.ok.inj h
    rw [div_left_inj' hn] at h'
    have e : measureTwoSite ρ (fun p q r s => star (op p q r s)) = -measureTwoSite ρ op := by
      unfold measureTwoSite
      simp only [ho _ _ _ _, mul_neg, Finset.sum_neg_distrib, map_neg]
    linarith

/-- The hypotheses of `C106_session` hold for any process, and a session with both updates. -/
example (M : Machine F bD ℂ) (nx ny chi chi' : ℕ) (A : Site → ATensor (Fin bD) (Fin pD) ℂ) (c c' : Config F) (e e' : Evolution bD pD ℂ) :
    ∃ M' : Machine F bD ℂ, M'.cx = M.cx ∧
      (Session.run M' ([.evolve c e, .setChi chi', .renormalize c, .evolve c' e'].map (mapCall (conjHom ℂ))) (new nx ny chi (mapSiteTensors (conjHom ℂ) A))).1 =
        mapState (conjHom ℂ) (Session.run M [.evolve c e, .setChi chi', .renormalize c, .evolve c' e'] (new nx ny chi A)).1 := by
  obtain ⟨M', h1, h2⟩ := C106_library M
  exact ⟨M', h2, (C106_session h1 h2 nx ny chi A _).1⟩

/-- The Pauli matrix Y is odd. -/
example : Odd₁ (fun p q : Fin 2 => !![0, -Complex.I; Complex.I, 0] p q) := by
  intro p q
  fin_cases p <;> fin_cases q <;> simp

/-- The hypotheses of `C106_odd_sweeps` hold for product sites of any dimension, any library and any number of sweeps. -/
example (st : ProjSettings ℂ) (pk : ProjKind) (hf : st.fullRank = true) (h0 : 0 ≤ st.cutoff) (ω : ℕ → Draws (Fin bD) ℂ) (n t nx ny chi : ℕ)
    (hx : 0 < nx) (hy : 0 < ny) (g : Site → Fin 4 → Fin bD → ℝ) (v : Site → Fin pD → ℝ) :
    ∃ net, ctmrgDrawn st pk ω t n (mapNet (mapTen (ofRealHom ℂ)) (freshNet nx ny chi fun s => prodSite (g s 0) (g s 1) (g s 2) (g s 3) (v s))) = .ok net := by
  obtain ⟨net, h, -⟩ := C106_odd_sweeps st pk hf h0 ω n t (freshNet nx ny chi fun s => prodSite (g s 0) (g s 1) (g s 2) (g s 3) (v s)) _
    (fresh_wired _ hx hy) hx hy (by
      rw [hom_freshNet]
      refine (factored_fresh nx ny chi _ fun s => ?_).dropRun st h0 pk ω _ t
      have e : (fun l u r d p => ofRealHom ℂ (prodSite (g s 0) (g s 1) (g s 2) (g s 3) (v s) l u r d p)) =
          prodSite (fun i => ofRealHom ℂ (g s 0 i)) (fun i => ofRealHom ℂ (g s 1 i)) (fun i => ofRealHom ℂ (g s 2 i)) (fun i => ofRealHom ℂ (g s 3 i))
            (fun i => ofRealHom ℂ (v s i)) := by
        funext l u r d p
        unfold prodSite
        simp only [map_mul]
      rw [e]
      exact prodSite_prod _ _ _ _ _)
  exact ⟨net, h⟩

end AceTN
