import Verif.Lemmas.NativePlans

/-! The state of the native solver object: what every method leaves behind. -/

set_option autoImplicit false

namespace AceTN.Native

open Spec

variable {𝕜 : Type} [RCLike 𝕜] {nD bD pD : ℕ}

/-- The object holds the five tensors, its work buffers have their sizes, and all plans are there. -/
structure Ready (t : AlsTensors 𝕜) (a1r a2r : Fin nD → Fin bD → Fin pD → 𝕜) (n12g : Fin nD → Fin nD → Fin pD → Fin pD → 𝕜)
    (n12 : Fin nD → Fin nD → Fin nD → Fin nD → 𝕜) (a12g : Fin nD → Fin nD → Fin pD → Fin pD → 𝕜) : Prop where
  a1r : Holds3 t.a1r a1r
  a2r : Holds3 t.a2r a2r
  n12g : Holds4 t.n12g n12g
  n12 : Holds4 t.n12 n12
  a12g : Holds4 t.a12g a12g
  S : t.S.shape = [nD, bD, pD]
  R : t.R.shape = [nD, bD, nD, bD]
  R_intm : t.R_intm.shape = [nD, nD, nD, bD, pD]
  a12n : t.a12n.shape = [nD, nD, pD, pD]
  d_intm : t.d_intm.shape = [nD, nD, pD, pD]
  d2 : t.d2.shape = []
  d3 : t.d3.shape = []
  pS1 : t.plan "S1" = .ok (planS1 nD bD pD)
  pS2 : t.plan "S2" = .ok (planS2 nD bD pD)
  pR1i : t.plan "R1_intm" = .ok (planR1i nD bD pD)
  pR1 : t.plan "R1" = .ok (planR1 nD bD pD)
  pR2i : t.plan "R2_intm" = .ok (planR2i nD bD pD)
  pR2 : t.plan "R2" = .ok (planR2 nD bD pD)
  pN : t.plan "a12n" = .ok (planN nD bD pD)
  pDi : t.plan "d_intm" = .ok (planD nD pD)
  pC : t.plan "d" = .ok (planC nD pD)

variable {t : AlsTensors 𝕜} {a1r a2r : Fin nD → Fin bD → Fin pD → 𝕜} {n12g : Fin nD → Fin nD → Fin pD → Fin pD → 𝕜}
  {n12 : Fin nD → Fin nD → Fin nD → Fin nD → 𝕜} {a12g : Fin nD → Fin nD → Fin pD → Fin pD → 𝕜}

omit [RCLike 𝕜] in
theorem new_ready (junk : String → ℕ → 𝕜) (b1 b2 bg bn bt : Buf 𝕜) (h1 : Holds3 b1 a1r) (h2 : Holds3 b2 a2r)
    (hg : Holds4 bg n12g) (hn : Holds4 bn n12) (ht : Holds4 bt a12g) :
    ∃ t, AlsTensors.new nD bD pD junk b1 b2 bg bn bt = .ok t ∧ Ready t a1r a2r n12g n12 a12g := by
  unfold AlsTensors.new AlsTensors.addPlan
  simp only [create_S1 nD bD pD bg b2 hg.1 h2.1, create_S2 nD bD pD bg b1 hg.1 h1.1, create_R1i nD bD pD bn b2 hn.1 h2.1,
    create_R2i nD bD pD bn b1 hn.1 h1.1, create_N nD bD pD b1 b2 h1.1 h2.1, bind, Except.bind, Except.map,
    create_R1 nD bD pD ⟨[nD, nD, nD, bD, pD], junk "R_intm"⟩ b2 rfl h2.1,
    create_R2 nD bD pD ⟨[nD, nD, nD, bD, pD], junk "R_intm"⟩ b1 rfl h1.1,
    create_D nD pD bn ⟨[nD, nD, pD, pD], junk "a12n"⟩ hn.1 rfl,
    create_C nD pD ⟨[nD, nD, pD, pD], junk "d_intm"⟩ ⟨[nD, nD, pD, pD], junk "a12n"⟩ rfl rfl]
  exact ⟨_, rfl, ⟨h1, h2, hg, hn, ht, rfl, rfl, rfl, rfl, rfl, rfl, rfl, rfl, rfl, rfl, rfl, rfl, rfl, rfl, rfl, rfl⟩⟩

theorem buildS1_ready (h : Ready t a1r a2r n12g n12 a12g) :
    ∃ t', t.buildS1 = .ok t' ∧ Ready t' a1r a2r n12g n12 a12g ∧ Holds3 t'.S (Full.buildS1 n12g a2r) := by
  refine ⟨{ t with S := contract (planS1 nD bD pD) t.n12g t.a2r t.S }, ?_, ?_, run_S1 _ _ _ _ _ h.n12g h.a2r h.S⟩
  · unfold AlsTensors.buildS1
    rw [h.pS1]
    rfl
  · exact { h with S := h.S }

theorem buildS2_ready (h : Ready t a1r a2r n12g n12 a12g) :
    ∃ t', t.buildS2 = .ok t' ∧ Ready t' a1r a2r n12g n12 a12g ∧ Holds3 t'.S (Full.buildS2 n12g a1r) := by
  refine ⟨{ t with S := contract (planS2 nD bD pD) t.n12g t.a1r t.S }, ?_, ?_, run_S2 _ _ _ _ _ h.n12g h.a1r h.S⟩
  · unfold AlsTensors.buildS2
    rw [h.pS2]
    rfl
  · exact { h with S := h.S }

theorem buildR1_ready (h : Ready t a1r a2r n12g n12 a12g) :
    ∃ t', t.buildR1 = .ok t' ∧ Ready t' a1r a2r n12g n12 a12g ∧ Holds4 t'.R (Full.buildR1 n12 a2r) ∧ t'.S = t.S := by
  have h1 := run_R1i _ _ _ _ _ h.n12 h.a2r h.R_intm
  refine ⟨{ t with
    R_intm := contract (planR1i nD bD pD) t.n12 t.a2r t.R_intm
    R := contract (planR1 nD bD pD) (contract (planR1i nD bD pD) t.n12 t.a2r t.R_intm) t.a2r t.R }, ?_, ?_,
    run_R1 _ _ _ _ _ h1 h.a2r h.R, rfl⟩
  · unfold AlsTensors.buildR1
    rw [h.pR1i]
    change ((AlsTensors.plan { t with R_intm := _ } "R1") >>= _) = _
    rw [show AlsTensors.plan { t with R_intm := contract (planR1i nD bD pD) t.n12 t.a2r t.R_intm } "R1" = _ from h.pR1]
    rfl
  · exact { h with R_intm := h.R_intm, R := h.R }

theorem buildR2_ready (h : Ready t a1r a2r n12g n12 a12g) :
    ∃ t', t.buildR2 = .ok t' ∧ Ready t' a1r a2r n12g n12 a12g ∧ Holds4 t'.R (Full.buildR2 n12 a1r) ∧ t'.S = t.S := by
  have h1 := run_R2i _ _ _ _ _ h.n12 h.a1r h.R_intm
  refine ⟨{ t with
    R_intm := contract (planR2i nD bD pD) t.n12 t.a1r t.R_intm
    R := contract (planR2 nD bD pD) (contract (planR2i nD bD pD) t.n12 t.a1r t.R_intm) t.a1r t.R }, ?_, ?_,
    run_R2 _ _ _ _ _ h1 h.a1r h.R, rfl⟩
  · unfold AlsTensors.buildR2
    rw [h.pR2i]
    change ((AlsTensors.plan { t with R_intm := _ } "R2") >>= _) = _
    rw [show AlsTensors.plan { t with R_intm := contract (planR2i nD bD pD) t.n12 t.a1r t.R_intm } "R2" = _ from h.pR2]
    rfl
  · exact { h with R_intm := h.R_intm, R := h.R }

theorem cost_ready (h : Ready t a1r a2r n12g n12 a12g) :
    ∃ t', t.calculateCost = .ok (t', Full.cost a1r a2r a12g n12) ∧ Ready t' a1r a2r n12g n12 a12g := by
  have h1 := run_N _ _ _ _ _ h.a1r h.a2r h.a12n
  have h2 := run_D _ _ _ _ _ h.n12 h1 h.d_intm
  have h3 := run_C _ _ _ _ _ h2 h1 h.d2
  have h4 := run_D _ _ _ _ _ h.n12 h.a12g h2.1
  have h5 := run_C _ _ _ _ _ h4 h1 h.d3
  have eN := h.pN
  have eD := h.pDi
  have eC := h.pC
  unfold AlsTensors.plan at eN eD eC
  unfold AlsTensors.calculateCost AlsTensors.plan
  simp only [eN, eD, eC, bind, Except.bind, pure, Except.pure]
  have e : ∀ x y : Buf 𝕜, x.shape = [] → y.shape = [] →
      RCLike.re (x.get []) - 2 * RCLike.re (y.get []) = RCLike.re (x.mem 0) - 2 * RCLike.re (y.mem 0) := by
    intro x y hx hy
    unfold Buf.get
    rw [hx, hy]
    rfl
  rw [e _ _ h3.1 h5.1, h3.2, h5.2]
  exact ⟨_, rfl, { h with a12n := h1.1, d_intm := h4.1, d2 := h3.1, d3 := h5.1 }⟩

end AceTN.Native
