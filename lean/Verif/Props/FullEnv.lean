import Verif.Lemmas.FullWired
import Verif.Props.TensorUpdate

/-!
C31 on a network with boundary tensors of run-time dimensions: the environment used by the full update is the environment used by
measurement.
-/

set_option autoImplicit false

namespace AceTN

open Spec Full

variable {𝕜 B N : Type} [RCLike 𝕜] [Fintype B] [Fintype N] {pD : ℕ}

theorem numNorm_rdm (init : Fin pD → Fin pD → Fin pD → Fin pD → 𝕜) (net net' : Net (Ten B (Fin pD) 𝕜)) (b : Bond)
    (a1q a2q : B → B → B → N → 𝕜) (r1 r2 : N → B → Fin pD → 𝕜) (A1 A2 : ATensor B (Fin pD) 𝕜) (hB : net'.B = net.B)
    (h1 : net'.A b.s1 = .site A1) (h2 : net'.A b.s2 = .site A2)
    (hp : recompose a1q r1 a2q r2 = (bondPermute b.k A1, bondPermute b.k A2)) :
    numBondRdm init net' b = (numNorm net b a1q a2q).map fun n => Spec.attach n r1 r2 := by
  unfold numBondRdm numNorm
  rw [h1, h2, hB, Nat.add_comm 0, Nat.add_comm 1, Nat.add_comm 2, Nat.add_comm 3]
  generalize net.B b.s1 (.C ((b.k + 1) % 4)) = t1
  generalize net.B b.s1 (.E ((b.k + 1) % 4)) = t2
  generalize net.B b.s1 (.E ((b.k + 0) % 4)) = t3
  generalize net.B b.s1 (.C ((b.k + 2) % 4)) = t4
  generalize net.B b.s1 (.E ((b.k + 2) % 4)) = t5
  generalize net.B b.s2 (.C ((b.k + 0) % 4)) = t6
  generalize net.B b.s2 (.E ((b.k + 0) % 4)) = t7
  generalize net.B b.s2 (.E ((b.k + 3) % 4)) = t8
  generalize net.B b.s2 (.C ((b.k + 3) % 4)) = t9
  generalize net.B b.s2 (.E ((b.k + 2) % 4)) = t10
  cases t1 <;> try exact rfl
  cases t2 <;> try exact rfl
  cases t3 <;> try exact rfl
  cases t4 <;> try exact rfl
  cases t5 <;> try exact rfl
  cases t6 <;> try exact rfl
  cases t7 <;> try exact rfl
  cases t8 <;> try exact rfl
  cases t9 <;> try exact rfl
  cases t10 <;> try exact rfl
  dsimp only
  split
  · have e : bondPermute b.k A1 = (recompose a1q r1 a2q r2).1 ∧ bondPermute b.k A2 = (recompose a1q r1 a2q r2).2 := by
      rw [hp]; exact ⟨rfl, rfl⟩
    rw [e.1, e.2, C32_bond_rdm]
    simp only [Except.map]
    congr 1
    funext bra1 bra2 ket1 ket2
    rw [C31_core]
    rfl
  · rfl

/-- **C31** (whatever boundary tensors).  On every network and bond, the norm tensor built from the isometric parts of the site
tensors, with the reduced parts attached, is the density matrix that measurement builds; one raises exactly if the other does. -/
theorem C31_network [DecidableEq B] (la : Lapack 𝕜) (init : Fin pD → Fin pD → Fin pD → Fin pD → 𝕜) (net : Net (Ten B (Fin pD) 𝕜)) (b : Bond)
    (A1 A2 : ATensor B (Fin pD) 𝕜) (h1 : net.A b.s1 = .site A1) (h2 : net.A b.s2 = .site A2) :
    let d := decompose la (bondPermute b.k A1) (bondPermute b.k A2)
    numBondRdm init net b = (numNorm net b d.a1q d.a2q).map fun n => Spec.attach n d.a1r d.a2r := by
  intro d
  exact numNorm_rdm init net net b _ _ _ _ A1 A2 rfl h1 h2 (C30_recompose la _ _)

/-- **C31** (trial tensors).  With the same norm tensor and any other reduced tensors, attaching them gives the density matrix measured
on the network in which the bond's two site tensors are replaced: the solver compares what measurement would return. -/
theorem C31_trial (init : Fin pD → Fin pD → Fin pD → Fin pD → 𝕜) (net : Net (Ten B (Fin pD) 𝕜)) (b : Bond) (hb : b.s1 ≠ b.s2)
    (a1q a2q : B → B → B → N → 𝕜) (r1 r2 : N → B → Fin pD → 𝕜) :
    let a := recompose a1q r1 a2q r2
    let net' := writeSite (writeSite net b.s1 (bondPermute (4 - (b.k : ℤ)) a.1)) b.s2 (bondPermute (4 - (b.k : ℤ)) a.2)
    numBondRdm init net' b = (numNorm net b a1q a2q).map fun n => Spec.attach n r1 r2 := by
  intro a net'
  have back : ∀ c : ATensor B (Fin pD) 𝕜, bondPermute b.k (bondPermute (4 - (b.k : ℤ)) c) = c := by
    intro c
    rw [bondPermute_add, bondPermute_mod _ 0 (by omega), bondPermute_zero]
  refine numNorm_rdm init net net' b _ _ _ _ _ _ rfl ((if_neg hb).trans (if_pos rfl)) (if_pos rfl) ?_
  rw [back, back]

/-- On a network whose tensors fit together, in particular after any sweeps, neither raises. -/
example [DecidableEq B] (la : Lapack 𝕜) (init : Fin pD → Fin pD → Fin pD → Fin pD → 𝕜) {net : Net (Ten B (Fin pD) 𝕜)} {f : Site → ℕ → ℕ}
    (hw : Wired net f) (hx : 0 < net.nx) (hy : 0 < net.ny) {b : Bond} (hb : b ∈ buildBondList net.nx net.ny)
    (A1 A2 : ATensor B (Fin pD) 𝕜) (h1 : net.A b.s1 = .site A1) (h2 : net.A b.s2 = .site A2) :
    ∃ n, numNorm net b (decompose la (bondPermute b.k A1) (bondPermute b.k A2)).a1q (decompose la (bondPermute b.k A1) (bondPermute b.k A2)).a2q = .ok n ∧
      numBondRdm init net b = .ok (Spec.attach n (decompose la (bondPermute b.k A1) (bondPermute b.k A2)).a1r
        (decompose la (bondPermute b.k A1) (bondPermute b.k A2)).a2r) := by
  have e := C31_network la init net b A1 A2 h1 h2
  dsimp only at e
  obtain ⟨p, K, rfl⟩ := bond_cellSite hx hy hb
  obtain ⟨n, hn⟩ := numNorm_wired hw hx hy p K (decompose la (bondPermute (K.val : ℕ) A1) (bondPermute (K.val : ℕ) A2)).a1q
    (decompose la (bondPermute (K.val : ℕ) A1) (bondPermute (K.val : ℕ) A2)).a2q
  refine ⟨n, hn, e.trans ?_⟩
  dsimp only at hn ⊢
  rw [hn]
  rfl

end AceTN
