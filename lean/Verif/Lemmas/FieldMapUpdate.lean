import Verif.Lemmas.FieldMapFull

/-!
The full update commutes with a conversion of the dtype.
-/

set_option autoImplicit false
set_option linter.unusedSectionVars false

namespace AceTN

open Spec Full Matrix

variable {𝕜 𝕜' : Type} [RCLike 𝕜] [RCLike 𝕜'] (φ : 𝕜 →⋆ₐ[ℝ] 𝕜')

section common

variable {B P N : Type} [Fintype B] [Fintype P] [DecidableEq B] [DecidableEq P] [Fintype N]

/-- Converted parts of two site tensors. -/
def mapDecomp (d : Decomp B P N 𝕜) : Decomp B P N 𝕜' where
  a1q := fun r u l x => φ (d.a1q r u l x)
  a1r := fun x l p => φ (d.a1r x l p)
  a2q := fun r u l x => φ (d.a2q r u l x)
  a2r := fun x l p => φ (d.a2r x l p)

theorem hom_recompose (a1q a2q : B → B → B → N → 𝕜) (a1r a2r : N → B → P → 𝕜) :
    recompose (fun r d u x => φ (a1q r d u x)) (fun x l p => φ (a1r x l p)) (fun r d u x => φ (a2q r d u x)) (fun x l p => φ (a2r x l p)) =
      (fun l u r d p => φ ((recompose a1q a1r a2q a2r).1 l u r d p), fun l u r d p => φ ((recompose a1q a1r a2q a2r).2 l u r d p)) := by
  unfold recompose
  simp only [map_sum, map_mul]

theorem hom_applyOneSite (g : P → P → 𝕜) (a : ATensor B P 𝕜) :
    applyOneSite (fun p q => φ (g p q)) (fun l u r d p => φ (a l u r d p)) = fun l u r d p => φ (applyOneSite g a l u r d p) := by
  unfold applyOneSite
  simp only [map_sum, map_mul]

theorem hom_normA (a : ATensor B P 𝕜) : normA (fun l u r d p => φ (a l u r d p)) = normA a := by
  unfold normA
  simp only [hom_norm]

theorem hom_normalise (a : ATensor B P 𝕜) :
    normalise (fun l u r d p => φ (a l u r d p)) = fun l u r d p => φ (normalise a l u r d p) := by
  unfold normalise
  rw [hom_normA]
  simp only [map_div₀, hom_real]

theorem hom_writeSite (net : Net (Ten B P 𝕜)) (s : Site) (a : ATensor B P 𝕜) :
    mapNet (mapTen φ) (writeSite net s a) = writeSite (mapNet (mapTen φ) net) s fun l u r d p => φ (a l u r d p) := by
  unfold mapNet writeSite
  dsimp only
  congr 1
  funext s'
  split <;> rfl

theorem hom_decompose {la : Lapack 𝕜} {la' : Lapack 𝕜'} (h : LibraryFollows φ la la') (a1 a2 : ATensor B P 𝕜) :
    decompose la' (fun l u r d p => φ (a1 l u r d p)) (fun l u r d p => φ (a2 l u r d p)) = mapDecomp φ (decompose la a1 a2) := by
  unfold decompose mapDecomp
  dsimp only
  rw [show (Matrix.of fun (i : B × B × B) (j : B × P) => φ (a1 j.1 i.2.2 i.1 i.2.1 j.2)) =
      (Matrix.of fun (i : B × B × B) (j : B × P) => a1 j.1 i.2.2 i.1 i.2.1 j.2).map φ from rfl,
    show (Matrix.of fun (i : B × B × B) (j : B × P) => φ (a2 i.2.1 i.2.2 j.1 i.1 j.2)) =
      (Matrix.of fun (i : B × B × B) (j : B × P) => a2 i.2.1 i.2.2 j.1 i.1 j.2).map φ from rfl, h.qr, h.qr]
  rfl

end common

/-! ### The norm tensor -/

section norm

variable {U1 R1 D1 Y : Type} [Fintype U1] [Fintype R1] [Fintype D1]
variable {L2 U2 D2 X : Type} [Fintype L2] [Fintype U2] [Fintype D2]
variable {y0 y1 y2 y3 y4 y5 y6 y7 y8 y9 : Type} [Fintype y0] [Fintype y1] [Fintype y2] [Fintype y3]
  [Fintype y4] [Fintype y5] [Fintype y6] [Fintype y7] [Fintype y8] [Fintype y9]

theorem hom_normCore (c12 : y2 → y3 → 𝕜) (e12 : y3 → y4 → R1 → R1 → 𝕜) (e11 : y1 → y2 → U1 → U1 → 𝕜)
    (c13 : y4 → y5 → 𝕜) (e13 : y5 → y6 → D1 → D1 → 𝕜) (a1q : R1 → D1 → U1 → Y → 𝕜)
    (c21 : y9 → y0 → 𝕜) (e21 : y0 → y1 → U2 → U2 → 𝕜) (e24 : y8 → y9 → L2 → L2 → 𝕜)
    (c24 : y7 → y8 → 𝕜) (e23 : y6 → y7 → D2 → D2 → 𝕜) (a2q : D2 → L2 → U2 → X → 𝕜) :
    normCore (fun i j => φ (c12 i j)) (fun i j l l' => φ (e12 i j l l')) (fun i j l l' => φ (e11 i j l l'))
      (fun i j => φ (c13 i j)) (fun i j l l' => φ (e13 i j l l')) (fun r d u x => φ (a1q r d u x))
      (fun i j => φ (c21 i j)) (fun i j l l' => φ (e21 i j l l')) (fun i j l l' => φ (e24 i j l l'))
      (fun i j => φ (c24 i j)) (fun i j l l' => φ (e23 i j l l')) (fun r d u x => φ (a2q r d u x)) =
      fun y x y' x' => φ (normCore c12 e12 e11 c13 e13 a1q c21 e21 e24 c24 e23 a2q y x y' x') := by
  funext y x y' x'
  unfold normCore
  hom_tac

end norm

theorem hom_numNorm {B P N : Type} [Fintype B] [Fintype P] [DecidableEq B] (net : Net (Ten B P 𝕜)) (b : Bond) (a1q a2q : B → B → B → N → 𝕜) :
    numNorm (mapNet (mapTen φ) net) b (fun r d u x => φ (a1q r d u x)) (fun r d u x => φ (a2q r d u x)) =
      (numNorm net b a1q a2q).map fun n y x y' x' => φ (n y x y' x') := by
  unfold numNorm
  dsimp only [mapNet]
  generalize net.B b.s1 (.C ((b.k + 1) % 4)) = t0
  generalize net.B b.s1 (.E ((b.k + 1) % 4)) = t1
  generalize net.B b.s1 (.E ((b.k + 0) % 4)) = t2
  generalize net.B b.s1 (.C ((b.k + 2) % 4)) = t3
  generalize net.B b.s1 (.E ((b.k + 2) % 4)) = t4
  generalize net.B b.s2 (.C ((b.k + 0) % 4)) = t6
  generalize net.B b.s2 (.E ((b.k + 0) % 4)) = t7
  generalize net.B b.s2 (.E ((b.k + 3) % 4)) = t8
  generalize net.B b.s2 (.C ((b.k + 3) % 4)) = t9
  generalize net.B b.s2 (.E ((b.k + 2) % 4)) = t10
  rcases t0 with _ | ⟨x0, x1, c1⟩ | _ | _ | _ | _ <;> try rfl
  rcases t1 with _ | _ | ⟨x1', x2, e1⟩ | _ | _ | _ <;> try rfl
  rcases t2 with _ | _ | ⟨x1', x2, e1⟩ | _ | _ | _ <;> try rfl
  rcases t3 with _ | ⟨x0, x1, c1⟩ | _ | _ | _ | _ <;> try rfl
  rcases t4 with _ | _ | ⟨x1', x2, e1⟩ | _ | _ | _ <;> try rfl
  rcases t6 with _ | ⟨x0, x1, c1⟩ | _ | _ | _ | _ <;> try rfl
  rcases t7 with _ | _ | ⟨x1', x2, e1⟩ | _ | _ | _ <;> try rfl
  rcases t8 with _ | _ | ⟨x1', x2, e1⟩ | _ | _ | _ <;> try rfl
  rcases t9 with _ | ⟨x0, x1, c1⟩ | _ | _ | _ | _ <;> try rfl
  rcases t10 with _ | _ | ⟨x1', x2, e1⟩ | _ | _ | _ <;> try rfl
  dsimp only [mapTen]
  split
  · show Except.ok _ = Except.ok _
    congr 1
    simp only [hom_as2, hom_as4]
    exact hom_normCore φ _ _ _ _ _ _ _ _ _ _ _ _
  · rfl

/-! ### Preconditioning -/

section precondition

variable {N P Z : Type} [Fintype N] [DecidableEq N] [Fintype Z] [DecidableEq Z] [Fintype P]

theorem hom_squareNorm (nz : N → N → Z → 𝕜) : squareNorm (fun y x z => φ (nz y x z)) = fun x y X Y => φ (squareNorm nz x y X Y) := by
  funext x y X Y
  unfold squareNorm
  hom_tac

/-- Converted results of `gauge_fix`. -/
def mapGauge {W : Type} (g : GaugeFixed N P W 𝕜) : GaugeFixed N P W 𝕜' where
  n12 := fun a b c d => φ (g.n12 a b c d)
  a12g := fun a b c d => φ (g.a12g a b c d)
  nzxr_inv := fun a b => φ (g.nzxr_inv a b)
  nzyr_inv := fun a b => φ (g.nzyr_inv a b)

variable {la : Lapack 𝕜} {la' : Lapack 𝕜'} (h : LibraryFollows φ la la')
include h

theorem hom_posLoop {n : Type} [Fintype n] [DecidableEq n] [Nonempty n] (cutoff : ℝ) (fuel : ℕ) (A : Matrix n n 𝕜) :
    posLoop la' cutoff fuel (A.map φ) = (posLoop la cutoff fuel A).map fun wz => (wz.1, wz.2.map φ) := by
  induction fuel generalizing A with
  | zero => rfl
  | succ fuel ih =>
    unfold posLoop
    dsimp only
    rw [h.eigh]
    dsimp only
    split
    · rw [← ih, hom_add, hom_smul_real, hom_one]
    · rfl

theorem hom_positiveApprox [Nonempty N] (fuel : ℕ) (cutoff : ℝ) (n12 : N → N → N → N → 𝕜) :
    positiveApprox la' fuel cutoff (fun y x y' x' => φ (n12 y x y' x')) =
      (positiveApprox la fuel cutoff n12).map fun nz y x z => φ (nz y x z) := by
  unfold positiveApprox
  rw [show normMat (fun y x y' x' => φ (n12 y x y' x')) = (normMat n12).map φ from rfl, hom_posLoop φ h, Option.map_map, Option.map_map]
  congr 1
  funext wz y x z
  simp only [Function.comp, map_apply, map_mul, hom_real]

theorem hom_nzyrOf (nz : N → N → Z → 𝕜) : nzyrOf la' (fun y x z => φ (nz y x z)) = (nzyrOf la nz).map φ := by
  unfold nzyrOf
  dsimp only
  rw [show (Matrix.of fun (i : Z × N) (y : N) => φ (nz y i.2 i.1)) = (Matrix.of fun (i : Z × N) (y : N) => nz y i.2 i.1).map φ from rfl,
    h.qr]

theorem hom_nzxrOf (nz : N → N → Z → 𝕜) : nzxrOf la' (fun y x z => φ (nz y x z)) = (nzxrOf la nz).map φ := by
  unfold nzxrOf
  dsimp only
  rw [show (Matrix.of fun (i : Z × N) (x : N) => φ (nz i.2 x i.1)) = (Matrix.of fun (i : Z × N) (x : N) => nz i.2 x i.1).map φ from rfl,
    h.qr]

theorem hom_gaugeFix (atol : ℝ) (nz : N → N → Z → 𝕜) (a12g : N → N → P → P → 𝕜) :
    gaugeFix la' atol (fun y x z => φ (nz y x z)) (fun y x p q => φ (a12g y x p q)) = mapGauge φ (gaugeFix la atol nz a12g) := by
  unfold gaugeFix mapGauge
  rw [hom_nzyrOf φ h, hom_nzxrOf φ h]
  dsimp only
  rw [h.pinv, h.pinv]
  congr 1
  · funext v w V W
    hom_tac
    · rfl
    · rfl
    · simp only [Pi.star_apply]
      hom_tac
      all_goals rfl
  · funext y z p q
    hom_tac
    all_goals rfl

end precondition

/-! ### The alternating solver -/

section als

variable {N B P : Type} [Fintype N] [Fintype B] [Fintype P]

theorem hom_gateReduced (a1r a2r : N → B → P → 𝕜) (gate : P → P → P → P → 𝕜) :
    gateReduced (fun y u p => φ (a1r y u p)) (fun y u p => φ (a2r y u p)) (fun p q r s => φ (gate p q r s)) =
      fun y x p q => φ (gateReduced a1r a2r gate y x p q) := by
  funext y x p q
  unfold gateReduced
  hom_tac

theorem hom_cost (a1r a2r : N → B → P → 𝕜) (a12g : N → N → P → P → 𝕜) (n12 : N → N → N → N → 𝕜) :
    cost (fun y u p => φ (a1r y u p)) (fun y u p => φ (a2r y u p)) (fun y x p q => φ (a12g y x p q)) (fun y x y' x' => φ (n12 y x y' x')) =
      cost a1r a2r a12g n12 := by
  unfold cost
  simp only [Pi.star_apply, ← map_mul, ← map_sum, ← map_star, hom_re]

theorem hom_n12gOf (n12 : N → N → N → N → 𝕜) (a12g : N → N → P → P → 𝕜) :
    n12gOf (fun y x y' x' => φ (n12 y x y' x')) (fun y x p q => φ (a12g y x p q)) = fun y x p q => φ (n12gOf n12 a12g y x p q) := by
  funext y x p q
  unfold n12gOf
  hom_tac

theorem hom_buildS1 (n12g : N → N → P → P → 𝕜) (a : N → B → P → 𝕜) :
    buildS1 (fun y x p q => φ (n12g y x p q)) (fun y u p => φ (a y u p)) = fun y u p => φ (buildS1 n12g a y u p) := by
  funext y u p
  unfold buildS1
  hom_tac

theorem hom_buildS2 (n12g : N → N → P → P → 𝕜) (a : N → B → P → 𝕜) :
    buildS2 (fun y x p q => φ (n12g y x p q)) (fun y u p => φ (a y u p)) = fun y u p => φ (buildS2 n12g a y u p) := by
  funext y u p
  unfold buildS2
  hom_tac

theorem hom_buildR1 (n12 : N → N → N → N → 𝕜) (a : N → B → P → 𝕜) :
    buildR1 (fun y x y' x' => φ (n12 y x y' x')) (fun y u p => φ (a y u p)) = fun y u y' u' => φ (buildR1 n12 a y u y' u') := by
  funext y u y' u'
  unfold buildR1
  hom_tac

theorem hom_buildR2 (n12 : N → N → N → N → 𝕜) (a : N → B → P → 𝕜) :
    buildR2 (fun y x y' x' => φ (n12 y x y' x')) (fun y u p => φ (a y u p)) = fun y u y' u' => φ (buildR2 n12 a y u y' u') := by
  funext y u y' u'
  unfold buildR2
  hom_tac

theorem hom_absMax {n : Type} [Fintype n] (R : Matrix n n 𝕜) : absMax (R.map φ) = absMax R := by
  unfold absMax
  simp only [map_apply, hom_norm]

theorem hom_hermAvg (R : N → B → N → B → 𝕜) : hermAvg (fun y u y' u' => φ (R y u y' u')) = (hermAvg R).map φ := by
  unfold hermAvg
  dsimp only
  rw [hom_smul_real, hom_add, hom_conjTranspose]
  rfl

/-- A converted pair of reduced tensors. -/
def mapReduced (p : (N → B → P → 𝕜) × (N → B → P → 𝕜)) : (N → B → P → 𝕜') × (N → B → P → 𝕜') :=
  (fun y u q => φ (p.1 y u q), fun y u q => φ (p.2 y u q))

theorem hom_undoGauge {W : Type} [Fintype W] (nzyr_inv nzxr_inv : N → W → 𝕜) (p : (W → B → P → 𝕜) × (W → B → P → 𝕜)) :
    undoGauge (fun y w => φ (nzyr_inv y w)) (fun y w => φ (nzxr_inv y w)) (mapReduced φ p) = mapReduced φ (undoGauge nzyr_inv nzxr_inv p) := by
  unfold undoGauge mapReduced
  simp only [map_sum, map_mul]

theorem torchLoop_map {Q Q' F : Type} (fo : Als.FloatOps F) (c : Q → Q') (half : Q → Except PyErr Q) (half' : Q' → Except PyErr Q')
    (co : Q → F) (co' : Q' → F) (h1 : ∀ p, half' (c p) = (half p).map c) (h2 : ∀ p, co' (c p) = co p) (tol : F) (fuel i : ℕ) (p : Q) (d : F) :
    Als.torchLoop fo half' co' tol fuel i (c p) d = (Als.torchLoop fo half co tol fuel i p d).map c := by
  induction fuel generalizing i p d with
  | zero => rfl
  | succ fuel ih =>
    unfold Als.torchLoop
    rw [h1]
    cases half p with
    | error e => rfl
    | ok p =>
      show (if fo.lt (Als.relErr fo (co' (c p)) d) tol && decide (1 < i) then Except.ok (c p)
        else Als.torchLoop fo half' co' tol fuel (i + 1) (c p) (co' (c p))) = Except.map c (if fo.lt (Als.relErr fo (co p) d) tol && decide (1 < i) then Except.ok p
        else Als.torchLoop fo half co tol fuel (i + 1) p (co p))
      rw [h2, ih]
      split <;> rfl

variable [DecidableEq N] [DecidableEq B] {la : Lapack 𝕜} {la' : Lapack 𝕜'} (h : LibraryFollows φ la la')
include h

theorem hom_solveAr (epsilon : ℝ) (method : Als.Solver) (R : N → B → N → B → 𝕜) (S : N → B → P → 𝕜) :
    solveAr la' epsilon method (fun y u y' u' => φ (R y u y' u')) (fun y u p => φ (S y u p)) =
      (solveAr la epsilon method R S).map fun a y u p => φ (a y u p) := by
  have hS : (Matrix.of fun (a : N × B) p => φ (S a.1 a.2 p)) = (Matrix.of fun (a : N × B) p => S a.1 a.2 p).map φ := rfl
  unfold solveAr
  dsimp only
  rw [hom_hermAvg, hS]
  cases method with
  | cholesky =>
    dsimp only
    rw [hom_absMax, show (hermAvg R).map φ + ((epsilon * absMax (hermAvg R) : ℝ) : 𝕜') • (1 : Matrix (N × B) (N × B) 𝕜') =
      (hermAvg R + ((epsilon * absMax (hermAvg R) : ℝ) : 𝕜) • (1 : Matrix (N × B) (N × B) 𝕜)).map φ by
        rw [hom_add, hom_smul_real, hom_one], h.cholSolve, h.linSolve]
    generalize hR : hermAvg R + ((epsilon * absMax (hermAvg R) : ℝ) : 𝕜) • (1 : Matrix (N × B) (N × B) 𝕜) = R'
    generalize hS' : (Matrix.of fun (a : N × B) p => S a.1 a.2 p) = S'
    cases la.cholSolve R' S' <;> cases la.linSolve R' S' <;> rfl
  | pinv =>
    dsimp only
    rw [h.pinvH, ← hom_mul]
    rfl

theorem hom_alsPass (epsilon : ℝ) (n12 : N → N → N → N → 𝕜) (n12g : N → N → P → P → 𝕜) (method : Als.Solver)
    (p : (N → B → P → 𝕜) × (N → B → P → 𝕜)) :
    alsPass la' epsilon (fun y x y' x' => φ (n12 y x y' x')) (fun y x p q => φ (n12g y x p q)) method (mapReduced φ p) =
      (alsPass la epsilon n12 n12g method p).map (mapReduced φ) := by
  unfold alsPass
  dsimp only [mapReduced]
  rw [hom_buildR1, hom_buildS1, hom_solveAr φ h]
  cases solveAr la epsilon method (buildR1 n12 p.2) (buildS1 n12g p.2) with
  | error e => rfl
  | ok a =>
    show (solveAr la' epsilon method (buildR2 _ fun y u p => φ (a y u p)) (buildS2 _ fun y u p => φ (a y u p)) >>= _) = _
    rw [hom_buildR2, hom_buildS2, hom_solveAr φ h]
    show _ = Except.map _ (solveAr la epsilon method (buildR2 n12 a) (buildS2 n12g a) >>= _)
    cases solveAr la epsilon method (buildR2 n12 a) (buildS2 n12g a) <;> rfl

variable [DecidableEq P]

theorem hom_initReduced {bD : ℕ} (hb : bD ≤ min (Fintype.card (N × P)) (Fintype.card (N × P))) (a12g : N → N → P → P → 𝕜) :
    initReduced la' hb (fun y x p q => φ (a12g y x p q)) = mapReduced φ (initReduced la hb a12g) := by
  unfold initReduced mapReduced
  dsimp only
  rw [show (Matrix.of fun (i j : N × P) => φ (a12g i.1 j.1 i.2 j.2)) = (Matrix.of fun (i j : N × P) => a12g i.1 j.1 i.2 j.2).map φ from rfl, h.svd]
  simp only [map_apply, map_mul, hom_real, conjTranspose_apply, map_star]

theorem hom_alsSolve {bD : ℕ} {F : Type} (fo : Als.FloatOps F) (rep : ℝ → F) (cfg : Settings F)
    (hb : bD ≤ min (Fintype.card (N × P)) (Fintype.card (N × P))) (n12 : N → N → N → N → 𝕜) (a12g : N → N → P → P → 𝕜) :
    alsSolve la' fo rep cfg hb (fun y x y' x' => φ (n12 y x y' x')) (fun y x p q => φ (a12g y x p q)) =
      (alsSolve la fo rep cfg hb n12 a12g).map (mapReduced φ) := by
  unfold alsSolve Als.solveTorch
  rw [hom_initReduced φ h, hom_n12gOf]
  dsimp only
  rw [show cost (mapReduced φ (initReduced la hb a12g)).1 (mapReduced φ (initReduced la hb a12g)).2 (fun y x p q => φ (a12g y x p q))
    (fun y x y' x' => φ (n12 y x y' x')) = cost (initReduced la hb a12g).1 (initReduced la hb a12g).2 a12g n12 from hom_cost φ _ _ _ _]
  exact torchLoop_map fo (mapReduced φ) _ _ _ _ (hom_alsPass φ h _ _ _ _) (fun p => congrArg rep (hom_cost φ _ _ _ _)) _ _ _ _ _

theorem hom_finalizeCore {bD : ℕ} (hb : bD ≤ min (Fintype.card (Fin (qD N P bD))) (Fintype.card (Fin (qD N P bD))))
    (a1r a2r : N → Fin bD → P → 𝕜) :
    finalizeCore la' hb (fun y u p => φ (a1r y u p)) (fun y u p => φ (a2r y u p)) = mapReduced φ (finalizeCore la hb a1r a2r) := by
  have hf : ∀ a : N → Fin bD → P → 𝕜, finMat (fun y u p => φ (a y u p)) = (finMat a).map φ := fun _ => rfl
  unfold finalizeCore mapReduced
  rw [hf, hf, h.qr, h.qr]
  dsimp only
  rw [show (Matrix.of fun a b => ∑ u, (la.qr (finMat a1r)).2.map φ a u * (la.qr (finMat a2r)).2.map φ b u) =
    (Matrix.of fun a b => ∑ u, (la.qr (finMat a1r)).2 a u * (la.qr (finMat a2r)).2 b u).map φ by
      ext a b
      simp only [of_apply, map_apply, map_sum, map_mul], h.svd]
  simp only [map_apply, map_sum, map_mul, hom_real]

theorem hom_updateReduced [Nonempty N] {bD : ℕ} {F : Type} (fo : Als.FloatOps F) (rep : ℝ → F) (cfg : Settings F)
    (hb : bD ≤ Fintype.card (N × P)) (a1r a2r : N → Fin bD → P → 𝕜) (n12 : N → N → N → N → 𝕜) (gate : P → P → P → P → 𝕜) :
    updateReduced la' fo rep cfg hb (fun y u p => φ (a1r y u p)) (fun y u p => φ (a2r y u p)) (fun y x y' x' => φ (n12 y x y' x'))
      (fun p q r s => φ (gate p q r s)) = (updateReduced la fo rep cfg hb a1r a2r n12 gate).map fun r => r.map (mapReduced φ) := by
  unfold updateReduced
  rw [hom_gateReduced, hom_positiveApprox φ h]
  cases positiveApprox la 2 cfg.positive_approx_cutoff n12 with
  | none => rfl
  | some nz =>
    dsimp only [Option.map]
    congr 1
    by_cases hg : cfg.use_gauge_fix = true
    · rw [if_pos hg, if_pos hg, hom_gaugeFix φ h]
      dsimp only [mapGauge]
      rw [hom_alsSolve φ h]
      cases alsSolve la fo rep cfg _ (gaugeFix la cfg.gauge_fix_atol nz (gateReduced a1r a2r gate)).n12
        (gaugeFix la cfg.gauge_fix_atol nz (gateReduced a1r a2r gate)).a12g with
      | error e => rfl
      | ok p =>
        show Except.ok (finalizeCore la' _ (undoGauge _ _ (mapReduced φ p)).1 (undoGauge _ _ (mapReduced φ p)).2) =
          Except.ok (mapReduced φ (finalizeCore la _ _ _))
        rw [hom_undoGauge, ← hom_finalizeCore φ h]
        rfl
    · rw [if_neg hg, if_neg hg, hom_squareNorm, hom_alsSolve φ h]
      cases alsSolve la fo rep cfg _ (squareNorm nz) (gateReduced a1r a2r gate) with
      | error e => rfl
      | ok p =>
        show Except.ok (finalizeCore la' _ (mapReduced φ p).1 (mapReduced φ p).2) = Except.ok (mapReduced φ (finalizeCore la _ _ _))
        rw [← hom_finalizeCore φ h]
        rfl

end als

/-! ### Bond updates and evolutions -/

section update

variable {P F : Type} [Fintype P] [DecidableEq P] {bD : ℕ} [NeZero bD] [Nonempty P]

/-- A converted pair of site tensors. -/
def mapBoth {B : Type} (p : ATensor B P 𝕜 × ATensor B P 𝕜) : ATensor B P 𝕜' × ATensor B P 𝕜' :=
  (fun l u r d q => φ (p.1 l u r d q), fun l u r d q => φ (p.2 l u r d q))

variable {la : Lapack 𝕜} {la' : Lapack 𝕜'} (h : LibraryFollows φ la la')
include h

theorem hom_numTensorUpdate (fo : Als.FloatOps F) (rep : ℝ → F) (cfg : Settings F) (net : Net (Ten (Fin bD) P 𝕜)) (b : Bond)
    (gate : P → P → P → P → 𝕜) (a1 a2 : ATensor (Fin bD) P 𝕜) :
    numTensorUpdate la' fo rep cfg (mapNet (mapTen φ) net) b (fun p q r s => φ (gate p q r s)) (fun l u r d p => φ (a1 l u r d p))
      (fun l u r d p => φ (a2 l u r d p)) = (numTensorUpdate la fo rep cfg net b gate a1 a2).map fun r => r.map (mapBoth φ) := by
  unfold numTensorUpdate
  rw [hom_decompose φ h]
  dsimp only [mapDecomp]
  rw [hom_numNorm]
  cases numNorm net b (decompose la a1 a2).a1q (decompose la a1 a2).a2q with
  | error e => rfl
  | ok n12 =>
    dsimp only [Except.map]
    rw [hom_updateReduced φ h]
    cases updateReduced la fo rep cfg bD_le (decompose la a1 a2).a1r (decompose la a1 a2).a2r n12 gate with
    | none => rfl
    | some r =>
      cases r with
      | error e => rfl
      | ok p =>
        show some (Except.ok (normalise (recompose _ (mapReduced φ p).1 _ (mapReduced φ p).2).1,
          normalise (recompose _ (mapReduced φ p).1 _ (mapReduced φ p).2).2)) =
          some (Except.ok (mapBoth φ (normalise (recompose _ p.1 _ p.2).1, normalise (recompose _ p.1 _ p.2).2)))
        unfold mapReduced mapBoth
        dsimp only
        rw [hom_recompose]
        dsimp only
        rw [hom_normalise, hom_normalise]

theorem hom_numUpdate (fo : Als.FloatOps F) (rep : ℝ → F) (cfg : Settings F) (oneSite : Option (Site → P → P → 𝕜))
    (gates : Bond → P → P → P → P → 𝕜) (net : Net (Ten (Fin bD) P 𝕜)) (b : Bond) :
    numUpdate la' fo rep cfg (oneSite.map fun g s p q => φ (g s p q)) (fun b p q r s => φ (gates b p q r s)) (mapNet (mapTen φ) net) b =
      (numUpdate la fo rep cfg oneSite gates net b).map fun r => r.map (mapBoth φ) := by
  unfold numUpdate
  dsimp only [mapNet]
  cases net.A b.s1 with
  | site a1 =>
    cases net.A b.s2 with
    | site a2 =>
      show Option.map _ (numTensorUpdate la' fo rep cfg (mapNet (mapTen φ) net) b (fun p q r s => φ (gates b p q r s))
        (fun l u r d p => φ (bondPermute b.k a1 l u r d p)) (fun l u r d p => φ (bondPermute b.k a2 l u r d p))) = _
      rw [hom_numTensorUpdate φ h fo rep cfg net b (gates b) (bondPermute b.k a1) (bondPermute b.k a2)]
      dsimp only
      cases numTensorUpdate la fo rep cfg net b (gates b) (bondPermute b.k a1) (bondPermute b.k a2) with
      | none => rfl
      | some r =>
        cases r with
        | error e => rfl
        | ok p =>
          cases oneSite with
          | none => rfl
          | some g =>
            show some (Except.ok (applyOneSite _ (bondPermute _ (mapBoth φ p).1), applyOneSite _ (bondPermute _ (mapBoth φ p).2))) =
              some (Except.ok (mapBoth φ (applyOneSite _ (bondPermute _ p.1), applyOneSite _ (bondPermute _ p.2))))
            unfold mapBoth
            dsimp only
            rw [hom_bondPermute, hom_bondPermute, hom_applyOneSite, hom_applyOneSite]
    | _ => rfl
  | _ => rfl

variable {st : ProjSettings 𝕜} {st' : ProjSettings 𝕜'} (hs : SameSettings φ st st')
include hs

theorem hom_fullBondStep (pk : ProjKind) (ω : ℕ → Draws (Fin bD) 𝕜) (fo : Als.FloatOps F) (rep : ℝ → F) (cfg : Settings F)
    (oneSite : Option (Site → P → P → 𝕜)) (gates : Bond → P → P → P → P → 𝕜) (s : Net (Ten (Fin bD) P 𝕜) × ℕ) (b : Bond) :
    fullBondStep st' pk (fun i => mapDraws φ (ω i)) la' fo rep cfg (oneSite.map fun g s p q => φ (g s p q)) (fun b p q r s => φ (gates b p q r s))
      (mapNet (mapTen φ) s.1, s.2) b =
      ((mapNet (mapTen φ) (fullBondStep st pk ω la fo rep cfg oneSite gates s b).1.1, (fullBondStep st pk ω la fo rep cfg oneSite gates s b).1.2),
        (fullBondStep st pk ω la fo rep cfg oneSite gates s b).2) := by
  unfold fullBondStep
  rw [hom_numUpdate φ h]
  cases numUpdate la fo rep cfg oneSite gates s.1 b with
  | none => rfl
  | some r =>
    cases r with
    | error e => rfl
    | ok p =>
      obtain ⟨a1, a2⟩ := p
      dsimp only [Option.map, Except.map, mapBoth]
      rw [← hom_writeSite, ← hom_writeSite, hom_runDrawn φ hs]
      cases runDrawn st pk ω s.2 (absorbMoves b) (writeSite (writeSite s.1 b.s1 a1) b.s2 a2) <;> rfl

omit h hs in
theorem bondPass_map {σ τ : Type} (c : σ → τ) (upd : σ → Bond → σ × Option PyErr) (upd' : τ → Bond → τ × Option PyErr)
    (hu : ∀ s b, upd' (c s) b = (c (upd s b).1, (upd s b).2)) (bl : List Bond) (s : σ) :
    bondPass upd' bl (c s) = (c (bondPass upd bl s).1, (bondPass upd bl s).2) := by
  induction bl generalizing s with
  | nil => rfl
  | cons b bl ih =>
    unfold bondPass
    rw [hu]
    rcases upd s b with ⟨s', _ | e⟩
    · exact ih s'
    · rfl

omit h hs in
theorem evolveLoop_map {σ τ : Type} (c : σ → τ) (upd : σ → Bond → σ × Option PyErr) (upd' : τ → Bond → τ × Option PyErr)
    (hu : ∀ s b, upd' (c s) b = (c (upd s b).1, (upd s b).2)) (steps : ℕ) (bl : List Bond) (s : σ) :
    evolveLoop upd' steps bl (c s) = ((evolveLoop upd steps bl s).1, c (evolveLoop upd steps bl s).2.1, (evolveLoop upd steps bl s).2.2) := by
  induction steps generalizing bl s with
  | zero => rfl
  | succ n ih =>
    unfold evolveLoop
    rw [bondPass_map c upd upd' hu]
    rcases bondPass upd bl s with ⟨s', _ | e⟩
    · exact ih _ s'
    · rfl

theorem hom_fullEvolve (pk : ProjKind) (ω : ℕ → Draws (Fin bD) 𝕜) (fo : Als.FloatOps F) (rep : ℝ → F) (cfg : Settings F)
    (oneSite : Option (Site → P → P → 𝕜)) (gates : Bond → P → P → P → P → 𝕜) (steps : ℕ) (bl : List Bond) (net : Net (Ten (Fin bD) P 𝕜)) (t : ℕ) :
    fullEvolve st' pk (fun i => mapDraws φ (ω i)) la' fo rep cfg (oneSite.map fun g s p q => φ (g s p q)) (fun b p q r s => φ (gates b p q r s))
      steps (bl, mapNet (mapTen φ) net, t) =
      ((fullEvolve st pk ω la fo rep cfg oneSite gates steps (bl, net, t)).1,
        (mapNet (mapTen φ) (fullEvolve st pk ω la fo rep cfg oneSite gates steps (bl, net, t)).2.1.1,
          (fullEvolve st pk ω la fo rep cfg oneSite gates steps (bl, net, t)).2.1.2),
        (fullEvolve st pk ω la fo rep cfg oneSite gates steps (bl, net, t)).2.2) := by
  unfold fullEvolve
  exact evolveLoop_map (fun s => (mapNet (mapTen φ) s.1, s.2)) _ _ (hom_fullBondStep φ h hs pk ω fo rep cfg oneSite gates) steps bl (net, t)

end update

end AceTN
