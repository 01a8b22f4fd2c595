import Verif.Lemmas.TurnAls
import Verif.Lemmas.TurnLinAlg
import Verif.Spec.TurnedUpdate

/-!
The linear systems of the alternating solver, and its iteration, on two problems that are the same in other bases.
-/

set_option autoImplicit false
set_option linter.unusedSectionVars false

namespace AceTN

open Matrix Spec SumTac Full

variable {𝕜 : Type} [RCLike 𝕜] {sgn : Bool}

section solve

variable {n k : Type} [Fintype n] [Fintype k] [DecidableEq n] [DecidableEq k]

theorem unit2_isUnit {K : Matrix n n 𝕜} (hK : Unit2 K) : IsUnit K := ⟨⟨K, Kᴴ, hK.right, hK.left⟩, rfl⟩

open ComplexOrder in
theorem posDef_turned {K M : Matrix n n 𝕜} (hK : Unit2 K) : (K * M * Kᴴ).PosDef ↔ M.PosDef :=
  (unit2_isUnit hK).posDef_star_right_conjugate_iff

theorem det_turned {K M : Matrix n n 𝕜} (hK : Unit2 K) : (K * M * Kᴴ).det = M.det := by
  rw [det_mul_right_comm, hK.right, Matrix.one_mul]

/-- Solutions of a system in other bases. -/
theorem solution_turned {K M : Matrix n n 𝕜} {T : Matrix k k 𝕜} {S X X' : Matrix n k 𝕜} (hK : Unit2 K) (hM : IsUnit M.det)
    (hX : M * X = S) (hX' : K * M * Kᴴ * X' = K * S * T) : X' = K * X * T := by
  have e : M * (Kᴴ * X') = M * (X * T) := by
    calc M * (Kᴴ * X') = Kᴴ * (K * M * Kᴴ * X') := by
          rw [← Matrix.mul_assoc, ← Matrix.mul_assoc, ← Matrix.mul_assoc, ← Matrix.mul_assoc, hK.left, Matrix.one_mul]
      _ = _ := by rw [hX', ← Matrix.mul_assoc, ← Matrix.mul_assoc, hK.left, Matrix.one_mul, ← hX, Matrix.mul_assoc]
  have e' : Kᴴ * X' = X * T := by
    have := congrArg (fun x => M⁻¹ * x) e
    simpa only [nonsing_inv_mul_cancel_left _ _ hM] using this
  rw [Matrix.mul_assoc, ← e', ← Matrix.mul_assoc, hK.right, Matrix.one_mul]

/-- Entries do not change in modulus if only signs do. -/
theorem absMax_turned {K M : Matrix n n 𝕜} (hK : Allowed true K) : absMax (K * M * Kᴴ) = absMax M := by
  have hd : K = diagonal fun i => K i i := by
    ext i j
    by_cases h : i = j
    · subst h; rw [diagonal_apply_eq]
    · rw [diagonal_apply_ne _ h, hK.diag rfl i j h]
  have hn : ∀ i, ‖K i i‖ = 1 := by
    intro i
    have h := congrFun (congrFun hK.unit.right i) i
    rw [mul_apply, one_apply_eq, Finset.sum_eq_single i (fun j _ hj => by rw [hK.diag rfl i j hj.symm, zero_mul]) (by simp),
      conjTranspose_apply, ← starRingEnd_apply, RCLike.mul_conj] at h
    have h2 : ‖K i i‖ ^ 2 = 1 := by exact_mod_cast h
    nlinarith [norm_nonneg (K i i)]
  unfold absMax
  congr 1
  funext ij
  rw [hd, diagonal_conjTranspose, mul_diagonal, diagonal_mul, norm_mul, norm_mul, hn]
  simp [hn]

end solve

/-- Two calls both return results in the relation, or both raise the same exception. -/
def Alike {α β : Type} (rel : α → β → Prop) : Except PyErr α → Except PyErr β → Prop
  | .ok a, .ok b => rel a b
  | .error e, .error e' => e = e'
  | _, _ => False

theorem Alike.bind {α β γ δ : Type} {rel : α → β → Prop} {rel' : γ → δ → Prop} {x : Except PyErr α} {y : Except PyErr β}
    {f : α → Except PyErr γ} {g : β → Except PyErr δ} (h : Alike rel x y) (hf : ∀ a b, rel a b → Alike rel' (f a) (g b)) :
    Alike rel' (x >>= f) (y >>= g) := by
  cases x with
  | error e => cases y with
    | error e' => exact h
    | ok b => exact h.elim
  | ok a => cases y with
    | error e' => exact h.elim
    | ok b => exact hf a b h

section als

variable {N B P : Type} [Fintype N] [Fintype B] [Fintype P] [DecidableEq N] [DecidableEq B] [DecidableEq P]
  {W V : Matrix N N 𝕜} {Z : Matrix B B 𝕜} {U T : Matrix P P 𝕜} {n12 n12' : N → N → N → N → 𝕜}
  {a12g a12g' : N → N → P → P → 𝕜} {a1r a1r' a2r a2r' : N → B → P → 𝕜}

theorem hermAvg_sum (R : N → B → N → B → 𝕜) : hermAvg R = ((0.5 : ℝ) : 𝕜) • (sysMat R + (sysMat R)ᴴ) := rfl

theorem hermAvg_isHerm (R : N → B → N → B → 𝕜) : (hermAvg R).IsHermitian := by
  rw [hermAvg_sum, IsHermitian, conjTranspose_smul, conjTranspose_add, conjTranspose_conjTranspose, add_comm (sysMat R)ᴴ]
  congr 1
  simp

theorem hermAvg_turned {R R' : N → B → N → B → 𝕜} {K : Matrix (N × B) (N × B) 𝕜} (h : sysMat R' = K * sysMat R * Kᴴ) :
    hermAvg R' = K * hermAvg R * Kᴴ := by
  rw [hermAvg_sum, hermAvg_sum, h, Matrix.mul_smul, Matrix.smul_mul, Matrix.mul_add, Matrix.add_mul]
  congr 2
  rw [conjTranspose_mul, conjTranspose_mul, conjTranspose_conjTranspose, Matrix.mul_assoc]

/-- A reduced tensor as a matrix. -/
def asMat3 (S : N → B → P → 𝕜) : Matrix (N × B) P 𝕜 := Matrix.of fun a p => S a.1 a.2 p

theorem turned3_iff {a a' : N → B → P → 𝕜} :
    Turned3 W Z U a a' ↔ asMat3 a' = kroneckerMap (· * ·) W Z * asMat3 a * Uᵀ := by
  have e : ∀ y u p, (kroneckerMap (· * ·) W Z * asMat3 a * Uᵀ) (y, u) p = ∑ y', ∑ u', ∑ p', W y y' * Z u u' * U p p' * a y' u' p' := by
    intro y₀ u₀ p₀
    simp only [mul_apply, kroneckerMap_apply, asMat3, of_apply, transpose_apply, Fintype.sum_prod_type]
    einsum_ring
  constructor
  · intro h
    ext ⟨y, u⟩ p
    rw [e]
    exact h y u p
  · intro h y u p
    rw [← e, ← h]
    rfl

open ComplexOrder in
/-- The linear system for one of the tensors. -/
theorem solveAr_turn (la la' : Lapack 𝕜) {epsilon : ℝ} {method : Als.Solver} (hm : EvenSolver sgn method epsilon)
    (hW : Allowed sgn W) (hZ : Allowed sgn Z) {R R' : N → B → N → B → 𝕜} {S S' : N → B → P → 𝕜}
    (hR : sysMat R' = kroneckerMap (· * ·) W Z * sysMat R * (kroneckerMap (· * ·) W Z)ᴴ) (hS : Turned3 W Z U S S') :
    Alike (Turned3 W Z U) (solveAr la epsilon method R S) (solveAr la' epsilon method R' S') := by
  have hK := hW.kron hZ
  have eS := turned3_iff.1 hS
  have eR := hermAvg_turned hR
  set K := kroneckerMap (· * ·) W Z
  have hH := hermAvg_isHerm R
  cases method with
  | pinv =>
    show Turned3 W Z U _ _
    rw [turned3_iff]
    show la'.pinvH epsilon (hermAvg R') * asMat3 S' = K * (la.pinvH epsilon (hermAvg R) * asMat3 S) * Uᵀ
    rw [eR, eS, pinvH_turned la la' epsilon hH hK.unit]
    calc K * la.pinvH epsilon (hermAvg R) * Kᴴ * (K * asMat3 S * Uᵀ) =
          K * la.pinvH epsilon (hermAvg R) * (Kᴴ * K) * asMat3 S * Uᵀ := by simp only [Matrix.mul_assoc]
      _ = _ := by rw [hK.unit.left, Matrix.mul_one, Matrix.mul_assoc K]
  | cholesky =>
    have eM : hermAvg R' + ((epsilon * absMax (hermAvg R') : ℝ) : 𝕜) • 1 =
        K * (hermAvg R + ((epsilon * absMax (hermAvg R) : ℝ) : 𝕜) • 1) * Kᴴ := by
      have ea : epsilon * absMax (hermAvg R') = epsilon * absMax (hermAvg R) := by
        rcases hm with h | h | h
        · subst h
          rw [eR, absMax_turned hK]
        · cases h
        · rw [h, zero_mul, zero_mul]
      rw [ea, eR, Matrix.mul_add, Matrix.add_mul, Matrix.mul_smul, Matrix.smul_mul, Matrix.mul_one, hK.unit.right]
    have hM : (hermAvg R + ((epsilon * absMax (hermAvg R) : ℝ) : 𝕜) • 1).IsHermitian := by
      rw [IsHermitian, conjTranspose_add, hH.eq, conjTranspose_smul, conjTranspose_one]
      congr 2
      rw [← starRingEnd_apply, RCLike.conj_ofReal]
    have hM' : (hermAvg R' + ((epsilon * absMax (hermAvg R') : ℝ) : 𝕜) • 1).IsHermitian := by
      rw [eM]; exact isHermitian_mul_mul_conjTranspose K hM
    unfold solveAr
    dsimp only
    change Alike _ (match la.cholSolve (hermAvg R + ((epsilon * absMax (hermAvg R) : ℝ) : 𝕜) • 1) (asMat3 S) with
      | some ar => Except.ok fun y u p => ar (y, u) p
      | none => match la.linSolve (hermAvg R + ((epsilon * absMax (hermAvg R) : ℝ) : 𝕜) • 1) (asMat3 S) with
        | some ar => Except.ok fun y u p => ar (y, u) p
        | none => Except.error .runtimeError)
      (match la'.cholSolve (hermAvg R' + ((epsilon * absMax (hermAvg R') : ℝ) : 𝕜) • 1) (asMat3 S') with
      | some ar => Except.ok fun y u p => ar (y, u) p
      | none => match la'.linSolve (hermAvg R' + ((epsilon * absMax (hermAvg R') : ℝ) : 𝕜) • 1) (asMat3 S') with
        | some ar => Except.ok fun y u p => ar (y, u) p
        | none => Except.error .runtimeError)
    generalize hermAvg R + ((epsilon * absMax (hermAvg R) : ℝ) : 𝕜) • 1 = M at *
    generalize hermAvg R' + ((epsilon * absMax (hermAvg R') : ℝ) : 𝕜) • 1 = M' at *
    have fin : ∀ X X' : Matrix (N × B) P 𝕜, IsUnit M.det → M * X = asMat3 S → M' * X' = asMat3 S' →
        Turned3 W Z U (fun y u p => X (y, u) p) (fun y u p => X' (y, u) p) := by
      intro X X' hu h h'
      rw [turned3_iff]
      refine solution_turned hK.unit hu h ?_
      rw [← eM, ← eS, ← h']
      rfl
    by_cases hp : M.PosDef
    · have hp' : M'.PosDef := by rw [eM]; exact (posDef_turned hK.unit).2 hp
      obtain ⟨X, hX⟩ := Option.isSome_iff_exists.1 (la.cholSolve_some M (asMat3 S) hp)
      obtain ⟨X', hX'⟩ := Option.isSome_iff_exists.1 (la'.cholSolve_some M' (asMat3 S') hp')
      rw [hX, hX']
      exact fin X X' (isUnit_iff_isUnit_det _ |>.1 hp.isUnit) (la.cholSolve_ok _ _ _ hM hX) (la'.cholSolve_ok _ _ _ hM' hX')
    · have hp' : ¬ M'.PosDef := by rw [eM, posDef_turned hK.unit]; exact hp
      have n1 : la.cholSolve M (asMat3 S) = none := by
        rw [Option.eq_none_iff_forall_ne_some]
        exact fun X hX => hp (la.cholSolve_posDef _ _ _ hM hX)
      have n2 : la'.cholSolve M' (asMat3 S') = none := by
        rw [Option.eq_none_iff_forall_ne_some]
        exact fun X hX => hp' (la'.cholSolve_posDef _ _ _ hM' hX)
      rw [n1, n2]
      dsimp only
      have hd : M'.det = M.det := by rw [eM]; exact det_turned hK.unit
      by_cases hu : IsUnit M.det
      · obtain ⟨X, hX⟩ := Option.isSome_iff_exists.1 ((la.linSolve_some M (asMat3 S)).2 hu)
        obtain ⟨X', hX'⟩ := Option.isSome_iff_exists.1 ((la'.linSolve_some M' (asMat3 S')).2 (by rw [hd]; exact hu))
        rw [hX, hX']
        exact fin X X' hu (la.linSolve_ok _ _ _ hX) (la'.linSolve_ok _ _ _ hX')
      · have m1 : la.linSolve M (asMat3 S) = none := by
          rw [← Option.not_isSome_iff_eq_none, la.linSolve_some]; exact hu
        have m2 : la'.linSolve M' (asMat3 S') = none := by
          rw [← Option.not_isSome_iff_eq_none, la'.linSolve_some, hd]; exact hu
        rw [m1, m2]
        rfl

/-- One pass of the iteration. -/
theorem alsPass_turn (hs : ∀ a : 𝕜, star a = a) (la la' : Lapack 𝕜) {epsilon : ℝ} {method : Als.Solver} (hm : EvenSolver sgn method epsilon)
    (hW : Allowed sgn W) (hV : Allowed sgn V) (hZ : Allowed sgn Z) (hU : Unit2 U) (hT : Unit2 T)
    (hn : TurnedN W V n12 n12') (ha : Turned4 W V U T a12g a12g') (p p' : (N → B → P → 𝕜) × (N → B → P → 𝕜))
    (h : Turned3 W Z U p.1 p'.1 ∧ Turned3 V Z T p.2 p'.2) :
    Alike (fun p p' => Turned3 W Z U p.1 p'.1 ∧ Turned3 V Z T p.2 p'.2) (alsPass la epsilon n12 (n12gOf n12 a12g) method p)
      (alsPass la' epsilon n12' (n12gOf n12' a12g') method p') := by
  have hg := n12g_turn hs hW.unit hV.unit hn ha
  unfold alsPass
  refine Alike.bind (solveAr_turn la la' hm hW hZ (buildR1_turn hs hV.unit hT hn h.2) (buildS1_turn hs hV.unit hT hg h.2)) ?_
  intro a a' h1
  refine Alike.bind (solveAr_turn la la' hm hV hZ (buildR2_turn hs hW.unit hU hn h1) (buildS2_turn hs hW.unit hU hg h1)) ?_
  intro b b' h2
  exact ⟨h1, h2⟩

end als

section loop

variable {Q Q' F : Type}

/-- The iteration on two pairs in a relation that is kept by every pass and under which the costs agree. -/
theorem torchLoop_alike (fo : Als.FloatOps F) {rel : Q → Q' → Prop} {half : Q → Except PyErr Q} {half' : Q' → Except PyErr Q'}
    {cost : Q → F} {cost' : Q' → F} (tol : F) (h : ∀ p p', rel p p' → Alike rel (half p) (half' p'))
    (hc : ∀ p p', rel p p' → cost' p' = cost p) : ∀ (fuel i : ℕ) (p : Q) (p' : Q') (d : F), rel p p' →
    Alike rel (Als.torchLoop fo half cost tol fuel i p d) (Als.torchLoop fo half' cost' tol fuel i p' d) := by
  intro fuel
  induction fuel with
  | zero => intro i p p' d hp; exact hp
  | succ fuel ih =>
    intro i p p' d hp
    unfold Als.torchLoop
    refine Alike.bind (h p p' hp) ?_
    intro q q' hq
    dsimp only
    rw [hc q q' hq]
    split
    · exact hq
    · exact ih _ _ _ _ hq

theorem solveTorch_alike (fo : Als.FloatOps F) {rel : Q → Q' → Prop} {half : Q → Except PyErr Q} {half' : Q' → Except PyErr Q'}
    {cost : Q → F} {cost' : Q' → F} (tol : F) (niter : ℕ) (h : ∀ p p', rel p p' → Alike rel (half p) (half' p'))
    (hc : ∀ p p', rel p p' → cost' p' = cost p) {p : Q} {p' : Q'} (hp : rel p p') :
    Alike rel (Als.solveTorch fo half cost tol niter p) (Als.solveTorch fo half' cost' tol niter p') := by
  unfold Als.solveTorch
  rw [hc p p' hp]
  exact torchLoop_alike fo tol h hc niter 0 p p' _ hp

end loop

end AceTN
