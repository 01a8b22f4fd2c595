import Verif.Model.FullUpdate

/-!
`positive_approx` (full_update.py 262-297) with the branches taken when `eigh` raises.  Whether a call of `eigh` raises is
decided by an oracle `fails`: `fails k` is the outcome of the `k`-th call.  `svd` is taken not to raise.
-/

set_option autoImplicit false

namespace AceTN.Full

open Matrix

variable {𝕜 : Type} [RCLike 𝕜]

section loop

variable {n : Type} [Fintype n] [DecidableEq n]

/-- `nz,nw,_ = svd(N); nw = torch.flip(nw, dims=[-1]); nz = torch.flip(nz, dims=[-1])`, full_update.py 285-287 and
293-295.  The singular values come out ascending. -/
noncomputable def flippedSvd (la : Lapack 𝕜) (A : Matrix n n 𝕜) :
    (Fin (Fintype.card n) → ℝ) × Matrix n (Fin (Fintype.card n)) 𝕜 :=
  let nz := (la.svd A).1
  let nw := (la.svd A).2.1
  (fun k => nw (Fin.cast (min_self _).symm k.rev), Matrix.of fun i k => nz i (Fin.cast (min_self _).symm k.rev))

/-- `try: nw,nz = eigh(N) except LinAlgError: …`, full_update.py 282-287 and 290-295. -/
noncomputable def eighOrSvd (la : Lapack 𝕜) (fails : Bool) (A : Matrix n n 𝕜) :
    (Fin (Fintype.card n) → ℝ) × Matrix n (Fin (Fintype.card n)) 𝕜 :=
  if fails then flippedSvd la A else la.eigh A

/-- The `while` loop of `positive_approx`, full_update.py 282-295, run for at most `fuel` tests of its condition. -/
noncomputable def posLoopF [Nonempty n] (la : Lapack 𝕜) (cutoff : ℝ) :
    ℕ → (ℕ → Bool) → Matrix n n 𝕜 → Option ((Fin (Fintype.card n) → ℝ) × Matrix n (Fin (Fintype.card n)) 𝕜)
  | 0, _, _ => none
  | fuel + 1, fails, A =>
    let wz := eighOrSvd la (fails 0) A
    let nw0 := wz.1 ⟨0, Fintype.card_pos⟩
    if nw0 < cutoff then
      posLoopF la cutoff fuel (fun k => fails (k + 1)) (A + ((2 * max cutoff |nw0| : ℝ) : 𝕜) • 1)
    else some wz

end loop

variable {N : Type} [Fintype N] [DecidableEq N]

/-- `positive_approx`, full_update.py 262-297. -/
noncomputable def positiveApproxF [Nonempty N] (la : Lapack 𝕜) (fails : ℕ → Bool) (fuel : ℕ) (cutoff : ℝ)
    (n12 : N → N → N → N → 𝕜) : Option (N → N → Fin (Fintype.card (N × N)) → 𝕜) :=
  (posLoopF la cutoff fuel fails (normMat n12)).map fun wz =>
    fun y x z => wz.2 (y, x) z * (Real.sqrt (wz.1 z) : 𝕜)

end AceTN.Full
