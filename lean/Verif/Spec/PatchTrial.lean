import Verif.Spec.Patch

/-!
Patches of the infinite lattice with other tensors at the two sites of a bond: the states that an update of the bond compares.
Independent of the norm tensor and of the solver.
-/

set_option autoImplicit false

namespace AceTN.Spec

variable {𝕜 : Type} [RCLike 𝕜] {B P : Type}

/-- The patch of `A` in which the tensors `ins` stand at some of the sites of the rectangle. -/
def patchFrameWith (A : ℤ × ℤ → ATensor B P 𝕜) (ins : ℤ × ℤ → Option (B → B → B → B → 𝕜)) (r : Rect) (e : PatchLegs B P r.w r.h) :
    Frame B B 𝕜 r.w r.h :=
  { patchFrame A (fun _ => none) r e with
    D := fun i j => (ins (r.x + i, r.y + j)).getD fun a b c d => A (r.x + i, r.y + j) a b c d (e.1.1.1.1.1 i j) }

/-- The tensors `T` and `T'` at the sites `p` and `p'`, with physical labels `k` and `k'`. -/
def pairAt {Q : Type} (p p' : ℤ × ℤ) (T T' : ATensor B Q 𝕜) (k k' : Q) (q : ℤ × ℤ) : Option (B → B → B → B → 𝕜) :=
  if q = p then some fun l u r d => T l u r d k else if q = p' then some fun l u r d => T' l u r d k' else none

/-- The amplitude of the patch of `A` with the tensors `T` and `T'` at the sites `p` and `p'`. -/
def trialAmp [Fintype B] {Q : Type} (A : ℤ × ℤ → ATensor B P 𝕜) (p p' : ℤ × ℤ) (T T' : ATensor B Q 𝕜) (r : Rect) (e : PatchLegs B P r.w r.h)
    (k k' : Q) : 𝕜 :=
  (patchFrameWith A (pairAt p p' T T' k k') r e).value

/-- The amplitude after a two-site gate has acted on the sites `p` and `p'`; the first two indices of the gate are summed over. -/
def gatedAmp [Fintype B] [Fintype P] (A : ℤ × ℤ → ATensor B P 𝕜) (p p' : ℤ × ℤ) (T T' : ATensor B P 𝕜) (gate : P → P → P → P → 𝕜)
    (r : Rect) (e : PatchLegs B P r.w r.h) (k k' : P) : 𝕜 :=
  ∑ q, ∑ q', trialAmp A p p' T T' r e q q' * gate q q' k k'

/-- The squared distance of two states of a patch. -/
noncomputable def stateDist [Fintype B] [Fintype P] {w h : ℕ} (ψ φ : PatchLegs B P w h → P → P → 𝕜) : ℝ :=
  ∑ e, ∑ k, ∑ k', ‖ψ e k k' - φ e k k'‖ ^ 2

/-- The overlap of two states of a patch. -/
def stateOverlap [Fintype B] [Fintype P] {w h : ℕ} (ψ φ : PatchLegs B P w h → P → P → 𝕜) : 𝕜 :=
  ∑ e, ∑ k, ∑ k', φ e k k' * star (ψ e k k')

/-- A tensor whose first leg points in direction `K`, the others following clockwise, with its legs in the order left, up, right,
down. -/
def latticeFrame {Q : Type} : Fin 4 → ATensor B Q 𝕜 → ATensor B Q 𝕜
  | 0, T => T
  | 1, T => fun l u r d => T u r d l
  | 2, T => fun l u r d => T r d l u
  | 3, T => fun l u r d => T d l u r

/-- The tensor of the first site of a bond: an outer part with legs `r d u` and a reduced tensor with the leg on the bond. -/
def joinFirst {N Q : Type} [Fintype N] (q : B → B → B → N → 𝕜) (t : N → B → Q → 𝕜) : ATensor B Q 𝕜 :=
  fun l u r d k => ∑ x, q r d u x * t x l k

/-- The tensor of the second site of a bond: an outer part with legs `d l u` and a reduced tensor with the leg on the bond. -/
def joinSecond {N Q : Type} [Fintype N] (q : B → B → B → N → 𝕜) (t : N → B → Q → 𝕜) : ATensor B Q 𝕜 :=
  fun l u r d k => ∑ x, q d l u x * t x r k

/-- The state of the patch `R` of `A` in which the two sites of the bond in direction `K` at `p` carry the outer parts `q1` and
`q2` and the reduced tensors `t1` and `t2`. -/
def trialState {N Q : Type} [Fintype N] [Fintype B] (A : ℤ × ℤ → ATensor B P 𝕜) (R : Rect) (p : ℤ × ℤ) (K : Fin 4)
    (q1 q2 : B → B → B → N → 𝕜) (t1 t2 : N → B → Q → 𝕜) : PatchLegs B P R.w R.h → Q → Q → 𝕜 :=
  trialAmp A p (p + dir K) (latticeFrame K (joinFirst q1 t1)) (latticeFrame K (joinSecond q2 t2)) R

/-- The state of the patch `R` of `A` after the gate has acted on the two sites of the bond. -/
def gatedState [Fintype B] [Fintype P] (A : ℤ × ℤ → ATensor B P 𝕜) (R : Rect) (p : ℤ × ℤ) (K : Fin 4) (gate : P → P → P → P → 𝕜) :
    PatchLegs B P R.w R.h → P → P → 𝕜 :=
  gatedAmp A p (p + dir K) (A p) (A (p + dir K)) gate R

end AceTN.Spec
