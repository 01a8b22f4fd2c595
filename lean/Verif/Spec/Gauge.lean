import Verif.Spec.LinkChange
import Verif.Model.Gate

/-!
Networks whose site tensors are the same in other bases, with a basis change of its own on every bond.
-/

set_option autoImplicit false

namespace AceTN.Spec

open Matrix

variable {𝕜 : Type} [RCLike 𝕜] {B P : Type} [Fintype B] [Fintype P]

/-- The tensor `a'` is the tensor `a`, or with `σ` complex conjugation its conjugate, in other bases of its indices and up to a
factor. -/
def TenRel (σ : ScalarMap 𝕜) (t : ℝ) (G0 G1 G2 G3 : Matrix B B 𝕜) (U : Matrix P P 𝕜) (a a' : ATensor B P 𝕜) : Prop :=
  ∀ l u r d p, a' l u r d p = t * ∑ l', ∑ u', ∑ r', ∑ d', ∑ p',
    G0 l l' * G1 u u' * G2 r r' * G3 d d' * U p p' * σ.f (a l' u' r' d' p')

/-- A change of all bases: the unitary `G s k` on the index in direction `k` of site `s`, the unitary `U s` on its physical index,
and a positive factor. -/
structure Gauge (B P 𝕜 : Type) [RCLike 𝕜] [Fintype B] [Fintype P] [DecidableEq B] [DecidableEq P] where
  G : Site → Fin 4 → Matrix B B 𝕜
  U : Site → Matrix P P 𝕜
  t : Site → ℝ
  unitG : ∀ s k, Unit2 (G s k)
  unitU : ∀ s, Unit2 (U s)
  pos : ∀ s, 0 < t s

variable [DecidableEq B] [DecidableEq P]

/-- On every bond of the lattice one site gets a matrix, the other one its complex conjugate. -/
def Gauge.Joined (g : Gauge B P 𝕜) (nx ny : ℕ) : Prop :=
  ∀ s, InCell nx ny s → ∀ k : Fin 4, g.G (neighbour nx ny s k.val) (k + 2) = (g.G s k).map star

/-- The site tensors `A'` are the tensors `A` in other bases. -/
def Gauge.Equiv (g : Gauge B P 𝕜) (σ : ScalarMap 𝕜) (nx ny : ℕ) (A A' : Site → ATensor B P 𝕜) : Prop :=
  ∀ s, InCell nx ny s → TenRel σ (g.t s) (g.G s 0) (g.G s 1) (g.G s 2) (g.G s 3) (g.U s) (A s) (A' s)

/-- The operators `op` and `op'` on the two sides of a change of the physical basis. -/
def TurnedOp {n : Type} [Fintype n] (σ : ScalarMap 𝕜) (U : Matrix n n 𝕜) (op op' : n → n → 𝕜) : Prop :=
  ∀ k b, σ.f (op k b) = ∑ k', ∑ b', U k' k * op' k' b' * star (U b' b)

/-- The same for two sites. -/
def TurnedOp2 {n : Type} [Fintype n] (σ : ScalarMap 𝕜) (U V : Matrix n n 𝕜) (op op' : n → n → n → n → 𝕜) : Prop :=
  ∀ k1 k2 b1 b2, σ.f (op k1 k2 b1 b2) = ∑ k1', ∑ k2', ∑ b1', ∑ b2',
    U k1' k1 * V k2' k2 * op' k1' k2' b1' b2' * (star (U b1' b1) * star (V b2' b2))

/-- Two models that are the same in other physical bases, or complex conjugates. -/
def TurnedTerms {n : Type} [Fintype n] (σ : ScalarMap 𝕜) (U : Site → Matrix n n 𝕜) (nx ny : ℕ) (m m' : ModelTerms n 𝕜) : Prop :=
  (∀ b ∈ buildBondList nx ny, TurnedOp2 σ (U b.s1) (U b.s2) (fun p q r s => m.two b (p, q) (r, s)) (fun p q r s => m'.two b (p, q) (r, s))) ∧
  ∀ s, InCell nx ny s → (m.one s = none ∧ m'.one s = none) ∨ ∃ h h', m.one s = some h ∧ m'.one s = some h' ∧ TurnedOp σ (U s) h h'

/-- A many-body state in other bases of the sites. -/
def turnedState {V n : Type} [Fintype V] [DecidableEq V] [Fintype n] (σ : ScalarMap 𝕜) (U : V → Matrix n n 𝕜) (ψ : (V → n) → 𝕜)
    (p : V → n) : 𝕜 :=
  ∑ q : V → n, (∏ v, U v (p v) (q v)) * σ.f (ψ q)

/-- Cutting off after `k` singular values is unambiguous: none that is cut off equals one that is kept, unless it vanishes. -/
def NoTie {m n : Type} [Fintype m] [Fintype n] (k : ℕ) (M : Matrix m n 𝕜) : Prop :=
  ∀ (r : ℕ) (U : Matrix m (Fin r) 𝕜) (S : Fin r → ℝ) (Vh : Matrix (Fin r) n 𝕜), IsSVD M U S Vh →
    ∀ i j : Fin r, i.val < k → k ≤ j.val → S j = 0 ∨ S j < S i

end AceTN.Spec
