import Verif.Spec.Loose
import Verif.Model.NumSteps

/-!
Changes of basis on the bonds of a network.
-/

set_option autoImplicit false

namespace AceTN.Spec

open Matrix

/-- A map of the scalars that respects sums, products, conjugation and real numbers: the identity or complex conjugation. -/
structure ScalarMap (𝕜 : Type) [RCLike 𝕜] where
  f : 𝕜 →+* 𝕜
  star : ∀ x, f (star x) = Star.star (f x)
  real : ∀ r : ℝ, f (r : 𝕜) = r

/-- The identity. -/
def ScalarMap.id (𝕜 : Type) [RCLike 𝕜] : ScalarMap 𝕜 := ⟨RingHom.id 𝕜, fun _ => rfl, fun _ => rfl⟩

/-- Complex conjugation. -/
def ScalarMap.conj (𝕜 : Type) [RCLike 𝕜] : ScalarMap 𝕜 := ⟨starRingEnd 𝕜, fun _ => rfl, fun r => RCLike.conj_ofReal r⟩

/-- A matrix is unitary; its rows and columns may have different names. -/
structure Unit2 {𝕜 m n : Type} [RCLike 𝕜] [Fintype m] [Fintype n] [DecidableEq m] [DecidableEq n] (J : Matrix m n 𝕜) : Prop where
  left : Jᴴ * J = 1
  right : J * Jᴴ = 1

/-- A boundary bond of two networks, with a unitary between its labels. -/
structure Link (𝕜 : Type) [RCLike 𝕜] where
  m : ℕ
  m' : ℕ
  J : Matrix (Fin m') (Fin m) 𝕜
  unit : Unit2 J

variable {𝕜 : Type} [RCLike 𝕜] {B P : Type} [Fintype B] [Fintype P]

/-- Two corner tensors are the same up to a positive factor and unitaries on their legs: `star J` on the first one, `J` on the
second one. -/
def CornerRel (σ : ScalarMap 𝕜) (a b : Link 𝕜) (T T' : Ten B P 𝕜) : Prop :=
  ∃ (c : Fin a.m → Fin b.m → 𝕜) (c' : Fin a.m' → Fin b.m' → 𝕜) (t : ℝ),
    T = .corner a.m b.m c ∧ T' = .corner a.m' b.m' c' ∧ 0 < t ∧
    ∀ i j, c' i j = t * ∑ x, ∑ y, star (a.J i x) * b.J j y * σ.f (c x y)

/-- Two edge tensors, likewise; `Γ` acts on the legs of the site that the edge is connected to. -/
def EdgeRel (σ : ScalarMap 𝕜) (a b : Link 𝕜) (Γ : Matrix (B × B) (B × B) 𝕜) (T T' : Ten B P 𝕜) : Prop :=
  ∃ (e : Fin a.m → Fin b.m → B → B → 𝕜) (e' : Fin a.m' → Fin b.m' → B → B → 𝕜) (t : ℝ),
    T = .edge a.m b.m e ∧ T' = .edge a.m' b.m' e' ∧ 0 < t ∧
    ∀ i j g, e' i j g.1 g.2 = t * ∑ x, ∑ y, ∑ h, star (a.J i x) * b.J j y * star (Γ g h) * σ.f (e x y h.1 h.2)

/-- The two layers of two site tensors, likewise; `Φ` acts on the pair of physical indices. -/
def SiteRel (σ : ScalarMap 𝕜) (Φ : Matrix (P × P) (P × P) 𝕜) (Γ : Fin 4 → Matrix (B × B) (B × B) 𝕜) (T T' : Ten B P 𝕜) : Prop :=
  ∃ (a a' : ATensor B P 𝕜) (t : ℝ), T = .site a ∧ T' = .site a' ∧ 0 < t ∧
    ∀ o l u r d, layer a' (some o) l u r d = t * ∑ q, ∑ l', ∑ u', ∑ r', ∑ d',
      Φ o q * (Γ 0 l l' * Γ 1 u u' * Γ 2 r r' * Γ 3 d d') * σ.f (layer a (some q) l' u' r' d')

/-- A map of physical operators that leaves the trace alone. -/
def KeepsTrace [DecidableEq P] (Φ : Matrix (P × P) (P × P) 𝕜) : Prop :=
  ∀ q : P × P, ∑ p, Φ (p, p) q = if q.1 = q.2 then 1 else 0

/-- Two networks are the same up to positive factors and unitaries on all bonds: `Γ p k` on the two layers of the bond of site
`p` in direction `k`, `ℓ p k` on the bond between corner `k` and edge `k` of site `p`, `Φ p` on the physical indices. -/
structure Related [DecidableEq B] [DecidableEq P] (σ : ScalarMap 𝕜) (Φ : ℤ × ℤ → Matrix (P × P) (P × P) 𝕜)
    (Γ : ℤ × ℤ → Fin 4 → Matrix (B × B) (B × B) 𝕜) (ℓ : ℤ × ℤ → Fin 4 → Link 𝕜) (net net' : Net (Ten B P 𝕜)) : Prop where
  nx : net'.nx = net.nx
  ny : net'.ny = net.ny
  chi : net'.chi = net.chi
  trace : ∀ p, KeepsTrace (Φ p)
  unit : ∀ p k, Unit2 (Γ p k)
  bond : ∀ p k, Γ (p + dir k) (k + 2) = (Γ p k).map star
  site : ∀ p, SiteRel σ (Φ p) (Γ p) (net.A (cellSite net.nx net.ny p)) (net'.A (cellSite net.nx net.ny p))
  corner : ∀ p k, CornerRel σ (ℓ (p + dir (k + 1)) (k + 3)) (ℓ p k) (net.B (cellSite net.nx net.ny p) (.C k.val))
    (net'.B (cellSite net.nx net.ny p) (.C k.val))
  edge : ∀ p k, EdgeRel σ (ℓ p k) (ℓ (p + dir (k + 2)) k) (Γ p (k + 1)) (net.B (cellSite net.nx net.ny p) (.E k.val))
    (net'.B (cellSite net.nx net.ny p) (.E k.val))

/-- The singular values drop where they are cut off. -/
def Drop (cutoff : ℝ) (chi : ℕ) {r : ℕ} (S : Fin r → ℝ) : Prop :=
  ∀ i j : Fin r, i.val < keep cutoff chi S → keep cutoff chi S ≤ j.val → S j < S i

variable [DecidableEq B]

/-- The singular values of the environment of a cut drop where they are cut off. -/
def DropCut (st : ProjSettings 𝕜) (ω : Draws B 𝕜) (pk : ProjKind) (net : Net (Ten B P 𝕜)) (s1 s2 s3 s4 : Site) (k : ℕ) : Prop :=
  match pk with
  | .half => ∀ (m x n : ℕ) (Q1 : Matrix (Fin m × B × B) (Fin x × B × B) 𝕜) (Q4 : Matrix (Fin x × B × B) (Fin n × B × B) 𝕜),
    quarterTensor (numOps st ω) net s1 k = .quarter m x Q1 → quarterTensor (numOps st ω) net s4 (k + 3) = .quarter x n Q4 →
    Drop st.cutoff net.chi (st.la.svd (maxNormalise (Q1 * Q4))).2.1
  | .full => ∀ (m x n k1 k3 : ℕ) (Q1 : Matrix (Fin k1 × B × B) (Fin x × B × B) 𝕜)
      (Q2 : Matrix (Fin m × B × B) (Fin k1 × B × B) 𝕜) (Q3 : Matrix (Fin k3 × B × B) (Fin n × B × B) 𝕜)
      (Q4 : Matrix (Fin x × B × B) (Fin k3 × B × B) 𝕜),
    quarterTensor (numOps st ω) net s1 k = .quarter k1 x Q1 → quarterTensor (numOps st ω) net s2 (k + 1) = .quarter m k1 Q2 →
    quarterTensor (numOps st ω) net s3 (k + 2) = .quarter k3 n Q3 → quarterTensor (numOps st ω) net s4 (k + 3) = .quarter x k3 Q4 →
    Drop st.cutoff net.chi (st.la.svd (maxNormalise (maxNormalise (Q2 * Q1) * maxNormalise (Q4 * Q3)))).2.1

/-- The same for all cuts of a move. -/
def DropMove (st : ProjSettings 𝕜) (ω : Draws B 𝕜) (pk : ProjKind) (net : Net (Ten B P 𝕜)) (m : Move) : Prop :=
  ∀ s, InCell net.nx net.ny s → IsAbsorbed m s →
    DropCut st ω pk net s (neighbour net.nx net.ny s ((moveDir m + 2) % 4))
      (neighbour net.nx net.ny (neighbour net.nx net.ny s ((moveDir m + 2) % 4)) ((moveDir m + 3) % 4))
      (neighbour net.nx net.ny s ((moveDir m + 3) % 4)) (moveDir m)

/-- The same for all moves of a run. -/
def DropRun (st : ProjSettings 𝕜) (pk : ProjKind) (ω : ℕ → Draws B 𝕜) : ℕ → List Move → Net (Ten B P 𝕜) → Prop
  | _, [], _ => True
  | t, m :: ms, net => DropMove st (ω t) pk net m ∧
    ∀ net', m.run (numOps st (ω t)) pk net = .ok net' → DropRun st pk ω (t + 1) ms net'

/-- The same for all moves of a list of steps. -/
def DropSteps (st : ProjSettings 𝕜) (pk : ProjKind) (ω : ℕ → Draws B 𝕜) : ℕ → List (NetStep B P 𝕜) → Net (Ten B P 𝕜) → Prop
  | _, [], _ => True
  | t, .write s a :: ss, net => DropSteps st pk ω t ss (writeSite net s a)
  | t, .move m :: ss, net => DropMove st (ω t) pk net m ∧
    ∀ net', m.run (numOps st (ω t)) pk net = .ok net' → DropSteps st pk ω (t + 1) ss net'

/-- The decomposition of the environment of a cut is exact: it is the full-rank one, or the random draw captures the
environment.  For the full system the scalars must then be real: the first projector is formed with conjugate transposes. -/
def SvdCut (st : ProjSettings 𝕜) (ω : Draws B 𝕜) (pk : ProjKind) (net : Net (Ten B P 𝕜)) (s1 s2 s3 s4 : Site) (k : ℕ) : Prop :=
  st.fullRank = true ∨
  match pk with
  | .half => ∀ (m x n : ℕ) (Q1 : Matrix (Fin m × B × B) (Fin x × B × B) 𝕜) (Q4 : Matrix (Fin x × B × B) (Fin n × B × B) 𝕜),
    quarterTensor (numOps st ω) net s1 k = .quarter m x Q1 → quarterTensor (numOps st ω) net s4 (k + 3) = .quarter x n Q4 →
    Captures (Q1 * Q4) (ω (k, s1) m n (net.chi + st.oversampling))
  | .full => (∀ a : 𝕜, star a = a) ∧ ∀ (m x n k1 k3 : ℕ) (Q1 : Matrix (Fin k1 × B × B) (Fin x × B × B) 𝕜)
      (Q2 : Matrix (Fin m × B × B) (Fin k1 × B × B) 𝕜) (Q3 : Matrix (Fin k3 × B × B) (Fin n × B × B) 𝕜)
      (Q4 : Matrix (Fin x × B × B) (Fin k3 × B × B) 𝕜),
    quarterTensor (numOps st ω) net s1 k = .quarter k1 x Q1 → quarterTensor (numOps st ω) net s2 (k + 1) = .quarter m k1 Q2 →
    quarterTensor (numOps st ω) net s3 (k + 2) = .quarter k3 n Q3 → quarterTensor (numOps st ω) net s4 (k + 3) = .quarter x k3 Q4 →
    Captures (Q2 * Q1 * Q4 * Q3) (ω (k, s1) m n (net.chi + st.oversampling))

/-- The same for all cuts of a move. -/
def SvdMove (st : ProjSettings 𝕜) (ω : Draws B 𝕜) (pk : ProjKind) (net : Net (Ten B P 𝕜)) (m : Move) : Prop :=
  ∀ s, InCell net.nx net.ny s → IsAbsorbed m s →
    SvdCut st ω pk net s (neighbour net.nx net.ny s ((moveDir m + 2) % 4))
      (neighbour net.nx net.ny (neighbour net.nx net.ny s ((moveDir m + 2) % 4)) ((moveDir m + 3) % 4))
      (neighbour net.nx net.ny s ((moveDir m + 3) % 4)) (moveDir m)

/-- The same for all moves of a run. -/
def SvdRun (st : ProjSettings 𝕜) (pk : ProjKind) (ω : ℕ → Draws B 𝕜) : ℕ → List Move → Net (Ten B P 𝕜) → Prop
  | _, [], _ => True
  | t, m :: ms, net => SvdMove st (ω t) pk net m ∧
    ∀ net', m.run (numOps st (ω t)) pk net = .ok net' → SvdRun st pk ω (t + 1) ms net'

/-- The same for all moves of a list of steps. -/
def SvdSteps (st : ProjSettings 𝕜) (pk : ProjKind) (ω : ℕ → Draws B 𝕜) : ℕ → List (NetStep B P 𝕜) → Net (Ten B P 𝕜) → Prop
  | _, [], _ => True
  | t, .write s a :: ss, net => SvdSteps st pk ω t ss (writeSite net s a)
  | t, .move m :: ss, net => SvdMove st (ω t) pk net m ∧
    ∀ net', m.run (numOps st (ω t)) pk net = .ok net' → SvdSteps st pk ω (t + 1) ss net'

end AceTN.Spec
