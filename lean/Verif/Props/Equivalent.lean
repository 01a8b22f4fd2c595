import Verif.Props.SvdChoice
import Verif.Spec.Gauge

/-!
# C75: Equivalent states give equivalent measured values

The same state can be written with other bases on the bonds, and the same physics with another basis of the physical space or
with the complex conjugate state.  The truncated renormalization respects this: the density matrices of two such networks,
after any number of sweeps from fresh boundary tensors, differ by the change of the physical basis only.
-/

set_option autoImplicit false

namespace AceTN

open Matrix SumTac

namespace Spec

/-- A change of basis: `X` on horizontal bonds, `Y` on vertical bonds, `U s` on the physical index of site `s`; positive factors
`t s`. -/
structure BasisChange (D pD : ℕ) (𝕜 : Type) [RCLike 𝕜] where
  X : Matrix (Fin D) (Fin D) 𝕜
  Y : Matrix (Fin D) (Fin D) 𝕜
  U : Site → Matrix (Fin pD) (Fin pD) 𝕜
  t : Site → ℝ
  unitX : Unit2 X
  unitY : Unit2 Y
  unitU : ∀ s, Unit2 (U s)
  pos : ∀ s, 0 < t s

variable {𝕜 : Type} [RCLike 𝕜] {D pD : ℕ}

/-- The site tensors `A'` are the tensors `A`, or with `σ` complex conjugation their conjugates, in other bases; on a bond one
site gets a matrix, the other one its complex conjugate. -/
def BasisChange.Equiv (g : BasisChange D pD 𝕜) (σ : ScalarMap 𝕜) (nx ny : ℕ) (A A' : Site → ATensor (Fin D) (Fin pD) 𝕜) : Prop :=
  ∀ s, InCell nx ny s → ∀ l u r d p, A' s l u r d p = g.t s * ∑ l', ∑ u', ∑ r', ∑ d', ∑ p',
    g.X l l' * g.Y u u' * star (g.X r r') * star (g.Y d d') * g.U s p p' * σ.f (A s l' u' r' d' p')

/-- The density matrices of `net'` are those of `net` in another physical basis, up to positive factors. -/
def TurnedRdms {B : Type} [Fintype B] (σ : ScalarMap 𝕜) (U : Site → Matrix (Fin pD) (Fin pD) 𝕜) (net net' : Net (Ten B (Fin pD) 𝕜)) :
    Prop :=
  (∀ s, InCell net.nx net.ny s → ∃ ρ ρ', numSiteRdm net s = .ok ρ ∧ numSiteRdm net' s = .ok ρ' ∧
    ∃ c : ℝ, 0 < c ∧ ∀ bra ket, ρ' bra ket = c * ∑ b, ∑ k, star (U s bra b) * U s ket k * σ.f (ρ b k)) ∧
  ∀ s, InCell net.nx net.ny s → ∀ (k : Fin 4) init init', ∃ ρ ρ',
    numBondRdm init net ⟨s, neighbour net.nx net.ny s k.val, k.val⟩ = .ok ρ ∧
    numBondRdm init' net' ⟨s, neighbour net.nx net.ny s k.val, k.val⟩ = .ok ρ' ∧
    ∃ c : ℝ, 0 < c ∧ ∀ b1 b2 k1 k2, ρ' b1 b2 k1 k2 = c * ∑ c1, ∑ c2, ∑ j1, ∑ j2,
      star (U s b1 c1) * star (U (neighbour net.nx net.ny s k.val) b2 c2) * U s k1 j1 * U (neighbour net.nx net.ny s k.val) k2 j2 *
      σ.f (ρ c1 c2 j1 j2)

end Spec

open Spec

variable {𝕜 : Type} [RCLike 𝕜] {D pD : ℕ}

section layers

variable {B P : Type} [Fintype B] [Fintype P] [DecidableEq B] [DecidableEq P]

/-- A matrix on the ket leg and its conjugate on the bra leg of a bond. -/
def ketBra (X : Matrix B B 𝕜) : Matrix (B × B) (B × B) 𝕜 := of fun g h => X g.1 h.1 * star (X g.2 h.2)

/-- The same for a pair of physical indices, of which the first one is the bra. -/
def braKet (X : Matrix B B 𝕜) : Matrix (B × B) (B × B) 𝕜 := of fun g h => star (X g.1 h.1) * X g.2 h.2

theorem unit_entry {X : Matrix B B 𝕜} (h : Unit2 X) (a b : B) : ∑ x, star (X x a) * X x b = if a = b then 1 else 0 := by
  have := congrFun (congrFun h.left a) b
  rwa [mul_apply, one_apply] at this

theorem braKet_trace {X : Matrix B B 𝕜} (h : Unit2 X) : KeepsTrace (braKet X) := fun q => unit_entry h q.1 q.2

theorem ketBra_trace {X : Matrix B B 𝕜} (h : Unit2 X) : KeepsTrace (ketBra X) := by
  intro q
  have := unit_entry h q.2 q.1
  simp only [ketBra, of_apply]
  simp only [mul_comm (X _ _), this, eq_comm]

theorem map_star_unit {X : Matrix B B 𝕜} (h : Unit2 X) : Unit2 (X.map star) := by
  have e : ∀ M N : Matrix B B 𝕜, M.map star * N.map star = (M * N).map star := fun M N => by
    ext i j
    simp only [mul_apply, map_apply, star_sum, star_mul']
  have e1 : (1 : Matrix B B 𝕜).map star = 1 := by
    ext i j
    exact one_star i j
  have e2 : (X.map star)ᴴ = Xᴴ.map star := rfl
  exact ⟨by rw [e2, e, h.left, e1], by rw [e2, e, h.right, e1]⟩

theorem ketBra_unit {X : Matrix B B 𝕜} (h : Unit2 X) : Unit2 (ketBra X) := by
  have hl := unit_entry h
  have hr : ∀ a b, ∑ x, X a x * star (X b x) = if a = b then 1 else 0 := fun a b => by
    have := congrFun (congrFun h.right a) b
    rwa [mul_apply, one_apply] at this
  constructor
  · ext ⟨a, a'⟩ ⟨b, b'⟩
    have e : ((ketBra X)ᴴ * ketBra X) (a, a') (b, b') = (∑ x, star (X x a) * X x b) * ∑ x, star (star (X x a') * X x b') := by
      simp only [mul_apply, conjTranspose_apply, ketBra, of_apply, star_mul', star_star]
      rw [Fintype.sum_prod_type, Finset.sum_mul_sum]
      refine Finset.sum_congr rfl fun _ _ => Finset.sum_congr rfl fun _ _ => ?_
      ring
    rw [e, ← star_sum, hl, hl, one_apply]
    by_cases h1 : a = b <;> by_cases h2 : a' = b' <;> simp [h1, h2]
  · ext ⟨a, a'⟩ ⟨b, b'⟩
    have e : (ketBra X * (ketBra X)ᴴ) (a, a') (b, b') = (∑ x, X a x * star (X b x)) * ∑ x, star (X a' x * star (X b' x)) := by
      simp only [mul_apply, conjTranspose_apply, ketBra, of_apply, star_mul', star_star]
      rw [Fintype.sum_prod_type, Finset.sum_mul_sum]
      refine Finset.sum_congr rfl fun _ _ => Finset.sum_congr rfl fun _ _ => ?_
      ring
    rw [e, ← star_sum, hr, hr, one_apply]
    by_cases h1 : a = b <;> by_cases h2 : a' = b' <;> simp [h1, h2]

omit [Fintype B] [DecidableEq B] in
theorem ketBra_map (X : Matrix B B 𝕜) : (ketBra X).map star = ketBra (X.map star) := by
  ext g h
  simp only [ketBra, map_apply, of_apply, star_mul']

omit [DecidableEq B] [DecidableEq P] in
theorem layers_turn (X Y Z W : Matrix B B 𝕜) (U : Matrix P P 𝕜) (A₀ : B → B → B → B → P → 𝕜) (l u r d : B) (l' u' r' d' : B) (p p' : P) :
    (∑ x, ∑ y, ∑ z, ∑ w, ∑ q, X l x * Y u y * Z r z * W d w * U p q * A₀ x y z w q) *
      star (∑ x, ∑ y, ∑ z, ∑ w, ∑ q, X l' x * Y u' y * Z r' z * W d' w * U p' q * A₀ x y z w q) =
    ∑ q : P × P, ∑ g : B × B, ∑ h : B × B, ∑ i : B × B, ∑ j : B × B, star (U p' q.1) * U p q.2 * (X l g.1 * star (X l' g.2) *
      (Y u h.1 * star (Y u' h.2)) * (Z r i.1 * star (Z r' i.2)) * (W d j.1 * star (W d' j.2))) *
      (A₀ g.1 h.1 i.1 j.1 q.2 * star (A₀ g.2 h.2 i.2 j.2 q.1)) := by
  einsum_ring

end layers

/-- The changes of basis on the four legs of a site. -/
def legs (X Y : Matrix (Fin D) (Fin D) 𝕜) : Fin 4 → Matrix (Fin D × Fin D) (Fin D × Fin D) 𝕜
  | 0 => ketBra X
  | 1 => ketBra Y
  | 2 => ketBra (X.map star)
  | 3 => ketBra (Y.map star)

theorem star_star_map (X : Matrix (Fin D) (Fin D) 𝕜) : (X.map star).map star = X := by
  ext i j
  exact star_star _

theorem legs_opposite (X Y : Matrix (Fin D) (Fin D) 𝕜) (k : Fin 4) : legs X Y (k + 2) = (legs X Y k).map star := by
  match k with
  | 0 => exact (ketBra_map X).symm
  | 1 => exact (ketBra_map Y).symm
  | 2 => exact ((ketBra_map _).trans (by rw [star_star_map]; rfl)).symm
  | 3 => exact ((ketBra_map _).trans (by rw [star_star_map]; rfl)).symm

theorem legs_unit {X Y : Matrix (Fin D) (Fin D) 𝕜} (hX : Unit2 X) (hY : Unit2 Y) (k : Fin 4) : Unit2 (legs X Y k) ∧ KeepsTrace (legs X Y k) := by
  match k with
  | 0 => exact ⟨ketBra_unit hX, ketBra_trace hX⟩
  | 1 => exact ⟨ketBra_unit hY, ketBra_trace hY⟩
  | 2 => exact ⟨ketBra_unit (map_star_unit hX), ketBra_trace (map_star_unit hX)⟩
  | 3 => exact ⟨ketBra_unit (map_star_unit hY), ketBra_trace (map_star_unit hY)⟩

theorem siteRel_turn (σ : ScalarMap 𝕜) (X Y : Matrix (Fin D) (Fin D) 𝕜) (U : Matrix (Fin pD) (Fin pD) 𝕜) (t : ℝ) (ht : 0 < t)
    (a a' : ATensor (Fin D) (Fin pD) 𝕜) (h : ∀ l u r d p, a' l u r d p = t * ∑ l', ∑ u', ∑ r', ∑ d', ∑ p',
      X l l' * Y u u' * star (X r r') * star (Y d d') * U p p' * σ.f (a l' u' r' d' p')) :
    SiteRel σ (braKet U) (legs X Y) (Ten.site a) (.site a') := by
  refine ⟨a, a', t * t, rfl, rfl, mul_pos ht ht, ?_⟩
  rintro ⟨bra, ket⟩ l u r d
  have key := layers_turn X Y (X.map star) (Y.map star) U (fun l u r d p => σ.f (a l u r d p)) l.1 u.1 r.1 d.1 l.2 u.2 r.2 d.2 ket bra
  show a' _ _ _ _ _ * star (a' _ _ _ _ _) = _
  rw [h, h, star_mul', RCLike.star_def, RCLike.conj_ofReal, mul_mul_mul_comm, RCLike.ofReal_mul]
  congr 1
  refine key.trans ?_
  refine Finset.sum_congr rfl fun q _ => Finset.sum_congr rfl fun l' _ => Finset.sum_congr rfl fun u' _ => Finset.sum_congr rfl fun r' _ =>
    Finset.sum_congr rfl fun d' _ => ?_
  obtain ⟨b, k⟩ := q
  show _ = _ * _ * σ.f (a _ _ _ _ _ * star (a _ _ _ _ _))
  rw [map_mul, σ.star]
  rfl

section sweeps

variable (g : BasisChange D pD 𝕜) (σ : ScalarMap 𝕜) (nx ny chi : ℕ) (hx : 0 < nx) (hy : 0 < ny) (A A' : Site → ATensor (Fin D) (Fin pD) 𝕜)
  (h : g.Equiv σ nx ny A A')

include hx hy h

theorem related_equiv : ∃ ℓ, Related σ (fun p => braKet (g.U (cellSite nx ny p))) (fun _ => legs g.X g.Y) ℓ (freshNet nx ny chi A)
    (freshNet nx ny chi A') :=
  ⟨_, related_fresh nx ny chi A A' (fun _ => braKet_trace (g.unitU _)) (fun k => (legs_unit g.unitX g.unitY k).1)
    (fun k => (legs_unit g.unitX g.unitY k).2) (legs_opposite g.X g.Y) fun p =>
    siteRel_turn σ g.X g.Y _ (g.t _) (g.pos _) _ _ (h _ (cellSite_inCell nx ny hx hy p))⟩

/-- **C75.** The density matrices of equivalent networks after `n` sweeps. -/
theorem C75_equivalent (st st' : ProjSettings 𝕜) (pk : ProjKind)
    (hcut : st'.cutoff = st.cutoff) (h0 : 0 ≤ st.cutoff) (ω ω' : ℕ → Draws (Fin D) 𝕜) (n t t' : ℕ)
    (hd : DropRun st pk ω t (List.replicate n (sweepMoves nx ny)).flatten (freshNet nx ny chi A))
    (hf : SvdRun st pk ω t (List.replicate n (sweepMoves nx ny)).flatten (freshNet nx ny chi A))
    (hf' : SvdRun st' pk ω' t' (List.replicate n (sweepMoves nx ny)).flatten (freshNet nx ny chi A')) :
    ∃ net net', ctmrgDrawn st pk ω t n (freshNet nx ny chi A) = .ok net ∧ ctmrgDrawn st' pk ω' t' n (freshNet nx ny chi A') = .ok net' ∧
      net.nx = nx ∧ net.ny = ny ∧ TurnedRdms σ g.U net net' := by
  obtain ⟨ℓ, hR⟩ := related_equiv g σ nx ny chi hx hy A A' h
  obtain ⟨net, net', ℓ', h1, h2, e1, e2, hR'⟩ := related_run st st' pk hcut h0 ω ω' (sweeps nx ny n) t t' _ _ ℓ hR hx hy
    (sweeps_range hx hy n) hd hf hf'
  rw [ctmrgDrawn_eq, ctmrgDrawn_eq]
  have e1 : net.nx = nx := e1
  have e2 : net.ny = ny := e2
  refine ⟨net, net', h1, h2, e1, e2, fun s hs => ?_, fun s hs k init init' => ?_⟩
  · obtain ⟨ρ, ρ', h1, h2, c, hc, e⟩ := site_read hR' (atLattice s)
    have es : cellSite net.nx net.ny (atLattice s) = s := cellSite_self _ _ s hs
    rw [es] at h1 h2
    refine ⟨ρ, ρ', h1, h2, c, hc, fun bra ket => ?_⟩
    rw [e, ← e1, ← e2, es, Fintype.sum_prod_type]
    rfl
  · obtain ⟨ρ, ρ', h1, h2, c, hc, e⟩ := bond_read hR' init init' (atLattice s) k
    have es : cellSite net.nx net.ny (atLattice s) = s := cellSite_self _ _ s hs
    have en : cellSite net.nx net.ny (atLattice s + dir k) = neighbour net.nx net.ny s k.val := by
      rw [← neighbour_cellSite _ _ (e1 ▸ hx) (e2 ▸ hy), es]
    rw [en, es] at h1 h2
    refine ⟨ρ, ρ', h1, h2, c, hc, fun b1 b2 k1 k2 => ?_⟩
    rw [e, ← e1, ← e2, es, en]
    congr 1
    simp only [Fintype.sum_prod_type, braKet, of_apply]
    refine Finset.sum_congr rfl fun c1 _ => ?_
    rw [Finset.sum_comm]
    refine Finset.sum_congr rfl fun c2 _ => Finset.sum_congr rfl fun j1 _ => Finset.sum_congr rfl fun j2 _ => ?_
    ring

end sweeps

/-! ### Measured values -/

theorem re_map (σ : ScalarMap 𝕜) (z : 𝕜) : RCLike.re (σ.f z) = RCLike.re z := by
  have h : σ.f (z + star z) = σ.f ((2 * RCLike.re z : ℝ) : 𝕜) := by
    congr 1
    rw [RCLike.star_def, RCLike.add_conj]
    push_cast
    rfl
  rw [map_add, σ.star, σ.real, RCLike.star_def, RCLike.add_conj] at h
  have h : 2 * RCLike.re (σ.f z) = 2 * RCLike.re z := by
    apply RCLike.ofReal_injective (K := 𝕜)
    push_cast at h ⊢
    exact h
  linarith

section values

variable {n : Type} [Fintype n] [DecidableEq n]

omit [DecidableEq n] in
theorem one_shuffle (U : Matrix n n 𝕜) (R op' : n → n → 𝕜) :
    ∑ bra, ∑ ket, (∑ b, ∑ k, star (U bra b) * U ket k * R b k) * op' ket bra =
      ∑ b, ∑ k, R b k * ∑ k', ∑ b', U k' k * op' k' b' * star (U b' b) := by
  einsum_ring

omit [DecidableEq n] in
theorem two_shuffle (U V : Matrix n n 𝕜) (R op' : n → n → n → n → 𝕜) :
    ∑ b1, ∑ b2, ∑ k1, ∑ k2, (∑ c1, ∑ c2, ∑ j1, ∑ j2, star (U b1 c1) * star (V b2 c2) * U k1 j1 * V k2 j2 * R c1 c2 j1 j2) * op' k1 k2 b1 b2 =
      ∑ c1, ∑ c2, ∑ j1, ∑ j2, R c1 c2 j1 j2 * ∑ k1, ∑ k2, ∑ b1, ∑ b2, U k1 j1 * V k2 j2 * op' k1 k2 b1 b2 * (star (U b1 c1) * star (V b2 c2)) := by
  einsum_ring

theorem trace_turn {U : Matrix n n 𝕜} (h : Unit2 U) (R : n → n → 𝕜) : ∑ p, ∑ b, ∑ k, star (U p b) * U p k * R b k = ∑ p, R p p := by
  rw [← unit_sum h R]
  einsum_ring

theorem trace_turn2 {U V : Matrix n n 𝕜} (h : Unit2 U) (h' : Unit2 V) (R : n → n → n → n → 𝕜) :
    ∑ p, ∑ q, ∑ b, ∑ b', ∑ k, ∑ k', star (U p b) * star (V q b') * U p k * V q k' * R b b' k k' = ∑ p, ∑ q, R p q p q := by
  calc _ = ∑ a, ∑ b, (∑ x, star (U x a) * U x b) * ∑ a', ∑ b', (∑ x, star (V x a') * V x b') * R a a' b b' := by einsum_ring
    _ = _ := by
      rw [unit_sum h]
      simp only [unit_sum h']

end values

/-- **C75 (values).** Equivalent networks give the same one-site and two-site values, each for its own form of the operator. -/
theorem C75_values {B : Type} [Fintype B] (σ : ScalarMap 𝕜) (U : Site → Matrix (Fin pD) (Fin pD) 𝕜) (hU : ∀ s, Unit2 (U s))
    (net net' : Net (Ten B (Fin pD) 𝕜)) (h : TurnedRdms σ U net net') (s : Site) (hs : InCell net.nx net.ny s) :
    (∃ ρ ρ', numSiteRdm net s = .ok ρ ∧ numSiteRdm net' s = .ok ρ' ∧
      ∀ op op', TurnedOp σ (U s) op op' → measureOneSite ρ' op' / siteNorm ρ' = measureOneSite ρ op / siteNorm ρ) ∧
    ∀ (k : Fin 4) init init', ∃ ρ ρ', numBondRdm init net ⟨s, neighbour net.nx net.ny s k.val, k.val⟩ = .ok ρ ∧
      numBondRdm init' net' ⟨s, neighbour net.nx net.ny s k.val, k.val⟩ = .ok ρ' ∧
      ∀ op op', TurnedOp2 σ (U s) (U (neighbour net.nx net.ny s k.val)) op op' →
        measureTwoSite ρ' op' / bondNorm ρ' = measureTwoSite ρ op / bondNorm ρ := by
  obtain ⟨hS, hB⟩ := h
  refine ⟨?_, fun k init init' => ?_⟩
  · obtain ⟨ρ, ρ', hρ, hρ', c, hc, e⟩ := hS s hs
    refine ⟨ρ, ρ', hρ, hρ', fun op op' hop => ?_⟩
    have e1 : measureOneSite ρ' op' = c * measureOneSite ρ op := by
      have := one_shuffle (U s) (fun b k => σ.f (ρ b k)) op'
      unfold measureOneSite
      simp only [e, mul_assoc (c : 𝕜), ← Finset.mul_sum, RCLike.re_ofReal_mul]
      rw [this, ← re_map σ (∑ b, ∑ k, ρ b k * op k b)]
      simp only [map_sum σ.f, map_mul σ.f, hop _ _]
    have e2 : siteNorm ρ' = c * siteNorm ρ := by
      have := trace_turn (hU s) (fun b k => σ.f (ρ b k))
      unfold siteNorm
      simp only [e, ← Finset.mul_sum, RCLike.re_ofReal_mul]
      rw [this, ← re_map σ (∑ p, ρ p p), map_sum σ.f]
    rw [e1, e2]
    exact mul_div_mul_left _ _ hc.ne'
  · obtain ⟨ρ, ρ', hρ, hρ', c, hc, e⟩ := hB s hs k init init'
    refine ⟨ρ, ρ', hρ, hρ', fun op op' hop => ?_⟩
    have e1 : measureTwoSite ρ' op' = c * measureTwoSite ρ op := by
      have := two_shuffle (U s) (U (neighbour net.nx net.ny s k.val)) (fun a b c d => σ.f (ρ a b c d)) op'
      unfold measureTwoSite
      simp only [e, mul_assoc (c : 𝕜), ← Finset.mul_sum, RCLike.re_ofReal_mul]
      rw [this, ← re_map σ (∑ b1, ∑ b2, ∑ k1, ∑ k2, ρ b1 b2 k1 k2 * op k1 k2 b1 b2)]
      simp only [map_sum σ.f, map_mul σ.f, hop _ _ _ _]
    have e2 : bondNorm ρ' = c * bondNorm ρ := by
      have := trace_turn2 (hU s) (hU (neighbour net.nx net.ny s k.val)) (fun a b c d => σ.f (ρ a b c d))
      unfold bondNorm
      simp only [e, ← Finset.mul_sum, RCLike.re_ofReal_mul]
      rw [this, ← re_map σ (∑ p, ∑ q, ρ p q p q)]
      simp only [map_sum σ.f]
    rw [e1, e2]
    exact mul_div_mul_left _ _ hc.ne'

/-- The hypotheses hold for every change of basis of a network of product sites. -/
example (g : BasisChange D pD 𝕜) (σ : ScalarMap 𝕜) (st st' : ProjSettings 𝕜) (pk : ProjKind) (hf : st.fullRank = true)
    (hf' : st'.fullRank = true) (hcut : st'.cutoff = st.cutoff) (h0 : 0 ≤ st.cutoff) (ω ω' : ℕ → Draws (Fin D) 𝕜)
    (n t t' nx ny chi : ℕ) (hx : 0 < nx) (hy : 0 < ny) (A : Site → ATensor (Fin D) (Fin pD) 𝕜) (hA : ∀ s, TenProd (.site (A s))) :
    ∃ A' net net', g.Equiv σ nx ny A A' ∧ ctmrgDrawn st pk ω t n (freshNet nx ny chi A) = .ok net ∧
      ctmrgDrawn st' pk ω' t' n (freshNet nx ny chi A') = .ok net' ∧ TurnedRdms σ g.U net net' := by
  have h : g.Equiv σ nx ny A fun s l u r d p => g.t s * ∑ l', ∑ u', ∑ r', ∑ d', ∑ p',
      g.X l l' * g.Y u u' * star (g.X r r') * star (g.Y d d') * g.U s p p' * σ.f (A s l' u' r' d' p') := fun s _ l u r d p => rfl
  obtain ⟨net, net', h1, h2, -, -, h3⟩ := C75_equivalent g σ nx ny chi hx hy A _ h st st' pk hcut h0 ω ω' n t t'
    ((factored_fresh _ _ _ _ hA).dropRun st h0 pk ω _ t) (svdRun_full hf pk ω _ t _) (svdRun_full hf' pk ω' _ t' _)
  exact ⟨_, net, net', h, h1, h2, h3⟩

/-- A change of basis: the bonds are turned, the physical index is flipped on one site. -/
noncomputable example : BasisChange 2 2 ℝ where
  X := !![3 / 5, 4 / 5; -4 / 5, 3 / 5]
  Y := 1
  U s := if s = (0, 0) then !![0, 1; 1, 0] else 1
  t _ := 2
  unitX := by
    constructor <;>
    · ext i j
      fin_cases i <;> fin_cases j <;> norm_num [Matrix.mul_apply, Fin.sum_univ_two, Matrix.conjTranspose_apply]
  unitY := by constructor <;> simp
  unitU s := by
    split_ifs
    · constructor <;>
      · ext i j
        fin_cases i <;> fin_cases j <;> norm_num [Matrix.mul_apply, Fin.sum_univ_two, Matrix.conjTranspose_apply]
    · constructor <;> simp
  pos _ := two_pos

/-- The operator that goes with it: every operator has a turned form. -/
example (σ : ScalarMap 𝕜) (op : Fin pD → Fin pD → 𝕜) : TurnedOp σ (1 : Matrix (Fin pD) (Fin pD) 𝕜) op fun p q => σ.f (op p q) := by
  intro p q
  simp [Matrix.one_apply]

end AceTN
