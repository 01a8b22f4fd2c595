import Verif.Model.Rdm
import Verif.Spec.Rdm
import Verif.Spec.Lattice
import Verif.Lemmas.SumTac
import Verif.Lemmas.Blocks
import Verif.Lemmas.Lattice

/-!
C46: density matrices are the contraction of the whole network.  C32: the blocked contraction.  C51: a bond looks the
same from both ends.  C29: the bond frame.
-/

set_option autoImplicit false

namespace AceTN

open SumTac

/-! ### C29 -/

section permute

variable {B P 𝕜 : Type}

theorem rotIdx_add (a b : ℤ) (i : Fin 4) : rotIdx a (rotIdx b i) = rotIdx (a + b) i := by
  apply Fin.ext; simp only [rotIdx]; omega

theorem rotIdx_zero (i : Fin 4) : rotIdx 0 i = i := by
  apply Fin.ext; simp only [rotIdx]; omega

theorem rotIdx_mod (a b : ℤ) (h : a % 4 = b % 4) : rotIdx a = rotIdx b := by
  funext i; apply Fin.ext; simp only [rotIdx]; omega

/-- Leg `i` of the result of the permutation is leg `(i+k)%4` of the argument: for every assignment `w` of indices to
the legs of the argument, reading the result at the indices `w ((i+k)%4)` gives the entry of the argument at `w`. -/
theorem C29_permute_spec (k : ℤ) (A : ATensor B P 𝕜) (w : Fin 4 → B) (p : P) :
    bondPermute k A (w (rotIdx k 0)) (w (rotIdx k 1)) (w (rotIdx k 2)) (w (rotIdx k 3)) p =
      A (w 0) (w 1) (w 2) (w 3) p := by
  have h : ∀ a : Fin 4, (![w (rotIdx k 0), w (rotIdx k 1), w (rotIdx k 2), w (rotIdx k 3)] : Fin 4 → B) (rotIdx (-k) a)
      = w a := by
    intro a
    have h2 : ∀ j : Fin 4, (![w (rotIdx k 0), w (rotIdx k 1), w (rotIdx k 2), w (rotIdx k 3)] : Fin 4 → B) j
        = w (rotIdx k j) := by
      intro j; fin_cases j <;> rfl
    rw [h2, rotIdx_add, add_neg_cancel, rotIdx_zero]
  unfold bondPermute
  simp only [h]

theorem bondPermute_mod (a b : ℤ) (h : a % 4 = b % 4) (A : ATensor B P 𝕜) : bondPermute a A = bondPermute b A := by
  unfold bondPermute
  rw [rotIdx_mod (-a) (-b) (by omega)]

theorem bondPermute_zero (A : ATensor B P 𝕜) : bondPermute 0 A = A := rfl
theorem bondPermute_one (A : ATensor B P 𝕜) : bondPermute 1 A = fun l u r d p => A d l u r p := rfl
theorem bondPermute_two (A : ATensor B P 𝕜) : bondPermute 2 A = fun l u r d p => A r d l u p := rfl
theorem bondPermute_three (A : ATensor B P 𝕜) : bondPermute 3 A = fun l u r d p => A u r d l p := rfl

theorem bondPermute_add (a b : ℤ) (A : ATensor B P 𝕜) : bondPermute a (bondPermute b A) = bondPermute (b + a) A := by
  rw [bondPermute_mod a (a % 4) (by omega), bondPermute_mod b (b % 4) (by omega),
    bondPermute_mod (b + a) (b % 4 + a % 4) (by omega)]
  have h1 : a % 4 = 0 ∨ a % 4 = 1 ∨ a % 4 = 2 ∨ a % 4 = 3 := by omega
  have h2 : b % 4 = 0 ∨ b % 4 = 1 ∨ b % 4 = 2 ∨ b % 4 = 3 := by omega
  rcases h1 with h1 | h1 | h1 | h1 <;> rcases h2 with h2 | h2 | h2 | h2 <;> rw [h1, h2] <;> rfl

/-- **C29** (round trip).  Permuting by `k` and then by `4-k` is the identity, for every integer `k`. -/
theorem C29_round_trip (k : ℤ) (A : ATensor B P 𝕜) : bondPermute (4 - k) (bondPermute k A) = A := by
  rw [bondPermute_add, bondPermute_mod _ 0 (by omega), bondPermute_zero]

/-- **C29** (the other round trip). -/
theorem C29_round_trip' (k : ℤ) (A : ATensor B P 𝕜) : bondPermute k (bondPermute (4 - k) A) = A := by
  rw [bondPermute_add, bondPermute_mod _ 0 (by omega), bondPermute_zero]

/-- **C29** (bond frame).  For every bond of a lattice the second site is the neighbour of the first in direction `k`.
The leg of the first site's tensor towards it (leg `k`) is the left leg in the bond frame, and the leg of the second
site's tensor towards the first (the leg opposite to `k`) is the right leg. -/
theorem C29_bond_frame (nx ny : ℕ) (b : Bond) (hb : b ∈ buildBondList nx ny) (A : ATensor B P 𝕜)
    (w : Fin 4 → B) (p : P) :
    b.s2 = Spec.neighbour nx ny b.s1 b.k ∧
    (∃ u r d, bondPermute b.k A (w (Fin.ofNat 4 b.k)) u r d p = A (w 0) (w 1) (w 2) (w 3) p) ∧
    (∃ l u d, bondPermute b.k A l u (w (Fin.ofNat 4 (Spec.opposite b.k))) d p = A (w 0) (w 1) (w 2) (w 3) p) := by
  rcases List.mem_append.1 hb with hb | hb
  · simp only [horizontalBonds, List.mem_flatMap, List.mem_map, List.mem_range] at hb
    obtain ⟨x, hx, y, hy, rfl⟩ := hb
    refine ⟨?_, ⟨w 3, w 0, w 1, rfl⟩, ⟨w 2, w 3, w 1, rfl⟩⟩
    simp only [Spec.neighbour]; congr 1
  · simp only [verticalBonds, List.mem_flatMap, List.mem_map, List.mem_range] at hb
    obtain ⟨y, hy, x, hx, rfl⟩ := hb
    refine ⟨?_, ⟨w 2, w 3, w 0, rfl⟩, ⟨w 1, w 2, w 0, rfl⟩⟩
    simp only [Spec.neighbour]; congr 1

/-- The hypothesis is met by the bonds of a 2 by 2 cell. -/
example : (⟨(0, 1), (0, 0), 1⟩ : Bond) ∈ buildBondList 2 2 := by decide

end permute

/-! ### C46 -/

variable {𝕜 : Type} [RCLike 𝕜]

section site

variable {L U R D P : Type} [Fintype L] [Fintype U] [Fintype R] [Fintype D]
variable {x0 x1 x2 x3 x4 x5 x6 x7 : Type} [Fintype x0] [Fintype x1] [Fintype x2] [Fintype x3]
  [Fintype x4] [Fintype x5] [Fintype x6] [Fintype x7]

/-- **C46** (site).  For all dimensions and tensors the contraction sequence of the code is the full network sum. -/
theorem C46_site_core (C0 : x0 → x1 → 𝕜) (E0 : x1 → x2 → U → U → 𝕜) (C1 : x2 → x3 → 𝕜)
    (E1 : x3 → x4 → R → R → 𝕜) (C2 : x4 → x5 → 𝕜) (E2 : x5 → x6 → D → D → 𝕜) (C3 : x6 → x7 → 𝕜)
    (E3 : x7 → x0 → L → L → 𝕜) (a : L → U → R → D → P → 𝕜) :
    siteRdmCore C0 E0 C1 E1 C2 E2 C3 E3 a = Spec.siteRdm C0 E0 C1 E1 C2 E2 C3 E3 a := by
  funext bra ket
  unfold siteRdmCore Spec.siteRdm
  einsum_ring

end site

section bond

variable {L1 U1 R1 D1 P : Type} [Fintype L1] [Fintype U1] [Fintype R1] [Fintype D1]
variable {L2 U2 D2 Q : Type} [Fintype L2] [Fintype U2] [Fintype D2]
variable {y0 y1 y2 y3 y4 y5 y6 y7 y8 y9 : Type} [Fintype y0] [Fintype y1] [Fintype y2] [Fintype y3]
  [Fintype y4] [Fintype y5] [Fintype y6] [Fintype y7] [Fintype y8] [Fintype y9]

/-- **C46** (bond).  For all dimensions and tensors the contraction sequence of the code is the full network sum. -/
theorem C46_bond_core (c12 : y2 → y3 → 𝕜) (e12 : y3 → y4 → R1 → R1 → 𝕜) (e11 : y1 → y2 → U1 → U1 → 𝕜)
    (c13 : y4 → y5 → 𝕜) (e13 : y5 → y6 → D1 → D1 → 𝕜) (a1 : L1 → U1 → R1 → D1 → P → 𝕜)
    (c21 : y9 → y0 → 𝕜) (e21 : y0 → y1 → U2 → U2 → 𝕜) (e24 : y8 → y9 → L2 → L2 → 𝕜)
    (c24 : y7 → y8 → 𝕜) (e23 : y6 → y7 → D2 → D2 → 𝕜) (a2 : L2 → U2 → L1 → D2 → Q → 𝕜) :
    bondRdmCore c12 e12 e11 c13 e13 a1 c21 e21 e24 c24 e23 a2 =
      Spec.bondRdm c12 e12 e11 c13 e13 a1 c21 e21 e24 c24 e23 a2 := by
  funext bra1 bra2 ket1 ket2
  unfold bondRdmCore Spec.bondRdm
  einsum_ring

/-- **C32** (bond density matrix).  The blocked contraction returns what the unblocked one returns, for every physical
dimension and whatever the uninitialised output tensor held. -/
theorem C32_bond_rdm {pD : ℕ} (init : Fin pD → Fin pD → Fin pD → Fin pD → 𝕜)
    (c12 : y2 → y3 → 𝕜) (e12 : y3 → y4 → R1 → R1 → 𝕜) (e11 : y1 → y2 → U1 → U1 → 𝕜)
    (c13 : y4 → y5 → 𝕜) (e13 : y5 → y6 → D1 → D1 → 𝕜) (a1 : L1 → U1 → R1 → D1 → Fin pD → 𝕜)
    (c21 : y9 → y0 → 𝕜) (e21 : y0 → y1 → U2 → U2 → 𝕜) (e24 : y8 → y9 → L2 → L2 → 𝕜)
    (c24 : y7 → y8 → 𝕜) (e23 : y6 → y7 → D2 → D2 → 𝕜) (a2 : L2 → U2 → L1 → D2 → Fin pD → 𝕜) :
    bondRdmCoreBlocked init c12 e12 e11 c13 e13 a1 c21 e21 e24 c24 e23 a2 =
      bondRdmCore c12 e12 e11 c13 e13 a1 c21 e21 e24 c24 e23 a2 :=
  foldl_blocks 1 Nat.one_pos (bondRdmCore c12 e12 e11 c13 e13 a1 c21 e21 e24 c24 e23 a2) init

end bond

section network

variable {B X : Type} [Fintype B] [Fintype X]

/-- **C46** (site, network).  The density matrix of a site is the sum over all indices of the product of the site
tensor, its conjugate, and the eight boundary tensors of the site. -/
theorem C46_site {P : Type} (ipeps : NetT B P X 𝕜) (s : Site) :
    buildSiteRdm ipeps s = Spec.siteRdm ((ipeps s).C 0) ((ipeps s).E 0) ((ipeps s).C 1) ((ipeps s).E 1)
      ((ipeps s).C 2) ((ipeps s).E 2) ((ipeps s).C 3) ((ipeps s).E 3) (ipeps s).A :=
  C46_site_core _ _ _ _ _ _ _ _ _

/-- **C46** (bond, network).  For a bond in direction `k`, in the frame in which direction `k` points left: the outer
boundary of the second (left) site is its corners `k`, `k+3` and edges `k`, `k+3`, `k+2`, that of the first (right) site
its corners `k+1`, `k+2` and edges `k`, `k+1`, `k+2`. -/
theorem C46_bond {pD : ℕ} (init : Fin pD → Fin pD → Fin pD → Fin pD → 𝕜) (ipeps : NetT B (Fin pD) X 𝕜)
    (s1 s2 : Site) (k : ℤ) :
    buildBondRdm init ipeps s1 s2 k =
      Spec.bondRdm ((ipeps s1).C (rotIdx k 1)) ((ipeps s1).E (rotIdx k 1)) ((ipeps s1).E (rotIdx k 0))
        ((ipeps s1).C (rotIdx k 2)) ((ipeps s1).E (rotIdx k 2)) (bondPermute k (ipeps s1).A)
        ((ipeps s2).C (rotIdx k 0)) ((ipeps s2).E (rotIdx k 0)) ((ipeps s2).E (rotIdx k 3))
        ((ipeps s2).C (rotIdx k 3)) ((ipeps s2).E (rotIdx k 2)) (bondPermute k (ipeps s2).A) := by
  unfold buildBondRdm
  rw [C32_bond_rdm, C46_bond_core]

/-- **C51**.  The bond density matrix seen from the first site in direction `k` is the one seen from the second site in
the opposite direction with the roles of the sites exchanged, for every network, pair of sites and direction. -/
theorem C51_bond_symmetric {pD : ℕ} (init init' : Fin pD → Fin pD → Fin pD → Fin pD → 𝕜)
    (ipeps : NetT B (Fin pD) X 𝕜) (s1 s2 : Site) (k : ℤ) (P Q p q : Fin pD) :
    buildBondRdm init ipeps s1 s2 k P Q p q = buildBondRdm init' ipeps s2 s1 (k + 2) Q P q p := by
  rw [C46_bond, C46_bond]
  have h1 : ∀ i, rotIdx (k + 2) i = rotIdx k (rotIdx 2 i) := fun i => by rw [rotIdx_add]
  have h2 : ∀ s, bondPermute (k + 2) (ipeps s).A = bondPermute 2 (bondPermute k (ipeps s).A) := fun s => by
    rw [bondPermute_add]
  simp only [h1, h2]
  rw [show rotIdx 2 0 = 2 from rfl, show rotIdx 2 1 = 3 from rfl, show rotIdx 2 2 = 0 from rfl,
    show rotIdx 2 3 = 1 from rfl, bondPermute_two, bondPermute_two]
  generalize bondPermute k (ipeps s1).A = a1
  generalize bondPermute k (ipeps s2).A = a2
  generalize (ipeps s1).C (rotIdx k 1) = c12
  generalize (ipeps s1).C (rotIdx k 2) = c13
  generalize (ipeps s1).E (rotIdx k 0) = e11
  generalize (ipeps s1).E (rotIdx k 1) = e12
  generalize (ipeps s1).E (rotIdx k 2) = e13
  generalize (ipeps s2).C (rotIdx k 0) = c21
  generalize (ipeps s2).C (rotIdx k 3) = c24
  generalize (ipeps s2).E (rotIdx k 0) = e21
  generalize (ipeps s2).E (rotIdx k 3) = e24
  generalize (ipeps s2).E (rotIdx k 2) = e23
  unfold Spec.bondRdm
  einsum_ring

end network

end AceTN
