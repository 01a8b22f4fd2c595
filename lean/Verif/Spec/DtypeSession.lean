import Verif.Spec.Dtype
import Verif.Model.Session

/-!
A session, its arguments and the observables converted to another dtype.
-/

set_option autoImplicit false

namespace AceTN.Spec

open Session

variable {𝕜 𝕜' F : Type} [RCLike 𝕜] [RCLike 𝕜'] (φ : 𝕜 →⋆ₐ[ℝ] 𝕜') {bD pD : ℕ} [NeZero bD] [NeZero pD]

/-- The tensors of all sites converted. -/
def mapSiteTensors (A : Site → ATensor (Fin bD) (Fin pD) 𝕜) : Site → ATensor (Fin bD) (Fin pD) 𝕜' := fun s l u r d p => φ (A s l u r d p)

/-- A converted `Ipeps` object. -/
def mapState (s : State bD pD 𝕜) : State bD pD 𝕜' where
  net := mapNet (mapTen φ) s.net
  bonds := s.bonds
  initialized := s.initialized
  moves := s.moves

/-- Converted arguments of `evolve`. -/
def mapEvolution (e : Evolution bD pD 𝕜) : Evolution bD pD 𝕜' where
  dtau := e.dtau
  steps := e.steps
  model := mapTerms φ e.model
  start := mapSiteTensors φ e.start

/-- A converted call. -/
def mapCall : Call F bD pD 𝕜 → Call F bD pD 𝕜'
  | .setChi chi => .setChi chi
  | .renormalize c => .renormalize c
  | .evolve c e => .evolve c (mapEvolution φ e)

/-- Converted observables. -/
def mapObservables (m : MeasModel (Fin pD → Fin pD → 𝕜) (Fin pD → Fin pD → Fin pD → Fin pD → 𝕜)) :
    MeasModel (Fin pD → Fin pD → 𝕜') (Fin pD → Fin pD → Fin pD → Fin pD → 𝕜') where
  one_site_observables s := (m.one_site_observables s).map fun o => (o.1, fun p q => φ (o.2 p q))
  two_site_observables b := (m.two_site_observables b).map fun o => (o.1, fun p q r s => φ (o.2 p q r s))
  one_site_hamiltonian s := (m.one_site_hamiltonian s).map fun o p q => φ (o p q)
  two_site_hamiltonian b := fun p q r s => φ (m.two_site_hamiltonian b p q r s)

/-- A process for the other dtype: its library returns on converted matrices what the other one returns on the matrices, and it draws the
same random numbers.  Its dtype may be complex. -/
structure MachineFollows (M : Machine F bD 𝕜) (M' : Machine F bD 𝕜') : Prop where
  la : LibraryFollows φ M.la M'.la
  fo : M'.fo = M.fo
  rep : M'.rep = M.rep
  ω : M'.ω = fun t => mapDraws φ (M.ω t)

/-- Not an evolution with the simple update. -/
def NotSimple : Call F bD pD 𝕜 → Prop
  | .evolve c _ => c.strings.updateType ≠ "simple"
  | _ => True

end AceTN.Spec
