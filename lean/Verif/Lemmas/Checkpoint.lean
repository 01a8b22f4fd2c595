import Verif.Model.Checkpoint
import Verif.Props.Session

/-! Commands keep the tensors of an object and of the files fitting together. -/

set_option autoImplicit false
set_option linter.unusedSectionVars false

namespace AceTN.Session

open _root_.AceTN.Spec

variable {𝕜 F : Type} [RCLike 𝕜] {bD pD nx ny N : ℕ} [NeZero bD] [NeZero pD]

/-- A process whose object and whose files have tensors that fit together, for the same lattice. -/
def SoundShell (nx ny : ℕ) (w : Shell F bD pD 𝕜) : Prop :=
  Sound nx ny w.obj ∧ ∀ f saved, w.disk f = some saved → FitNet nx ny saved

/-- Nets of the same lattice with the same tensors. -/
def SameTensors (nx ny : ℕ) (net net' : Net (Ten (Fin bD) (Fin pD) 𝕜)) : Prop :=
  ∀ x, InCell nx ny x → net'.A x = net.A x ∧ net'.B x = net.B x

theorem loadNet_same {saved : Net (Ten (Fin bD) (Fin pD) 𝕜)} (h : FitNet nx ny saved) (net : Net (Ten (Fin bD) (Fin pD) 𝕜)) :
    SameTensors nx ny saved (loadNet saved net) := by
  obtain ⟨rfl, rfl, -⟩ := h
  exact fun x hx => ⟨if_pos (mem_buildSiteList.2 hx), if_pos (mem_buildSiteList.2 hx)⟩

theorem loadNet_fit {saved net : Net (Ten (Fin bD) (Fin pD) 𝕜)} (h : FitNet nx ny saved) (hn : FitNet nx ny net) : FitNet nx ny (loadNet saved net) := by
  have hs := loadNet_same h net
  obtain ⟨rfl, rfl, f, hw⟩ := h
  obtain ⟨e1, e2, -⟩ := hn
  have e1' : (loadNet saved net).nx = saved.nx := e1
  have e2' : (loadNet saved net).ny = saved.ny := e2
  refine ⟨e1, e2, f, fun x hx => ?_, fun x hx k hk => ?_, fun x hx k hk => ?_⟩
  · rw [e1', e2'] at hx
    rw [(hs x hx).1]
    exact hw.site x hx
  · rw [e1', e2'] at hx
    rw [(hs x hx).2, e1', e2']
    exact hw.corner x hx k hk
  · rw [e1', e2'] at hx
    rw [(hs x hx).2, e1', e2']
    exact hw.edge x hx k hk

theorem loadNet_self (net : Net (Ten (Fin bD) (Fin pD) 𝕜)) : loadNet net net = net := by
  unfold loadNet
  simp only [ite_self]

/-- What `save` does. -/
theorem save_eq (w : Shell F bD pD 𝕜) (f : String) :
    w.save f = ({ w with
      obj := { w.obj with initialized := true }
      disk := fun g => if g = f then some w.obj.net else w.disk g }, none) := by
  unfold Shell.save Shell.load
  dsimp only
  rw [if_pos rfl]
  dsimp only
  rw [loadNet_self]

theorem SoundShell.save {w : Shell F bD pD 𝕜} (h : SoundShell nx ny w) (f : String) : SoundShell nx ny (w.save f).1 := by
  rw [save_eq]
  refine ⟨h.1, fun g saved hg => ?_⟩
  dsimp only at hg
  split at hg
  · cases hg
    exact h.1.1
  · exact h.2 g saved hg

theorem SoundShell.load {w : Shell F bD pD 𝕜} (h : SoundShell nx ny w) (f : String) : SoundShell nx ny (w.load f).1 := by
  unfold Shell.load
  cases hf : w.disk f with
  | none => exact h
  | some saved => exact ⟨⟨loadNet_fit (h.2 f saved hf) h.1.1, h.1.2⟩, h.2⟩

theorem SoundShell.exec (hx : 0 < nx) (hy : 0 < ny) {w : Shell F bD pD 𝕜} (h : SoundShell nx ny w) (c : Command F bD pD 𝕜) :
    SoundShell nx ny (w.exec c).1 := by
  cases c with
  | call c => exact ⟨exec_sound hx hy w.machine w.obj h.1 c, h.2⟩
  | save f => exact h.save f
  | load f => exact h.load f
  | restart M chi A =>
    refine ⟨?_, h.2⟩
    show Sound nx ny (new w.obj.net.nx w.obj.net.ny chi A)
    obtain ⟨e1, e2, -⟩ := h.1.1
    rw [e1, e2]
    exact new_sound hx hy chi A

theorem SoundShell.start (hx : 0 < nx) (hy : 0 < ny) (M : Machine F bD 𝕜) (chi : ℕ) (A : Site → ATensor (Fin bD) (Fin pD) 𝕜) :
    SoundShell nx ny (Shell.start nx ny M chi A) :=
  ⟨new_sound hx hy chi A, fun _ _ h => by cases h⟩

theorem SoundShell.runCatching (hx : 0 < nx) (hy : 0 < ny) {w : Shell F bD pD 𝕜} (h : SoundShell nx ny w) (cs : List (Command F bD pD 𝕜)) :
    SoundShell nx ny (Shell.runCatching cs w) := by
  induction cs generalizing w with
  | nil => exact h
  | cons c cs ih => exact ih (h.exec hx hy c)

/-- Density matrices are those of the tensors of the cell. -/
theorem SameTensors.site {net net' : Net (Ten (Fin bD) (Fin pD) 𝕜)} (h : SameTensors nx ny net net') {x : Site} (hx : InCell nx ny x) :
    numSiteRdm net' x = numSiteRdm net x := by
  unfold numSiteRdm
  rw [(h x hx).1, (h x hx).2]

theorem SameTensors.bond {net net' : Net (Ten (Fin bD) (Fin pD) 𝕜)} (h : SameTensors nx ny net net') {b : Bond} (hb : b ∈ buildBondList nx ny)
    (init : Fin pD → Fin pD → Fin pD → Fin pD → 𝕜) : numBondRdm init net' b = numBondRdm init net b := by
  obtain ⟨c1, c2⟩ := C02_bond_ends_in_cell nx ny b hb
  rw [mem_buildSiteList] at c1 c2
  unfold numBondRdm
  rw [(h _ c1).1, (h _ c1).2, (h _ c2).1, (h _ c2).2]

theorem SameTensors.state {net net' : Net (Ten (Fin bD) (Fin pD) 𝕜)} (h : SameTensors nx ny net net') (σ : Bond → Equiv.Perm (Fin N)) :
    latticeState (nx := nx) (ny := ny) σ (siteTensors (bare net')) = latticeState σ (siteTensors (bare net)) := by
  unfold latticeState
  congr 1
  funext v
  exact bare_congr (h _ ⟨v.2.1.isLt, v.2.2.isLt⟩).1

end AceTN.Session
