import Verif.Model.ProcessGroup

/-! C54: the life of the process group.  C64: the set-up of a distributed process. -/

set_option autoImplicit false

namespace AceTN.PG
open Cfg (Device Val)

/-- C54: after any history, using an object that is alive does not raise. -/
def Spec.GroupLives (e : Env) : Prop :=
  ∀ (ops : List Op) (i : ℕ) (f : Bool), let s := run e ops {}
    (i, f) ∈ s.objs → (∀ g, (i, g) ∈ s.objs → g = f) → (step e s (.use i)).2 = none

/-- Two processes with enough processors. -/
def twoRanks : Env := ⟨some (0, 2), 8, 0⟩

/-- C54 fails: destroying one `Ipeps` destroys the group the other one uses. -/
theorem C54_violated : ¬ Spec.GroupLives twoRanks := by
  intro h
  have := h [.new 0 (.device ⟨"cpu", none⟩) false, .new 1 (.device ⟨"cpu", none⟩) false, .del 1] 0 true
    (by decide) (by decide)
  exact absurd this (by decide)

/-- C54 fails also without destroying anything by hand: a constructor that raises after the set-up takes the group of
the live object with it. -/
theorem C54_violated_failed_construction :
    ∃ ops : List Op, (∀ o ∈ ops, ∀ i, o ≠ .del i) ∧ (0, true) ∈ (run twoRanks ops {}).objs ∧
      (step twoRanks (run twoRanks ops {}) (.use 0)).2 ≠ none :=
  ⟨[.new 0 (.device ⟨"cpu", none⟩) false, .new 1 (.device ⟨"cpu", none⟩) true], by simp, by decide, by decide⟩

/-- Does the operation take the group down (if it succeeds in a distributed process)? -/
def Op.kills : Op → Bool
  | .del _ => true
  | .new _ _ late => late
  | .use _ => false

theorem setup_ok {e : Env} {d : Val} {g : Group} {r : Group × ℕ × ℕ × Val × Bool}
    (h : setupDistributed e d g = .ok r) :
    r.2.2.2.2 = e.distributed ∧ (e.distributed = true → r.1.init = true) ∧ (e.distributed = false → r.1 = g) := by
  unfold setupDistributed at h
  unfold Env.distributed
  split at h
  · next rank ws he =>
    split at h
    · next hws =>
      cases hd : deviceCount e d with
      | error err => rw [hd] at h; cases h
      | ok n =>
        rw [hd] at h
        simp only [bind, Except.bind] at h
        split at h
        · cases h
        · have := Except.ok.inj h
          subst this
          refine ⟨by simp [hws], fun _ => ?_, fun hf => by simp [hws] at hf⟩
          simp only [setupProcessGroup]
          split
          · split
            · split <;> rfl
            · rfl
          · next hx => simp only [hws, true_and] at hx; simpa using hx
    · next hws =>
      have := Except.ok.inj h
      subst this
      exact ⟨by simp [hws], fun hf => by simp [hws] at hf, fun _ => rfl⟩
  · next he =>
    have := Except.ok.inj h
    subst this
    exact ⟨rfl, fun hf => absurd hf (by decide), fun _ => rfl⟩

/-- The flag of every live object says whether the process is distributed. -/
theorem flags (e : Env) (ops : List Op) (s : St) (hs : ∀ o ∈ s.objs, o.2 = e.distributed) :
    ∀ o ∈ (run e ops s).objs, o.2 = e.distributed := by
  induction ops generalizing s with
  | nil => exact hs
  | cons op ops ih =>
    refine ih (step e s op).1 ?_
    cases op with
    | new i d late =>
      simp only [step]
      split
      · exact hs
      · next init _ _ _ flag h =>
        split
        · unfold destroy finalizeDistributed
          split <;> exact hs
        · intro o ho
          rcases List.mem_append.1 ho with ho | ho
          · exact hs o ho
          · rw [List.mem_singleton.1 ho]; exact (setup_ok h).1
    | del i =>
      simp only [step]
      split
      · unfold destroy finalizeDistributed
        split <;> exact fun o ho => hs o (List.mem_filter.1 ho).1
      · exact hs
    | use i =>
      simp only [step]
      split <;> exact hs

theorem run_no_kill (e : Env) (ops : List Op) (s : St) (hs : s.init = true ∨ e.distributed = false)
    (hk : ∀ o ∈ ops, o.kills = false) : (run e ops s).init = true ∨ e.distributed = false := by
  induction ops generalizing s with
  | nil => exact hs
  | cons op ops ih =>
    refine ih (step e s op).1 ?_ fun o ho => hk o (List.mem_cons_of_mem _ ho)
    have hop := hk op (List.mem_cons_self ..)
    rcases hs with hs | hs
    swap
    · exact Or.inr hs
    cases hd : e.distributed with
    | false => exact Or.inr rfl
    | true =>
      left
      cases op with
      | new i d late =>
        simp only [step]
        split
        · exact hs
        · next init _ _ _ flag h =>
          have hl : late = false := hop
          rw [hl]
          simpa using (setup_ok h).2.1 hd
      | del i => cases hop
      | use i => simp only [step]; split <;> exact hs

/-- C54, what holds: after a construction that succeeded, as long as no object is destroyed and no constructor fails
late, every live object can communicate, however many objects are created (including failing set-ups).
Missing: histories with a destruction after the last construction (false, above). -/
theorem C54_alive_partial (e : Env) (before after : List Op) (i : ℕ) (d : Val)
    (hok : (step e (run e before {}) (.new i d false)).2 = none) (hk : ∀ o ∈ after, o.kills = false) (j : ℕ)
    (hj : j ∈ (run e (before ++ .new i d false :: after) {}).objs.map Prod.fst) :
    (step e (run e (before ++ .new i d false :: after) {}) (.use j)).2 = none := by
  have hrun : run e (before ++ .new i d false :: after) {}
      = run e after (step e (run e before {}) (.new i d false)).1 := by
    simp [run, List.foldl_append]
  have hinit : (step e (run e before {}) (.new i d false)).1.init = true ∨ e.distributed = false := by
    cases hd : e.distributed with
    | false => exact Or.inr rfl
    | true =>
      left
      simp only [step] at hok ⊢
      split at hok
      · cases hok
      · next init _ _ _ flag h => simpa using (setup_ok h).2.1 hd
  have hfin := run_no_kill e after _ hinit hk
  rw [← hrun] at hfin
  have hfl := flags e (before ++ .new i d false :: after) {} (by simp)
  simp only [step]
  obtain ⟨o, ho, rfl⟩ := List.mem_map.1 hj
  split
  · next o' hf =>
    have := hfl o' (List.mem_of_find?_eq_some hf)
    rcases hfin with h | h
    · simp [h]
    · simp [this, h]
  · next hf =>
    have := List.find?_eq_none.1 hf o ho
    simp at this

/-- C54, what holds: in a process that is not distributed nothing of this matters. -/
theorem C54_serial_partial (e : Env) (he : e.distributed = false) (ops : List Op) (j : ℕ)
    (hj : j ∈ (run e ops {}).objs.map Prod.fst) : (step e (run e ops {}) (.use j)).2 = none := by
  have hfl := flags e ops {} (by simp)
  simp only [step]
  obtain ⟨o, ho, rfl⟩ := List.mem_map.1 hj
  split
  · next o' hf => simp [hfl o' (List.mem_of_find?_eq_some hf), he]
  · next hf =>
    have := List.find?_eq_none.1 hf o ho
    simp at this

/-- C54, what holds: a construction rejected by the set-up (too few devices, unsupported device) leaves the group and all
objects alone. -/
theorem C54_rejected_construction_partial (e : Env) (s : St) (i : ℕ) (d : Val) (late : Bool) (err : PyErr)
    (h : setupDistributed e d s.toGroup = .error err) : step e s (.new i d late) = (s, some err) := by
  simp only [step, h]

example : (step twoRanks {} (.new 0 (.device ⟨"cpu", none⟩) false)).2 = none := by decide
example : setupDistributed twoRanks (.device ⟨"cuda", none⟩) ⟨true, 0⟩ = .error .runtimeError := rfl
example : (⟨none, 8, 0⟩ : Env).distributed = false := rfl

/-! ## C64 -/

/-- **C64 (acceptance).** A launch with several processes is accepted exactly on a bare `cpu` or `cuda` device with at least
as many devices as processes, and the process is then told the rank and world size of its environment; too few devices
are a `RuntimeError`, other devices a `NotImplementedError`.  A launch without processes or with one is accepted on every
device and changes nothing. -/
theorem C64_accepts (e : Env) (dev : Device) (g : Group) :
    (∀ rank ws, e.launch = some (rank, ws) → 1 < ws →
      (dev = ⟨"cpu", none⟩ ∧ ws ≤ e.cpuCount ∨ dev = ⟨"cuda", none⟩ ∧ ws ≤ e.cudaCount →
        ∃ g' v, setupDistributed e (.device dev) g = .ok (g', rank, ws, v, true) ∧ g'.init = true) ∧
      (dev = ⟨"cpu", none⟩ ∧ e.cpuCount < ws ∨ dev = ⟨"cuda", none⟩ ∧ e.cudaCount < ws →
        setupDistributed e (.device dev) g = .error .runtimeError) ∧
      (dev ≠ ⟨"cpu", none⟩ → dev ≠ ⟨"cuda", none⟩ → setupDistributed e (.device dev) g = .error .notImplementedError)) ∧
    ((∀ rank ws, e.launch = some (rank, ws) → ws ≤ 1) → ∀ d, setupDistributed e d g = .ok (g, 0, 1, d, false)) := by
  have hcc : (⟨"cuda", none⟩ : Device) ≠ ⟨"cpu", none⟩ := by decide
  refine ⟨fun rank ws hl hws => ⟨?_, ?_, ?_⟩, fun h d => ?_⟩
  · intro h
    have hd : ∃ n, deviceCount e (.device dev) = .ok n ∧ ¬ n < ws := by
      rcases h with ⟨rfl, h⟩ | ⟨rfl, h⟩
      · exact ⟨e.cpuCount, by simp [deviceCount], by omega⟩
      · exact ⟨e.cudaCount, by simp [deviceCount, hcc], by omega⟩
    obtain ⟨n, hn, hlt⟩ := hd
    have he : setupDistributed e (.device dev) g = .ok ((setupProcessGroup rank ws (.device dev) g).1, rank, ws,
        (setupProcessGroup rank ws (.device dev) g).2, true) := by
      simp [setupDistributed, hl, hws, hn, hlt, bind, Except.bind]
    refine ⟨_, _, he, (setup_ok he).2.1 ?_⟩
    simp [Env.distributed, hl, hws]
  · intro h
    have hd : ∃ n, deviceCount e (.device dev) = .ok n ∧ n < ws := by
      rcases h with ⟨rfl, h⟩ | ⟨rfl, h⟩
      · exact ⟨e.cpuCount, by simp [deviceCount], h⟩
      · exact ⟨e.cudaCount, by simp [deviceCount, hcc], h⟩
    obtain ⟨n, hn, hlt⟩ := hd
    simp [setupDistributed, hl, hws, hn, hlt, bind, Except.bind]
  · intro h1 h2
    simp [setupDistributed, hl, hws, deviceCount, h1, h2, bind, Except.bind]
  · unfold setupDistributed
    split
    · next rank ws hl => rw [if_neg (by have := h rank ws hl; omega)]
    · rfl

/-- The GPU a device stands for. -/
def Spec.gpu (v : Val) (g : Group) : Option ℤ :=
  match v with
  | .int r => some r
  | .device d => if d = ⟨"cuda", none⟩ then some g.cuda else none
  | _ => none

/-- The intended statement: an object made on the device `cuda` at any point of any history works on the GPU with the
number of the process, so that no two processes of a machine share one. -/
def Spec.OwnGpu (allowed : Op → Prop) : Prop :=
  ∀ (e : Env) (rank ws : ℕ), e.launch = some (rank, ws) → 1 < ws → ∀ ops : List Op, (∀ o ∈ ops, allowed o) →
    ∀ r, setupDistributed e (.device ⟨"cuda", none⟩) (run e ops {}).toGroup = .ok r → gpu r.2.2.2.1 r.1 = some (rank : ℤ)

/-- **C64 (violated).** If the first object of the process is on the CPU, the process joins the group without selecting its
GPU, and a later object on `cuda` ends up on GPU 0 in every process. -/
theorem C64_violated : ¬ Spec.OwnGpu fun _ => True := by
  intro h
  have h1 := h ⟨some (1, 2), 8, 2⟩ 1 2 rfl (by decide) [.new 0 (.device ⟨"cpu", none⟩) false] (fun _ _ => trivial)
    (⟨true, 0⟩, 1, 2, .device ⟨"cuda", none⟩, true) rfl
  exact absurd h1 (by decide)

/-- **C64 (partial).** In a process that only makes objects on GPUs, with any number of constructions, failures and
destructions, every object works on the GPU of its process.  Missing: processes that also make objects on the CPU (false,
above). -/
theorem C64_own_gpu_partial : Spec.OwnGpu fun o => ∀ i late, o ≠ .new i (.device ⟨"cpu", none⟩) late := by
  intro e rank ws hl hws ops hops r hr
  have setup : ∀ (d : Val) (g : Group) r, d ≠ .device ⟨"cpu", none⟩ → (g.init = true → g.cuda = rank) →
      setupDistributed e d g = .ok r → r.1.cuda = rank := by
    intro d g r hd hg h
    simp only [setupDistributed, hl, hws, if_true] at h
    cases hn : deviceCount e d with
    | error err => rw [hn] at h; cases h
    | ok n =>
      rw [hn] at h
      simp only [bind, Except.bind] at h
      split at h
      · cases h
      · have := Except.ok.inj h
        subst this
        simp only [setupProcessGroup]
        split
        · split
          · next dd =>
            rw [if_pos (fun h => hd (by rw [h]))]
          · rfl
        · next hx => exact hg (by simpa [hws] using hx)
  have inv : ∀ (ops : List Op) (s : St), (∀ o ∈ ops, ∀ i late, o ≠ .new i (.device ⟨"cpu", none⟩) late) →
      (s.init = true → s.cuda = rank) → (run e ops s).init = true → (run e ops s).cuda = rank := by
    intro ops
    induction ops with
    | nil => intro s _ hs; exact hs
    | cons op ops ih =>
      intro s ho hs
      refine ih (step e s op).1 (fun o h => ho o (List.mem_cons_of_mem _ h)) ?_
      have hop := ho op (List.mem_cons_self ..)
      cases op with
      | new i d late =>
        simp only [step]
        split
        · exact hs
        · next g _ _ _ flag h =>
          have := setup d s.toGroup _ (fun hd => hop i late (by rw [hd])) hs h
          split
          · unfold destroy finalizeDistributed
            split
            · exact fun _ => this
            · exact fun _ => this
          · exact fun _ => this
      | del i =>
        simp only [step]
        split
        · unfold destroy finalizeDistributed
          split
          · intro hf; cases hf
          · exact hs
        · exact hs
      | use i => simp only [step]; split <;> exact hs
  have hg := inv ops {} hops (fun h => by cases h)
  have hc := setup _ _ r (by simp) hg hr
  simp only [setupDistributed, hl, hws, if_true] at hr
  cases hn : deviceCount e (.device ⟨"cuda", none⟩) with
  | error err => rw [hn] at hr; cases hr
  | ok n =>
    rw [hn] at hr
    simp only [bind, Except.bind] at hr
    split at hr
    · cases hr
    · have := Except.ok.inj hr
      subst this
      dsimp only at hc ⊢
      revert hc
      simp only [setupProcessGroup]
      split
      · intro _
        rw [if_pos (by decide)]
        rfl
      · intro hc
        simp only [Spec.gpu, if_true]
        rw [hc]

/-- Non-vacuity: the second of two objects on GPUs, in the process of rank 1. -/
example : ∃ r, setupDistributed ⟨some (1, 2), 8, 2⟩ (.device ⟨"cuda", none⟩)
    (run ⟨some (1, 2), 8, 2⟩ [.new 0 (.device ⟨"cuda", none⟩) false] {}).toGroup = .ok r ∧ Spec.gpu r.2.2.2.1 r.1 = some 1 :=
  ⟨_, rfl, by decide⟩

end AceTN.PG
