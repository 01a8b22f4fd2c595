import Verif.Model.Gather
import Mathlib.Tactic.Linarith

/-! C92: the exchange of projectors works on the devices which the set-up accepts. -/

set_option autoImplicit false

namespace AceTN.PG
open Cfg (Device Val)

variable {V : Type}

/-- The environment of rank `r` out of `ws`. -/
def rankEnv (cpuCount cudaCount ws r : ℕ) : Env := ⟨some (r, ws), cpuCount, cudaCount⟩

/-- The ranks have been set up for the device `d`, having been in the states `g`, and make tensors at `place`. -/
def SetUp (cpuCount cudaCount ws : ℕ) (d : Val) (g : ℕ → Group) (place : ℕ → Place) : Prop :=
  ∀ r < ws, ∃ g' d', setupDistributed (rankEnv cpuCount cudaCount ws r) d (g r) = .ok (g', r, ws, d', true) ∧
    placeOf g' d' = place r

/-- Every rank receives, in the order of the ranks, the projectors that the ranks have sent. -/
def Spec.Received (ws : ℕ) (p1 p2 : ℕ → DevT V) (out : ℕ → List (DevT V × DevT V)) : Prop :=
  ∀ r < ws, ∀ i < 2 * (ws / 2), ∃ q, (out r)[i]? = some q ∧
    q.1.data = (p1 i).data ∧ q.1.shape = (p1 i).shape ∧ q.1.place = (p1 r).place ∧
    q.2.data = (p2 i).data ∧ q.2.shape = (p2 i).shape ∧ q.2.place = (p2 r).place

/-- C92: once the processes have been set up, the exchange of projectors works, whatever the shapes of the projectors. -/
def Spec.ExchangeWorks (cpuCount cudaCount ws : ℕ) (d : Val) : Prop :=
  ∀ (place : ℕ → Place), SetUp cpuCount cudaCount ws d (fun _ => {}) place →
    ∀ p1 p2 : ℕ → DevT ℕ,
      (∀ r < ws, (p1 r).place = place r ∧ (p2 r).place = place r ∧ (p1 r).shape.length = 4 ∧ (p2 r).shape.length = 4) →
      ∃ out, exchange cudaCount ws p1 p2 = .ok out ∧ Spec.Received ws p1 p2 out

theorem eachRank_ok {α : Type} (dflt : α) (f : ℕ → Except PyErr α) (x : ℕ → α) (n : ℕ) (h : ∀ r < n, f r = .ok (x r)) :
    ∃ xs, eachRank dflt f n = .ok xs ∧ ∀ r < n, xs r = x r := by
  induction n with
  | zero => exact ⟨_, rfl, by simp⟩
  | succ n ih =>
    obtain ⟨xs, hx, hxs⟩ := ih fun r hr => h r (by omega)
    refine ⟨Function.update xs n (x n), ?_, fun r hr => ?_⟩
    · simp only [eachRank, hx, h n (by omega), bind, Except.bind, pure, Except.pure]
    · rcases Nat.lt_succ_iff_lt_or_eq.1 hr with h' | rfl
      · rw [Function.update_of_ne (by omega), hxs r h']
      · rw [Function.update_self]

theorem eachRank_error {α : Type} (dflt : α) (f : ℕ → Except PyErr α) (n : ℕ) (e : PyErr) (h : ∀ r < n, f r = .error e)
    (hn : 0 < n) : eachRank dflt f n = .error e := by
  induction n with
  | zero => omega
  | succ n ih =>
    rcases Nat.eq_zero_or_pos n with rfl | h0
    · simp only [eachRank, h 0 (by omega), bind, Except.bind]
    · simp only [eachRank, ih (fun r hr => h r (by omega)) h0, bind, Except.bind]

theorem mapM_ok {α β : Type} (f : α → Except PyErr β) (g : α → β) (l : List α) (h : ∀ a ∈ l, f a = .ok (g a)) :
    l.mapM f = .ok (l.map g) := by
  induction l with
  | nil => rfl
  | cons a l ih =>
    rw [List.mapM_cons, h a (by simp), ih fun b hb => h b (by simp [hb])]
    rfl

theorem collGather_ok {b : Backend} {ws : ℕ} {bufs : ℕ → List (Place × List ℕ)} {t : ℕ → DevT V} (hs : b.serves ws t)
    (hb : ∀ r < ws, bufs r = (List.range ws).map (fun i => ((t r).place, (t i).shape))) :
    collGather b ws bufs t = .ok fun r => (List.range ws).map fun i => ⟨(t r).place, (t i).shape, (t i).data⟩ := by
  unfold collGather
  rw [if_pos ⟨hs, hb⟩]

theorem collGather_error {b : Backend} {ws : ℕ} {bufs : ℕ → List (Place × List ℕ)} {t : ℕ → DevT V}
    (hs : ¬ b.serves ws t) : collGather b ws bufs t = .error .runtimeError := by
  unfold collGather
  rw [if_neg fun h => hs h.1]

/-- Gathering tensors of four legs on GPUs, rank `r` on GPU `r`. -/
theorem allGatherTensor_cuda (cudaCount ws : ℕ) (hc : ws ≤ cudaCount) (h0 : 0 < ws) (t : ℕ → DevT V)
    (hp : ∀ r < ws, (t r).place = .cuda r) (hl : ∀ r < ws, (t r).shape.length = 4) :
    allGatherTensor cudaCount ws t =
      .ok fun r => (List.range ws).map fun i => ⟨(t r).place, (t i).shape, (t i).data⟩ := by
  have hbk : backendOf cudaCount = .nccl := by unfold backendOf; rw [if_pos (by omega)]
  have hsv : Backend.serves .nccl ws t := ⟨id, hp, fun _ _ _ _ h => h⟩
  have h1 := collGather_ok (b := .nccl) (ws := ws) (bufs := fun r => List.replicate ws ((t r).place, [4]))
    (t := fun r => (⟨(t r).place, [(t r).shape.length], (t r).shape⟩ : DevT (List ℕ)))
    ⟨id, hp, fun _ _ _ _ h => h⟩ (by
      intro r hr
      refine List.ext_getElem (by simp) fun i hi hi' => ?_
      have hi2 : i < ws := by simpa using hi
      simp [hl i hi2])
  obtain ⟨bufs, hb, hbs⟩ := eachRank_ok [] (fun rank => ((List.range ws).map fun i =>
      (⟨(t rank).place, [(t i).shape.length], (t i).shape⟩ : DevT (List ℕ))).mapM fun s => do
        let s ← toRank cudaCount rank s
        return ((t rank).place, s.data))
    (fun rank => ((List.range ws).map fun i =>
      (⟨(t rank).place, [(t i).shape.length], (t i).shape⟩ : DevT (List ℕ))).map fun s => ((t rank).place, s.data)) ws (by
      intro r hr
      refine mapM_ok _ _ _ fun s _ => ?_
      simp only [toRank, if_pos (show r < cudaCount by omega), bind, Except.bind, pure, Except.pure])
  unfold allGatherTensor
  rw [hbk, h1]
  simp only [bind, Except.bind] at hb ⊢
  rw [hb]
  refine collGather_ok hsv fun r hr => ?_
  rw [hbs r hr, List.map_map]
  rfl

/-- The exchange on GPUs. -/
theorem exchange_cuda (cudaCount ws : ℕ) (hc : ws ≤ cudaCount) (h0 : 0 < ws) (p1 p2 : ℕ → DevT V)
    (h1 : ∀ r < ws, (p1 r).place = .cuda r) (h2 : ∀ r < ws, (p2 r).place = .cuda r)
    (l1 : ∀ r < ws, (p1 r).shape.length = 4) (l2 : ∀ r < ws, (p2 r).shape.length = 4) :
    ∃ out, exchange cudaCount ws p1 p2 = .ok out ∧ Spec.Received ws p1 p2 out := by
  have e1 := allGatherTensor_cuda cudaCount ws hc h0 p1 h1 l1
  have e2 := allGatherTensor_cuda cudaCount ws hc h0 p2 h2 l2
  obtain ⟨out, ho, hos⟩ := eachRank_ok [] (fun rank =>
      ((((List.range ws).map fun i => (⟨(p1 rank).place, (p1 i).shape, (p1 i).data⟩ : DevT V)).zip
        ((List.range ws).map fun i => (⟨(p2 rank).place, (p2 i).shape, (p2 i).data⟩ : DevT V))).take (2 * (ws / 2))).mapM
        fun p => do
          let a ← toRank cudaCount rank p.1
          let b ← toRank cudaCount rank p.2
          return (a, b))
    (fun rank =>
      ((((List.range ws).map fun i => (⟨(p1 rank).place, (p1 i).shape, (p1 i).data⟩ : DevT V)).zip
        ((List.range ws).map fun i => (⟨(p2 rank).place, (p2 i).shape, (p2 i).data⟩ : DevT V))).take (2 * (ws / 2))).map
        fun p => ({ p.1 with place := .cuda rank }, { p.2 with place := .cuda rank })) ws (by
      intro r hr
      refine mapM_ok _ _ _ fun s _ => ?_
      simp only [toRank, if_pos (show r < cudaCount by omega), bind, Except.bind, pure, Except.pure])
  refine ⟨out, ?_, fun r hr i hi => ?_⟩
  · unfold exchange
    rw [e1, e2]
    exact ho
  · have hiw : i < ws := by omega
    rw [hos r hr]
    refine ⟨({ place := .cuda r, shape := (p1 i).shape, data := (p1 i).data },
      { place := .cuda r, shape := (p2 i).shape, data := (p2 i).data }), ?_, rfl, rfl, (h1 r hr).symm, rfl, rfl,
      (h2 r hr).symm⟩
    rw [List.getElem?_map, List.getElem?_take_of_lt hi]
    simp [hiw, List.zip]

/-- A process set up from nothing for `cuda` works on the GPU of its rank; there are enough GPUs. -/
theorem setUp_cuda {cpuCount cudaCount ws : ℕ} (hws : 1 < ws) {place : ℕ → Place}
    (h : SetUp cpuCount cudaCount ws (.device ⟨"cuda", none⟩) (fun _ => {}) place) :
    ws ≤ cudaCount ∧ ∀ r < ws, place r = .cuda r := by
  have key : ∀ r < ws, ws ≤ cudaCount ∧ place r = .cuda r := by
    intro r hr
    obtain ⟨g', d', hs, hpl⟩ := h r hr
    have hdc : deviceCount (rankEnv cpuCount cudaCount ws r) (.device ⟨"cuda", none⟩) = .ok cudaCount := by
      simp [deviceCount, rankEnv]
    unfold setupDistributed at hs
    simp only [rankEnv, if_pos hws] at hs
    rw [show (⟨some (r, ws), cpuCount, cudaCount⟩ : Env) = rankEnv cpuCount cudaCount ws r from rfl, hdc] at hs
    simp only [bind, Except.bind] at hs
    split at hs
    · cases hs
    · next hn =>
      refine ⟨by omega, ?_⟩
      simp only [setupProcessGroup, hws, true_and, if_true] at hs
      simp only [ne_eq, Device.mk.injEq, and_true] at hs
      rw [if_pos (by decide)] at hs
      simp only [Except.ok.injEq, Prod.mk.injEq, true_and, and_true] at hs
      rw [← hpl, ← hs.1, ← hs.2]
      rfl
  exact ⟨(key 0 (by omega)).1, fun r hr => (key r hr).2⟩

/-- C92 for `cuda`: on any number of ranks, with any shapes of the projectors (also different ones), every rank gets the
projectors of all ranks, on its own GPU. -/
theorem C92_cuda_partial (cpuCount cudaCount ws : ℕ) (hws : 1 < ws) :
    Spec.ExchangeWorks cpuCount cudaCount ws (.device ⟨"cuda", none⟩) := by
  intro place h p1 p2 hp
  obtain ⟨hc, hpl⟩ := setUp_cuda hws h
  exact exchange_cuda cudaCount ws hc (by omega) p1 p2 (fun r hr => by rw [(hp r hr).1, hpl r hr])
    (fun r hr => by rw [(hp r hr).2.1, hpl r hr]) (fun r hr => (hp r hr).2.2.1) (fun r hr => (hp r hr).2.2.2)

/-- The hypothesis can be met: four ranks on four GPUs. -/
example : SetUp 8 4 4 (.device ⟨"cuda", none⟩) (fun _ => {}) (fun r => .cuda r) := by
  intro r hr
  exact ⟨⟨true, r⟩, .int r, rfl, rfl⟩

/-- In a process in which all objects are made for `cuda`, whatever is constructed (successfully or not) and destroyed,
an initialised process group comes with the GPU of the rank. -/
theorem run_cuda {cpuCount cudaCount ws r : ℕ} (ops : List Op)
    (ho : ∀ i d late, Op.new i d late ∈ ops → d = .device ⟨"cuda", none⟩) (s : St) (hs : s.init = true → s.cuda = r) :
    (run (rankEnv cpuCount cudaCount ws r) ops s).init = true →
      (run (rankEnv cpuCount cudaCount ws r) ops s).cuda = r := by
  induction ops generalizing s with
  | nil => exact hs
  | cons o ops ih =>
    refine ih (fun i d late h => ho i d late (List.mem_cons_of_mem _ h)) _ ?_
    match o with
    | .new i d late =>
      obtain rfl := ho i d late List.mem_cons_self
      have hdc : deviceCount (rankEnv cpuCount cudaCount ws r) (.device ⟨"cuda", none⟩) = .ok cudaCount := by
        simp [deviceCount, rankEnv]
      have key : ∀ g rk w d' flag, setupDistributed (rankEnv cpuCount cudaCount ws r) (.device ⟨"cuda", none⟩) s.toGroup =
          .ok (g, rk, w, d', flag) → g.init = true → g.cuda = r := by
        intro g rk w d' flag h
        unfold setupDistributed at h
        simp only [rankEnv] at h
        rw [show (⟨some (r, ws), cpuCount, cudaCount⟩ : Env) = rankEnv cpuCount cudaCount ws r from rfl, hdc] at h
        simp only [bind, Except.bind] at h
        split at h
        · split at h
          · cases h
          · simp only [Except.ok.injEq, Prod.mk.injEq] at h
            rw [← h.1]
            unfold setupProcessGroup
            split
            · exact fun _ => rfl
            · exact hs
        · simp only [Except.ok.injEq, Prod.mk.injEq] at h
          rw [← h.1]
          exact hs
      simp only [step]
      split
      · exact hs
      · next g rk w d' flag e =>
        have hk := key g rk w d' flag e
        split
        · unfold destroy finalizeDistributed
          split
          · intro h; cases h
          · exact hk
        · exact hk
    | .del i =>
      simp only [step]
      split
      · unfold destroy finalizeDistributed
        split
        · intro h; cases h
        · exact hs
      · exact hs
    | .use i =>
      simp only [step]
      split <;> exact hs

/-- C92 for `cuda`, for objects constructed later in the same processes: after any history of constructions for `cuda`,
destructions and uses, in which the processes may have different parts, a further object that can be set up works too. -/
theorem C92_cuda_later_partial (cpuCount cudaCount ws : ℕ) (hws : 1 < ws) (ops : ℕ → List Op)
    (ho : ∀ r i d late, Op.new i d late ∈ ops r → d = .device ⟨"cuda", none⟩) (place : ℕ → Place)
    (h : SetUp cpuCount cudaCount ws (.device ⟨"cuda", none⟩)
      (fun r => (run (rankEnv cpuCount cudaCount ws r) (ops r) {}).toGroup) place)
    (p1 p2 : ℕ → DevT V)
    (hp : ∀ r < ws, (p1 r).place = place r ∧ (p2 r).place = place r ∧ (p1 r).shape.length = 4 ∧ (p2 r).shape.length = 4) :
    (∀ r < ws, place r = .cuda r) ∧ ∃ out, exchange cudaCount ws p1 p2 = .ok out ∧ Spec.Received ws p1 p2 out := by
  have key : ∀ r < ws, ws ≤ cudaCount ∧ place r = .cuda r := by
    intro r hr
    obtain ⟨g', d', hs, hpl⟩ := h r hr
    have hc := run_cuda (cpuCount := cpuCount) (cudaCount := cudaCount) (ws := ws) (r := r) (ops r) (ho r) {}
      (by intro h; cases h)
    dsimp only at hs
    generalize run (rankEnv cpuCount cudaCount ws r) (ops r) {} = g at hs hc
    have hdc : deviceCount (rankEnv cpuCount cudaCount ws r) (.device ⟨"cuda", none⟩) = .ok cudaCount := by
      simp [deviceCount, rankEnv]
    unfold setupDistributed at hs
    simp only [rankEnv, if_pos hws] at hs
    rw [show (⟨some (r, ws), cpuCount, cudaCount⟩ : Env) = rankEnv cpuCount cudaCount ws r from rfl, hdc] at hs
    simp only [bind, Except.bind] at hs
    split at hs
    · cases hs
    · next hn =>
      refine ⟨by omega, ?_⟩
      simp only [Except.ok.injEq, Prod.mk.injEq, true_and, and_true] at hs
      rw [← hpl, ← hs.1, ← hs.2]
      unfold setupProcessGroup
      split
      · rfl
      · next hi =>
        have : g.init = true := by
          rcases hb : g.init with _ | _
          · exact absurd ⟨hws, hb⟩ hi
          · rfl
        simp [placeOf, hc this]
  refine ⟨fun r hr => (key r hr).2, ?_⟩
  exact exchange_cuda cudaCount ws (key 0 (by omega)).1 (by omega) p1 p2 (fun r hr => by rw [(hp r hr).1, (key r hr).2])
    (fun r hr => by rw [(hp r hr).2.1, (key r hr).2]) (fun r hr => (hp r hr).2.2.1) (fun r hr => (hp r hr).2.2.2)

/-- The hypotheses can be met: a second object besides a first one, on four GPUs. -/
example : SetUp 8 4 4 (.device ⟨"cuda", none⟩)
    (fun r => (run (rankEnv 8 4 4 r) [.new 0 (.device ⟨"cuda", none⟩) false] {}).toGroup) (fun r => .cuda r) := by
  intro r _
  exact ⟨⟨true, r⟩, .device ⟨"cuda", none⟩, rfl, rfl⟩

/-- The set-up accepts `cpu` with as many ranks as there are processors, with and without GPUs in the machine. -/
theorem C92_cpu_accepted (cpuCount cudaCount ws : ℕ) (hws : 1 < ws) (hc : ws ≤ cpuCount) :
    SetUp cpuCount cudaCount ws (.device ⟨"cpu", none⟩) (fun _ => {}) (fun _ => .cpu) := by
  intro r hr
  refine ⟨⟨true, 0⟩, .device ⟨"cpu", none⟩, ?_, rfl⟩
  have hdc : deviceCount (rankEnv cpuCount cudaCount ws r) (.device ⟨"cpu", none⟩) = .ok cpuCount := by
    simp [deviceCount, rankEnv]
  unfold setupDistributed
  simp only [rankEnv, if_pos hws]
  rw [show (⟨some (r, ws), cpuCount, cudaCount⟩ : Env) = rankEnv cpuCount cudaCount ws r from rfl, hdc]
  simp [bind, Except.bind, setupProcessGroup, hws, Nat.not_lt.2 hc]

/-- With tensors in main memory `all_gather_tensor` raises on every machine: without GPUs because the shapes are taken to a
GPU, with GPUs because the backend is nccl. -/
theorem allGatherTensor_cpu (cudaCount ws : ℕ) (h0 : 0 < ws) (t : ℕ → DevT V) (hp : ∀ r < ws, (t r).place = .cpu) :
    allGatherTensor cudaCount ws t = .error .runtimeError := by
  unfold allGatherTensor
  rcases Nat.eq_zero_or_pos cudaCount with rfl | hc
  · cases h : collGather (backendOf 0) ws (fun r => List.replicate ws ((t r).place, [4]))
      (fun r => (⟨(t r).place, [(t r).shape.length], (t r).shape⟩ : DevT (List ℕ))) with
    | error e =>
      unfold collGather at h
      split at h
      · cases h
      · simp only [Except.error.injEq] at h
        subst h
        rfl
    | ok shapes =>
      have hlen : ∀ r, shapes r ≠ [] := by
        unfold collGather at h
        split at h
        · simp only [Except.ok.injEq] at h
          subst h
          intro r
          simpa using by omega
        · cases h
      have : eachRank [] (fun rank => (shapes rank).mapM fun s => do
          let s ← toRank 0 rank s
          return ((t rank).place, s.data)) ws = .error .runtimeError := by
        refine eachRank_error _ _ _ _ (fun r _ => ?_) h0
        obtain ⟨a, l, hal⟩ := List.exists_cons_of_ne_nil (hlen r)
        rw [hal, List.mapM_cons]
        rfl
      simp only [bind, Except.bind] at this ⊢
      rw [this]
  · have hbk : backendOf cudaCount = .nccl := by unfold backendOf; rw [if_pos hc]
    rw [hbk, collGather_error]
    · rfl
    · rintro ⟨gpu, h, -⟩
      have := h 0 h0
      simp only [hp 0 h0] at this
      cases this

/-- C92, what happens on `cpu`: no exchange of projectors ever succeeds, on any machine, with any number of ranks, for any
projectors. -/
theorem C92_cpu_raises (cudaCount ws : ℕ) (h0 : 0 < ws) (p1 p2 : ℕ → DevT V) (hp : ∀ r < ws, (p1 r).place = .cpu) :
    exchange cudaCount ws p1 p2 = .error .runtimeError := by
  unfold exchange
  rw [allGatherTensor_cpu cudaCount ws h0 p1 hp]
  rfl

/-- C92 fails on `cpu`: for every machine and every number of ranks the set-up accepts, the exchange does not work. -/
theorem C92_violated_cpu (cpuCount cudaCount ws : ℕ) (hws : 1 < ws) (hc : ws ≤ cpuCount) :
    ¬ Spec.ExchangeWorks cpuCount cudaCount ws (.device ⟨"cpu", none⟩) := by
  intro h
  obtain ⟨out, ho, -⟩ := h _ (C92_cpu_accepted cpuCount cudaCount ws hws hc) (fun _ => ⟨.cpu, [1, 1, 1, 1], 0⟩)
    (fun _ => ⟨.cpu, [1, 1, 1, 1], 0⟩) (fun r _ => ⟨rfl, rfl, rfl, rfl⟩)
  rw [C92_cpu_raises cudaCount ws (by omega) _ _ fun _ _ => rfl] at ho
  cases ho

/-- C92 fails for a second `Ipeps` on `cuda` if the first one was on `cpu`: the set-up accepts it, all ranks work on GPU 0,
and the exchange raises. -/
theorem C92_violated_after_cpu (cpuCount cudaCount ws : ℕ) (hws : 1 < ws) (hc : ws ≤ cpuCount) (hg : ws ≤ cudaCount)
    (p1 p2 : ℕ → DevT V) (hp : ∀ r < ws, (p1 r).place = .cuda 0) :
    (∃ g : ℕ → Group,
      (∀ r < ws, setupDistributed (rankEnv cpuCount cudaCount ws r) (.device ⟨"cpu", none⟩) {} =
        .ok (g r, r, ws, .device ⟨"cpu", none⟩, true)) ∧
      SetUp cpuCount cudaCount ws (.device ⟨"cuda", none⟩) g (fun _ => .cuda 0)) ∧
    exchange cudaCount ws p1 p2 = .error .runtimeError := by
  refine ⟨⟨fun _ => ⟨true, 0⟩, fun r _ => ?_, fun r _ => ⟨⟨true, 0⟩, .device ⟨"cuda", none⟩, ?_, rfl⟩⟩, ?_⟩
  · have hdc : deviceCount (rankEnv cpuCount cudaCount ws r) (.device ⟨"cpu", none⟩) = .ok cpuCount := by
      simp [deviceCount, rankEnv]
    unfold setupDistributed
    simp only [rankEnv, if_pos hws]
    rw [show (⟨some (r, ws), cpuCount, cudaCount⟩ : Env) = rankEnv cpuCount cudaCount ws r from rfl, hdc]
    simp [bind, Except.bind, setupProcessGroup, hws, Nat.not_lt.2 hc]
  · have hdc : deviceCount (rankEnv cpuCount cudaCount ws r) (.device ⟨"cuda", none⟩) = .ok cudaCount := by
      simp [deviceCount, rankEnv]
    unfold setupDistributed
    simp only [rankEnv, if_pos hws]
    rw [show (⟨some (r, ws), cpuCount, cudaCount⟩ : Env) = rankEnv cpuCount cudaCount ws r from rfl, hdc]
    simp [bind, Except.bind, setupProcessGroup, Nat.not_lt.2 hg]
  · unfold exchange allGatherTensor
    have hbk : backendOf cudaCount = .nccl := by unfold backendOf; rw [if_pos (by omega)]
    rw [hbk, collGather_error]
    · rfl
    · rintro ⟨gpu, h, hi⟩
      have h0 := h 0 (by omega)
      have h1 := h 1 hws
      simp only [hp 0 (by omega), hp 1 hws, Place.cuda.injEq] at h0 h1
      exact absurd (hi 0 (by omega) 1 hws (by rw [← h0, ← h1])) (by decide)

end AceTN.PG
