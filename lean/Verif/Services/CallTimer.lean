import Verif.Common
import Verif.Trace

/-!
# The timer with a thread of its own

`src/cpp/Utilities/CallbackTimer.{h,cpp}`.  One thread (the caller) uses the timer, the other one (the worker) is started by
it.  Each access to a member under a mutex is one step; the steps of the two threads may come in any order, each with the
time of the clock in nanoseconds.  Calls from several threads or from within the callback are not modelled.  The destructor is
`KillTimer` followed by waiting until the worker has ended.
-/

namespace Verif.CallTimer

open Verif

/-- CallbackTimer.h 83-90: `enTimerCommands`. -/
inductive Cmd where
  | none | kill | cancel | reset | extend
deriving DecidableEq, Repr

/-- CallbackTimer.h 92-97: `enReturnValue`, without the value that is never used. -/
inductive Ret where
  | normal | cancel
deriving DecidableEq, Repr

/-- Where the worker is in `CallbackTimerExecutitve`, `CallbackTimer.cpp` 108-172. -/
inductive Pc where
  /-- before line 113 -/
  | boot
  /-- at the head of the loop, line 115 -/
  | head
  /-- at line 117 -/
  | clock
  /-- at line 120, with `timeElapsed_msec` -/
  | read (elapsed : Int)
  /-- at line 131 -/
  | cancelled
  /-- at line 126 or 132 -/
  | stop
  /-- at line 137 -/
  | reset
  /-- at line 142, with `timeElapsed_msec` -/
  | extend (elapsed : Int)
  /-- at line 128, 134 or 139 -/
  | clear
  /-- at line 150 -/
  | clearExtend
  /-- at line 151 -/
  | clearArg
  /-- at line 157 -/
  | expire
  /-- at line 158 -/
  | expired
deriving DecidableEq, Repr

/-- CallbackTimer.cpp 110-113: the variables of the worker. -/
structure Worker where
  /-- the callback function -/
  cb : Int
  /-- `timeOut_msec` -/
  timeout : Int
  /-- `start` -/
  start : Int
  pc : Pc
deriving DecidableEq, Repr

/-- CallbackTimer.cpp 56-108: what the caller has still to do in its call. -/
inductive Rest where
  /-- nothing: no call -/
  | idle
  /-- `set_currentCommand` -/
  | command (c : Cmd)
  /-- `set_commandArgument_1` and `set_currentCommand` in `ExtendTime`, lines 68-69 -/
  | argument (a : Int)
  /-- `ExtendTime` in `StartCallbackTimer`, line 93 -/
  | extend (a : Int)
  /-- lines 97-104 -/
  | join (t cb : Int)
  /-- line 105 -/
  | launch (t cb : Int)
  /-- line 106 -/
  | spawn (t cb : Int)
deriving DecidableEq, Repr

/-- CallbackTimer.h 123-137: the calls of the user. -/
inductive Call where
  | reset
  | extend (a : Int)
  | cancel
  | kill
  | start (t cb : Int)
deriving DecidableEq, Repr

/-- CallbackTimer.h 206-221: the members of the timer, with what the two threads have
still to do. -/
structure St where
  periodic : Bool
  /-- `_isThreadRunning` -/
  running : Bool := false
  /-- `_currentCommand` -/
  cmd : Cmd := .none
  /-- `_commandArgument_1` -/
  arg : Int := 0
  /-- the worker, while it has not ended -/
  worker : Option Worker := none
  caller : Rest := .idle
deriving DecidableEq, Repr

/-- Not in the code: what may happen next: the two threads run in any order. -/
inductive Ev where
  /-- the caller makes a call and does its first step; ignored while another call lasts -/
  | call (c : Call)
  /-- the caller's next step -/
  | caller
  /-- the worker's next step -/
  | worker
deriving DecidableEq, Repr

/-- Not in the code: something that happens, with the reading of the clock in nanoseconds.
-/
structure In where
  now : Int
  ev : Ev
deriving DecidableEq, Repr

/-- Not in the code: what can be observed of the timer. -/
inductive Out where
  /-- a worker was started -/
  | started (now t cb : Int)
  /-- the callback was called -/
  | callback (now cb : Int) (r : Ret)
deriving DecidableEq, Repr

/-- CallbackTimer.h 130: the value of a `uint32_t`. -/
def w32 (n : Int) : Int := n % 4294967296

/-- The first step of a call: the test of `_isThreadRunning`, lines 58, 66, 75, 83, 91.  The argument of `ExtendTime` is a
`uint32_t`. -/
def first (running : Bool) : Call → Rest
  | .reset => if running then .command .reset else .idle
  | .extend a => if running then .argument (w32 a) else .idle
  | .cancel => if running then .command .cancel else .idle
  | .kill => if running then .command .kill else .idle
  | .start t cb => if running then .extend (w32 t) else .join t cb

/-- The further steps of a call.  The `KillTimer` of line 97 finds the timer not running: only the caller sets it to
running. -/
def St.callerStep (s : St) (now : Int) : St × List Out :=
  match s.caller with
  | .idle => (s, [])
  | .command c => ({ s with cmd := c, caller := .idle }, [])
  | .argument a => ({ s with arg := a, caller := .command .extend }, [])
  | .extend a => ({ s with caller := if s.running then .argument a else .idle }, [])
  | .join t cb => (if s.worker.isNone then { s with caller := .launch t cb } else s, [])
  | .launch t cb => ({ s with running := true, caller := .spawn t cb }, [])
  | .spawn t cb => ({ s with worker := some ⟨cb, t, 0, .boot⟩, caller := .idle }, [.started now t cb])

/-- CallbackTimer.cpp 110-171: the steps of the worker. -/
def St.workerStep (s : St) (w : Worker) (now : Int) : St × List Out :=
  match w.pc with
  | .boot => ({ s with worker := some { w with start := now, pc := .head } }, [])
  | .head => ({ s with worker := if s.running then some { w with pc := .clock } else none }, [])
  | .clock =>
    let e := (now - w.start).tdiv 1000000
    ({ s with worker := some { w with pc := if e < w.timeout then .read e else .expire } }, [])
  | .read e =>
    let pc := match s.cmd with
      | .none => Pc.head
      | .kill => .stop
      | .cancel => .cancelled
      | .reset => .reset
      | .extend => .extend e
    ({ s with worker := some { w with pc := pc } }, [])
  | .cancelled => ({ s with worker := some { w with pc := .stop } }, [.callback now w.cb .cancel])
  | .stop => ({ s with running := false, worker := some { w with pc := .clear } }, [])
  | .reset => ({ s with worker := some { w with start := now, pc := .clear } }, [])
  | .extend e =>
    ({ s with worker := some (if w.timeout - e < s.arg then { w with start := now, timeout := s.arg, pc := .clearExtend }
        else { w with pc := .clearExtend }) }, [])
  | .clear => ({ s with cmd := .none, worker := some { w with pc := .head } }, [])
  | .clearExtend => ({ s with cmd := .none, worker := some { w with pc := .clearArg } }, [])
  | .clearArg => ({ s with arg := 0, worker := some { w with pc := .head } }, [])
  | .expire => ({ s with worker := some { w with pc := .expired } }, [.callback now w.cb .normal])
  | .expired =>
    (if s.periodic then { s with worker := some { w with start := now, pc := .head } }
      else { s with running := false, worker := some { w with pc := .head } }, [])

/-- CallbackTimer.cpp 56-171: one step of either thread. -/
def step (s : St) (i : In) : St × List Out :=
  match i.ev with
  | .call c =>
    match s.caller with
    | .idle => ({ s with caller := first s.running c }, [])
    | _ => (s, [])
  | .caller => s.callerStep i.now
  | .worker =>
    match s.worker with
    | some w => s.workerStep w i.now
    | none => (s, [])

/-- Not in the code: the state after a history, from the one of the constructor,
CallbackTimer.cpp 38-42. -/
abbrev after (p : Bool) (h : List In) : St := (runM step { periodic := p } h).1

/-- Not in the code: what happened in a history. -/
abbrev trace (p : Bool) (h : List In) : List Out := (runM step { periodic := p } h).2.flatten

/-- Specification: the clock does not go back. -/
def Mono (h : List In) : Prop := (h.map In.now).Pairwise (· ≤ ·)

theorem after_snoc (p : Bool) (h : List In) (i : In) : after p (h ++ [i]) = (step (after p h) i).1 := by
  rw [after, runM_snoc]

theorem trace_snoc (p : Bool) (h : List In) (i : In) : trace p (h ++ [i]) = trace p h ++ (step (after p h) i).2 := by
  rw [trace, runM_snoc]; simp

/-- Specification: a millisecond. -/
def ms (t : Int) : Int := t * 1000000

/-- For the proofs: the worker cannot call the callback any more. -/
def Dead (s : St) (w : Worker) : Prop :=
  w.pc = .stop ∨ (s.running = false ∧ (w.pc = .clear ∨ w.pc = .head)) ∨ (w.pc = .expired ∧ s.periodic = false)

/-- For the proofs: what is known of a worker: `τ`, `t` are the time and the duration of
its start, `b` what happened since. -/
structure WInv (h : List In) (s : St) (w : Worker) (τ t : Int) (b : List Out) : Prop where
  own : ∀ o ∈ b, ∃ n r, o = .callback n w.cb r
  boot : w.pc = .boot → b = [] ∧ w.timeout = t
  begun : ∃ i ∈ h, τ ≤ i.now
  started : w.pc ≠ .boot → ∃ i ∈ h, w.start = i.now
  bound : w.pc ≠ .boot → (∀ n, .callback n w.cb .normal ∉ b) → τ + ms t ≤ w.start + ms w.timeout
  elapsed : ∀ e, w.pc = .read e ∨ w.pc = .extend e → ∃ i ∈ h, w.start + ms e ≤ i.now
  due : w.pc = .expire → (∀ n, .callback n w.cb .normal ∉ b) → ∃ i ∈ h, τ + ms t ≤ i.now
  dead : (s.periodic = false ∧ b ≠ []) ∨ (∃ n, .callback n w.cb .cancel ∈ b) → Dead s w

/-- For the proofs: what holds after every history. -/
structure Inv (p : Bool) (h : List In) (s : St) (tr : List Out) : Prop where
  periodic : s.periodic = p
  joined : ∀ t cb, s.caller = .launch t cb ∨ s.caller = .spawn t cb → s.worker = none
  worker : ∀ w, s.worker = some w → ∃ a τ t b, tr = a ++ .started τ t w.cb :: b ∧ WInv h s w τ t b

theorem mono_snoc {h : List In} {i : In} (hm : Mono (h ++ [i])) : Mono h ∧ ∀ j ∈ h, j.now ≤ i.now := by
  simp only [Mono, List.map_append, List.pairwise_append] at hm
  refine ⟨hm.1, fun j hj => hm.2.2 _ (List.mem_map_of_mem hj) _ (by simp)⟩

/-- Specification: what a step may write to the trace, given what happened before. -/
def Good (p : Bool) (a : List Out) : Out → Prop
  | .started _ _ _ => True
  | .callback n cb r => ∃ a₁ τ t b, a = a₁ ++ .started τ t cb :: b ∧ (∀ o ∈ b, ∃ m, o = .callback m cb .normal) ∧
      (p = false → b = []) ∧ (r = .normal → b = [] → τ + ms t ≤ n)

theorem WInv.mono {h : List In} {s s' : St} {w : Worker} {τ t : Int} {b : List Out} (i : In) (hw : WInv h s w τ t b)
    (hp : s'.periodic = s.periodic) (hr : s.running = false → s'.running = false) : WInv (h ++ [i]) s' w τ t b := by
  have ex : ∀ {P : In → Prop}, (∃ j ∈ h, P j) → ∃ j ∈ h ++ [i], P j := fun ⟨j, hj, hP⟩ => ⟨j, by simp [hj], hP⟩
  refine ⟨hw.own, hw.boot, ex hw.begun, fun h => ex (hw.started h), hw.bound, fun e h => ex (hw.elapsed e h),
    fun h h' => ex (hw.due h h'), ?_⟩
  intro hc
  rcases hw.dead (by rw [hp] at hc; exact hc) with h | ⟨h₁, h₂⟩ | ⟨h₁, h₂⟩
  · exact .inl h
  · exact .inr (.inl ⟨hr h₁, h₂⟩)
  · exact .inr (.inr ⟨h₁, by rw [hp]; exact h₂⟩)

theorem tdiv_le {a : Int} (h : 0 ≤ a) : ms (a.tdiv 1000000) ≤ a := by
  rw [Int.tdiv_eq_ediv_of_nonneg h, ms]; omega

theorem le_tdiv {a t : Int} (h : 0 ≤ a) (ht : t ≤ a.tdiv 1000000) : ms t ≤ a := by
  rw [Int.tdiv_eq_ediv_of_nonneg h] at ht; rw [ms]; omega

theorem inv_call {p : Bool} {h : List In} {s : St} {tr : List Out} (i : In) (hi : Inv p h s tr) (c : Rest)
    (hc : (∀ t cb, c ≠ .launch t cb) ∧ ∀ t cb, c ≠ .spawn t cb) : Inv p (h ++ [i]) { s with caller := c } (tr ++ []) := by
  refine ⟨hi.periodic, ?_, ?_⟩
  · rintro t cb (e | e)
    · exact absurd e (hc.1 t cb)
    · exact absurd e (hc.2 t cb)
  · intro w hw
    obtain ⟨a, τ, t, b, e, h'⟩ := hi.worker w hw
    exact ⟨a, τ, t, b, by rw [List.append_nil]; exact e, h'.mono i rfl id⟩

theorem inv_caller {p : Bool} {h : List In} {s : St} {tr : List Out} (i : In) (hi : Inv p h s tr) :
    Inv p (h ++ [i]) (s.callerStep i.now).1 (tr ++ (s.callerStep i.now).2) := by
  have keep : ∀ s' : St, s'.periodic = s.periodic → s'.worker = s.worker → (s.running = false → s'.running = false) →
      (∀ t cb, s'.caller = .launch t cb ∨ s'.caller = .spawn t cb → s.worker = none) → Inv p (h ++ [i]) s' (tr ++ []) := by
    intro s' h₁ h₂ h₃ h₄
    refine ⟨by rw [h₁, hi.periodic], ?_, ?_⟩
    · intro t cb hc; rw [h₂]; exact h₄ t cb hc
    · intro w hw
      obtain ⟨a, τ, t, b, e, h'⟩ := hi.worker w (by rw [← h₂]; exact hw)
      exact ⟨a, τ, t, b, by rw [List.append_nil]; exact e, h'.mono i h₁ h₃⟩
  rw [St.callerStep]
  cases hc : s.caller with
  | idle => exact keep s rfl rfl id (by rw [hc]; rintro t cb (h | h) <;> cases h)
  | command c => exact keep _ rfl rfl id (by rintro t cb (h | h) <;> cases h)
  | argument a => exact keep _ rfl rfl id (by rintro t cb (h | h) <;> cases h)
  | extend a =>
    refine keep _ rfl rfl id ?_
    cases s.running <;> rintro t cb (h | h) <;> cases h
  | join t cb =>
    by_cases hn : s.worker.isNone = true
    · simp only [hn, if_true]
      exact keep _ rfl rfl id fun _ _ _ => by simpa using hn
    · simp only [hn]
      exact keep _ rfl rfl id (by rw [if_neg (by simp), hc]; rintro t cb (h | h) <;> cases h)
  | launch t cb =>
    have hn : s.worker = none := hi.joined t cb (.inl hc)
    refine ⟨hi.periodic, fun _ _ _ => hn, ?_⟩
    intro w hw
    rw [show s.worker = some w from hw] at hn; cases hn
  | spawn t cb =>
    refine ⟨hi.periodic, (by rintro t cb (h | h) <;> cases h), ?_⟩
    intro w hw
    cases hw
    refine ⟨tr, i.now, t, [], rfl, ⟨by simp, by simp, ⟨i, by simp, Int.le_refl _⟩, by simp, by simp, by simp, by simp, ?_⟩⟩
    simp

theorem inv_worker {p : Bool} {h : List In} {s : St} {tr : List Out} {w : Worker} (i : In) (hi : Inv p h s tr)
    (hm : ∀ j ∈ h, j.now ≤ i.now) (hw : s.worker = some w) :
    Inv p (h ++ [i]) (s.workerStep w i.now).1 (tr ++ (s.workerStep w i.now).2) ∧
      ∀ o ∈ (s.workerStep w i.now).2, Good p tr o := by
  obtain ⟨a, τ, t, b, e, hv⟩ := hi.worker w hw
  have hcal : ∀ t cb, ¬ (s.caller = .launch t cb ∨ s.caller = .spawn t cb) := by
    intro t cb hc
    rw [hi.joined t cb hc] at hw; cases hw
  have ex : ∀ {P : In → Prop}, (∃ j ∈ h, P j) → ∃ j ∈ h ++ [i], P j := fun ⟨j, hj, hP⟩ => ⟨j, by simp [hj], hP⟩
  -- a step without output
  have quiet : ∀ (s' : St) (w' : Worker), s'.periodic = s.periodic → s'.caller = s.caller → s'.worker = some w' →
      w'.cb = w.cb → WInv (h ++ [i]) s' w' τ t b →
      Inv p (h ++ [i]) s' (tr ++ []) ∧ ∀ o ∈ ([] : List Out), Good p tr o := by
    intro s' w' h₁ h₂ h₃ h₄ h₅
    refine ⟨⟨by rw [h₁, hi.periodic], ?_, ?_⟩, by simp⟩
    · intro t cb hc; rw [h₂] at hc; exact absurd hc (hcal t cb)
    · intro x hx
      rw [h₃] at hx; cases hx
      exact ⟨a, τ, t, b, by rw [List.append_nil, e, h₄], h₅⟩
  have nd : ∀ {pc}, w.pc = pc → pc ≠ .stop → pc ≠ .expired → pc ≠ .clear → pc ≠ .head →
      ¬ ((s.periodic = false ∧ b ≠ []) ∨ (∃ n, .callback n w.cb .cancel ∈ b)) := by
    intro pc hpc h₁ h₂ h₃ h₄ hc
    rcases hv.dead hc with h | ⟨-, h | h⟩ | ⟨h, -⟩ <;> rw [hpc] at h
    · exact h₁ h
    · exact h₃ h
    · exact h₄ h
    · exact h₂ h
  have nmem : ∀ {r : Ret} {o : Out}, o ∈ b → ∃ n r, o = .callback n w.cb r := fun ho => hv.own _ ho
  rw [St.workerStep]
  cases hpc : w.pc with
  | boot =>
    obtain ⟨hb, ht⟩ := hv.boot hpc
    subst hb
    refine quiet _ _ rfl rfl rfl rfl ⟨by simp, by simp, ex hv.begun, fun _ => ⟨i, by simp, rfl⟩, ?_, by simp, by simp, by simp⟩
    intro _ _
    obtain ⟨j, hj, hle⟩ := hv.begun
    have := hm j hj
    simp only [ht]; omega
  | head =>
    by_cases hr : s.running = true
    · simp only [hr, if_true]
      refine quiet _ _ rfl rfl rfl rfl ⟨hv.own, by simp, ex hv.begun, fun _ => ex (hv.started (by simp [hpc])),
        fun _ => hv.bound (by simp [hpc]), by simp, by simp, ?_⟩
      intro hc
      rcases hv.dead hc with h | ⟨h, -⟩ | ⟨h, -⟩
      · rw [hpc] at h; cases h
      · rw [hr] at h; cases h
      · rw [hpc] at h; cases h
    · simp only [hr]
      refine ⟨⟨hi.periodic, ?_, ?_⟩, by simp⟩
      · intro t cb hc; exact absurd hc (hcal t cb)
      · intro x hx; simp at hx
  | clock =>
    have hns := nd hpc (by simp) (by simp) (by simp) (by simp)
    obtain ⟨j, hj, hs⟩ := hv.started (by simp [hpc])
    have hjn := hm j hj
    have h0 : 0 ≤ i.now - w.start := by omega
    by_cases hlt : (i.now - w.start).tdiv 1000000 < w.timeout
    · simp only [hlt, if_true]
      refine quiet _ _ rfl rfl rfl rfl ⟨hv.own, by simp, ex hv.begun, fun _ => ex (hv.started (by simp [hpc])),
        fun _ => hv.bound (by simp [hpc]), ?_, by simp, fun hc => absurd hc hns⟩
      intro e he
      simp only [Pc.read.injEq, reduceCtorEq, or_false] at he
      subst he
      refine ⟨i, by simp, ?_⟩
      have := tdiv_le h0
      simp only []; omega
    · simp only [hlt, if_false]
      refine quiet _ _ rfl rfl rfl rfl ⟨hv.own, by simp, ex hv.begun, fun _ => ex (hv.started (by simp [hpc])),
        fun _ => hv.bound (by simp [hpc]), by simp, ?_, fun hc => absurd hc hns⟩
      intro _ hb
      have h₁ := hv.bound (by simp [hpc]) hb
      have h₂ := le_tdiv h0 (t := w.timeout) (by omega)
      exact ⟨i, by simp, by omega⟩
  | read el =>
    have hns := nd hpc (by simp) (by simp) (by simp) (by simp)
    have hel := hv.elapsed el (.inl hpc)
    have : ∀ pc : Pc, pc ≠ .boot → pc ≠ .expire → (∀ e, pc = .read e ∨ pc = .extend e → e = el) →
        WInv (h ++ [i]) { s with worker := some { w with pc := pc } } { w with pc := pc } τ t b := by
      intro pc h₁ h₂ h₃
      refine ⟨hv.own, fun hh => absurd hh h₁, ex hv.begun, fun _ => ex (hv.started (by simp [hpc])),
        fun _ => hv.bound (by simp [hpc]), ?_, fun hh => absurd hh h₂, fun hc => absurd hc hns⟩
      intro e he
      rw [h₃ e he]; exact ex hel
    simp only []
    refine quiet _ _ rfl rfl rfl rfl (this _ ?_ ?_ ?_) <;> cases s.cmd <;> simp
  | cancelled =>
    have hns := nd hpc (by simp) (by simp) (by simp) (by simp)
    have hns' : (s.periodic = false → b = []) ∧ ∀ n, .callback n w.cb .cancel ∉ b :=
      ⟨fun h => Classical.byContradiction fun hb => hns (.inl ⟨h, hb⟩), fun n hn => hns (.inr ⟨n, hn⟩)⟩
    refine ⟨⟨hi.periodic, fun t cb hc => absurd hc (hcal t cb), ?_⟩, ?_⟩
    · intro x hx
      cases hx
      refine ⟨a, τ, t, b ++ [.callback i.now w.cb .cancel], by rw [e]; simp, ⟨?_, by simp, ex hv.begun,
        fun _ => ex (hv.started (by simp [hpc])), ?_, by simp, by simp, fun _ => .inl rfl⟩⟩
      · intro o ho
        rcases List.mem_append.mp ho with ho | ho
        · exact hv.own o ho
        · simp only [List.mem_singleton] at ho; exact ⟨_, _, ho⟩
      · intro _ hn
        exact hv.bound (by simp [hpc]) fun n hh => hn n (by simp [hh])
    · intro o ho
      simp only [List.mem_singleton] at ho
      subst ho
      refine ⟨a, τ, t, b, e, ?_, fun hp => hns'.1 (by rw [hi.periodic, hp]), fun h => by cases h⟩
      intro o ho
      obtain ⟨n, r, rfl⟩ := hv.own o ho
      cases r with
      | normal => exact ⟨n, rfl⟩
      | cancel => exact absurd ho (hns'.2 n)
  | stop =>
    exact quiet _ _ rfl rfl rfl rfl ⟨hv.own, by simp, ex hv.begun, fun _ => ex (hv.started (by simp [hpc])),
      fun _ => hv.bound (by simp [hpc]), by simp, by simp, fun _ => .inr (.inl ⟨rfl, .inl rfl⟩)⟩
  | reset =>
    have hns := nd hpc (by simp) (by simp) (by simp) (by simp)
    refine quiet _ _ rfl rfl rfl rfl ⟨hv.own, by simp, ex hv.begun, fun _ => ⟨i, by simp, rfl⟩,
      ?_, by simp, by simp, fun hc => absurd hc hns⟩
    intro _ hb
    have h₁ := hv.bound (by simp [hpc]) hb
    obtain ⟨j, hj, hs⟩ := hv.started (by simp [hpc])
    have := hm j hj
    simp only []; omega
  | extend el =>
    have hns := nd hpc (by simp) (by simp) (by simp) (by simp)
    obtain ⟨j, hj, hel⟩ := hv.elapsed el (.inr hpc)
    have hjn := hm j hj
    by_cases hlt : w.timeout - el < s.arg
    · simp only [hlt, if_true]
      refine quiet _ _ rfl rfl rfl rfl ⟨hv.own, by simp, ex hv.begun, fun _ => ⟨i, by simp, rfl⟩,
        ?_, by simp, by simp, fun hc => absurd hc hns⟩
      intro _ hb
      have h₁ := hv.bound (by simp [hpc]) hb
      simp only [ms] at *; omega
    · simp only [hlt, if_false]
      exact quiet _ _ rfl rfl rfl rfl ⟨hv.own, by simp, ex hv.begun, fun _ => ex (hv.started (by simp [hpc])),
        fun _ => hv.bound (by simp [hpc]), by simp, by simp, fun hc => absurd hc hns⟩
  | clear =>
    refine quiet _ _ rfl rfl rfl rfl ⟨hv.own, by simp, ex hv.begun, fun _ => ex (hv.started (by simp [hpc])),
      fun _ => hv.bound (by simp [hpc]), by simp, by simp, ?_⟩
    intro hc
    rcases hv.dead hc with h | ⟨h, -⟩ | ⟨h, -⟩
    · rw [hpc] at h; cases h
    · exact .inr (.inl ⟨h, .inr rfl⟩)
    · rw [hpc] at h; cases h
  | clearExtend =>
    have hns := nd hpc (by simp) (by simp) (by simp) (by simp)
    exact quiet _ _ rfl rfl rfl rfl ⟨hv.own, by simp, ex hv.begun, fun _ => ex (hv.started (by simp [hpc])),
      fun _ => hv.bound (by simp [hpc]), by simp, by simp, fun hc => absurd hc hns⟩
  | clearArg =>
    have hns := nd hpc (by simp) (by simp) (by simp) (by simp)
    exact quiet _ _ rfl rfl rfl rfl ⟨hv.own, by simp, ex hv.begun, fun _ => ex (hv.started (by simp [hpc])),
      fun _ => hv.bound (by simp [hpc]), by simp, by simp, fun hc => absurd hc hns⟩
  | expire =>
    have hns := nd hpc (by simp) (by simp) (by simp) (by simp)
    have hns' : (s.periodic = false → b = []) ∧ ∀ n, .callback n w.cb .cancel ∉ b :=
      ⟨fun h => Classical.byContradiction fun hb => hns (.inl ⟨h, hb⟩), fun n hn => hns (.inr ⟨n, hn⟩)⟩
    refine ⟨⟨hi.periodic, fun t cb hc => absurd hc (hcal t cb), ?_⟩, ?_⟩
    · intro x hx
      cases hx
      refine ⟨a, τ, t, b ++ [.callback i.now w.cb .normal], by rw [e]; simp, ⟨?_, by simp, ex hv.begun,
        fun _ => ex (hv.started (by simp [hpc])), ?_, by simp, by simp, ?_⟩⟩
      · intro o ho
        rcases List.mem_append.mp ho with ho | ho
        · exact hv.own o ho
        · simp only [List.mem_singleton] at ho; exact ⟨_, _, ho⟩
      · intro _ hn
        exact absurd (hn i.now) (by simp)
      · rintro (⟨hp, -⟩ | ⟨n, hn⟩)
        · exact .inr (.inr ⟨rfl, hp⟩)
        · rcases List.mem_append.mp hn with hn | hn
          · exact absurd hn (hns'.2 n)
          · simp at hn
    · intro o ho
      simp only [List.mem_singleton] at ho
      subst ho
      refine ⟨a, τ, t, b, e, ?_, fun hp => hns'.1 (by rw [hi.periodic, hp]), ?_⟩
      · intro o ho
        obtain ⟨n, r, rfl⟩ := hv.own o ho
        cases r with
        | normal => exact ⟨n, rfl⟩
        | cancel => exact absurd ho (hns'.2 n)
      · rintro - rfl
        obtain ⟨j, hj, hle⟩ := hv.due hpc (by simp)
        have := hm j hj
        omega
  | expired =>
    by_cases hp : s.periodic = true
    · simp only [if_pos hp]
      have hns : ¬ ((s.periodic = false ∧ b ≠ []) ∨ (∃ n, .callback n w.cb .cancel ∈ b)) := by
        intro hc
        rcases hv.dead hc with h | ⟨-, h | h⟩ | ⟨-, h⟩
        · rw [hpc] at h; cases h
        · rw [hpc] at h; cases h
        · rw [hpc] at h; cases h
        · rw [hp] at h; cases h
      refine quiet _ _ rfl rfl rfl rfl ⟨hv.own, by simp, ex hv.begun, fun _ => ⟨i, by simp, rfl⟩,
        ?_, by simp, by simp, fun hc => absurd hc hns⟩
      intro _ hb
      have h₁ := hv.bound (by simp [hpc]) hb
      obtain ⟨j, hj, hs⟩ := hv.started (by simp [hpc])
      have := hm j hj
      simp only []; omega
    · simp only [if_neg hp]
      exact quiet _ _ rfl rfl rfl rfl ⟨hv.own, by simp, ex hv.begun, fun _ => ex (hv.started (by simp [hpc])),
        fun _ => hv.bound (by simp [hpc]), by simp, by simp, fun _ => .inr (.inl ⟨rfl, .inr rfl⟩)⟩

theorem inv_step {p : Bool} {h : List In} {s : St} {tr : List Out} (i : In) (hi : Inv p h s tr)
    (hm : ∀ j ∈ h, j.now ≤ i.now) : Inv p (h ++ [i]) (step s i).1 (tr ++ (step s i).2) ∧
      ∀ o ∈ (step s i).2, Good p tr o := by
  rw [step]
  cases i.ev with
  | call c =>
    simp only []
    cases hc : s.caller with
    | idle =>
      refine ⟨inv_call i hi _ ?_, by simp⟩
      cases c <;> cases s.running <;> simp [first]
    | command _ => exact ⟨by have := inv_call i hi s.caller (by rw [hc]; simp); exact this, by simp⟩
    | argument _ => exact ⟨by have := inv_call i hi s.caller (by rw [hc]; simp); exact this, by simp⟩
    | extend _ => exact ⟨by have := inv_call i hi s.caller (by rw [hc]; simp); exact this, by simp⟩
    | join _ _ => exact ⟨by have := inv_call i hi s.caller (by rw [hc]; simp); exact this, by simp⟩
    | launch t cb =>
      have hn : s.worker = none := hi.joined t cb (.inl hc)
      exact ⟨⟨hi.periodic, fun _ _ _ => hn, fun w hw => by rw [hn] at hw; cases hw⟩, by simp⟩
    | spawn t cb =>
      have hn : s.worker = none := hi.joined t cb (.inr hc)
      exact ⟨⟨hi.periodic, fun _ _ _ => hn, fun w hw => by rw [hn] at hw; cases hw⟩, by simp⟩
  | caller =>
    refine ⟨inv_caller i hi, ?_⟩
    rw [St.callerStep]
    cases s.caller <;> simp [Good]
  | worker =>
    simp only []
    cases hw : s.worker with
    | none => exact ⟨⟨hi.periodic, fun _ _ _ => hw, fun w hh => by rw [hw] at hh; cases hh⟩, by simp⟩
    | some w => exact inv_worker i hi hm hw

theorem step_out (s : St) (i : In) : (step s i).2 = [] ∨ ∃ o, (step s i).2 = [o] := by
  rw [step]
  cases i.ev with
  | call c => simp only []; cases s.caller <;> exact .inl rfl
  | caller => simp only [St.callerStep]; cases s.caller <;> simp
  | worker =>
    simp only []
    cases s.worker with
    | none => exact .inl rfl
    | some w => simp only [St.workerStep]; cases w.pc <;> simp

theorem inv (p : Bool) (h : List In) (hm : Mono h) : Inv p h (after p h) (trace p h) := by
  induction h using snocRec with
  | nil => exact ⟨rfl, fun _ _ _ => rfl, fun w hw => by cases hw⟩
  | append_singleton h i ih =>
    obtain ⟨h₁, h₂⟩ := mono_snoc hm
    rw [after_snoc, trace_snoc]
    exact (inv_step i (ih h₁) h₂).1

theorem good (p : Bool) (h : List In) (hm : Mono h) : ∀ a o c, trace p h = a ++ o :: c → Good p a o := by
  induction h using snocRec with
  | nil => intro a o c e; simp [trace] at e
  | append_singleton h i ih =>
    obtain ⟨h₁, h₂⟩ := mono_snoc hm
    have hg := (inv_step i (inv p h h₁) h₂).2
    intro a o c e
    rw [trace_snoc] at e
    rcases step_out (after p h) i with h0 | ⟨x, hx⟩
    · rw [h0, List.append_nil] at e
      exact ih h₁ a o c e
    · rw [hx] at e hg
      rcases List.eq_nil_or_concat c with rfl | ⟨c', y, rfl⟩
      · obtain ⟨e₁, e₂⟩ := List.append_inj' e rfl
        cases e₂
        rw [← e₁]
        exact hg o (by simp)
      · rw [List.concat_eq_append, ← List.cons_append, ← List.append_assoc] at e
        obtain ⟨e₁, -⟩ := List.append_inj' e rfl
        exact ih h₁ a o c' e₁

/-! ## The claims -/

theorem only_callbacks {a a₁ b : List Out} {τ t cb τ' t' cb' : Int} (e : a ++ [.started τ t cb] = a₁ ++ .started τ' t' cb' :: b)
    (hb : ∀ o ∈ b, ∃ m, o = .callback m cb' .normal) : b = [] ∧ a = a₁ ∧ τ = τ' ∧ t = t' ∧ cb = cb' := by
  rcases List.eq_nil_or_concat b with rfl | ⟨b', y, rfl⟩
  · obtain ⟨e₁, e₂⟩ := List.append_inj' e rfl
    cases e₂
    exact ⟨rfl, e₁, rfl, rfl, rfl⟩
  · rw [List.concat_eq_append, ← List.cons_append, ← List.append_assoc] at e
    obtain ⟨-, e₂⟩ := List.append_inj' e rfl
    cases e₂
    obtain ⟨m, hm⟩ := hb (.started τ t cb) (by simp)
    cases hm

/-- The timer does not expire before the time it was started with, whatever commands are given and however the two threads
run. -/
theorem C83_not_early {p : Bool} {h : List In} {a c : List Out} {τ t cb n cb' : Int} (hm : Mono h)
    (e : trace p h = a ++ .started τ t cb :: .callback n cb' .normal :: c) : cb' = cb ∧ τ + t * 1000000 ≤ n := by
  obtain ⟨a₁, τ', t', b, e', hb, -, hn⟩ := good p h hm (a ++ [.started τ t cb])
    (.callback n cb' .normal) c (by rw [e]; simp)
  obtain ⟨rfl, -, rfl, rfl, rfl⟩ := only_callbacks e' hb
  exact ⟨rfl, hn rfl rfl⟩

/-- A timer that is not periodic calls back at most once for each start, with the callback of that start. -/
theorem C84_once {h : List In} {a c : List Out} {n cb : Int} {r : Ret} (hm : Mono h)
    (e : trace false h = a ++ .callback n cb r :: c) : ∃ a₁ τ t, a = a₁ ++ [.started τ t cb] := by
  obtain ⟨a₁, τ, t, b, e', -, hb, -⟩ := good false h hm a _ c e
  rw [hb rfl] at e'
  exact ⟨a₁, τ, t, e'⟩

/-- A periodic timer calls back with the callback of the latest start, and a callback for a cancellation is the last one. -/
theorem C84_periodic {p : Bool} {h : List In} {a c : List Out} {n cb : Int} {r : Ret} (hm : Mono h)
    (e : trace p h = a ++ .callback n cb r :: c) :
    ∃ a₁ τ t b, a = a₁ ++ .started τ t cb :: b ∧ ∀ o ∈ b, ∃ m, o = .callback m cb .normal := by
  obtain ⟨a₁, τ, t, b, e', hb, -, -⟩ := good p h hm a _ c e
  exact ⟨a₁, τ, t, b, e', hb⟩

/-- For the proofs: steps of the worker only. -/
def steps (ts : List Int) : List In := ts.map fun t => ⟨t, .worker⟩

theorem steps_none (ts : List Int) (s : St) (hs : s.worker = none) : (runM step s (steps ts)).1 = s ∧
    (runM step s (steps ts)).2.flatten = [] := by
  induction ts with
  | nil => simp [steps]
  | cons t ts ih =>
    have e : step s ⟨t, .worker⟩ = (s, []) := by rw [step]; simp only [hs]
    simp only [steps, List.map_cons, runM_cons, e] at ih ⊢
    exact ⟨ih.1, by simpa using ih.2⟩

theorem lt_timeout {t start timeout : Int} (h₁ : start ≤ t) (h₂ : t < start + timeout * 1000000) :
    (t - start).tdiv 1000000 < timeout := by
  rw [Int.tdiv_eq_ediv_of_nonneg (by omega)]; omega

theorem ge_timeout {t start timeout : Int} (h₁ : start ≤ t) (h₂ : start + timeout * 1000000 ≤ t) :
    ¬ (t - start).tdiv 1000000 < timeout := by
  rw [Int.tdiv_eq_ediv_of_nonneg (by omega)]; omega

/-- For the proofs: the worker is at the head of its loop, with a command given and no
time passed beyond the expiration. -/
structure At (s : St) (cb start timeout : Int) (c : Cmd) : Prop where
  worker : s.worker = some ⟨cb, timeout, start, .head⟩
  running : s.running = true
  cmd : s.cmd = c

theorem runM_flat (s : St) (i : In) (is : List In) : (runM step s (i :: is)).1 = (runM step (step s i).1 is).1 ∧
    (runM step s (i :: is)).2.flatten = (step s i).2 ++ (runM step (step s i).1 is).2.flatten := by
  rw [runM_cons]; simp

/-- A kill that the worker finds before the time is over ends it without a callback.  Missing: the time is over before the
worker looks, or the command is overwritten. -/
theorem C85_kill_partial {p : Bool} {h : List In} {cb start timeout : Int} {ts : List Int}
    (ha : At (after p h) cb start timeout .kill) (ht : ∀ t ∈ ts, start ≤ t ∧ t < start + timeout * 1000000) :
    trace p (h ++ steps ts) = trace p h ∧ (6 ≤ ts.length → (after p (h ++ steps ts)).worker = none ∧
      (after p (h ++ steps ts)).running = false ∧ (after p (h ++ steps ts)).cmd = .none) := by
  rw [trace, trace, after, runM_append]
  simp only [List.flatten_append]
  generalize hs : (runM step { periodic := p } h).1 = s
  have ha : At s cb start timeout .kill := by rw [← hs]; exact ha
  obtain ⟨pp, run, cmd, arg, wk, cal⟩ := s
  obtain ⟨h₁, h₂, h₃⟩ := ha
  simp only at h₁ h₂ h₃
  subst h₁ h₂ h₃
  match ts with
  | [] => simp [steps]
  | [t₁] => simp [steps, runM_cons, step, St.workerStep]
  | [t₁, t₂] =>
    have := ht t₂ (by simp)
    simp [steps, runM_cons, step, St.workerStep, lt_timeout this.1 this.2]
  | [t₁, t₂, t₃] =>
    have := ht t₂ (by simp)
    simp [steps, runM_cons, step, St.workerStep, lt_timeout this.1 this.2]
  | [t₁, t₂, t₃, t₄] =>
    have := ht t₂ (by simp)
    simp [steps, runM_cons, step, St.workerStep, lt_timeout this.1 this.2]
  | [t₁, t₂, t₃, t₄, t₅] =>
    have := ht t₂ (by simp)
    simp [steps, runM_cons, step, St.workerStep, lt_timeout this.1 this.2]
  | t₁ :: t₂ :: t₃ :: t₄ :: t₅ :: t₆ :: ts =>
    have := ht t₂ (by simp)
    have key := steps_none ts ⟨pp, false, .none, arg, none, cal⟩ rfl
    simp only [steps, List.map_cons] at key ⊢
    simp [runM_cons, step, St.workerStep, lt_timeout this.1 this.2, key]

/-- A cancellation that the worker finds before the time is over is called back once, and the worker ends. -/
theorem C85_cancel_partial {p : Bool} {h : List In} {cb start timeout t₁ t₂ t₃ t₄ t₅ t₆ t₇ : Int} {ts : List Int}
    (ha : At (after p h) cb start timeout .cancel) (ht : start ≤ t₂ ∧ t₂ < start + timeout * 1000000) :
    let h' := h ++ steps (t₁ :: t₂ :: t₃ :: t₄ :: t₅ :: t₆ :: t₇ :: ts)
    trace p h' = trace p h ++ [.callback t₄ cb .cancel] ∧ (after p h').worker = none ∧ (after p h').running = false ∧
      (after p h').cmd = .none := by
  simp only [trace, after]
  rw [runM_append]
  simp only [List.flatten_append]
  generalize hs : (runM step { periodic := p } h).1 = s
  have ha : At s cb start timeout .cancel := by rw [← hs]; exact ha
  obtain ⟨pp, run, cmd, arg, wk, cal⟩ := s
  obtain ⟨h₁, h₂, h₃⟩ := ha
  simp only at h₁ h₂ h₃
  subst h₁ h₂ h₃
  have key := steps_none ts ⟨pp, false, .none, arg, none, cal⟩ rfl
  simp only [steps, List.map_cons] at key ⊢
  simp [runM_cons, step, St.workerStep, lt_timeout ht.1 ht.2, key]

/-- Without a command, the timer calls back when the worker finds that the time is over, and not before. -/
theorem C83_expires {p : Bool} {h : List In} {cb start timeout t₁ t₂ t₃ : Int}
    (ha : At (after p h) cb start timeout .none) (ht : start ≤ t₂) :
    (start + timeout * 1000000 ≤ t₂ → trace p (h ++ steps [t₁, t₂, t₃]) = trace p h ++ [.callback t₃ cb .normal]) ∧
    (t₂ < start + timeout * 1000000 → trace p (h ++ steps [t₁, t₂, t₃]) = trace p h ∧
      At (after p (h ++ steps [t₁, t₂, t₃])) cb start timeout .none) := by
  simp only [trace, after]
  rw [runM_append]
  simp only [List.flatten_append]
  generalize hs : (runM step { periodic := p } h).1 = s
  have ha : At s cb start timeout .none := by rw [← hs]; exact ha
  obtain ⟨pp, run, cmd, arg, wk, cal⟩ := s
  obtain ⟨h₁, h₂, h₃⟩ := ha
  simp only at h₁ h₂ h₃
  subst h₁ h₂ h₃
  refine ⟨fun hge => ?_, fun hlt => ?_⟩
  · simp [steps, runM_cons, step, St.workerStep, ge_timeout ht hge]
  · simp only [steps, runM_cons, List.map_cons, step, St.workerStep, lt_timeout ht hlt, if_true, runM_nil, List.map_nil]
    exact ⟨by simp, ⟨rfl, rfl, rfl⟩⟩

/-- A reset that the worker finds before the time is over makes the whole time run again from there. -/
theorem C85_reset_partial {p : Bool} {h : List In} {cb start timeout t₁ t₂ t₃ t₄ t₅ : Int}
    (ha : At (after p h) cb start timeout .reset) (ht : start ≤ t₂ ∧ t₂ < start + timeout * 1000000) :
    trace p (h ++ steps [t₁, t₂, t₃, t₄, t₅]) = trace p h ∧
      At (after p (h ++ steps [t₁, t₂, t₃, t₄, t₅])) cb t₄ timeout .none := by
  simp only [trace, after]
  rw [runM_append]
  simp only [List.flatten_append]
  generalize hs : (runM step { periodic := p } h).1 = s
  have ha : At s cb start timeout .reset := by rw [← hs]; exact ha
  obtain ⟨pp, run, cmd, arg, wk, cal⟩ := s
  obtain ⟨h₁, h₂, h₃⟩ := ha
  simp only at h₁ h₂ h₃
  subst h₁ h₂ h₃
  simp only [steps, runM_cons, List.map_cons, step, St.workerStep, lt_timeout ht.1 ht.2, if_true, runM_nil, List.map_nil]
  exact ⟨by simp, ⟨rfl, rfl, rfl⟩⟩

/-- An extension that the worker finds before the time is over: the timer then expires not before the extension is over, not
before it would have expired, and at one of the two times (all to the millisecond). -/
theorem C86_extend_partial {p : Bool} {h : List In} {cb start timeout t₁ t₂ t₃ t₄ t₅ t₆ : Int}
    (ha : At (after p h) cb start timeout .extend) (ht : start ≤ t₂ ∧ t₂ < start + timeout * 1000000) (hm : t₂ ≤ t₄) :
    let h' := h ++ steps [t₁, t₂, t₃, t₄, t₅, t₆]
    trace p h' = trace p h ∧ ∃ start' timeout', At (after p h') cb start' timeout' .none ∧
      start + timeout * 1000000 ≤ start' + timeout' * 1000000 ∧
      t₂ + (after p h).arg * 1000000 < start' + timeout' * 1000000 + 1000000 ∧
      (start' + timeout' * 1000000 = start + timeout * 1000000 ∨
        start' + timeout' * 1000000 = t₄ + (after p h).arg * 1000000) := by
  simp only [trace, after]
  rw [runM_append]
  simp only [List.flatten_append]
  generalize hs : (runM step { periodic := p } h).1 = s
  have ha : At s cb start timeout .extend := by rw [← hs]; exact ha
  obtain ⟨pp, run, cmd, arg, wk, cal⟩ := s
  obtain ⟨h₁, h₂, h₃⟩ := ha
  simp only at h₁ h₂ h₃
  subst h₁ h₂ h₃
  simp only [steps, runM_cons, List.map_cons, step, St.workerStep, lt_timeout ht.1 ht.2, if_true, runM_nil, List.map_nil]
  have h0 : 0 ≤ t₂ - start := by omega
  by_cases hc : timeout - (t₂ - start).tdiv 1000000 < arg
  · simp only [hc, if_true]
    refine ⟨by simp, t₄, arg, ⟨rfl, rfl, rfl⟩, ?_, ?_, .inr rfl⟩
    · rw [Int.tdiv_eq_ediv_of_nonneg h0] at hc; omega
    · omega
  · simp only [hc, if_false]
    refine ⟨by simp, start, timeout, ⟨rfl, rfl, rfl⟩, Int.le_refl _, ?_, .inl rfl⟩
    rw [Int.tdiv_eq_ediv_of_nonneg h0] at hc; omega

/-- For the proofs: the worker of a periodic timer whose time is not positive never looks
at the commands. -/
def Hangs (s : St) : Prop :=
  s.periodic = true ∧ s.running = true ∧ ∃ w, s.worker = some w ∧ w.timeout ≤ 0 ∧
    (w.pc = .boot ∨ w.pc = .head ∨ w.pc = .clock ∨ w.pc = .expire ∨ w.pc = .expired) ∧
    (∀ t cb, s.caller ≠ .launch t cb ∧ s.caller ≠ .spawn t cb)

theorem hangs_step {s : St} (hs : Hangs s) (i : In) (hi : ∀ w, s.worker = some w → w.pc ≠ .boot → w.start ≤ i.now) :
    Hangs (step s i).1 := by
  obtain ⟨hp, hr, w, hw, ht, hpc, hc⟩ := hs
  rw [step]
  cases i.ev with
  | call c =>
    simp only []
    cases hcal : s.caller with
    | idle =>
      refine ⟨hp, hr, w, hw, ht, hpc, ?_⟩
      intro t cb
      cases c <;> simp [first, hr]
    | command _ => exact ⟨hp, hr, w, hw, ht, hpc, hc⟩
    | argument _ => exact ⟨hp, hr, w, hw, ht, hpc, hc⟩
    | extend _ => exact ⟨hp, hr, w, hw, ht, hpc, hc⟩
    | join _ _ => exact ⟨hp, hr, w, hw, ht, hpc, hc⟩
    | launch t cb => exact absurd hcal (hc t cb).1
    | spawn t cb => exact absurd hcal (hc t cb).2
  | caller =>
    simp only [St.callerStep]
    cases hcal : s.caller with
    | idle => exact ⟨hp, hr, w, hw, ht, hpc, hc⟩
    | command _ => exact ⟨hp, hr, w, hw, ht, hpc, by simp⟩
    | argument _ => exact ⟨hp, hr, w, hw, ht, hpc, by simp⟩
    | extend _ => exact ⟨hp, hr, w, hw, ht, hpc, by simp [hr]⟩
    | join t cb =>
      simp only [hw, Option.isNone_some, Bool.false_eq_true, if_false]
      exact ⟨hp, hr, w, hw, ht, hpc, hc⟩
    | launch t cb => exact absurd hcal (hc t cb).1
    | spawn t cb => exact absurd hcal (hc t cb).2
  | worker =>
    simp only [hw, St.workerStep]
    rcases hpc with h | h | h | h | h
    · rw [h]; exact ⟨hp, hr, _, rfl, ht, .inr (.inl rfl), hc⟩
    · rw [h]; simp only [hr, if_true]; exact ⟨hp, rfl, _, rfl, ht, .inr (.inr (.inl rfl)), hc⟩
    · rw [h]
      have hst := hi w hw (by rw [h]; simp)
      have : ¬ (i.now - w.start).tdiv 1000000 < w.timeout := ge_timeout hst (by omega)
      simp only [this, if_false]
      exact ⟨hp, hr, _, rfl, ht, .inr (.inr (.inr (.inl rfl))), hc⟩
    · rw [h]; exact ⟨hp, hr, _, rfl, ht, .inr (.inr (.inr (.inr rfl))), hc⟩
    · rw [h]; simp only [if_pos hp]; exact ⟨hp, hr, _, rfl, ht, .inr (.inl rfl), hc⟩

/-- Once a periodic timer is started with a time that is not positive, its thread runs for ever, whatever is called and
however the threads run; so its destructor does not return. -/
theorem C87_violated_hang {h g : List In} {now t cb : Int} (ht : t ≤ 0) (hm : Mono (h ++ ⟨now, .caller⟩ :: g))
    (hc : (after true h).caller = .spawn t cb) (hr : (after true h).running = true) :
    (after true (h ++ ⟨now, .caller⟩ :: g)).worker ≠ none ∧ (after true (h ++ ⟨now, .caller⟩ :: g)).running = true := by
  have key : Hangs (after true (h ++ ⟨now, .caller⟩ :: g)) := by
    induction g using snocRec with
    | nil =>
      rw [after_snoc, step]
      simp only [St.callerStep, hc]
      have hp : (after true h).periodic = true := by
        exact (inv true h (mono_snoc hm).1).periodic
      exact ⟨hp, hr, _, rfl, ht, .inl rfl, by simp⟩
    | append_singleton g i ih =>
      rw [← List.cons_append, ← List.append_assoc] at hm ⊢
      obtain ⟨h₁, h₂⟩ := mono_snoc hm
      rw [after_snoc]
      refine hangs_step (ih h₁) i ?_
      intro w hw hb
      obtain ⟨a, τ, t', b, -, hv⟩ := (inv true _ h₁).worker w hw
      obtain ⟨j, hj, e⟩ := hv.started hb
      rw [e]; exact h₂ j hj
  obtain ⟨-, h₂, w, hw, -⟩ := key
  exact ⟨by rw [hw]; simp, h₂⟩

/-! ## Cases -/

/-- For the examples: a start of an idle timer. -/
def startIn (now t cb : Int) : List In := [⟨now, .call (.start t cb)⟩, ⟨now, .caller⟩, ⟨now, .caller⟩, ⟨now, .caller⟩, ⟨now, .worker⟩]

/-- For the examples: a call with one or two further steps. -/
def callIn (now : Int) (c : Call) : List In := [⟨now, .call c⟩, ⟨now, .caller⟩, ⟨now, .caller⟩]

/-- For the examples: nanoseconds of a number of milliseconds. -/
abbrev M (n : Int) : Int := n * 1000000

example : At (after false (startIn 0 10 1)) 1 0 10 .none := ⟨rfl, rfl, rfl⟩
example : At (after false (startIn 0 10 1 ++ callIn 5 .kill)) 1 0 10 .kill := ⟨rfl, rfl, rfl⟩
example : At (after true (startIn 0 10 1 ++ callIn 5 .cancel)) 1 0 10 .cancel := ⟨rfl, rfl, rfl⟩
example : At (after true (startIn 0 10 1 ++ callIn 5 .reset)) 1 0 10 .reset := ⟨rfl, rfl, rfl⟩
example : At (after true (startIn 0 10 1 ++ callIn 5 (.extend 20))) 1 0 10 .extend := ⟨rfl, rfl, rfl⟩

example : trace false (startIn 0 10 1 ++ steps [M 1, M 10, M 11]) = [.started 0 10 1, .callback (M 11) 1 .normal] := by decide
example : Mono (startIn 0 10 1 ++ steps [M 1, M 10, M 11]) := by unfold Mono; decide
example : trace true (startIn 0 10 1 ++ steps [M 1, M 10, M 11, M 11, M 12, M 22, M 23]) =
    [.started 0 10 1, .callback (M 11) 1 .normal, .callback (M 23) 1 .normal] := by decide
example : (after true (startIn 0 0 1).dropLast.dropLast).caller = .spawn 0 1 ∧
    (after true (startIn 0 0 1).dropLast.dropLast).running = true := by decide

/-- A call made while the worker is at the head of its loop and the time runs puts its command in the slot. -/
theorem given {p : Bool} {h : List In} {cb start timeout now : Int} {c : Call} {k k₀ : Cmd}
    (ha : At (after p h) cb start timeout k₀) (hc : (after p h).caller = .idle)
    (hk : c = .kill ∧ k = .kill ∨ c = .cancel ∧ k = .cancel ∨ c = .reset ∧ k = .reset ∨ ∃ a, c = .extend a ∧ k = .extend) :
    At (after p (h ++ callIn now c)) cb start timeout k ∧ trace p (h ++ callIn now c) = trace p h ∧
      ∀ a, c = .extend a → (after p (h ++ callIn now c)).arg = a % 4294967296 := by
  simp only [trace, after, callIn] at *
  rw [runM_append]
  simp only [List.flatten_append]
  generalize (runM step { periodic := p } h).1 = s at *
  obtain ⟨pp, run, cmd, arg, wk, cal⟩ := s
  obtain ⟨h₁, h₂, h₃⟩ := ha
  simp only at h₁ h₂ h₃ hc
  subst h₁ h₂ h₃ hc
  rcases hk with ⟨rfl, rfl⟩ | ⟨rfl, rfl⟩ | ⟨rfl, rfl⟩ | ⟨a, rfl, rfl⟩ <;>
    simp only [runM_cons, runM_nil, step, first, St.callerStep, if_true] <;>
    exact ⟨⟨rfl, rfl, rfl⟩, by simp, by rintro a h <;> cases h <;> rfl⟩

/-- `KillTimer` while the time runs: the worker ends within six of its steps without a callback, when these are done before
the time is over. -/
theorem C85_kill_call_partial {p : Bool} {h : List In} {cb start timeout now : Int} {k₀ : Cmd} {ts : List Int}
    (ha : At (after p h) cb start timeout k₀) (hc : (after p h).caller = .idle)
    (ht : ∀ t ∈ ts, start ≤ t ∧ t < start + timeout * 1000000) :
    let h' := h ++ callIn now .kill ++ steps ts
    trace p h' = trace p h ∧ (6 ≤ ts.length → (after p h').worker = none ∧ (after p h').running = false) := by
  obtain ⟨h₁, h₂, -⟩ := given (now := now) (c := .kill) ha hc (.inl ⟨rfl, rfl⟩)
  have := C85_kill_partial h₁ ht
  exact ⟨this.1.trans h₂, fun hl => ⟨(this.2 hl).1, (this.2 hl).2.1⟩⟩

/-- `CancelTimer` while the time runs: one callback that tells of the cancellation, when the worker looks before the time is
over. -/
theorem C85_cancel_call_partial {p : Bool} {h : List In} {cb start timeout now t₁ t₂ t₃ t₄ t₅ t₆ t₇ : Int} {k₀ : Cmd}
    {ts : List Int} (ha : At (after p h) cb start timeout k₀) (hc : (after p h).caller = .idle)
    (ht : start ≤ t₂ ∧ t₂ < start + timeout * 1000000) :
    let h' := h ++ callIn now .cancel ++ steps (t₁ :: t₂ :: t₃ :: t₄ :: t₅ :: t₆ :: t₇ :: ts)
    trace p h' = trace p h ++ [.callback t₄ cb .cancel] ∧ (after p h').worker = none ∧ (after p h').running = false := by
  obtain ⟨h₁, h₂, -⟩ := given (now := now) (c := .cancel) ha hc (.inr (.inl ⟨rfl, rfl⟩))
  have := C85_cancel_partial (t₁ := t₁) (t₃ := t₃) (t₄ := t₄) (t₅ := t₅) (t₆ := t₆) (t₇ := t₇) (ts := ts) h₁ ht
  exact ⟨by rw [this.1, h₂], this.2.1, this.2.2.1⟩

/-- `ResetTimer` while the time runs: the whole time runs again. -/
theorem C85_reset_call_partial {p : Bool} {h : List In} {cb start timeout now t₁ t₂ t₃ t₄ t₅ : Int} {k₀ : Cmd}
    (ha : At (after p h) cb start timeout k₀) (hc : (after p h).caller = .idle)
    (ht : start ≤ t₂ ∧ t₂ < start + timeout * 1000000) :
    let h' := h ++ callIn now .reset ++ steps [t₁, t₂, t₃, t₄, t₅]
    trace p h' = trace p h ∧ At (after p h') cb t₄ timeout .none := by
  obtain ⟨h₁, h₂, -⟩ := given (now := now) (c := .reset) ha hc (.inr (.inr (.inl ⟨rfl, rfl⟩)))
  have := C85_reset_partial (t₁ := t₁) (t₃ := t₃) (t₄ := t₄) (t₅ := t₅) h₁ ht
  exact ⟨this.1.trans h₂, this.2⟩

/-- `ExtendTime` while the time runs. -/
theorem C86_extend_call_partial {p : Bool} {h : List In} {cb start timeout now t₁ t₂ t₃ t₄ t₅ t₆ a : Int} {k₀ : Cmd}
    (ha : At (after p h) cb start timeout k₀) (hc : (after p h).caller = .idle) (h0 : 0 ≤ a) (h1 : a < 4294967296)
    (ht : start ≤ t₂ ∧ t₂ < start + timeout * 1000000) (hm : t₂ ≤ t₄) :
    let h' := h ++ callIn now (.extend a) ++ steps [t₁, t₂, t₃, t₄, t₅, t₆]
    trace p h' = trace p h ∧ ∃ start' timeout', At (after p h') cb start' timeout' .none ∧
      start + timeout * 1000000 ≤ start' + timeout' * 1000000 ∧
      t₂ + a * 1000000 < start' + timeout' * 1000000 + 1000000 ∧
      (start' + timeout' * 1000000 = start + timeout * 1000000 ∨ start' + timeout' * 1000000 = t₄ + a * 1000000) := by
  obtain ⟨h₁, h₂, h₃⟩ := given (now := now) (c := .extend a) ha hc (.inr (.inr (.inr ⟨a, rfl, rfl⟩)))
  have := C86_extend_partial (t₁ := t₁) (t₃ := t₃) (t₅ := t₅) (t₆ := t₆) h₁ ht hm
  have e := h₃ a rfl
  rw [Int.emod_eq_of_lt h0 h1] at e
  simp only [e, h₂] at this
  exact this

example : At (after false (startIn 0 10 1)) 1 0 10 .none ∧ (after false (startIn 0 10 1)).caller = .idle :=
  ⟨⟨by decide, by decide, by decide⟩, by decide⟩

/-- `StartCallbackTimer` on a running timer: according to the documentation the running timer is cancelled and the new
callback is used.  No callback for the cancellation comes, and the old one is called. -/
theorem C84_violated_restart : ∃ h, Mono h ∧
    trace false (startIn 0 10 1 ++ callIn (M 1) (.start 20 2) ++ [⟨M 1, .caller⟩] ++ h) =
      [.started 0 10 1, .callback (M 40) 1 .normal] :=
  ⟨steps [M 2, M 2, M 2, M 3, M 3, M 3, M 3, M 40, M 40], by unfold Mono; decide, by decide⟩

/-- A start is lost when the running timer ends between the two tests of the call: the call ends, no timer runs, and no
callback is called for it. -/
theorem C84_violated_lost : ∃ h, Mono h ∧ (∃ a b, h = a ++ ⟨M 10, .call (.start 20 2)⟩ :: b) ∧
    (after false h).caller = .idle ∧ (after false h).running = false ∧ (after false h).worker = none ∧
    trace false h = [.started 0 10 1, .callback (M 10) 1 .normal] :=
  ⟨startIn 0 10 1 ++ steps [M 1, M 10, M 10] ++ [⟨M 10, .call (.start 20 2)⟩] ++ steps [M 10] ++ [⟨M 10, .caller⟩] ++ steps [M 11],
    by unfold Mono; decide, ⟨startIn 0 10 1 ++ steps [M 1, M 10, M 10], steps [M 10] ++ [⟨M 10, .caller⟩] ++ steps [M 11], by simp⟩,
    by decide, by decide, by decide, by decide⟩

/-- A cancellation given when the time is just over stays in the slot and hits the next start: its callback is called at once
for a cancellation nobody asked for. -/
theorem C85_violated_stale : ∃ h g, Mono (h ++ g) ∧ (∀ i ∈ g, i.ev ≠ .call .cancel) ∧ (after false h).worker = none ∧
    (after false h).caller = .idle ∧ trace false h = [.started 0 10 1, .callback (M 10) 1 .normal] ∧
    trace false (h ++ g) = trace false h ++ [.started (M 20) 1000 2, .callback (M 21) 2 .cancel] :=
  ⟨startIn 0 10 1 ++ steps [M 1, M 10] ++ callIn (M 10) .cancel ++ steps [M 10, M 10, M 11],
    startIn (M 20) 1000 2 ++ steps [M 21, M 21, M 21, M 21], by unfold Mono; decide, by decide, by decide, by decide, by decide,
    by decide⟩

/-- A kill given while the worker ends the handling of an earlier command is erased with it: the timer goes on and calls
back, though the call of `KillTimer` was over long before. -/
theorem C85_violated_kill : ∃ h g, Mono (h ++ callIn (M 2) .kill ++ g) ∧ (∀ i ∈ g, i.ev = .worker) ∧
    trace false (h ++ callIn (M 2) .kill ++ g) = [.started 0 10 1, .callback (M 20) 1 .normal] :=
  ⟨startIn 0 10 1 ++ callIn (M 1) .reset ++ steps [M 1, M 1, M 1, M 1], steps [M 3, M 4, M 20, M 20],
    by unfold Mono; decide, by decide, by decide⟩

/-- A command overwrites one that the worker has not seen: after a kill and an extension the timer goes on. -/
theorem C85_violated_overwritten : ∃ g, Mono (startIn 0 10 1 ++ callIn (M 1) .kill ++ callIn (M 2) (.extend 50) ++ g) ∧
    (∀ i ∈ g, i.ev = .worker) ∧
    trace false (startIn 0 10 1 ++ callIn (M 1) .kill ++ callIn (M 2) (.extend 50) ++ g) =
      [.started 0 10 1, .callback (M 60) 1 .normal] :=
  ⟨steps [M 3, M 3, M 3, M 3, M 3, M 3, M 4, M 60, M 60], by unfold Mono; decide, by decide, by decide⟩

/-- An extension changes the period of a periodic timer for good: started with a period of 100 ms and extended once by
2 ms near the end of the first one, it calls back every 2 ms. -/
theorem C86_violated_period : ∃ h, Mono h ∧ trace true (startIn 0 100 1 ++ callIn (M 99) (.extend 2) ++ h) =
    [.started 0 100 1, .callback (M 101) 1 .normal, .callback (M 103) 1 .normal, .callback (M 105) 1 .normal] :=
  ⟨steps [M 99, M 99, M 99, M 99, M 99, M 99, M 100, M 101, M 101, M 101, M 102, M 103, M 103, M 103, M 104, M 105, M 105],
    by unfold Mono; decide, by decide⟩

/-- The time of a restart is cut to 32 bits: starting a running timer again with 2^32 ms has no effect. -/
theorem C86_violated_wrap : ∃ h, Mono h ∧
    trace false (startIn 0 10 1 ++ callIn (M 1) (.start 4294967296 1) ++ [⟨M 1, .caller⟩] ++ h) =
      [.started 0 10 1, .callback (M 10) 1 .normal] :=
  ⟨steps [M 2, M 2, M 2, M 3, M 3, M 3, M 3, M 10, M 10], by unfold Mono; decide, by decide⟩

/-- The thread ends within six of its steps when it finds the kill of the destructor before the time is over. -/
theorem C87_ends_partial {p : Bool} {h : List In} {cb start timeout : Int} {ts : List Int}
    (ha : At (after p h) cb start timeout .kill) (ht : ∀ t ∈ ts, start ≤ t ∧ t < start + timeout * 1000000)
    (hl : 6 ≤ ts.length) : (after p (h ++ steps ts)).worker = none :=
  ((C85_kill_partial ha ht).2 hl).1

end Verif.CallTimer
