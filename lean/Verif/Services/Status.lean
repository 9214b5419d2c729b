import Verif.Trace

/-!
# Status reports

`StatusReportService`, `src/cpp/Services/StatusReportService.cpp`.  The service has three timers.  A timer that is due is taken out
of the queue by the thread of the `TimerManager` (`fire`), which then calls the handler (`body`, which takes the mutex of the
service) and afterwards puts a periodic timer back (`finish`); messages may be handled between these steps
(UxAS_TimerManager.cpp 416-462).

Simplifications: time is in whole milliseconds; a timer is found in the queue by its identity (C44 says what happens when two
timers are due at the same instant); `start` is at time 0; the XML attributes are given as numbers.
-/

namespace Verif.Status

open Verif

/-- StatusReportService.h: the three timers (StatusReportService.cpp 108-126). -/
inductive Kind where
  | report
  | alive
  | stale
deriving DecidableEq, Repr

/-- `OnboardStatusReport`, mdms/UXNATIVE.xml 161-178. -/
structure Report where
  vehicle : Int
  connected : List Int := []
  tasks : List Int := []
  validState : Bool := false
  auth : Bool := false
  speed : Bool := false
  gimbal : Bool := false
  time : Int := 0
deriving DecidableEq, Repr

/-- The settings read by `configure`, StatusReportService.cpp 76-93. -/
structure Cfg where
  vehicle : Int
  period : Nat
  staleTime : Nat
  aliveTime : Nat
deriving DecidableEq, Repr

/-- `configure`, StatusReportService.cpp 76-93; the defaults of the members are StatusReportService.h 115-121. -/
def configure (entity : Int) (vehicle : Option Int) (period stale alive : Option Nat) : Cfg :=
  let p := period.getD 5000
  let s := stale.getD 5000
  let a := alive.getD 7000
  { vehicle := vehicle.getD entity
    period := if p < 100 then 100 else p
    staleTime := if s < 10 then 10 else s
    aliveTime := if a < 1000 then 1000 else a }

/-- The messages subscribed to, StatusReportService.cpp 95-104: an entity state with id, time and associated tasks. -/
inductive Msg where
  | state (id time : Int) (tasks : List Int)
  | join (id : Int)
  | exit (id : Int)
  | keepAlive (autopilot speed gimbal : Bool)
  | other
deriving DecidableEq, Repr

/-- The members of the service (StatusReportService.h 112-139), and of the `TimerManager` what concerns its timers: when each is due if it is queued, and the timer
whose handler is called, when it was due, and whether the handler is done. -/
structure State where
  rep : Report
  conns : List Int := []
  due : Kind → Option Nat
  running : Option (Kind × Nat × Bool) := none
  /-- UxAS_TimerManager.cpp 448-453: the time of a queued timer was changed, which puts the queue out of order. -/
  ub : Bool := false

/-- UxAS_TimerManager.cpp 293-299: `m_queue.insert`. -/
def arm (due : Kind → Option Nat) (k : Kind) (d : Option Nat) : Kind → Option Nat := fun k' => if k' = k then d else due k'

/-- The constructor, `configure` and `start`, StatusReportService.cpp 41-48, 76-80, 128-133. -/
def init (c : Cfg) : State :=
  { rep := { vehicle := c.vehicle }, due := arm (fun _ => none) .report (some c.period) }

/-- StatusReportService.cpp 159: insertion in a `std::set` of ids. -/
def insertId (x : Int) : List Int → List Int
  | [] => [x]
  | y :: ys => if x < y then x :: y :: ys else if x = y then y :: ys else y :: insertId x ys

/-- `processReceivedLmcpMessage` at time `now`, StatusReportService.cpp 135-181. -/
def recv (c : Cfg) (s : State) (now : Nat) : Msg → State
  | .state id time tasks =>
    if c.vehicle = id then
      let due := arm s.due .stale (some (now + c.staleTime))
      { s with
        rep := { s.rep with time := time, tasks := tasks, validState := true }
        due := if (due .report).isSome then due else arm due .report (some (now + c.period)) }
    else s
  | .join id =>
    let conns := insertId id s.conns
    { s with conns := conns, rep := { s.rep with connected := conns } }
  | .exit id =>
    let conns := s.conns.filter (· ≠ id)
    { s with conns := conns, rep := { s.rep with connected := conns } }
  | .keepAlive a sp g =>
    { s with
      rep := { s.rep with auth := a, speed := sp, gimbal := g }
      due := arm s.due .alive (some (now + c.aliveTime)) }
  | .other => s

/-- UxAS_TimerManager.cpp 414-426: the first timer of the queue is due and no handler is being called. -/
def fire (s : State) (now : Nat) (k : Kind) : State :=
  match s.running, s.due k with
  | none, some d =>
    if d ≤ now ∧ ∀ k' ∈ [Kind.report, .alive, .stale], ∀ d' ∈ s.due k', d ≤ d' then
      { s with running := some (k, d, false), due := arm s.due k none }
    else s
  | _, _ => s

/-- The handlers, StatusReportService.cpp 183-204. -/
def body (s : State) : State × Option Report :=
  match s.running with
  | some (.report, d, false) => ({ s with running := some (.report, d, true) }, some s.rep)
  | some (.alive, d, false) =>
    ({ s with running := some (.alive, d, true), rep := { s.rep with auth := false, speed := false, gimbal := false } }, none)
  | some (.stale, d, false) => ({ s with running := some (.stale, d, true), rep := { s.rep with validState := false } }, none)
  | _ => (s, none)

/-- UxAS_TimerManager.cpp 429-462: a periodic timer is put back. -/
def finish (c : Cfg) (s : State) : State :=
  match s.running with
  | some (.report, d, true) =>
    if (s.due .report).isSome then { s with running := none, ub := true }
    else { s with running := none, due := arm s.due .report (some (d + c.period)) }
  | some (_, _, true) => { s with running := none }
  | _ => s

/-- The steps, UxAS_TimerManager.cpp 399-474 and StatusReportService.cpp 135-204. -/
inductive Ev where
  | recv (m : Msg)
  | fire (k : Kind)
  | body
  | finish
deriving DecidableEq, Repr

/-- StatusReportService.cpp 135-204: one step at a time; a service with undefined behaviour does nothing more. -/
def step (c : Cfg) (s : State) (e : Nat × Ev) : State × Option Report :=
  if s.ub then (s, none)
  else match e.2 with
    | .recv m => (recv c s e.1 m, none)
    | .fire k => (fire s e.1 k, none)
    | .body => body s
    | .finish => (finish c s, none)

end Verif.Status
