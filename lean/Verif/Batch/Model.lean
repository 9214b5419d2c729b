import Verif.AMap
import Verif.Trace
import Verif.Assign.Model

/-!
# Batch summaries

`src/cpp/Services/BatchSummaryService.cpp`: a request for summaries of vehicles and tasks is split into automation requests;
the plans that come back are summed up.  Simplifications:

* Distances, flying times and the test whether a loiter touches a zone are parameters (`Env`), in exact integers; rounding of the
  floating point numbers is not modelled.  Energy is in thousandths of the unit of the messages.
* `m_workingRequests` and `m_pendingTaskAutomationRequests` are only written, so they are left out.
* `FromAbstractGeometry` and `LinearizeBoundary` are part of the parameter for zones.
* `int64_t` is the unbounded integers; the conversion to `int` in `UpdateTaskSummariesUtil` is modelled.
-/

namespace Verif.Batch

open Verif
open Verif.Assign (toStringInt)

/-- mdms/CMASI.xml 1173-1215: `Waypoint`: its loiter actions are location and radius. -/
structure Wp where
  number : Int
  tasks : List Int := []
  place : Int := 0
  loiters : List (Int × Int) := []
deriving DecidableEq, Repr

/-- mdms/IMPACT.xml 291-324: what is reported about range, energy and zones. -/
structure Flags where
  conflict : Bool := false
  energy : Int := 0
  beyond : Bool := false
deriving DecidableEq, Repr

/-- mdms/IMPACT.xml 291-324: `VehicleSummary`. -/
structure VSum where
  vehicle : Int
  initial : Int
  dest : Int
  onTask : Int := -1
  arrive : Int := -1
  wps : List Wp := []
  first : Int := 0
  flags : Flags := {}
deriving DecidableEq, Repr

/-- mdms/IMPACT.xml 278-288: `TaskSummary`. -/
structure TSum where
  task : Int
  perf : List VSum := []
deriving DecidableEq, Repr

/-- mdms/IMPACT.xml 266-271: `BatchSummaryResponse`. -/
structure Resp where
  id : Int
  sums : List TSum
deriving DecidableEq, Repr

/-- mdms/IMPACT.xml 248-263: `BatchSummaryRequest`; `related` is whether the relationships
are not empty. -/
structure Req where
  id : Int
  vehicles : List Int
  tasks : List Int
  related : Bool
  region : Int
deriving DecidableEq, Repr

/-- mdms/CMASI.xml 1284-1300: the `AutomationRequest` in a `TaskAutomationRequest` (always
a sandbox request): its operating region is not set, so it is that of the default, 0. -/
structure Ask where
  tasks : List Int
  vehicle : Int
  relationships : Str
  region : Int := 0
deriving DecidableEq, Repr

/-- mdms/CMASI.xml 1227-1237: `MissionCommand`. -/
structure Mission where
  vehicle : Int
  wps : List Wp
deriving DecidableEq, Repr

/-- BatchSummaryService.cpp 365, 442-569, 572-650: parameters: the time in milliseconds
between two waypoints, the distance of two places, whether a loiter touches a zone. -/
structure Env where
  leg : Wp → Wp → Int
  dist : Int → Int → Int
  touches : Int → Int × Int → Bool

/-! ### The parts of a request -/

/-- `".(p" … " p" … ")"`, BatchSummaryService.cpp 289. -/
def inOrder (i j : Int) : Str := '.' :: '(' :: 'p' :: (toStringInt i ++ ' ' :: 'p' :: (toStringInt j ++ [')']))

/-- The summaries in the order in which they are made, each with the automation request
made with it; BatchSummaryService.cpp 234-314. -/
def parts (r : Req) : List (Option Ask × VSum) :=
  if !r.related then
    r.tasks.flatMap fun t => r.vehicles.map fun v => (some ⟨[t], v, [], 0⟩, { vehicle := v, initial := 0, dest := t })
  else
    r.vehicles.flatMap fun v => r.tasks.flatMap fun i =>
      (none, { vehicle := v, initial := 0, dest := i }) ::
        (r.tasks.filter fun j => !(i == j)).map fun j =>
          (some ⟨[i, j], v, inOrder i j, 0⟩, { vehicle := v, initial := i, dest := j })

/-- BatchSummaryService.cpp 239, 253-256, 267, 274-277, 293, 302-305: `std::find_if` for
the task and `push_back`. -/
def addPerf (sums : List TSum) (v : VSum) : List TSum :=
  match sums with
  | [] => []
  | s :: rest => if s.task = v.dest then { s with perf := s.perf ++ [v] } :: rest else s :: addPerf rest v

/-- BatchSummaryService.cpp 234-314: the automation requests alone. -/
def asks (r : Req) : List Ask := (parts r).filterMap (·.1)

/-- The response before any plan has come, BatchSummaryService.cpp 220-232. -/
def start (r : Req) : Resp :=
  ⟨r.id, ((parts r).map (·.2)).foldl addPerf (r.tasks.map fun t => { task := t })⟩

/-! ### The plans -/

/-- BatchSummaryService.cpp 401-411: conversion to `int`. -/
def toInt32 (x : Int) : Int := (x + 2147483648) % 4294967296 - 2147483648

/-- BatchSummaryService.cpp 399-437: a part of a mission that ends a task: the task
before, the task, the waypoints. -/
structure Leg where
  prev : Int
  task : Int
  wps : List Wp
deriving DecidableEq, Repr

/-- The loop over the waypoints, BatchSummaryService.cpp 399-437: the waypoints since
`taskStart`, `iteratingToTask`, `workingTask` and `prevTask`. -/
def scan : List Wp → Bool → Int → Int → List Wp → List Leg
  | _, _, _, _, [] => []
  | seg, going, work, prev, w :: rest =>
    if !w.tasks.isEmpty && !rest.isEmpty then
      if going then scan (seg ++ [w]) false (toInt32 (w.tasks.headD 0)) work rest
      else scan (seg ++ [w]) going work prev rest
    else if !going then ⟨prev, work, seg ++ [w]⟩ :: scan [w] true work prev rest
    else scan (seg ++ [w]) going work prev rest

/-- BatchSummaryService.cpp 396-438: the legs of the missions of a response. -/
def legs (ms : List Mission) : List (Int × Leg) := ms.flatMap fun m => (scan [] true 0 0 m.wps).map fun l => (m.vehicle, l)

/-- The flying times, BatchSummaryService.cpp 355-376: on the task and to the task. -/
def times (e : Env) : List Wp → Int × Int
  | p :: w :: rest =>
    let t := times e (w :: rest)
    if p.tasks.isEmpty then (t.1, t.2 + e.leg p w) else (t.1 + e.leg p w, t.2)
  | _ => (0, 0)

/-- `UpdateSummaryUtil`, BatchSummaryService.cpp 339-390. -/
def VSum.add (e : Env) (s : VSum) (l : List Wp) : VSum :=
  if l.isEmpty then s
  else
    let wps := s.wps ++ l
    { s with wps := wps, onTask := (times e l).1, arrive := (times e l).2,
             first := match wps with | w :: _ => w.number | [] => s.first }

/-- The summary of the vehicle, BatchSummaryService.cpp 425-431. -/
def addV (e : Env) (v : Int) (l : Leg) : List VSum → List VSum
  | [] => []
  | s :: rest =>
    if s.vehicle = v ∧ s.dest = l.task ∧ s.initial = l.prev then s.add e l.wps :: rest else s :: addV e v l rest

/-- The summary of the task, BatchSummaryService.cpp 421-432. -/
def addLeg (e : Env) (sums : List TSum) (vl : Int × Leg) : List TSum :=
  match sums with
  | [] => []
  | s :: rest => if s.task = vl.2.task then { s with perf := addV e vl.1 vl.2 s.perf } :: rest else s :: addLeg e rest vl

/-! ### Vehicles, towers and zones -/

/-- mdms/CMASI.xml 648-735: `EntityState`. -/
structure VState where
  place : Int
  energy : Int
  rate : Int
deriving DecidableEq, Repr

/-- BatchSummaryService.h 119-134: the members of the service. -/
structure St where
  states : Map VState := []
  /-- ranges of the radios of the vehicles -/
  configs : Map (List Int) := []
  towers : Map Int := []
  ranges : Map (Int × Bool) := []
  zones : Map Int := []
  nextResp : Int := 1
  nextReq : Int := 1
  pend : Map (List Int) := []
  working : Map Resp := []

/-- The greater range of the tower (1 when it is off) and the radios,
BatchSummaryService.cpp 507-527. -/
def rangeOf (s : St) (v : Int) (r : Int × Bool) : Int :=
  ((s.configs.get v).getD []).foldl (fun a b => if a < b then b else a) (if r.2 then r.1 else 1)

/-- The distance of a waypoint with its loiters, BatchSummaryService.cpp 538-557. -/
def wpDist (e : Env) (tower : Int) (w : Wp) : Int :=
  w.loiters.foldl (fun d l => if d < l.2 + e.dist l.1 tower then l.2 + e.dist l.1 tower else d) (e.dist tower w.place)

/-- BatchSummaryService.cpp 499-560. -/
def beyondTower (e : Env) (s : St) (v : VSum) (tower : Int × Int) : Bool :=
  match s.states.get v.vehicle, s.ranges.get tower.1 with
  | some st, some r =>
    let range := rangeOf s v.vehicle r
    decide (range < e.dist tower.2 st.place) || v.wps.any fun w => decide (range < wpDist e tower.2 w)
  | _, _ => false

/-- `UpdateVehicleSummary`, BatchSummaryService.cpp 442-569. -/
def refresh (e : Env) (s : St) (v : VSum) : VSum :=
  { v with flags :=
    { conflict := v.flags.conflict || v.wps.any fun w => w.loiters.any fun l => s.zones.any fun z => e.touches z.2 l
      energy := match s.states.get v.vehicle with
        | some st =>
          let x := st.energy * 1000 - (v.arrive + v.onTask) * st.rate
          if x < 0 then 0 else x
        | none => 100000
      beyond := !(s.towers.any fun t => !beyondTower e s v t) } }

/-! ### Messages -/

/-- BatchSummaryService.cpp 91-143: what the service receives. -/
inductive Op where
  | request (r : Req)
  | response (id : Int) (missions : List Mission)
  /-- a configuration with the ranges of its radios -/
  | config (id : Int) (radios : List Int)
  | tower (id : Int) (place : Int) (range : Int) (enabled : Bool)
  | state (id : Int) (st : VState)
  | towerState (id : Int) (st : VState) (enabled : Bool)
  | zone (id : Int) (z : Int)

/-- BatchSummaryService.cpp 191-209, 330: what the service sends. -/
inductive Out where
  | ask (id : Int) (a : Ask)
  | answer (r : Resp)
deriving DecidableEq

/-- Consecutive numbers for the requests, BatchSummaryService.cpp 319-331. -/
def number (n : Int) : List Ask → List (Int × Ask)
  | [] => []
  | a :: as => (n, a) :: number (n + 1) as

/-- `HandleBatchSummaryRequest`, BatchSummaryService.cpp 212-337. -/
def St.request (s : St) (r : Req) : St × List Out :=
  let nr := number s.nextReq (asks r)
  let s' := { s with nextResp := s.nextResp + 1, nextReq := s.nextReq + nr.length }
  if nr.isEmpty then (s', [.answer (start r)])
  else
    ({ s' with pend := s.pend.put s.nextResp (nr.map (·.1)), working := s.working.put s.nextResp (start r) },
      nr.map fun p => .ask p.1 p.2)

/-- `HandleTaskAutomationResponse` and `FinalizeBatchRequest`, BatchSummaryService.cpp
145-209. -/
def St.response (e : Env) (s : St) (id : Int) (ms : List Mission) : St × List Out :=
  match s.pend.find? fun p => p.2.contains id with
  | none => (s, [])
  | some (k, ids) =>
    let ids' := ids.filter fun x => !(x == id)
    let resp := (s.working.get k).map fun r => ({ r with
      sums := ((legs ms).foldl (addLeg e) r.sums).map fun t => { t with perf := t.perf.map (refresh e s) } } : Resp)
    if ids'.isEmpty then ({ s with pend := s.pend.del k, working := s.working.del k }, resp.toList.map .answer)
    else
      ({ s with pend := s.pend.put k ids'
                working := match resp with | some r => s.working.put k r | none => s.working }, [])

/-- `processReceivedLmcpMessage`, BatchSummaryService.cpp 91-143. -/
def St.step (e : Env) (s : St) : Op → St × List Out
  | .request r => s.request r
  | .response id ms => s.response e id ms
  | .config id radios => ({ s with configs := s.configs.put id radios }, [])
  | .tower id place range enabled =>
    ({ s with configs := s.configs.put id [], towers := s.towers.put id place, ranges := s.ranges.put id (range, enabled) }, [])
  | .state id st => ({ s with states := s.states.put id st }, [])
  | .towerState id st enabled =>
    ({ s with states := s.states.put id st, towers := s.towers.put id st.place,
              ranges := match s.ranges.get id with | some r => s.ranges.put id (r.1, enabled) | none => s.ranges }, [])
  | .zone id z => ({ s with zones := s.zones.put id z }, [])

end Verif.Batch
