import Verif.Blockade.Model
import Verif.Common

/-!
# Tasks that follow a moving target

`DynamicTaskServiceBase`, src/cpp/Tasks/DynamicTaskServiceBase.cpp: the part that the escort, the
overwatch and the relay task share.  Where the vehicle is to be is a virtual function of the task
(`calculateTargetLocation`), here an input.

Positions are points of the plane in metres, as in `Verif.Escort.Segment`; the arithmetic is exact.
The three readings of the clock in one call are taken to be equal.
-/

namespace Verif.Dynamic

open Complex Verif.Blockade

/-- `Location3D`. -/
structure Loc where
  place : ℂ
  altitude : ℝ

/-- A keep-out zone, as far as the task uses it: whether a point is in it, the nearest point of its boundary, and whether the
polygon of twenty corners around a point, at a distance, comes within 0.1 m of its boundary (DynamicTaskServiceBase.cpp
443-459).  These are computed by VisiLibity, whose functions are modelled in `Verif.Visilib`. -/
structure Zone where
  inside : ℂ → Prop
  project : ℂ → ℂ
  touches : ℂ → ℝ → Prop

/-- DynamicTaskServiceBase.h 55-58 and the ids of task and service. -/
structure Params where
  task : ℤ
  service : ℤ
  throttle : ℤ := 3000
  threshold : ℤ := 400
  lead : ℝ := 50

/-- The parts of an entity configuration that are used. -/
structure Config where
  kind : Kind
  nominalSpeed : ℝ
  nominalAltitude : ℝ
  payloads : List (ℤ × Bool)

/-- The members of the service that change: m_throttle, m_entityIdVsLastWaypoint, m_targetLocations,
m_vehicleIDVsSpeedAltitudePair, m_KeepOutZoneIDVsPolygon and m_OperatingRegions. -/
structure St where
  clock : ℤ → Option ℤ := fun _ => none
  lastWaypoint : ℤ → Option ℤ := fun _ => none
  target : ℤ → Option Loc := fun _ => none
  override : ℤ → Option (ℝ × ℝ) := fun _ => none
  zones : ℤ → Option Zone := fun _ => none
  regions : ℤ → Option (List ℤ) := fun _ => none

/-- The kinds of states that are told apart. -/
inductive StateKind | air | ground | other
  deriving DecidableEq

/-- The parts of the state of a vehicle that are used. -/
structure VState where
  id : ℤ
  kind : StateKind
  loc : Loc
  currentWaypoint : ℤ

/-- The parts of a route request that are used; it has one constraint. -/
structure Request where
  vehicle : ℤ
  requestId : ℤ
  task : ℤ
  routeId : ℤ
  start : Loc
  stop : Loc

/-- The parts of a vehicle action that are used. -/
inductive Action
  | loiter (loc : Loc) (speed radius : ℝ) (hover : Bool) (task : ℤ)
  | stare (payload : ℤ) (loc : Loc) (task : ℤ)

/-- The parts of a waypoint that are used. -/
structure Waypoint where
  number : ℤ
  next : ℤ
  loc : Loc
  speed : ℝ
  tasks : List ℤ
  actions : List Action

/-- The parts of a mission command that are used. -/
structure Mission where
  vehicle : ℤ
  first : ℤ
  waypoints : List Waypoint

/-! ### Keep-out zones -/

/-- visilibity.cpp 372-378. -/
noncomputable def normalize (z : ℂ) : ℂ := if ‖z‖ = 0 then 0 else ⟨z.re / ‖z‖, z.im / ‖z‖⟩

open Classical in
/-- DynamicTaskServiceBase.cpp 416-470: the loop over the zones of the region. -/
noncomputable def moveOff (zones : ℤ → Option Zone) (p : ℂ) (offset : ℝ) : List ℤ → ℂ
  | [] => p
  | i :: is =>
      match zones i with
      | none => moveOff zones p offset is
      | some z =>
          if z.inside p then z.project p + normalize (z.project p - p) * offset
          else if z.touches p offset then z.project p + normalize (p - z.project p) * offset
          else moveOff zones p offset is

/-- DynamicTaskServiceBase.cpp 405-479: `AttemptMoveOutsideKoz`; it is called with region 0 only. -/
noncomputable def attemptMove (s : St) (l : Loc) (offset : ℝ) : Loc :=
  match s.regions 0 with
  | none => l
  | some is => { l with place := moveOff s.zones l.place offset is }

/-- DynamicTaskServiceBase.cpp 393-403: `loiterRadiusFromConfig`. -/
noncomputable def loiterRadius (speed : ℝ) : ℝ :=
  (⌈speed * speed / (9.80665 * Real.tan (25 * (Real.pi / 180))) / 100⌉ : ℝ) * 100

/-! ### The states of vehicles on the task -/

/-- DynamicTaskServiceBase.cpp 216-331: `activeEntityState`.  `loc` is what `calculateTargetLocation` returns, none for a null
pointer.  A null pointer is dereferenced in line 256 when there is a previous target. -/
noncomputable def activeEntityState (p : Params) (config : ℤ → Option Config) (s : St) (now : ℤ) (v : VState) (loc : Option Loc) :
    Outcome (St × Option Request) :=
  let c := (s.clock v.id).getD now
  if c + p.throttle ≤ now then
    let s := { s with clock := Function.update s.clock v.id (some now) }
    if v.kind = .ground ∧ ∃ w, s.lastWaypoint v.id = some w ∧ v.currentWaypoint ≠ w then .ok (s, none)
    else
      match loc, s.target v.id with
      | none, some _ => .ub
      | none, none => .ok (s, none)
      | some loc, prev =>
          if ∃ q, prev = some q ∧ ‖loc.place - q.place‖ < p.threshold then .ok (s, none)
          else
            let loc := match v.kind, config v.id with
              | .air, some c => attemptMove s loc (loiterRadius c.nominalSpeed * 1.5)
              | _, _ => loc
            let s := { s with target := Function.update s.target v.id (some loc) }
            if ‖loc.place - v.loc.place‖ < p.threshold then .ok (s, none)
            else .ok (s, some
              { vehicle := v.id, requestId := p.service, task := 0, routeId := 1,
                start := ⟨v.loc.place + normalize (loc.place - v.loc.place) * p.lead, v.loc.altitude⟩, stop := loc })
  else .ok ({ s with clock := Function.update s.clock v.id (some c) }, none)

/-! ### Routes -/

/-- The parts of a route response that are used: the routes with their ids. -/
structure Response where
  id : ℤ
  vehicle : ℤ
  routes : List (ℤ × List Waypoint)

/-- DynamicTaskServiceBase.cpp 333-350: `calculateGimbalStareAction`. -/
def stares (p : Params) (c : Config) (loc : Loc) : List Action :=
  (c.payloads.filter (fun x => x.2)).map (fun x => Action.stare x.1 loc p.task)

/-- DynamicTaskServiceBase.cpp 351-391: `calculateLoiterAction`; the override is looked up by the id of the configuration, which is
that of the vehicle. -/
noncomputable def loiter (p : Params) (s : St) (id : ℤ) (c : Config) (loc : Loc) : Action :=
  let alt := match s.override id with
    | some o => o.2
    | none => c.nominalAltitude
  if c.kind = .ground ∨ c.kind = .surface then Action.loiter { loc with altitude := alt } c.nominalSpeed 0 true p.task
  else Action.loiter { loc with altitude := alt } c.nominalSpeed (loiterRadius c.nominalSpeed) false p.task

/-- DynamicTaskServiceBase.cpp 137-147: a waypoint of the route as it is taken over. -/
def takeOver (p : Params) (o : Option (ℝ × ℝ)) (w : Waypoint) : Waypoint :=
  match o with
  | some o => { w with speed := o.1, loc := { w.loc with altitude := o.2 }, tasks := w.tasks ++ [p.task] }
  | none => { w with tasks := w.tasks ++ [p.task] }

/-- `vector::front` modified. -/
def onFirst (f : Waypoint → Waypoint) : List Waypoint → List Waypoint
  | [] => []
  | w :: l => f w :: l

/-- `vector::back` modified. -/
def onLast (f : Waypoint → Waypoint) : List Waypoint → List Waypoint
  | [] => []
  | [w] => [f w]
  | w :: w' :: l => w :: onLast f (w' :: l)

/-- DynamicTaskServiceBase.cpp 126-185: a response of the route planner, and the mission that is sent. -/
noncomputable def response (p : Params) (config : ℤ → Option Config) (s : St) (r : Response) : St × Option Mission :=
  match r.routes with
  | [] => (s, none)
  | (routeId, ws) :: _ =>
      if r.id = p.service ∧ routeId = 1 ∧ ws ≠ [] then
        let ws := onLast (fun w => { w with next := w.number }) (ws.map (takeOver p (s.override r.vehicle)))
        let number (d : Option Waypoint) : ℤ := match d with
          | some w => w.number
          | none => 0
        let s := { s with lastWaypoint := Function.update s.lastWaypoint r.vehicle (some (number ws.getLast?)) }
        let ws := match config r.vehicle, s.target r.vehicle with
          | some c, some loc =>
              onLast (fun w => { w with actions := w.actions ++ [loiter p s r.vehicle c loc] })
                (onFirst (fun w => { w with actions := w.actions ++ stares p c loc }) ws)
          | _, _ => ws
        (s, some { vehicle := r.vehicle, first := number ws.head?, waypoints := ws })
      else (s, none)

/-- DynamicTaskServiceBase.cpp 197-208: a `UniqueAutomationResponse`: speed and altitude of the last waypoint of each mission. -/
def automation (s : St) : List Mission → St
  | [] => s
  | m :: ms =>
      automation (match m.waypoints.getLast? with
        | none => s
        | some w => { s with override := Function.update s.override m.vehicle (some (w.speed, w.loc.altitude)) }) ms

/-! ### All messages -/

/-- What reaches the service. -/
inductive Event
  | state (now : ℤ) (v : VState) (loc : Option Loc)
  | response (r : Response)
  | zone (id : ℤ) (z : Zone)
  | region (id : ℤ) (zones : List ℤ)
  | automation (ms : List Mission)

/-- What the service sends. -/
inductive Out
  | request (r : Request)
  | mission (m : Mission)

/-- DynamicTaskServiceBase.cpp 124-214 and 216-331. -/
noncomputable def step (p : Params) (config : ℤ → Option Config) (s : St) : Event → Outcome (St × Option Out)
  | .state now v loc => (activeEntityState p config s now v loc).bind (fun r => .ok (r.1, r.2.map Out.request))
  | .response r => .ok ((response p config s r).1, (response p config s r).2.map Out.mission)
  | .zone i z => .ok ({ s with zones := Function.update s.zones i (some z) }, none)
  | .region i l => .ok ({ s with regions := Function.update s.regions i (some l) }, none)
  | .automation ms => .ok (automation s ms, none)

/-- A history: what is sent for each message, until the service fails. -/
noncomputable def run (p : Params) (config : ℤ → Option Config) (s : St) : List Event → Outcome (St × List (Event × Option Out))
  | [] => .ok (s, [])
  | e :: es => (step p config s e).bind (fun r => (run p config r.1 es).bind (fun q => .ok (q.1, (e, r.2) :: q.2)))

end Verif.Dynamic
