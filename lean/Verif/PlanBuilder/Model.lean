import Verif.AMap
import Verif.Trace

/-!
Model of the plan builder, `src/cpp/Services/PlanBuilderService.{h,cpp}`: it turns the assignment of tasks to vehicles
into mission commands, by asking the tasks one after the other for their waypoints.

Simplifications, which apply to the whole file:
* Locations and headings are opaque numbers; the projection of the position of a vehicle ahead of it, lines 225-245 of
  the `.cpp` (trigonometry), is a parameter of the configuration, `Config.lead`.
* Speeds, altitudes and times are integers.
* `int64_t` is the unbounded integers.
* Pointers inside received messages are not null, as the message library guarantees for the fields it allocates
  (`FinalLocation` of a response, `Location` of a state and of a loiter).
* The parts of messages that the service neither reads nor sets are left out, except for `Wp.place` and `Action.other`
  which stand for what is passed on unread.
* `m_assignmentSummaries` is only written, so it is left out.
-/

namespace Verif.PlanBuilder

open Verif

/-- mdms/CMASI.xml 385-397: a location, an opaque number here. -/
abbrev Place := Int

/-- mdms/CMASI.xml 432-439 and 1118-1158: `afrl::cmasi::VehicleAction`: a loiter with its
kind, the altitude of its location and its speed, or another. -/
inductive Action where
  | loiter (hover : Bool) (alt speed : Int)
  | other (k : Int)
deriving DecidableEq, Repr

/-- mdms/CMASI.xml 1173-1215: `afrl::cmasi::Waypoint`. -/
structure Wp where
  number : Int
  next : Int
  place : Place := 0
  alt : Int := 0
  altType : Int := 0
  speed : Int := 0
  turn : Int := 0
  actions : List Action := []
deriving DecidableEq, Repr

/-- mdms/CMASI.xml 1227-1237: `afrl::cmasi::MissionCommand`: the last component lists the
actions of the command, each being to look down with a payload for a task (payload, task).
-/
structure Mission where
  command : Int
  vehicle : Int
  first : Int
  wps : List Wp
  looks : List (Int × Int) := []
deriving DecidableEq, Repr

/-- mdms/UXTASK.xml 52-59: `uxas::messages::task::PlanningState`. -/
structure Planning where
  vehicle : Int
  place : Place
  heading : Int
deriving DecidableEq, Repr

/-- `PlanBuilderService::ProjectedState`, `PlanBuilderService.h` 143-154. -/
structure Proj where
  planning : Planning
  last : Int
  time : Int
deriving DecidableEq, Repr

/-- mdms/UXTASK.xml 330-341: `uxas::messages::task::TaskAssignment`. -/
structure Assign where
  vehicle : Int
  task : Int
  option : Int := 0
  threshold : Int := 0
deriving DecidableEq, Repr

/-- mdms/IMPACT.xml 327-338: `afrl::impact::SpeedAltPair`. -/
structure Override where
  vehicle : Int
  task : Int
  alt : Int
  altType : Int
  speed : Int
deriving DecidableEq, Repr

/-- mdms/UXTASK.xml 123-136: `uxas::messages::task::UniqueAutomationRequest`. -/
structure Request where
  id : Int
  vehicles : List Int := []
  region : Int := 0
  planning : List Planning := []
deriving DecidableEq, Repr

/-- mdms/CMASI.xml 648-735: `afrl::cmasi::EntityState` with its gimbals; `surface`: of a
ground or a surface vehicle. -/
structure VState where
  id : Int
  place : Place := 0
  heading : Int := 0
  time : Int := 0
  gimbals : List Int := []
  surface : Bool := false
deriving DecidableEq, Repr

/-- mdms/UXTASK.xml 344-351: `uxas::messages::task::TaskAssignmentSummary`. -/
structure Summary where
  req : Int
  tasks : List Assign
deriving DecidableEq, Repr

/-- mdms/UXTASK.xml 235-264: `uxas::messages::task::TaskImplementationRequest`. -/
structure Ask where
  id : Int
  req : Int
  start : Int
  vehicle : Int
  task : Int
  option : Int
  region : Int
  threshold : Int
  place : Place
  heading : Int
  time : Int
  neighbours : List Planning
deriving DecidableEq, Repr

/-- mdms/UXTASK.xml 271-290: `uxas::messages::task::TaskImplementationResponse`. -/
structure Response where
  id : Int
  vehicle : Int
  task : Int := 0
  option : Int := 0
  wps : List Wp
  place : Place := 0
  heading : Int := 0
  time : Int := 0
deriving DecidableEq, Repr

/-- mdms/UXTASK.xml 139-147: `uxas::messages::task::UniqueAutomationResponse`. -/
structure Plan where
  req : Int
  missions : List Mission
  finals : List Planning
deriving DecidableEq, Repr

/-- PlanBuilderService.cpp 94-137: the messages received. -/
inductive In where
  | state (v : VState)
  | request (r : Request)
  | summary (m : Summary)
  | response (r : Response)
  | overrides (req : Int) (os : List Override)
  | impactResponse (req : Int)
deriving DecidableEq, Repr

/-- PlanBuilderService.cpp 94-468: the reasons for an error status. -/
inductive Err where
  | noRequest (req : Int)
  | noTasks (req : Int)
  | noState (vehicle : Int)
  | noWaypoints (task option vehicle : Int)
deriving DecidableEq, Repr

/-- PlanBuilderService.cpp 94-468: the messages sent. -/
inductive Out where
  | error (e : Err)
  | ask (a : Ask)
  | plan (p : Plan)
  | done (req : Int)
deriving DecidableEq, Repr

/-- The options of the service, `configure`, PlanBuilderService.cpp 50-92. -/
structure Config where
  lead : Place → Int → Place := fun p _ => p
  loiter : Bool := false
  turn : Option Int := none

/-- The attributes of the service, `PlanBuilderService.h` 156-200.  In `progress` a missing entry and a null pointer
differ as they do in the code. -/
structure St where
  cfg : Config
  requests : Map Request := []
  progress : Map (Option (List Mission)) := []
  projected : Map (List Proj) := []
  remaining : Map (List Assign) := []
  expected : Map Int := []
  states : Map VState := []
  overrides : Map (List Override) := []
  askId : Int := 1
  commandId : Int := 1
  /-- Undefined behaviour has happened. -/
  ub : Bool := false

/-- PlanBuilderService.cpp 50-92: the service after its configuration. -/
def start (c : Config) : St := { cfg := c }

/-- The projected state of a participating vehicle, PlanBuilderService.cpp 212-250. -/
def St.initial (s : St) (r : Request) (v : VState) : Proj :=
  { planning :=
      match r.planning.find? (·.vehicle == v.id) with
      | some p => p
      | none => { vehicle := v.id, place := s.cfg.lead v.place v.heading, heading := v.heading }
    last := 0
    time := v.time }

/-- `sendNextTaskImplementationRequest`, PlanBuilderService.cpp 262-304. -/
def St.sendNext (s : St) (q : Int) : St × List Out :=
  match s.requests.get q with
  | none => (s, [])
  | some r =>
    match s.remaining.get q with
    | none => (s, [])
    | some [] => (s, [])
    | some (t :: ts) =>
      let ps := (s.projected.get q).getD []
      match ps.find? (·.planning.vehicle == t.vehicle) with
      | none => (s, [])
      | some p =>
        ({ s with
           expected := s.expected.put s.askId q
           askId := s.askId + 1
           remaining := s.remaining.put q ts },
         [.ask { id := s.askId, req := q, start := p.last + 1, vehicle := t.vehicle, task := t.task,
                 option := t.option, region := r.region, threshold := t.threshold,
                 place := p.planning.place, heading := p.planning.heading, time := p.time,
                 neighbours := (ps.filter (·.planning.vehicle != p.planning.vehicle)).map (·.planning) }])

/-- `processTaskAssignmentSummary`, PlanBuilderService.cpp 150-260. With an empty list of
vehicles all the vehicles heard of take part, in the order of a hash table. -/
def St.summary (s : St) (m : Summary) : St × List Out :=
  match s.requests.get m.req with
  | none => (s, [.error (.noRequest m.req)])
  | some r =>
    if m.tasks = [] then (s, [.error (.noTasks m.req)]) else
    match r.vehicles.find? (fun v => (s.states.get v).isNone) with
    | some v => (s, [.error (.noState v)])
    | none =>
      let vs := if r.vehicles = [] then s.states.map (·.1) else r.vehicles
      let ps := (vs.filterMap s.states.get).map (s.initial r)
      { s with
        progress := s.progress.put m.req (some [])
        projected := s.projected.put m.req ps
        remaining := s.remaining.put m.req m.tasks }.sendNext m.req

/-- The change of one waypoint by an override, PlanBuilderService.cpp 359-370. -/
def Override.apply (o : Override) (w : Wp) : Wp :=
  { w with
    alt := o.alt
    speed := o.speed
    altType := o.altType
    actions := w.actions.map fun
      | .loiter hover _ speed => .loiter hover o.alt speed
      | a => a }

/-- The overrides, of whatever request, for the vehicle and the task,
PlanBuilderService.cpp 350-355. The order of the requests is that of a hash table. -/
def St.overridesFor (s : St) (vehicle task : Int) : List Override :=
  (s.overrides.flatMap (·.2)).filter fun o => o.vehicle == vehicle && (o.task == task || o.task == 0)

/-- PlanBuilderService.cpp 342: set the next waypoint of the last waypoint. -/
def setLast (n : Int) : List Wp → List Wp
  | [] => []
  | [w] => [{ w with next := n }]
  | w :: w' :: ws => w :: setLast n (w' :: ws)

/-- Append to the first mission of the vehicle, PlanBuilderService.cpp 338-346. -/
def extend (v : Int) (ws : List Wp) : List Mission → List Mission
  | [] => []
  | m :: ms =>
    if m.vehicle = v then { m with wps := setLast ((ws.map (·.number)).headD 0) m.wps ++ ws } :: ms
    else m :: extend v ws ms

/-- A new mission, PlanBuilderService.cpp 349-400. -/
def St.newMission (s : St) (r : Response) : Mission :=
  { command := s.commandId
    vehicle := r.vehicle
    first := (r.wps.map (·.number)).headD 0
    wps := r.wps.map fun w => (s.overridesFor r.vehicle r.task).foldl (fun w o => o.apply w) w
    looks := match s.states.get r.vehicle with
      | none => []
      | some v => v.gimbals.map fun p => (p, r.task) }

/-- Update the first projected state of the vehicle, PlanBuilderService.cpp 403-415. -/
def project (r : Response) : List Proj → List Proj
  | [] => []
  | p :: ps =>
    if p.planning.vehicle = r.vehicle then
      { planning := { p.planning with place := r.place, heading := r.heading }
        last := ((r.wps.map (·.number)).getLast?).getD 0
        time := r.time } :: ps
    else p :: project r ps

/-- For `back()`: change the last element. -/
def modifyLast (f : α → α) : List α → List α
  | [] => []
  | [a] => [f a]
  | a :: b :: as => a :: modifyLast f (b :: as)

/-- `isLoiterAction`, used in PlanBuilderService.cpp 480. -/
def Action.isLoiter : Action → Bool
  | .loiter .. => true
  | .other _ => false

/-- `AddLoitersToMissionCommands`, PlanBuilderService.cpp 470-523; `none`: `front` of an
empty vector. -/
def St.addLoiters (s : St) (ms : List Mission) : Option (List Mission) :=
  if ms.any fun m => m.wps.any fun w => w.actions.any Action.isLoiter then some ms else
  match ms with
  | [] => none
  | m :: _ =>
    if ms.all fun m' => m'.vehicle == m.vehicle then
      match s.states.get m.vehicle with
      | none => some ms
      | some v =>
        some (modifyLast (fun m => { m with wps := modifyLast (fun w =>
          { w with actions := w.actions ++ [.loiter v.surface w.alt w.speed] }) m.wps }) ms)
    else some ms

/-- PlanBuilderService.cpp 444-449. -/
def turned (c : Config) (ms : List Mission) : List Mission :=
  match c.turn with
  | none => ms
  | some t => ms.map fun m => { m with wps := m.wps.map fun w => { w with turn := t } }

/-- `checkNextTaskImplementationRequest`, PlanBuilderService.cpp 421-468, where the plan
in progress is not null. -/
def St.checkNext (s : St) (q : Int) (ms : List Mission) : St × List Out :=
  match s.remaining.get q with
  | none => (s, [])
  | some (_ :: _) => s.sendNext q
  | some [] =>
    match if s.cfg.loiter then s.addLoiters ms else some ms with
    | none => ({ s with ub := true }, [])
    | some ms' =>
      ({ s with progress := s.progress.del q, overrides := s.overrides.del q },
       [.plan { req := q, missions := turned s.cfg ms',
                finals := ((s.projected.get q).getD []).map (·.planning) },
        .done q])

/-- `processTaskImplementationResponse`, PlanBuilderService.cpp 306-419. -/
def St.response (s : St) (r : Response) : St × List Out :=
  match s.expected.get r.id with
  | none => (s, [])
  | some q =>
    match s.progress.get q with
    | none => (s, [])
    | some none => (s, [])
    | some (some ms) =>
      if r.wps = [] then
        let x := s.checkNext q ms
        (x.1, .error (.noWaypoints r.task r.option r.vehicle) :: x.2)
      else
        let found := ms.any (·.vehicle == r.vehicle)
        let ms' := if found then extend r.vehicle r.wps ms else ms ++ [s.newMission r]
        { s with
          progress := s.progress.put q (some ms')
          commandId := if found then s.commandId else s.commandId + 1
          projected := match s.projected.get q with
            | none => s.projected
            | some ps => s.projected.put q (project r ps) }.checkNext q ms'

/-- `processReceivedLmcpMessage`, PlanBuilderService.cpp 94-137. -/
def step (s : St) (i : In) : St × List Out :=
  if s.ub then (s, []) else
  match i with
  | .state v => ({ s with states := s.states.put v.id v }, [])
  | .overrides q os =>
    (if os = [] then s else { s with overrides := s.overrides.put q ((s.overrides.get q).getD [] ++ os) }, [])
  | .impactResponse q => ({ s with overrides := s.overrides.del q }, [])
  | .summary m => s.summary m
  | .response r => s.response r
  | .request r =>
    ({ s with
       requests := s.requests.put r.id r
       projected := s.projected.put r.id []
       remaining := s.remaining.put r.id []
       progress := s.progress.put r.id none }, [])

end Verif.PlanBuilder
