import Verif.Trace
import Verif.AMap

/-!
# The base of the task services

`src/cpp/Tasks/TaskServiceBase.{h,cpp}`: the part that all task services share.  Simplifications:

* Locations and headings are opaque numbers.  `isColocated` (TaskServiceBase.cpp 57-65) is a parameter, `Config.near`, any relation of
  two locations.  The heading, the length and from it the cost of a plan that is taken up again (TaskServiceBase.cpp 389-474) is a
  parameter, `Config.measure`.
* Altitudes, speeds, costs and times are integers, `int64_t` is the unbounded integers.
* The virtual functions are parameters too.  What a task does itself to make its options, in `buildTaskPlanOptions` or
  when it gets sensor footprints, comes with the input, `Build`.  `isProcessTaskImplementationRouteResponse` is
  `Config.finish`; its result `none` is undefined behaviour (`LoiterTaskService.cpp` 121 takes `back` of a vector).
  `isHandleOptionsRouteResponse` and `isBuildAndSendImplementationRouteRequest` are as in the base, returning false.
* The grouping of the vehicles by speed and altitude, which only the parts not modelled read, is left out, as are the zones,
  areas and missions that the base only stores, and `m_optionWaypointIdVsFinalWaypointId`, which is only written.
* `m_task` is not null: `configure` dereferences it, so with a null task the process ends there (undefined behaviour), before any message.
-/

namespace Verif.Task

open Verif

/-- mdms/CMASI.xml 385-397: a location, an opaque number here. -/
abbrev Place := Int

/-- mdms/UXTASK.xml 354-371: `TaskOption`. -/
structure Opt where
  id : Int
  cost : Int := 0
  eligible : List Int := []
  start : Place := 0
  startHeading : Int := 0
  stop : Place := 0
  stopHeading : Int := 0
deriving DecidableEq, Repr

/-- mdms/CMASI.xml 432-439, 1033-1041, `VehicleAction` and what is derived from it, the parts that the tasks set: an action that is asked for, `what` is all
else that it says; a `GimbalStareAction`; any other. -/
inductive Action
  | asked (what : Int) (place : Place) (alt : Int) (tasks : List Int)
  | stare (payload : Int) (place : Place)
  | other (what : Int)
deriving DecidableEq, Repr

/-- mdms/CMASI.xml 1173-1215: `Waypoint`, the parts that are read or set. -/
structure Wp where
  number : Int := 0
  next : Int := 0
  place : Place := 0
  alt : Int := 0
  altType : Int := 0
  speed : Int := 0
  tasks : List Int := []
  short : Bool := false
  actions : List Action := []
deriving DecidableEq, Repr

/-- mdms/ROUTE.xml 119-128: `RoutePlan`. -/
structure RoutePlan where
  id : Int
  cost : Int := 0
  wps : List Wp := []
deriving DecidableEq, Repr

/-- mdms/ROUTE.xml 61-81: `RouteConstraints`. -/
structure Route where
  id : Int
  start : Place := 0
  startHeading : Int := 0
  stop : Place := 0
  stopHeading : Int := 0
deriving DecidableEq, Repr

/-- `TaskOptionClass`, `TaskServiceBase.h` 60-138, the members that the base uses.  `plans` is a `std::map`, ordered by
key. -/
structure OptClass where
  opt : Opt
  restartOpt : Option Opt := none
  pending : List Int := []
  plans : List (Int × RoutePlan) := []
  restartPlan : Option (List Wp) := none
  routes : Option (List Route) := none
  firstActive : Int := -1
deriving DecidableEq, Repr

/-- mdms/UXTASK.xml 123-136: `UniqueAutomationRequest`. -/
structure Request where
  id : Int
  tasks : List Int := []
  entities : List Int := []
  redo : Bool := false
  sandbox : Bool := false
  region : Int := 0
deriving DecidableEq, Repr

/-- mdms/UXTASK.xml 235-264: `TaskImplementationRequest`. -/
structure ImplReq where
  id : Int
  req : Int := 0
  task : Int
  option : Int
  vehicle : Int
  region : Int := 0
  start : Int := 1
  place : Place := 0
  heading : Int := 0
  time : Int := 0
deriving DecidableEq, Repr

/-- mdms/UXTASK.xml 271-290: `TaskImplementationResponse`. -/
structure ImplResp where
  id : Int
  req : Int := 0
  task : Int
  option : Int
  vehicle : Int
  place : Place := 0
  heading : Int := 0
  time : Int := 0
  wps : List Wp
deriving DecidableEq, Repr

/-- mdms/ROUTE.xml 102-116: `RoutePlanRequest`. -/
structure RouteReq where
  id : Int
  task : Int
  costOnly : Bool
  region : Int
  vehicle : Int
  routes : List Route
deriving DecidableEq, Repr

/-- mdms/ROUTE.xml 131-142: `RoutePlanResponse`. -/
structure RouteResp where
  id : Int
  task : Int
  vehicle : Int
  plans : List RoutePlan
deriving DecidableEq, Repr

/-- mdms/CMASI.xml 648-735: `EntityState`. -/
structure VState where
  id : Int
  waypoint : Int := 0
  tasks : List Int := []
deriving DecidableEq, Repr

/-- mdms/CMASI.xml 534-570: `EntityConfiguration`. -/
structure VConfig where
  id : Int
  alt : Int := 0
  altType : Int := 0
  speed : Int := 0
deriving DecidableEq, Repr

/-- LoiterTaskService.cpp 77-109, for example: an option that a task makes. -/
structure Draft where
  opt : Opt
  /-- it is put into the list of options at once, as no routes are needed -/
  direct : Bool := false
deriving DecidableEq, Repr

/-- CmasiAreaSearchTaskService.cpp 130-190, for example: the routes that a task asks for
to find the cost of an option. -/
structure Ask where
  option : Int
  vehicle : Int := 0
  region : Int := 0
  routes : List Route
deriving DecidableEq, Repr

/-- What a task itself does to make its options: options, routes asked for, and whether it sends its options at once.
The tasks of the code do it in this way: `LoiterTaskService.cpp` 77-109, `MustFlyTaskService.cpp` 64-132 and
`CmasiLineSearchTaskService.cpp` 113-240 make options and send them, `CmasiAreaSearchTaskService.cpp` 130-190 and
`PatternSearchTaskService.cpp` 200-280 ask for routes for options made before. -/
structure Build where
  drafts : List Draft := []
  asks : List Ask := []
  send : Bool := false
deriving DecidableEq, Repr

/-- TaskServiceBase.cpp 248-655: the messages received. -/
inductive In where
  | state (v : VState)
  | config (v : VConfig)
  | request (r : Request) (b : Build)
  | own (b : Build)
  /-- `UniqueAutomationResponse`: its id and the missions: a vehicle and the tasks of each waypoint -/
  | response (id : Int) (missions : List (Int × List (List Int)))
  | implement (q : ImplReq)
  | route (r : RouteResp)
deriving DecidableEq, Repr

/-- mdms/UXTASK.xml 374-384: `TaskPlanOptions`. -/
structure Options where
  req : Int
  opts : List Opt := []
deriving DecidableEq, Repr

/-- TaskServiceBase.cpp 248-1035: the messages sent. -/
inductive Out where
  | active (vehicle : Int)
  | complete (involved : List Int)
  | options (o : Options)
  | ask (r : RouteReq)
  | implemented (r : ImplResp)
deriving DecidableEq, Repr

/-- TaskServiceBase.h 289-311, TaskServiceBase.cpp 57-65, 389-474: the parameters. -/
structure Config where
  /-- id of the task -/
  task : Int
  eligible : List Int := []
  /-- `m_isMakeTransitionWaypointsActive` -/
  transitActive : Bool := false
  near : Place → Place → Bool := fun a b => a == b
  measure : List Wp → Option VConfig → Int × Int × Int := fun _ _ => (0, 0, 0)
  finish : List Wp → Option (List Wp) := some
  firstRouteId : Int := 1

/-- TaskServiceBase.h 274-279: what a route that is asked for is needed for: the cost of
an option, or an implementation. -/
inductive RouteKind where
  | option
  | implementation
deriving DecidableEq, Repr

/-- The attributes of the service, `TaskServiceBase.h` 359-456. -/
structure St where
  cfg : Config
  assigned : List Int := []
  lastWp : Map Int := []
  assignedOpt : Map Int := []
  opts : Map OptClass := []
  /-- `m_taskPlanOptions`: `none` before the first request -/
  planOptions : Option Options := none
  requests : Map Request := []
  latest : Int := 0
  configs : Map VConfig := []
  routeOption : Map Int := []
  routeKind : Map RouteKind := []
  implReqs : Map ImplReq := []
  pendingOpt : List Int := []
  pendingImpl : List Int := []
  transition : Int := 0
  activeOn : List Int := []
  nextRoute : Int
  /-- Undefined behaviour has happened. -/
  ub : Bool := false

/-- The service after its configuration, TaskServiceBase.cpp 86-219. -/
def start (c : Config) : St := { cfg := c, nextRoute := c.firstRouteId }

/-- `MAX_TOTAL_COST_MS`, TaskServiceBase.cpp 36. -/
def maxCost : Int := 9223372036854775

/-- `m_routeIdFromLastTask`, TaskServiceBase.cpp 52. -/
def transitId : Int := 1

/-- `m_firstImplementationRouteId`, TaskServiceBase.cpp 53. -/
def firstImplId : Int := 2

/-- For `std::unordered_set::insert`: insert into a set. -/
def addTo (l : List Int) (k : Int) : List Int := if l.contains k then l else l ++ [k]

/-- For `std::unordered_set::erase`: erase from a set. -/
def dropFrom (l : List Int) (k : Int) : List Int := l.filter (· != k)

/-- For `std::map::operator[]`: assign to a key of a `std::map`. -/
def insertSorted (k : Int) (p : RoutePlan) : List (Int × RoutePlan) → List (Int × RoutePlan)
  | [] => [(k, p)]
  | (k', p') :: l =>
    if k < k' then (k, p) :: (k', p') :: l
    else if k = k' then (k, p) :: l
    else (k', p') :: insertSorted k p l

/-- An `EntityState`, TaskServiceBase.cpp 253-306. `TaskComplete` names all assigned
vehicles, in the order of a hash table. -/
def St.entityState (s : St) (v : VState) : St × List Out :=
  if s.assigned.contains v.id then
    if v.tasks.contains s.cfg.task then
      let r : St × List Out :=
        if s.activeOn.contains v.id then (s, []) else ({ s with activeOn := addTo s.activeOn v.id }, [.active v.id])
      ({ r.1 with lastWp := r.1.lastWp.put v.id v.waypoint }, r.2)
    else if s.activeOn.contains v.id then
      ({ s with activeOn := dropFrom s.activeOn v.id, lastWp := s.lastWp.del v.id }, [.complete s.assigned])
    else (s, [])
  else (s, [])

/-- An `EntityConfiguration`, TaskServiceBase.cpp 307-321: `insert` keeps an earlier one.
-/
def St.entityConfig (s : St) (v : VConfig) : St :=
  if s.cfg.eligible.isEmpty || s.cfg.eligible.contains v.id then
    if (s.configs.get v.id).isSome then s else { s with configs := s.configs.put v.id v }
  else s

/-- An option is added by the task, `LoiterTaskService.cpp` 91-92. -/
def St.draft (s : St) (d : Draft) : St :=
  { s with
    opts := if (s.opts.get d.opt.id).isSome then s.opts else s.opts.put d.opt.id { opt := d.opt }
    planOptions := if d.direct then s.planOptions.map fun o => { o with opts := o.opts ++ [d.opt] } else s.planOptions }

/-- The routes for an option are asked for, `CmasiAreaSearchTaskService.cpp` 150-182 with `getOptionRouteId`, TaskServiceBase.cpp
657-662.  The start and the end of the option become those of the routes. -/
def St.askRoutes (s : St) (a : Ask) : St × List Out :=
  let id := s.nextRoute
  let s := { s with
    nextRoute := id + 1
    routeKind := s.routeKind.put id .option
    routeOption := s.routeOption.put id a.option }
  match s.opts.get a.option with
  | none => (s, [])
  | some o =>
    let opt' :=
      match a.routes.head?, a.routes.getLast? with
      | some f, some l =>
        { o.opt with start := f.start, startHeading := f.startHeading, stop := l.stop, stopHeading := l.stopHeading }
      | _, _ => o.opt
    ({ s with
       opts := s.opts.put a.option
         { o with opt := opt', routes := some a.routes, pending := (a.routes.map (·.id)).foldl addTo o.pending }
       pendingOpt := addTo s.pendingOpt id },
     [.ask { id := id, task := s.cfg.task, costOnly := true, region := a.region, vehicle := a.vehicle,
             routes := a.routes }])

/-- CmasiAreaSearchTaskService.cpp 130-190, for example: the routes for several options
are asked for. -/
def St.askAll (s : St) : List Ask → St × List Out
  | [] => (s, [])
  | a :: as =>
    let r := s.askRoutes a
    let q := r.1.askAll as
    (q.1, r.2 ++ q.2)

/-- TaskServiceBase.cpp 322-543, where it calls `buildTaskPlanOptions`: what the task
itself does. Before the first request a task makes no options. -/
def St.build (s : St) (b : Build) : St × List Out :=
  let r := (b.drafts.foldl St.draft s).askAll b.asks
  (r.1, r.2 ++ if b.send then r.1.planOptions.toList.map .options else [])

/-- The waypoints from the one before number `n` on, TaskServiceBase.cpp 396-452: `last`
is the one before. Two waypoints of a saved plan can have the same number. -/
def restartFrom (n : Int) (last : Option Wp) (found : Bool) : List Wp → List Wp
  | [] => []
  | w :: ws =>
    if w.number = n ∧ last.isSome then last.toList ++ w :: restartFrom n (some w) true ws
    else if found then w :: restartFrom n (some w) true ws
    else restartFrom n (some w) false ws

/-- The vehicle that left the task unfinished, its waypoint and its option,
TaskServiceBase.cpp 336-382: the first vehicle of the request, in the order of a hash
table, that was last seen on the task. -/
def St.restart? (s : St) (r : Request) : Option (Int × Int × Int × OptClass) :=
  if r.redo then none else
  match s.lastWp.find? (fun p => r.entities.contains p.1) with
  | none => none
  | some (v, n) =>
    let o := (s.assignedOpt.get v).getD (-1)
    match s.opts.get o with
    | none => none
    | some c => if 0 < v ∧ ¬ n < c.firstActive ∧ 0 < o then some (v, n, o, c) else none

/-- A `UniqueAutomationRequest`, TaskServiceBase.cpp 322-543. -/
def St.request (s : St) (r : Request) (b : Build) : St × List Out :=
  let s := { s with latest := r.id, requests := s.requests.put r.id r }
  if r.tasks.contains s.cfg.task then
    match s.restart? r with
    | some (v, n, o, c) =>
      let ws := match c.plans.find? (·.1 == firstImplId) with
        | none => []
        | some p => restartFrom n none false p.2.wps
      let opt := { c.opt with eligible := [v] }
      let mm := s.cfg.measure ws (s.configs.get v)
      match ws.head?, ws.getLast? with
      | some f, some l =>
        let opt := { opt with cost := mm.1, start := f.place, startHeading := mm.2.1, stop := l.place, stopHeading := mm.2.2 }
        ({ s with
           planOptions := some { req := r.id, opts := [opt] }
           opts := s.opts.put o { c with restartOpt := some opt, restartPlan := some ws } },
         [.options { req := r.id, opts := [opt] }])
      | _, _ =>
        ({ s with
           planOptions := some { req := r.id }
           opts := s.opts.put o { c with restartOpt := some opt, restartPlan := some ws } }, [])
    | none =>
      { s with
        planOptions := some { req := r.id }
        opts := []
        implReqs := []
        pendingOpt := []
        pendingImpl := [] }.build b
  else (s, [])

/-- A `UniqueAutomationResponse`, TaskServiceBase.cpp 555-595. -/
def St.autoResponse (s : St) (id : Int) (ms : List (Int × List (List Int))) : St :=
  match s.requests.get id with
  | none => s
  | some r =>
    let s := if r.sandbox then s else
      let vs := ms.map Prod.fst
      let on := (ms.filter fun m => m.2.any (·.contains s.cfg.task)).map Prod.fst
      { s with
        assigned := on.foldl addTo (s.assigned.filter fun v => ! vs.contains v)
        activeOn := s.activeOn.filter fun v => ! vs.contains v }
    { s with requests := s.requests.del id }

/-- TaskServiceBase.cpp 664-669: give the routes the ids from `n` on. -/
def renumber (n : Int) : List Route → List Route
  | [] => []
  | r :: rs => { r with id := n } :: renumber (n + 1) rs

/-- A `TaskImplementationRequest`, TaskServiceBase.cpp 596-617, and
`buildAndSendImplementationRouteRequestBase`, lines 691-760. -/
def St.implement (s : St) (q : ImplReq) : St × List Out :=
  if q.task ≠ s.cfg.task then (s, []) else
  match s.opts.get q.option with
  | none => (s, [])
  | some c =>
    let id := s.nextRoute
    let goal : Place × Int :=
      match c.restartPlan, c.restartOpt with
      | none, _ => (c.opt.start, c.opt.startHeading)
      | some _, some o => (o.start, o.startHeading)
      | some _, none => (0, 0)
    let transit : Route :=
      { id := transitId, start := q.place, startHeading := q.heading, stop := goal.1, stopHeading := goal.2 }
    let rs := renumber firstImplId (c.routes.getD [])
    ({ s with
       nextRoute := id + 1
       routeKind := s.routeKind.put id .implementation
       routeOption := s.routeOption.put id q.option
       pendingImpl := addTo s.pendingImpl id
       transition := transitId
       opts := s.opts.put q.option { c with pending := (transitId :: rs.map (·.id)).foldl addTo c.pending }
       implReqs := s.implReqs.put id q },
     [.ask { id := id, task := s.cfg.task, costOnly := false, region := q.region, vehicle := q.vehicle,
             routes := rs ++ [transit] }])

/-- The cost of a route that is waited for is added, TaskServiceBase.cpp 784-791. -/
def OptClass.price (c : OptClass) (p : RoutePlan) : OptClass :=
  { c with
    pending := dropFrom c.pending p.id
    opt := { c.opt with cost := if 0 < p.cost then c.opt.cost + p.cost else maxCost } }

/-- An option is put into the list, TaskServiceBase.cpp 795. -/
def Options.push (x : Options) (o : Opt) : Options := { x with opts := x.opts ++ [o] }

/-- A route that is waited for, TaskServiceBase.cpp 781-797. -/
def St.takeRoute (s : St) (o : Int) (c : OptClass) (p : RoutePlan) : St :=
  if c.pending.contains p.id then
    { s with
      opts := s.opts.put o (c.price p)
      planOptions := if (c.price p).pending = [] then s.planOptions.map fun x => x.push (c.price p).opt
        else s.planOptions }
  else s

/-- The options are sent if no route is waited for, TaskServiceBase.cpp 798-812. -/
def St.sendIfDone (s : St) : List Out :=
  if s.opts.all (fun x => x.2.pending.isEmpty) then s.planOptions.toList.map .options else []

/-- One route of an answer for the costs, TaskServiceBase.cpp 776-813. -/
def St.optionRoute (s : St) (o : Int) (p : RoutePlan) : St × List Out :=
  match s.opts.get o with
  | none => (s, [])
  | some c => (s.takeRoute o c p, (s.takeRoute o c p).sendIfDone)

/-- TaskServiceBase.cpp 776-813: all routes of an answer for the costs. -/
def St.optionRoutes (s : St) (o : Int) : List RoutePlan → St × List Out
  | [] => (s, [])
  | p :: ps =>
    let r := s.optionRoute o p
    let q := r.1.optionRoutes o ps
    (q.1, r.2 ++ q.2)

/-- `processOptionsRoutePlanResponseBase`, TaskServiceBase.cpp 762-825. -/
def St.optionResponse (s : St) (r : RouteResp) : St × List Out :=
  if s.pendingOpt.contains r.id then
    { s with pendingOpt := dropFrom s.pendingOpt r.id }.optionRoutes ((s.routeOption.get r.id).getD 0) r.plans
  else (s, [])

/-- TaskServiceBase.cpp 876-962: the waypoints collected, the last one first, the next
number, and the number of the first waypoint of the task. -/
structure Acc where
  next : Int
  rev : List Wp := []
  firstActive : Int := -1
deriving DecidableEq, Repr

/-- One waypoint, TaskServiceBase.cpp 912-959. `transit`: it is on the route to the task.
-/
def Acc.add (c : Config) (v : VConfig) (sandbox transit : Bool) (a : Acc) (w : Wp) : Acc :=
  let on := ! transit || c.transitActive
  let w' := { w with
    number := a.next
    alt := v.alt
    altType := v.altType
    speed := v.speed
    tasks := if on then w.tasks ++ [c.task] else w.tasks }
  let fa := if on && a.firstActive < 0 && ! transit && ! sandbox then a.next else a.firstActive
  match a.rev with
  | [] => { next := a.next + 1, rev := [w'], firstActive := fa }
  | b :: bs =>
    if c.near b.place w'.place then
      { next := b.number + 1, rev := { w' with number := b.number, next := a.next } :: bs, firstActive := fa }
    else { next := a.next + 1, rev := w' :: { b with next := a.next } :: bs, firstActive := fa }

/-- The numbers that the waypoints of a plan get in the saved plan, TaskServiceBase.cpp
914: those before they are put together. -/
def Acc.addAll (c : Config) (v : VConfig) (sandbox transit : Bool) (a : Acc) : List Wp → Acc × List Wp
  | [] => (a, [])
  | w :: ws =>
    let r := (a.add c v sandbox transit w).addAll c v sandbox transit ws
    (r.1, { w with number := a.next } :: r.2)

/-- All the plans in order, TaskServiceBase.cpp 892-962: of a task that is taken up again
its remaining waypoints stand for the first route of the task, and the others are left
out. The saved plans with their numbers. -/
def Acc.plans (c : Config) (v : VConfig) (sandbox : Bool) (transition : Int) (restart : Option (List Wp)) (found : Bool)
    (a : Acc) : List (Int × RoutePlan) → Acc × List (Int × RoutePlan)
  | [] => (a, [])
  | (k, p) :: l =>
    let transit := p.id == transition
    match (if transit then none else restart) with
    | some ws =>
      let r := a.addAll c v sandbox transit (if found then [] else ws)
      let q := r.1.plans c v sandbox transition restart true l
      (q.1, (k, p) :: q.2)
    | none =>
      let r := a.addAll c v sandbox transit p.wps
      let q := r.1.plans c v sandbox transition restart found l
      (q.1, (k, { p with wps := r.2 }) :: q.2)

/-- The last waypoint is for the task, and if it leads nowhere a copy of it is added that
is not, TaskServiceBase.cpp 967-986. -/
def terminal (t : Int) : List Wp → List Wp
  | [] => []
  | [w] =>
    if w.next = 0 then
      [{ w with next := w.number + 1, tasks := if w.tasks = [] then [t] else w.tasks },
       { w with number := w.number + 1, next := w.number + 1, tasks := [] }]
    else [{ w with tasks := if w.tasks = [] then [t] else w.tasks }]
  | w :: w' :: ws => w :: terminal t (w' :: ws)

/-- A route that is waited for is saved, and if it is the one to the task its cost is
added, TaskServiceBase.cpp 852-874. -/
def OptClass.receive (transition : Int) (c : OptClass) (p : RoutePlan) : OptClass :=
  { c with
    pending := dropFrom c.pending p.id
    opt := { c.opt with
      cost := if p.id = transition then (if 0 < p.cost then c.opt.cost + p.cost else maxCost) else c.opt.cost }
    plans := insertSorted p.id p c.plans }

/-- The plans put together, TaskServiceBase.cpp 891-962. -/
def St.assemble (s : St) (sandbox : Bool) (v : VConfig) (q : ImplReq) (c : OptClass) : Acc × List (Int × RoutePlan) :=
  ({ next := q.start, firstActive := c.firstActive } : Acc).plans s.cfg v sandbox s.transition c.restartPlan false c.plans

/-- All routes are there, TaskServiceBase.cpp 876-1020. -/
def St.conclude (s : St) (sandbox : Bool) (o : Int) (vehicle : Int) (q : ImplReq) (c : OptClass) : St × List Out :=
  match s.configs.get vehicle with
  | some v =>
    let a := s.assemble sandbox v q c
    match s.cfg.finish a.1.rev.reverse with
    | none => ({ s with ub := true }, [])
    | some ws =>
      let s' := { s with
        opts := s.opts.put o { c with plans := a.2, firstActive := a.1.firstActive, restartPlan := none }
        transition := 0 }
      if ws = [] then (s', []) else
      ({ s' with assignedOpt := s.assignedOpt.put vehicle o },
       [.implemented { id := q.id, req := q.req, task := s.cfg.task, option := o, vehicle := vehicle,
                       place := c.opt.stop, heading := c.opt.stopHeading, time := q.time + c.opt.cost,
                       wps := terminal s.cfg.task ws }])
  | none =>
    ({ s with opts := s.opts.put o c },
     [.implemented { id := q.id, req := q.req, task := s.cfg.task, option := o, vehicle := vehicle,
                     place := q.place, heading := q.heading, time := 0, wps := [] }])

/-- One route of an answer for the implementation, TaskServiceBase.cpp 852-1021. -/
def St.implRoute (s : St) (sandbox : Bool) (o : Int) (vehicle : Int) (q : ImplReq) (p : RoutePlan) : St × List Out :=
  if s.ub then (s, []) else
  match s.opts.get o with
  | none => (s, [])
  | some c =>
    if c.pending.contains p.id then
      if (c.receive s.transition p).pending = [] then s.conclude sandbox o vehicle q (c.receive s.transition p)
      else ({ s with opts := s.opts.put o (c.receive s.transition p) }, [])
    else (s, [])

/-- TaskServiceBase.cpp 850-1021: all routes of an answer for the implementation. -/
def St.implRoutes (s : St) (sandbox : Bool) (o : Int) (vehicle : Int) (q : ImplReq) : List RoutePlan → St × List Out
  | [] => (s, [])
  | p :: ps =>
    let r := s.implRoute sandbox o vehicle q p
    let x := r.1.implRoutes sandbox o vehicle q ps
    (x.1, r.2 ++ x.2)

/-- `processImplementationRoutePlanResponseBase`, TaskServiceBase.cpp 827-1035. -/
def St.implResponse (s : St) (r : RouteResp) : St × List Out :=
  match s.requests.get s.latest with
  | none => (s, [])
  | some req =>
    if s.pendingImpl.contains r.id then
      let s := { s with pendingImpl := dropFrom s.pendingImpl r.id }
      let o := (s.routeOption.get r.id).getD 0
      match s.opts.get o, s.implReqs.get r.id with
      | some c, some q =>
        let x := { s with opts := s.opts.put o { c with firstActive := -1 } }.implRoutes req.sandbox o r.vehicle q r.plans
        ({ x.1 with implReqs := x.1.implReqs.del r.id }, x.2)
      | _, _ => (s, [])
    else (s, [])

/-- `processReceivedLmcpMessage`, TaskServiceBase.cpp 248-655. -/
def step (s : St) (i : In) : St × List Out :=
  if s.ub then (s, []) else
  match i with
  | .state v => s.entityState v
  | .config v => (s.entityConfig v, [])
  | .request r b => s.request r b
  | .own b => s.build b
  | .response id ms => (s.autoResponse id ms, [])
  | .implement q => s.implement q
  | .route r =>
    if r.task ≠ s.cfg.task then (s, []) else
    match s.routeKind.get r.id with
    | none => (s, [])
    | some .option => s.optionResponse r
    | some .implementation => s.implResponse r

end Verif.Task
