import Verif.Trace
import Verif.AMap

/-!
Model of the route aggregator (`src/cpp/Services/RouteAggregatorService.cpp`).

Locations with headings are opaque numbers.  The order in which `std::unordered_map` is traversed is not
specified; the model uses the order of its lists.  The branch for `ImpactAutomationRequest` (RouteAggregatorService.cpp:167-176) is not
subscribed and not modelled.
-/

namespace Verif.Routes

open Verif

/-- Not in the code; simplification: a location with a heading. -/
abbrev Point := Nat

/-- mdms/UXTASK.xml 354-371: a task option. -/
structure Opt where
  task : Int
  option : Int
  /-- Vehicles that may use it; all if empty. -/
  eligible : List Int
  start : Point
  stop : Point
deriving Repr, DecidableEq

/-- mdms/UXTASK.xml 123-136: `UniqueAutomationRequest`. -/
structure AutoReq where
  id : Int
  tasks : List Int
  vehicles : List Int
  /-- `PlanningStates`: vehicle and position. -/
  planning : List (Int × Point)
  region : Int
deriving Repr, DecidableEq

/-- mdms/ROUTE.xml 61-81: `RouteConstraints`. -/
structure Route where
  id : Int
  start : Point
  stop : Point
deriving Repr, DecidableEq

/-- mdms/ROUTE.xml 84-99: `RouteRequest`. -/
structure RouteReq where
  id : Int
  vehicles : List Int
  routes : List Route
deriving Repr, DecidableEq

/-- mdms/ROUTE.xml 131-142: `RoutePlanResponse`: route ids and costs. -/
structure Resp where
  id : Int
  routes : List (Int × Int)
deriving Repr, DecidableEq

/-- RouteAggregatorService.h 44-65: `AggregatorTaskOptionPair` (RouteAggregatorService.h:
class `AggregatorTaskOptionPair`). -/
structure Pair where
  vehicle : Int
  prevTask : Int
  prevOption : Int
  task : Int
  option : Int
deriving Repr, DecidableEq

/-- RouteAggregatorService.h 227, RouteAggregatorService.cpp 308-347: a route of the
matrix: the constraints and what it stands for (`m_routeTaskPairing`; not in the message).
-/
structure MRoute where
  route : Route
  pair : Pair
deriving Repr, DecidableEq

/-- mdms/ROUTE.xml 102-116, RouteAggregatorService.cpp 290: the `RoutePlanRequest` for one
vehicle. -/
structure VReq where
  vehicle : Int
  ground : Bool
  routes : List MRoute
deriving Repr, DecidableEq

/-- mdms/UXTASK.xml 312-327: `TaskOptionCost`. -/
structure Entry where
  pair : Pair
  cost : Int
deriving Repr, DecidableEq

/-- RouteAggregatorService.cpp 368, 383, 435, 441, 530, 574: messages sent. -/
inductive Out where
  /-- The plan requests for the matrix of the automation request with a number (the number is not in the messages). -/
  | ask (key : Int) (reqs : List VReq)
  /-- The plan request `id` for a vehicle, on behalf of the route request `req`. -/
  | askRoute (req id vehicle : Int) (ground : Bool) (routes : List Route)
  /-- `RouteResponse`. -/
  | answer (req : Int) (rs : List Resp)
  /-- `AssignmentCostMatrix`. -/
  | matrix (key : Int) (reqId region : Int) (tasks : List Int) (entries : List Entry)
deriving Repr, DecidableEq

/-- State (RouteAggregatorService.h:190-236). -/
structure St where
  /-- `m_fastPlan`. -/
  fast : Bool := false
  /-- Straight line distance in metres. -/
  dist : Point → Point → Int := fun _ _ => 0
  /-- Nominal speeds from the configurations. -/
  speeds : Map Int := []
  states : Map Point := []
  ground : List Int := []
  requests : Map AutoReq := []
  options : Map (List Opt) := []
  plans : Map (Int × Int) := []
  pendingAuto : Map (List Int) := []
  pairing : Map Pair := []
  responses : Map Resp := []
  pendingRoute : Map (List Int) := []
  autoId : Int := 1
  routeId : Int := 1000000
  routeReqId : Int := 1
  /-- Undefined behaviour has occurred. -/
  ub : Bool := false

/-- RouteAggregatorService.cpp 109-190: messages received. -/
inductive In where
  | state (id : Int) (p : Point) (ground : Bool)
  /-- A configuration only matters for the nominal speed and for whether the vehicle is a ground vehicle. -/
  | config (id : Int) (ground : Bool) (speed : Int)
  | request (r : AutoReq)
  | options (task : Int) (os : List Opt)
  | routeRequest (r : RouteReq)
  | response (r : Resp)
deriving Repr, DecidableEq

/-! ### The matrix -/

/-- The options a vehicle can use (RouteAggregatorService.cpp:266-288). -/
def eligible (options : Map (List Opt)) (tasks : List Int) (v : Int) : List Opt :=
  tasks.flatMap fun t => ((options.get t).getD []).filter fun o => o.eligible.isEmpty || o.eligible.contains v

/-- The routes for a vehicle, without ids (RouteAggregatorService.cpp:306-357). -/
def legs (v : Int) (p : Point) (os : List Opt) : List (Point × Point × Pair) :=
  (os.map fun o => (p, o.start, ⟨v, 0, 0, o.task, o.option⟩)) ++
    os.zipIdx.flatMap fun a =>
      (os.zipIdx.filter fun b => a.2 != b.2).map fun b =>
        (a.1.stop, b.1.start, ⟨v, a.1.task, a.1.option, b.1.task, b.1.option⟩)

/-- Routes get consecutive ids (RouteAggregatorService.cpp:312-327, 339-353). -/
def number (next : Int) : List (Point × Point × Pair) → List MRoute
  | [] => []
  | l :: ls => { route := { id := next, start := l.1, stop := l.2.1 }, pair := l.2.2 } :: number (next + 1) ls

/-- Where a vehicle starts (RouteAggregatorService.cpp:248-262, 299-304). -/
def startOf (s : St) (r : AutoReq) (v : Int) : Option Point :=
  match r.planning.find? (·.1 == v) with
  | some p => some p.2
  | none => s.states.get v

/-- The plan requests for all vehicles (RouteAggregatorService.cpp:241-370). -/
def vehicleReqs (s : St) (r : AutoReq) : List Int → Int → List VReq
  | [], _ => []
  | v :: vs, next =>
    match startOf s r v with
    | some p =>
      let ls := legs v p (eligible s.options r.tasks v)
      { vehicle := v, ground := s.ground.contains v, routes := number next ls } ::
        vehicleReqs s r vs (next + ls.length)
    | none => vehicleReqs s r vs next

/-- Not in the code: all routes asked for. -/
def routesOf (reqs : List VReq) : List MRoute := reqs.flatMap (·.routes)

/-- RouteAggregatorService.cpp 312, 337: record what routes stand for. -/
def pairs (m : Map Pair) : List MRoute → Map Pair
  | [] => m
  | r :: rs => pairs (m.put r.route.id r.pair) rs

/-- The speed found in the configuration of a vehicle (RouteAggregatorService.cpp:613-620). -/
def St.nominal (s : St) (v : Int) : Int :=
  match s.speeds.get v with
  | some x => if x ≤ 0 then 1 else x
  | none => 1

/-- The speed used for planning: the speed found in the configuration is assigned to a local variable of an inner block that
shadows the one used (RouteAggregatorService.cpp:612-620). -/
def St.speed (s : St) (v : Int) : Int :=
  let speed := 1
  let _inner := s.nominal v
  speed

/-- `EuclideanPlan` (RouteAggregatorService.cpp:605-651); the routes are not put into the response.  Distances and speeds are
integers. -/
def St.euclid (s : St) (v requestId : Int) (routes : List Route) : St :=
  { s with
    plans := routes.foldl (fun m r => m.put r.id (requestId, s.dist r.start r.stop * 1000 / s.speed v)) s.plans
    responses := s.responses.put requestId { id := requestId, routes := [] } }

/-- `BuildMatrixRequests` up to the planning (RouteAggregatorService.cpp:215-370). -/
def St.build (s : St) (k : Int) (r : AutoReq) : St × Out :=
  let r' := if r.vehicles.isEmpty then { r with vehicles := s.states.map (·.1) } else r
  let reqs := vehicleReqs s r' r'.vehicles s.routeId
  ({ s with
      requests := s.requests.put k r'
      pendingAuto := s.pendingAuto.put k ((routesOf reqs).map (·.route.id))
      pairing := pairs s.pairing (routesOf reqs)
      routeId := s.routeId + (routesOf reqs).length },
    .ask k reqs)

/-- The loop of `SendMatrix` (RouteAggregatorService.cpp:542-567). -/
def St.entries : St → List Int → St × List Entry
  | s, [] => (s, [])
  | s, id :: ids =>
    match s.plans.get id with
    | some plan =>
      let (es, pairing) :=
        match s.pairing.get id with
        | some p => ([({ pair := p, cost := plan.2 } : Entry)], s.pairing.del id)
        | none => ([], s.pairing)
      let r := St.entries { s with
        pairing := pairing
        responses := s.responses.del plan.1
        plans := s.plans.del id } ids
      (r.1, es ++ r.2)
    | none => St.entries s ids

/-- `SendMatrix` and the deletion of the request (RouteAggregatorService.cpp:493-498, 533-603); a key without request is a
null pointer that is used. -/
def St.sendMatrix (s : St) (k : Int) (ids : List Int) : St × List Out :=
  match s.requests.get k with
  | none => ({ s with ub := true }, [])
  | some r =>
    let e := s.entries ids
    ({ e.1 with
        options := []
        requests := e.1.requests.del k
        pendingAuto := e.1.pendingAuto.del k },
      [.matrix k r.id r.region r.tasks e.2])

/-- One pending automation request in `CheckAllRoutePlans` (RouteAggregatorService.cpp:480-503). -/
def St.checkMatrix (s : St) (k : Int) : St × List Out :=
  match s.pendingAuto.get k with
  | none => (s, [])
  | some ids => if ids.all fun id => (s.plans.get id).isSome then s.sendMatrix k ids else (s, [])

/-! ### Route requests -/

/-- The loop of `SendRouteResponse` (RouteAggregatorService.cpp:512-526). -/
def St.collect : St → List Int → St × List Resp
  | s, [] => (s, [])
  | s, id :: ids =>
    match s.responses.get id with
    | some r =>
      let q := St.collect { s with
        plans := r.routes.foldl (fun m p => m.del p.1) s.plans
        responses := s.responses.del id } ids
      (q.1, r :: q.2)
    | none => St.collect s ids

/-- One pending route request in `CheckAllRoutePlans` (RouteAggregatorService.cpp:455-477, 507-531). -/
def St.checkRoute (s : St) (q : Int) : St × List Out :=
  match s.pendingRoute.get q with
  | none => (s, [])
  | some ids =>
    if ids.all fun id => (s.responses.get id).isSome then
      let r := s.collect ids
      ({ r.1 with pendingRoute := r.1.pendingRoute.del q }, [.answer q r.2])
    else (s, [])

/-- Not in the code: do something for each key of a list. -/
def forKeys (f : St → Int → St × List Out) : St → List Int → St × List Out
  | s, [] => (s, [])
  | s, k :: ks =>
    let r := f s k
    let q := forKeys f r.1 ks
    (q.1, r.2 ++ q.2)

/-- `CheckAllRoutePlans` (RouteAggregatorService.cpp:452-505). -/
def St.checkPlans (s : St) : St × List Out :=
  let r := forKeys St.checkRoute s (s.pendingRoute.map (·.1))
  let q := forKeys St.checkMatrix r.1 (r.1.pendingAuto.map (·.1))
  (q.1, r.2 ++ q.2)

/-- The ground routes of a request, planned at once with fast planning (RouteAggregatorService.cpp:374-390). -/
def St.fastMatrix (s : St) (reqs : List VReq) : St :=
  (reqs.filter (·.ground)).foldl (fun s q => s.euclid q.vehicle 0 (q.routes.map (·.route))) s

/-- One automation request in `CheckAllTaskOptionsReceived` (RouteAggregatorService.cpp:189-212).  With fast planning, the
request may be erased during the loop that goes through the requests; the iterator is used afterwards. -/
def St.checkOptions (s : St) (k : Int) : St × List Out :=
  if s.ub then (s, []) else
  match s.requests.get k with
  | none => (s, [])
  | some r =>
    if r.tasks.all fun t => (s.options.get t).isSome then
      let b := s.build k r
      if s.fast then
        let reqs := match b.2 with
          | .ask _ reqs => reqs
          | _ => []
        let c := (b.1.fastMatrix reqs).checkPlans
        if (c.1.requests.get k).isNone then ({ c.1 with ub := true }, b.2 :: c.2) else (c.1, b.2 :: c.2)
      else (b.1, [b.2])
    else (s, [])

/-- `CheckAllTaskOptionsReceived` (RouteAggregatorService.cpp:186-213). -/
def St.checkAllOptions (s : St) : St × List Out := forKeys St.checkOptions s (s.requests.map (·.1))

/-- The vehicles of a route request (RouteAggregatorService.cpp:407-439). -/
def St.routeVehicles (s : St) (r : RouteReq) : List Int → St × List Out
  | [] => (s, [])
  | v :: vs =>
    let j := s.routeReqId
    let g := s.ground.contains v
    let s1 := { s with
      pendingRoute := s.pendingRoute.put r.id ((s.pendingRoute.get r.id).getD [] ++ [j])
      routeReqId := j + 1 }
    let s2 := if g && s.fast then s1.euclid v j r.routes else s1
    let q := St.routeVehicles s2 r vs
    (q.1, .askRoute r.id j v g r.routes :: q.2)

/-- `HandleRouteRequest` (RouteAggregatorService.cpp:394-450). -/
def St.routeRequest (s : St) (r : RouteReq) : St × List Out :=
  let vs := if r.vehicles.isEmpty then s.states.map (·.1) else r.vehicles
  let q := s.routeVehicles r vs
  if s.fast then
    let c := q.1.checkPlans
    (c.1, q.2 ++ c.2)
  else q

/-- A `RoutePlanResponse` is stored (RouteAggregatorService.cpp:109-114). -/
def St.store (s : St) (r : Resp) : St :=
  { s with
    responses := s.responses.put r.id r
    plans := r.routes.foldl (fun m p => m.put p.1 (r.id, p.2)) s.plans }

/-- `processReceivedLmcpMessage` (RouteAggregatorService.cpp:102-184). -/
def step (s : St) (i : In) : St × List Out :=
  if s.ub then (s, []) else
  match i with
  | .state id p g => ({ s with states := s.states.put id p, ground := if g then id :: s.ground else s.ground }, [])
  | .config id g x => ({ s with speeds := s.speeds.put id x, ground := if g then id :: s.ground else s.ground }, [])
  | .request r => { s with requests := s.requests.put s.autoId r, autoId := s.autoId + 1 }.checkAllOptions
  | .options t os => { s with options := s.options.put t os }.checkAllOptions
  | .routeRequest r => s.routeRequest r
  | .response r => (s.store r).checkPlans

end Verif.Routes
