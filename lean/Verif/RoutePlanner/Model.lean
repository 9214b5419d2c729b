/-
The route planner service (src/cpp/Services/RoutePlannerService.cpp): the
environments it keeps for regions and vehicles, and its answers.
-/
import Verif.Visibility.Service

namespace Verif.RoutePlanner

open Verif.Visibility (Pt toInt64)

/-! ### Messages -/

/-- mdms/CMASI.xml 648-735: `EntityState`: groundspeed, place and altitude.
Simplification: altitude types are left out. -/
structure VState where
  speed : Rat
  place : Pt
  alt : Rat
deriving DecidableEq, Repr

/-- mdms/CMASI.xml 534-570: `EntityConfiguration`: nominal speed and altitude;
the water area of a `SurfaceVehicleConfiguration` (mdms/VEHICLES.xml 48-70),
`none` for any other kind. -/
structure Config where
  speed : Rat
  alt : Rat
  water : Option Int := none
deriving DecidableEq, Repr

/-- VisilibityLib/visilibity.h 1230: `Polygon`: a polygon, by its corners. -/
abbrev Poly := List Pt

/-- mdms/CMASI.xml 1071-1072, 1078-1087, 492-529: `KeepInZone`,
`KeepOutZone`.  The boundary is that of `LinearizeBoundary`
(RoutePlannerService.cpp 643-707), `none` when its type is not known. -/
structure Zone where
  id : Int
  affected : List Int := []
  padding : Rat := 0
  boundary : Option Poly
deriving DecidableEq, Repr

/-- mdms/CMASI.xml 1265-1275: `OperatingRegion`. -/
structure Region where
  id : Int
  ins : List Int := []
  outs : List Int := []
deriving DecidableEq, Repr

/-- mdms/ROUTE.xml 61-81: `RouteConstraints`: one route asked for; `none` for a null location.
Simplification: locations are in the metres of the flat earth. -/
structure RouteReq where
  routeId : Int
  start : Option Pt
  stop : Option Pt
deriving DecidableEq, Repr

/-- mdms/ROUTE.xml 102-116: `RoutePlanRequest`. -/
structure PlanReq where
  requestId : Int
  taskId : Int
  region : Int
  vehicle : Int
  costOnly : Bool := true
  routes : List RouteReq
deriving DecidableEq, Repr

/-- mdms/CMASI.xml 1173-1215: `Waypoint`. -/
structure Wp where
  place : Pt
  alt : Rat
  speed : Rat
  number : Nat
  next : Nat
deriving DecidableEq, Repr

/-- mdms/ROUTE.xml 119-128: `RoutePlan`; the cost is -1 unless it is set (mdms/ROUTE.xml 125). -/
structure Plan where
  routeId : Int
  cost : Int := -1
  wps : List Wp := []
deriving DecidableEq, Repr

/-- mdms/ROUTE.xml 131-142: `RoutePlanResponse`. -/
structure PlanResp where
  responseId : Int
  taskId : Int
  region : Int
  vehicle : Int
  plans : List Plan
deriving DecidableEq, Repr

/-- RoutePlannerService.cpp 86-247: the messages the service acts on.  `exact` is whether the configuration is an
`AirVehicleConfiguration` itself, not of a derived type. -/
inductive Msg
  | request (src : Nat) (r : PlanReq)
  | state (id : Int) (s : VState)
  | airState (id : Int) (s : VState)
  | groundState (id : Int) (s : VState)
  | surfaceState (id : Int) (s : VState)
  | config (id : Int) (speed alt : Rat)
  | airConfig (id : Int) (speed alt : Rat) (exact : Bool)
  | groundConfig (id : Int) (speed alt : Rat)
  | surfaceConfig (id : Int) (speed alt : Rat) (area : Int)
  | water (id : Int) (boundary : Option Poly)
  | keepIn (z : Zone)
  | keepOut (z : Zone)
  | region (r : Region)
deriving DecidableEq, Repr

/-! ### Building an environment -/

/-- What is taken from VisiLibity, by its lines in VisilibityLib/visilibity.cpp:
`eliminate_redundant_vertices(1.0)` (2032), `is_simple` (1631),
`enforce_standard_form` (2010); the growing and merging of `offset_polygons` (1801)
after its check of signs; the rest of `Environment::is_valid` (2278); `Point::in`
(325), `shortest_path` (2411), `Polyline::length` (1462) and `distance` (509). -/
structure Lib where
  reduce : Poly → Poly
  simple : Poly → Bool
  standard : Poly → Poly
  merge : List (Poly × Rat) → Option (List Poly)
  valid : List Poly → Bool
  inEnv : List Poly → Pt → Bool
  path : List Poly → Pt → Pt → List Pt
  length : List Pt → Rat
  dist : Pt → Pt → Rat

/-- VisilibityLib/visilibity.cpp 1678-1687: `Polygon::area`; x is east. -/
def area (p : Poly) : Rat :=
  ((p.zip (p.drop 1 ++ p.take 1)).map fun s => s.1.e * s.2.n - s.2.e * s.1.n).sum / 2

/-- visilibity.cpp 2088-2092: `Polygon::reverse`: the first corner stays first. -/
def rev (p : Poly) : Poly :=
  if 2 < p.length then p.take 1 ++ (p.drop 1).reverse else p

/-- visilibity.cpp 1809-1810, 1814-1815: the sign of an offset, to a tolerance. -/
def signOf (d : Rat) : Int := if d < -1 / 10000 then -1 else if 1 / 10000 < d then 1 else 0

/-- visilibity.cpp 1808-1827: whether the offsets are of one sign.  Once an offset
is not zero, no zero may follow. -/
def signsOk : Int → List Rat → Bool
  | _, [] => true
  | s, d :: ds => if s = 0 then signsOk (signOf d) ds else signOf d == s && signsOk s ds

/-- visilibity.cpp 1801-1827: `Polygon::offset_polygons`. -/
def offset (lib : Lib) (ps : List (Poly × Rat)) : Option (List Poly) :=
  if ps.isEmpty then some []
  else if signsOk 0 (ps.map (·.2)) then lib.merge ps else none

/-- RoutePlannerService.cpp 402-412, 501-511: whether a zone is for a vehicle. -/
def Zone.applies (z : Zone) (v : Int) : Bool := z.affected.contains v || z.affected.isEmpty

/-- RoutePlannerService.cpp 418-429, 516-527, 537-549: the polygon of a boundary,
listed counterclockwise. -/
def outline (lib : Lib) (b : Option Poly) : Option Poly :=
  match b with
  | none => none
  | some p => if lib.simple (lib.reduce p) then
      some (if area (lib.reduce p) < 0 then rev (lib.reduce p) else lib.reduce p)
    else none

/-- RoutePlannerService.cpp 396-434, 494-535: the zones of a region that are known
and for the vehicle, with their padding. -/
def outlines (lib : Lib) (zones : Map Zone) (clip : Rat → Rat) (ids : List Int) (v : Int) :
    List (Poly × Rat) :=
  ids.filterMap fun i =>
    match zones.get i with
    | none => none
    | some z => if z.applies v then (outline lib z.boundary).map fun p => (p, clip z.padding)
      else none

/-- RoutePlannerService.cpp 435-467, 594-619: the box around all zones to be kept
out of, 50 km wider. -/
def box (ps : List Poly) : Poly :=
  let es := ps.flatten.map (·.e)
  let ns := ps.flatten.map (·.n)
  let hi (l : List Rat) := l.foldl (fun m x => if m < x then x else m) (l.headD 0) + 50000
  let lo (l : List Rat) := l.foldl (fun m x => if x < m then x else m) (l.headD 0) - 50000
  [⟨hi ns, hi es⟩, ⟨lo ns, hi es⟩, ⟨lo ns, lo es⟩, ⟨hi ns, lo es⟩]

/-- RoutePlannerService.cpp 578-590: the first polygon of greatest area. -/
def largest : Poly → List Poly → Poly
  | p, [] => p
  | p, q :: qs =>
    let abs (x : Rat) := if x < 0 then -x else x
    if abs (area p) < abs (area q) then largest q qs else largest p qs

/-- RoutePlannerService.cpp 481-489, 567-575: without needless corners,
counterclockwise (`up`) or clockwise, in standard form. -/
def face (lib : Lib) (up : Bool) (p : Poly) : Poly :=
  let p := lib.reduce p
  lib.standard (if up then (if area p < 0 then rev p else p)
    else (if 0 < area p then rev p else p))

/-- RoutePlannerService.cpp 556-620: the outer boundary: the largest of the zones
to be kept in, else a box, if the region names no zone to be kept in. -/
def boundary (lib : Lib) (r : Region) (outs ins : List (Poly × Rat)) : Option Poly :=
  match offset lib ins with
  | some (p :: ps) => some (largest (face lib true p) (ps.map (face lib true)))
  | _ =>
    if r.ins.isEmpty && !outs.isEmpty then
      let b := box (outs.map (·.1))
      some (lib.standard (if area b < 0 then rev b else b))
    else none

/-- RoutePlannerService.cpp 376-641: `BuildVehicleSpecificRegion`: the environment
of a vehicle in a region, `none` when none is built. -/
def buildEnv (lib : Lib) (ins outs : Map Zone) (r : Region) (v : Int) (water : Option Poly) :
    Option (List Poly) :=
  let o := outlines lib outs (fun d => if d < 0 then 0 else d) r.outs v
  let i := outlines lib ins (fun d => if 0 < d then 0 else d) r.ins v ++
    ((outline lib water).map fun p => (p, 0)).toList
  match offset lib o with
  | none => none
  | some grown =>
    let list := (boundary lib r o i).toList ++ grown.map (face lib false)
    match list with
    | [] => none
    | p :: hs =>
      -- visilibity.cpp 2342-2355: the boundary is counterclockwise, holes are not
      if 0 < area p ∧ (∀ h ∈ hs, area h < 0) ∧ lib.valid list then some list else none

/-! ### The service -/

/-- RoutePlannerService.h 143-156: the members.  `m_environments` and `m_visgraphs`
are always changed together. -/
structure St where
  states : Map VState := []
  configs : Map Config := []
  ins : Map Zone := []
  outs : Map Zone := []
  regions : Map Region := []
  airs : List Int := []
  surfs : List Int := []
  waters : Map (Option Poly) := []
  envs : Map (Map (List Poly)) := []

/-- For RoutePlannerService.cpp: library: `unordered_set::insert`. -/
def insert (v : Int) (l : List Int) : List Int := if v ∈ l then l else l ++ [v]

/-- RoutePlannerService.cpp 792-797: the environment of a vehicle in a region. -/
def St.env (s : St) (r v : Int) : Option (List Poly) := (s.envs.get r).bind fun m => m.get v

/-- RoutePlannerService.cpp 622-639: an environment that is built replaces the one
before; when none is built the one before stays. -/
def St.build (lib : Lib) (s : St) (r : Region) (v : Int) (water : Option Poly) : St :=
  match buildEnv lib s.ins s.outs r v water with
  | none => s
  | some e => { s with envs := s.envs.put r.id (((s.envs.get r.id).getD []).put v e) }

/-- RoutePlannerService.cpp 277-280, 320-323: the boundary of a water area. -/
def St.waterOf (s : St) (area : Int) : Option Poly := (s.waters.get area).bind id

/-- RoutePlannerService.cpp 250-284: `BuildVisibilityRegion`.  The configuration
of a surface vehicle is cast to `SurfaceVehicleConfiguration`; when it is of
another kind the behaviour is undefined. -/
def St.buildRegion (lib : Lib) (s : St) (r : Region) : Outcome St :=
  let s := match s.envs.get r.id with
    | none => s
    | some _ => { s with envs := s.envs.put r.id [] }
  let s := s.airs.foldl (fun s v => s.build lib r v none) s
  s.surfs.foldl (fun o v => o.bind fun s =>
    match s.configs.get v with
    | none => .ok (s.build lib r v none)
    | some c => match c.water with
      | none => .ub
      | some a => .ok (s.build lib r v (s.waterOf a))) (.ok s)

/-- RoutePlannerService.cpp 288-315: `UpdateRegions` for a new vehicle: all
regions. -/
def St.newVehicle (lib : Lib) (s : St) (v : Int) (water : Option Poly) : St :=
  s.regions.foldl (fun s r => s.build lib r.2 v water) s

/-- RoutePlannerService.cpp 316-343: `UpdateRegions` for a surface vehicle with a
configuration: also the region 0, without zones, unless there is one (334-342, in a
build without `_DEBUG`). -/
def St.newSurface (lib : Lib) (s : St) (v : Int) (area : Int) : St :=
  let water := s.waterOf area
  let s' := s.newVehicle lib v water
  if s.regions.any fun r => r.2.id == 0 then s' else s'.build lib { id := 0 } v water

/-- RoutePlannerService.cpp 344-373: `UpdateRegions` for a zone: the regions that
name it. -/
def St.rebuild (lib : Lib) (s : St) (names : Region → List Int) (id : Int) : Outcome St :=
  s.regions.foldl (fun o r => o.bind fun s =>
    if id ∈ names r.2 then s.buildRegion lib r.2 else .ok s) (.ok s)

/-- RoutePlannerService.cpp 86-247: what a message changes. -/
def St.upd (lib : Lib) (s : St) : Msg → Outcome St
  | .request _ _ => .ok s
  | .state id x => .ok { s with states := s.states.put id x }
  | .airState id x =>
    let s := { s with states := s.states.put id x }
    let s := if id ∈ s.airs then s else s.newVehicle lib id none
    .ok { s with airs := insert id s.airs }
  | .groundState id x => .ok { s with states := s.states.put id x }
  | .surfaceState id x =>
    let s := { s with states := s.states.put id x }
    let s := if id ∈ s.surfs then s else s.newVehicle lib id none
    .ok { s with surfs := insert id s.surfs }
  | .config id sp al => .ok { s with configs := s.configs.put id { speed := sp, alt := al } }
  | .airConfig id sp al exact =>
    let s := { s with configs := s.configs.put id { speed := sp, alt := al } }
    let s := if id ∈ s.airs ∨ exact = false then s else s.newVehicle lib id none
    .ok { s with airs := insert id s.airs }
  | .groundConfig id sp al =>
    .ok { s with configs := s.configs.put id { speed := sp, alt := al } }
  | .surfaceConfig id sp al area =>
    let s := if (s.configs.get id).isSome then s else s.newSurface lib id area
    .ok { s with configs := s.configs.put id { speed := sp, alt := al, water := some area }
                 surfs := insert id s.surfs }
  | .water id b =>
    let s := { s with waters := s.waters.put id b }
    .ok (s.configs.foldl (fun s c =>
      if c.2.water = some id then s.newSurface lib c.1 id else s) s)
  | .keepIn z =>
    match s.ins.get z.id with
    | some y => if y = z then .ok { s with ins := s.ins.put z.id z }
      else (s.rebuild lib (·.ins) z.id).bind fun s => .ok { s with ins := s.ins.put z.id z }
    | none => .ok { s with ins := s.ins.put z.id z }
  | .keepOut z =>
    match s.outs.get z.id with
    | some y => if y = z then .ok { s with outs := s.outs.put z.id z }
      else (s.rebuild lib (·.outs) z.id).bind fun s => .ok { s with outs := s.outs.put z.id z }
    | none => .ok { s with outs := s.outs.put z.id z }
  | .region r =>
    match s.regions.get r.id with
    | some q => if q = r then .ok s else s.buildRegion lib r
    | none => { s with regions := s.regions.put r.id r }.buildRegion lib r

/-- RoutePlannerService.cpp 86-247: the state after a history. -/
def St.after (lib : Lib) : List Msg → Outcome St :=
  List.foldl (fun o m => o.bind fun s => s.upd lib m) (.ok {})

/-! ### Answers -/

/-- RoutePlannerService.cpp 714-742: the speed and the altitude planned with. -/
def St.pace (s : St) (v : Int) : Rat × Rat :=
  match s.states.get v, s.configs.get v with
  | some x, some c => if x.speed < 1 / 10 then (c.speed, c.alt) else (x.speed, x.alt)
  | some x, none => (x.speed, x.alt)
  | none, some c => (c.speed, c.alt)
  | none, none => (-1, 0)

/-- RoutePlannerService.cpp 761-789: a location, that of the vehicle when none is
given. -/
def St.place (s : St) (v : Int) : Option Pt → Option Pt
  | some p => some p
  | none => (s.states.get v).map (·.place)

/-- RoutePlannerService.cpp 819-841, 854-882: the waypoints of a path. -/
def wpsOf (pace : Rat × Rat) (ps : List Pt) : List Wp :=
  ps.mapIdx fun n p =>
    { place := p, alt := pace.2, speed := pace.1, number := n + 1
      next := if ps.length ≤ n + 1 then n + 1 else n + 2 }

/-- RoutePlannerService.cpp 750-887: one route.  The length of an empty path is undefined:
visilibity.cpp 1465 counts to the size less one, unsigned. -/
def St.route (lib : Lib) (s : St) (r : PlanReq) (q : RouteReq) : Outcome Plan :=
  let pace := s.pace r.vehicle
  match s.place r.vehicle q.start, s.place r.vehicle q.stop with
  | some p, some t =>
    if pace.1 < 1 / 10000 then .ok { routeId := q.routeId }
    else match s.env r.region r.vehicle with
      | some e =>
        if lib.inEnv e p && lib.inEnv e t then
          if lib.path e p t = [] then .ub else
          (toInt64 (lib.length (lib.path e p t) / pace.1 * 1000)).bind fun c =>
            .ok { routeId := q.routeId, cost := c
                  wps := if r.costOnly then [] else wpsOf pace (lib.path e p t) }
        else .ok { routeId := q.routeId }
      | none =>
        (toInt64 (lib.dist p t / pace.1 * 1000)).bind fun c =>
          .ok { routeId := q.routeId, cost := c
                wps := if r.costOnly then [] else wpsOf pace [p, t] }
  | _, _ => .ok { routeId := q.routeId }

/-- RoutePlannerService.cpp 750-887: the routes, one after the other. -/
def collect (f : RouteReq → Outcome Plan) : List RouteReq → Outcome (List Plan)
  | [] => .ok []
  | q :: qs => (f q).bind fun p => (collect f qs).bind fun ps => .ok (p :: ps)

/-- RoutePlannerService.cpp 90-107, 744-890: the answer to a message, and to whom
it is sent. -/
def St.reply (lib : Lib) (s : St) : Msg → Outcome (List (Nat × PlanResp))
  | .request src r =>
    if r.vehicle ∈ s.airs ∨ r.vehicle ∈ s.surfs then
      (collect (s.route lib r) r.routes).bind fun ps =>
        .ok [(src, { responseId := r.requestId, taskId := r.taskId, region := r.region
                     vehicle := r.vehicle, plans := ps })]
    else .ok []
  | _ => .ok []

end Verif.RoutePlanner
