import Verif.Assign.Model
import Verif.Permute.Model

/-!
# The options that the tasks offer

What the task services publish as `TaskPlanOptions` for a request: the grouping of the eligible vehicles
(`src/cpp/Tasks/TaskServiceBase.cpp`) and `buildTaskPlanOptions` of the tasks.  Simplifications:

* Vehicles are grouped by their nominal speed and altitude; the rounded pair comes with the configuration, as `Key`, the
  speed in tenths of m/s.
* A hash table is the list of its entries in the order of iteration.  The theorems hold for any order.
* Places and headings of the options are kept only where a property is about them.  Angles are integers in any unit in which
  the inputs can be expressed, with `inc` (22.5 degrees) and the tolerances as parameters; rounding of the floating point
  numbers is not modelled.
* The path planner of the line searches is a parameter that says whether it finds a path.
* `int64_t` is the unbounded integers.
* Parts under `AFRL_INTERNAL_ENABLED` are off in the open build.
-/

namespace Verif.Options

open Verif
open Verif.Assign (toStringInt)

/-- TaskServiceBase.cpp 131-132: rounded nominal speed and altitude. -/
abbrev Key := Int × Int

/-- `m_speedAltitudeVsEligibleEntityIds`, `TaskServiceBase.h` 380. -/
abbrev Groups := List (Key × List Int)

/-- TaskServiceBase.cpp 133, 315: the group of a key, `operator[]`. -/
def groupOf (g : Groups) (k : Key) : List Int := (g.lookup k).getD []

/-- TaskServiceBase.cpp 136, 318: append to the group of a key, creating it when there is
none. -/
def pushTo (g : Groups) (k : Key) (v : Int) : Groups :=
  match g with
  | [] => [(k, [v])]
  | (k', vs) :: rest => if k' = k then (k', vs ++ [v]) :: rest else (k', vs) :: pushTo rest k v

/-- A configuration of an entity arrives, `TaskServiceBase.cpp` 118-131 and 307-321. -/
def addConfig (eligible : List Int) (g : Groups) (c : Int × Key) : Groups :=
  if eligible.isEmpty || eligible.contains c.1 then
    if (groupOf g c.2).contains c.1 then g else pushTo g c.2 c.1
  else g

/-- Not in the code: the groups after the configurations `cs`. -/
def groups (eligible : List Int) (cs : List (Int × Key)) : Groups := cs.foldl (addConfig eligible) []

/-- `m_speedAltitudeVsEligibleEntityIdsRequested`, `TaskServiceBase.cpp` 503-526: a group is created with its first vehicle. -/
def requested (g : Groups) (entities : List Int) : Groups :=
  if entities.isEmpty then g
  else g.filterMap fun p =>
    let vs := p.2.filter fun v => entities.contains v
    if vs.isEmpty then none else some (p.1, vs)

/-- Specification: all vehicles of the groups, in the order in which the tasks go through
them. -/
def vehicles (g : Groups) : List Int := g.flatMap (·.2)

/-- mdms/UXTASK.xml 354-371: `TaskOption`: `place` stands for its start and end. -/
structure Opt where
  id : Int
  cost : Int := 0
  eligible : List Int := []
  place : Int := 0
  heading : Int := 0
deriving DecidableEq, Repr

/-- mdms/UXTASK.xml 374-384: `TaskPlanOptions`. -/
structure Published where
  composition : Str
  opts : List Opt
deriving DecidableEq, Repr

/-- Not in the code: the message as the assignment service reads it. -/
def Published.plan (p : Published) (req task : Int) : Verif.Assign.PlanOptions :=
  { requestId := req, taskId := task, composition := p.composition
    options := p.opts.map fun o => { taskId := task, optionId := o.id, cost := o.cost, eligible := o.eligible } }

/-- `TaskOptionClass::m_firstOptionId`, `TaskServiceBase.cpp` 51. -/
def firstId : Int := 10

/-- CmasiPointSearchTaskService.cpp 144-146 (each task has its own copy): `"p" +
std::to_string(id) + " "`. -/
def ref (id : Int) : Str := 'p' :: toStringInt id ++ [' ']

/-- CmasiPointSearchTaskService.cpp 142-147: the loop over the options. -/
def refs (ids : List Int) : Str := ids.flatMap ref

/-- The composition of the tasks that offer alternatives, `CmasiPointSearchTaskService.cpp` 140-148 and likewise elsewhere. -/
def alternatives (opts : List Opt) : Str := '+' :: '(' :: (refs (opts.map (·.id)) ++ [')'])

/-- CmasiPointSearchTaskService.cpp 141-150: the options with their alternatives. -/
def publish (opts : List Opt) : Published := ⟨alternatives opts, opts⟩

/-! ### Sweeps of headings -/

/-- `while (bCompareDouble(target, current, enGreaterEqual)) { …; current += inc; }`, `Convert.h` 181-203,
`CmasiPointSearchTaskService.cpp` 103-110.  In the code `inc` is the constant π/8. -/
def sweep (inc tol target cur : Int) : List Int :=
  if 0 < inc ∧ cur ≤ target + tol then cur :: sweep inc tol target (cur + inc) else []
termination_by (target + tol + 1 - cur).toNat
decreasing_by omega

/-- `dNormalizeAngleRad(angle, 0.0)`, `Convert.h` 228-243. -/
def normalize (turn tol a : Int) : Int :=
  let m := a.tmod turn
  if m < 0 then m + turn else if turn ≤ m + tol then m - turn else m

/-- CmasiPointSearchTaskService.cpp 86, Convert.h 181: the parameters of the sweeps: the
increment is a sixteenth of a turn. -/
structure Unit where
  inc : Int
  /-- tolerance of comparisons -/
  tol : Int
  /-- the tolerance 1.0e-5 -/
  coarse : Int
deriving DecidableEq, Repr

/-- Convert.h 153: a whole turn. -/
def Unit.turn (u : Unit) : Int := 16 * u.inc

/-- mdms/CMASI.xml 777-788: `Wedge`: the centrelines and half of the extents. -/
structure Wedge where
  azimuth : Int
  halfAzimuth : Int
  vertical : Int
  halfVertical : Int
deriving DecidableEq, Repr

/-- Convert.h 181-205: `bCompareDouble(a, b, enEqual)`. -/
def near (tol a b : Int) : Bool := decide (a - b ≤ tol ∧ b - a ≤ tol)

/-- The headings of a wedge, `CmasiPointSearchTaskService.cpp` 95-125. -/
def wedgeHeadings (u : Unit) (w : Wedge) : List Int :=
  let centre := normalize u.turn u.tol w.azimuth
  let first := centre - w.halfAzimuth
  let last := centre + w.halfAzimuth
  let target := if first ≤ last + u.coarse then last else u.turn
  sweep u.inc u.tol target first ++
    if !near u.tol last target && near u.tol target u.turn then sweep u.inc u.tol last 0 else []

/-- The headings without wedges, from 0 to 15/16 of a turn, `CmasiPointSearchTaskService.cpp` 129-138. -/
def allHeadings (u : Unit) : List Int := sweep u.inc u.tol (u.turn - u.inc) 0

/-- The headings of a point search, `CmasiPointSearchTaskService.cpp` 88-139. -/
def pointHeadings (u : Unit) (ws : List Wedge) : List Int :=
  if ws.isEmpty then allHeadings u else ws.flatMap (wedgeHeadings u)

/-- The elevations of a wedge of a line search, limited to -90 to 10 degrees (`lo`, `hi`),
`CmasiLineSearchTaskService.cpp` 141-165, `ImpactLineSearchTaskService.cpp` 160-184. -/
def lineElevations (u : Unit) (lo hi : Int) (w : Wedge) : List Int :=
  let c := if w.vertical < lo then lo else w.vertical
  let c := if c > hi then hi else c
  let first := c - w.halfVertical
  let first := if first < lo then lo else first
  let last := c + w.halfVertical
  let last := if last > hi then hi else last
  sweep u.inc u.tol last first

/-- The elevations of a wedge of an area search, limited to -90 to -1 degrees, `CmasiAreaSearchTaskService.cpp` 212-227. -/
def areaElevations (u : Unit) (lo hi : Int) (w : Wedge) : List Int :=
  let first := w.vertical - w.halfVertical
  let first := if first < lo then lo else first
  let last := w.vertical + w.halfVertical
  let last := if last > hi then hi else last
  sweep u.inc u.tol last first

/-- CmasiAreaSearchTaskService.cpp 238, CmasiLineSearchTaskService.cpp 178: a direction to
look in: heading and elevation. -/
abbrev Look := Int × Int

/-- The looks of a line search in their order, `CmasiLineSearchTaskService.cpp` 138-227. -/
def lineLooks (u : Unit) (lo hi : Int) (dflt : Look) (ws : List Wedge) : List Look :=
  if ws.isEmpty then [dflt]
  else ws.flatMap fun w => (lineElevations u lo hi w).flatMap fun e => (wedgeHeadings u w).map fun h => (h, e)

/-- The looks of an area search, `CmasiAreaSearchTaskService.cpp` 208-287: without wedges 16 headings (here the comparison is
strict). -/
def areaLooks (u : Unit) (lo hi dflt : Int) (ws : List Wedge) : List Look :=
  if ws.isEmpty then (sweep u.inc 0 (u.turn - 1) 0).map fun h => (h, dflt)
  else ws.flatMap fun w => (areaElevations u lo hi w).flatMap fun e => (wedgeHeadings u w).map fun h => (h, e)

/-! ### Loiter, must-fly and dynamic tasks -/

/-- `LoiterTaskService::buildTaskPlanOptions`, `LoiterTaskService.cpp` 77-109: the vehicles are those of the task. -/
def loiter (taskEligible : List Int) (place : Int) : Published :=
  publish [{ id := firstId, eligible := taskEligible, place := place }]

/-- MustFlyTaskService.cpp 64-132: options with consecutive ids. -/
def numbered (id : Int) (mk : Int → α → Opt) : List α → List Opt
  | [] => []
  | a :: as => mk id a :: numbered (id + 1) mk as

/-- `MustFlyTaskService::buildTaskPlanOptions`, `MustFlyTaskService.cpp` 64-132: an option for each heading. -/
def mustFly (u : Unit) (taskEligible : List Int) (place : Int) : Published :=
  publish (numbered firstId (fun i h => { id := i, cost := 1, eligible := taskEligible, place := place, heading := h })
    (allHeadings u))

/-- `DynamicTaskServiceBase::buildTaskPlanOptions`, `DynamicTaskServiceBase.cpp` 71-124: an option for each vehicle with a
known state and configuration, at the place `at_`. -/
def dynamic (g : Groups) (known : Int → Bool) (at_ : Int → Int) : Published :=
  publish (numbered 1 (fun i v => { id := i, eligible := [v], place := at_ v }) ((vehicles g).filter known))

/-! ### Point searches -/

/-- `isCalculateOption`, `CmasiPointSearchTaskService.cpp` 160-265: the new options and the next id.  `standoff` is in units
of which 10000 are a metre for each second (so that cost is `standoff / speed`); `far` is whether it is positive.  Start of
the option is left out, `heading` is the direction in which the point is seen from the start. -/
def pointCall (g : Groups) (far : Bool) (cost : Key → Int) (place h : Int) (id : Int) : List Opt × Int :=
  if !far then ([{ id := id, cost := 0, eligible := vehicles g, place := place, heading := h }], id)
  else
    (numbered id (fun i (p : Key × List Int) =>
      { id := i, cost := cost p.1, eligible := p.2, place := place, heading := h }) g, id + g.length)

/-- The loops over the headings: each call is followed by `optionId++`, `CmasiPointSearchTaskService.cpp` 88-139. -/
def pointLoop (g : Groups) (far : Bool) (cost : Key → Int) (place : Int) : Int → List Int → List Opt
  | _, [] => []
  | id, h :: hs =>
    let r := pointCall g far cost place h id
    r.1 ++ pointLoop g far cost place (r.2 + 1) hs

/-- `static_cast<int64_t>(standoff / speed * 1000.0)` with the speed in tenths of m/s, 0 when the speed is not positive
(the default of the cost); `standoff` in metres.  `CmasiPointSearchTaskService.cpp` 238-241. -/
def cmasiCost (standoff : Nat) (k : Key) : Int := if 0 < k.1 then (standoff * 10000 : Int).tdiv k.1 else 0

/-- `static_cast<int32_t>(standoff) / speed`, `ImpactPointSearchTaskService.cpp` 351-354. -/
def impactCost (standoff : Nat) (k : Key) : Int := if 0 < k.1 then (standoff * 10 : Int).tdiv k.1 else 0

/-- `CmasiPointSearchTaskService::buildTaskPlanOptions`, CmasiPointSearchTaskService.cpp 79-158. -/
def cmasiPoint (u : Unit) (ws : List Wedge) (g : Groups) (standoff : Nat) (place : Int) : Published :=
  publish (pointLoop g (0 < standoff) (cmasiCost standoff) place firstId (pointHeadings u ws))

/-- `buildTaskPlanOptions`, ImpactPointSearchTaskService.cpp 115-205 (the move of the point out of zones is part of
`place`).  A negative standoff distance, `none`, gives a single option. -/
def impactPoint (u : Unit) (ws : List Wedge) (g : Groups) (standoff : Option Nat) (place : Int) : Published :=
  match standoff with
  | none => publish (pointCall g false (fun _ => 0) place 0 firstId).1
  | some d => publish (pointLoop g (0 < d) (impactCost d) place firstId (pointHeadings u ws))

/-! ### Area searches -/

/-- TaskServiceBase.h 69: `TaskOptionClass` of an area search: the option, the look and
the vehicle that `m_eligibleEntities.front()` is. -/
structure Cell where
  opt : Opt
  look : Look
  front : Int
deriving DecidableEq, Repr

/-- CmasiAreaSearchTaskService.cpp 197-317: what an area search makes of a request: the
composition, the options, and the requests for footprints: id and vehicle. -/
structure Searched where
  composition : Str
  cells : List Cell
  footprints : List (Int × Int)
deriving DecidableEq, Repr

/-- `isCalculateOption`, CmasiAreaSearchTaskService.cpp 319-358: an option for each vehicle of the group. -/
def areaCall (vs : List Int) (l : Look) (id : Int) : List Cell :=
  numberedCells id vs
where
  numberedCells (id : Int) : List Int → List Cell
    | [] => []
    | v :: rest =>
      { opt := { id := id, eligible := [v] }, look := l, front := vs.headD 0 } :: numberedCells (id + 1) rest

/-- The text of one call and the blank after it, `CmasiAreaSearchTaskService.cpp` 238-243. -/
def callText (cs : List Cell) : Str := refs (cs.map (·.opt.id)) ++ [' ']

/-- The loop over the groups and looks: after each call comes another `optionId++`.  `CmasiAreaSearchTaskService.cpp`
206-288. -/
def areaLoop (call : List Int → Look → Int → List Cell) : Int → List (List Int × Look) → Str × List Cell
  | _, [] => ([], [])
  | id, (vs, l) :: rest =>
    let cs := call vs l id
    let r := areaLoop call (id + cs.length + 1) rest
    (callText cs ++ r.1, cs ++ r.2)

/-- CmasiAreaSearchTaskService.cpp 208-290: the groups and looks in the order of the
loops. -/
def groupLooks (g : Groups) (ls : List Look) : List (List Int × Look) := g.flatMap fun p => ls.map fun l => (p.2, l)

/-- `buildTaskPlanOptions`, CmasiAreaSearchTaskService.cpp 197-317. -/
def areaSearch (u : Unit) (lo hi dflt : Int) (ws : List Wedge) (g : Groups) : Searched :=
  let r := areaLoop areaCall firstId (groupLooks g (areaLooks u lo hi dflt ws))
  ⟨'+' :: '(' :: (r.1 ++ [')']), r.2, r.2.map fun c => (c.opt.id, c.front)⟩

/-- `isCalculateOption`, PatternSearchTaskService.cpp 332-363: the loop over the vehicles ends with `break`. -/
def patternCall (vs : List Int) (l : Look) (id : Int) : List Cell := (areaCall vs l id).take 1

/-- `buildTaskPlanOptions`, PatternSearchTaskService.cpp 282-330. -/
def patternSearch (look : Look) (g : Groups) : Searched :=
  let r := areaLoop patternCall firstId (groupLooks g [look])
  ⟨'+' :: '(' :: (r.1 ++ [')']), r.2, r.2.map fun c => (c.opt.id, c.front)⟩

/-- `isCalculateOption`, AngledAreaSearchTaskService.cpp 312-345, called four times for each vehicle, each followed by
`optionId++`; lines 267-286. -/
def angledLoop (look : Look) : Int → List Int → Str × List Cell
  | _, [] => ([], [])
  | id, v :: vs =>
    let c (i : Int) : Cell := { opt := { id := i, eligible := [v] }, look := look, front := v }
    let cs := [c id, c (id + 1), c (id + 2), c (id + 3)]
    let r := angledLoop look (id + 4) vs
    (cs.flatMap (fun c => ref c.opt.id ++ [' ']) ++ r.1, cs ++ r.2)

/-- `buildTaskPlanOptions`, AngledAreaSearchTaskService.cpp 254-310: one request for a footprint for each vehicle, with
the vehicle's id as its id. -/
def angledSearch (look : Look) (g : Groups) : Searched :=
  let r := angledLoop look firstId (vehicles g)
  ⟨'+' :: '(' :: (r.1 ++ [')']), r.2, (vehicles g).map fun v => (v, v)⟩

/-! ### Line searches -/

/-- CmasiLineSearchTaskService.cpp 255-583; simplification: what the path planner finds
for a group and a look: whether the forward and the reverse plans have two points. -/
abbrev Planner := Key → Look → Bool × Bool

/-- `isCalculateOption`, CmasiLineSearchTaskService.cpp 255-583: the text when it returns true, the options, the next
id. -/
def cmasiLineCall (both : Bool) (found : Bool × Bool) (vs : List Int) (l : Look) (id : Int) :
    Option Str × List Opt × Int :=
  let o (i : Int) : Opt := { id := i, eligible := vs, heading := l.1, place := l.2 }
  if !found.1 then (none, [], id)
  else if !both then (some ('+' :: '(' :: (ref id ++ [')'])), [o id], id + 1)
  else if found.2 then (some ('+' :: '(' :: (ref id ++ ref (id + 1) ++ [')'])), [o id, o (id + 1)], id + 2)
  else (none, [o id], id + 1)

/-- `isCalculateOption`, ImpactLineSearchTaskService.cpp 269-518. -/
def impactLineCall (both : Bool) (found : Bool × Bool) (vs : List Int) (l : Look) (id : Int) :
    Option Str × List Opt × Int :=
  let o (i : Int) : Opt := { id := i, eligible := vs, heading := l.1, place := l.2 }
  if !(found.1 && found.2) then (none, [], id)
  else if !both then (some ('+' :: '(' :: (ref id ++ [')'])), [o id], id)
  else (some ('+' :: '(' :: (ref id ++ ref (id + 1) ++ [')'])), [o id, o (id + 1)], id + 1)

/-- The loop over the groups and looks, `CmasiLineSearchTaskService.cpp` 136-228: a successful call is followed by
`optionId++`. -/
def lineLoop (call : Bool × Bool → List Int → Look → Int → Option Str × List Opt × Int) (plan : Planner) :
    Int → List ((Key × List Int) × Look) → Str × List Opt
  | _, [] => ([], [])
  | id, (p, l) :: rest =>
    match call (plan p.1 l) p.2 l id with
    | (some s, os, id') =>
      let r := lineLoop call plan (id' + 1) rest
      (s ++ ' ' :: r.1, os ++ r.2)
    | (none, os, id') =>
      let r := lineLoop call plan id' rest
      (r.1, os ++ r.2)

/-- CmasiLineSearchTaskService.cpp 138-228: the groups and looks in the order of the
loops. -/
def linePairs (g : Groups) (ls : List Look) : List ((Key × List Int) × Look) := g.flatMap fun p => ls.map fun l => (p, l)

/-- `buildTaskPlanOptions`, CmasiLineSearchTaskService.cpp 113-239. -/
def cmasiLine (both : Bool) (plan : Planner) (ls : List Look) (g : Groups) : Published :=
  let r := lineLoop (cmasiLineCall both) plan firstId (linePairs g ls)
  ⟨'+' :: '(' :: (r.1 ++ [')']), r.2⟩

/-- `buildTaskPlanOptions`, ImpactLineSearchTaskService.cpp 144-253. -/
def impactLine (both : Bool) (plan : Planner) (ls : List Look) (g : Groups) : Published :=
  let r := lineLoop (impactLineCall both) plan firstId (linePairs g ls)
  ⟨'+' :: '(' :: (r.1 ++ [')']), r.2⟩

/-! ### Blockade and multi-vehicle watch -/

/-- `buildTaskPlanOptions`, BlockadeTaskService.cpp 124-202 and
MultiVehicleWatchTaskService.cpp 124-201: the option id is the vehicle id.  `target` is the last place of the watched entity.  Nothing is sent when an
option could not be made.  `wanted` is `NumberVehicles`: the number computed from it is not used. -/
def together (g : Groups) (target : Option Int) (_wanted : Nat) : Option Published :=
  match target with
  | some p => some ⟨'.' :: '(' :: (refs (vehicles g) ++ [')']), (vehicles g).map fun v => { id := v, eligible := [v], place := p }⟩
  | none => if (vehicles g).isEmpty then some ⟨['.', '(', ')'], []⟩ else none

/-! ### Cordon -/

/-- CordonTaskService.h 159: `m_vehicleIdNodeIdVsOptionId` (key: vehicle and location
number) and the options already in `m_taskPlanOptions`. -/
structure Cordon where
  ids : List ((Int × Int) × Int) := []
  opts : List Opt := []
deriving DecidableEq, Repr

/-- A new request: `m_taskPlanOptions` is new, the map stays.  `TaskServiceBase.cpp` 527-533. -/
def Cordon.newRequest (s : Cordon) : Cordon := { s with opts := [] }

/-- `calculateOption` for one vehicle, `CordonTaskService.cpp` 282-305: `insert` keeps an earlier entry. -/
def Cordon.add (s : Cordon) (v loc place id : Int) : Cordon :=
  { ids := if (s.ids.lookup (v, loc)).isSome then s.ids else s.ids ++ [((v, loc), id)]
    opts := s.opts ++ [{ id := id, eligible := [v], place := place }] }

/-- CordonTaskService.cpp 230-233, 282-305: the loop over the vehicles of the groups. -/
def Cordon.addAll (loc place : Int) : Cordon → Int → List Int → Cordon × Int
  | s, id, [] => (s, id)
  | s, id, v :: vs => addAll loc place (s.add v loc place id) (id + 1) vs

/-- The loop over the locations, `CordonTaskService.cpp` 225-237. -/
def Cordon.locations (vs : List Int) : Cordon → Int → Int → List Int → Cordon
  | s, _, _, [] => s
  | s, loc, id, p :: ps =>
    let r := s.addAll loc p id vs
    locations vs r.1 (loc + 1) r.2 ps

/-- The functor `f`, `CordonTaskService.cpp` 41-115: the pairs without an option are left out. -/
def cordonCall (ids : List ((Int × Int) × Int)) (pairs : List (Int × Int)) : Str :=
  if pairs.isEmpty then []
  else ' ' :: '.' :: '(' :: (refs (pairs.filterMap fun p => ids.lookup p) ++ [')'])

/-- `calculateCompositionString`, `CordonTaskService.cpp` 249-269. -/
def cordonText (ids : List ((Int × Int) × Int)) (locs vs : List Int) : Str :=
  let calls :=
    if vs.length > locs.length
    then (Verif.Permute.forEachPermutation (fun w => cordonCall ids (w.zip locs)) vs locs.length).2
    else (Verif.Permute.forEachPermutation (fun w => cordonCall ids (vs.zip w)) locs vs.length).2
  '+' :: '(' :: (calls.flatten ++ [')'])

/-- CordonTaskService.cpp 225, 234-235: the numbers of the locations. -/
def locIds (n : Nat) : List Int := (List.range n).map fun (i : Nat) => (i : Int) + 1

/-- The answer to an `EgressRouteResponse` with these node locations, `CordonTaskService.cpp` 203-247. -/
def Cordon.response (s : Cordon) (g : Groups) (entities places : List Int) : Cordon × Published :=
  let s' := s.locations (vehicles g) 1 firstId places
  (s', ⟨cordonText s'.ids (locIds places.length) entities, s'.opts⟩)

end Verif.Options
