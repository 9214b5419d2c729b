import Verif.AMap
import Verif.Trace
import Verif.Extend.Route

/-!
# Meeting at the same time

`RendezvousTask` (`src/cpp/Tasks/RendezvousTask.cpp` 85-186, 348-707), after the assignment: the routes of the participants are
extended, and their speeds adapted while they fly.  The options are in `Verif.Options.Rendezvous`.

Simplifications: numbers are real, so nothing is rounded; the constant 3.14159265359 of `Convert.h` is π and
`dDegreesToRadians` π/180 where an angle is given to `tan` (in the conversion of coordinates it is the constant of the code);
pointers that the message classes set in their constructors and entries of lists are not null.  `m_optionSpeed` stays empty
without `AFRL_INTERNAL_ENABLED` and is left out.  Maps without an order are lists of pairs; where the code
runs through one, the order is a parameter.  Times are in milliseconds and do not overflow.
-/

namespace Verif.Rendezvous

open Real Verif.Earth

/-- The fields of a waypoint the task sets besides position, speed and numbers; `other` stands for the rest. -/
structure Rest where
  altitude : ℝ := 0
  altType : ℕ := 0
  /-- speed type `Airspeed` -/
  airspeed : Bool := false
  tasks : List ℤ := []
  other : ℕ := 0

/-- `afrl::cmasi::Waypoint`. -/
abbrev Wp := Extend.Wp Rest

/-- `afrl::cmasi::EntityConfiguration`; `air` is set for an `AirVehicleConfiguration`: smallest and largest speed, largest
bank angle of the nominal flight profile in degrees. -/
structure Cfg where
  nominal : ℝ
  air : Option (ℝ × ℝ × ℝ)

/-- `afrl::cmasi::EntityState`; `airspeed` is set for an `AirVehicleState`. -/
structure Ent where
  id : ℤ
  lat : ℝ
  lon : ℝ
  time : ℤ
  ground : ℝ
  airspeed : Option ℝ
  cur : ℤ

/-- `TaskAssignment`. -/
structure Asg where
  task : ℤ
  option : ℤ
  vehicle : ℤ

/-- `TaskOptionCost`. -/
structure Cost where
  vehicle : ℤ
  fromTask : ℤ
  fromOption : ℤ
  toTask : ℤ
  toOption : ℤ
  time : ℤ

/-- Conversion of a floating-point number to `int64_t`, towards zero; undefined out of range. -/
noncomputable def toInt64 (x : ℝ) : Outcome ℤ :=
  open Classical in
  let n := if 0 ≤ x then ⌊x⌋ else ⌈x⌉
  if -9223372036854775808 ≤ n ∧ n ≤ 9223372036854775807 then .ok n else .ub

/-! ## Start times -/

/-- RendezvousTask.h 106-114, by request. -/
structure Times where
  /-- `m_assignmentSummary` -/
  summary : Map (List Asg) := []
  /-- `m_assignmentCostMatrix` -/
  matrix : Map (List Cost) := []
  /-- `m_taskStartTime` -/
  start : Map (Map ℤ) := []
  /-- `m_taskEncountered`: the vehicles for which it is true -/
  met : Map (List ℤ) := []

/-- The messages the start times depend on (RendezvousTask.cpp 93-126). -/
inductive Note
  | summary (req : ℤ) (list : List Asg)
  | matrix (req : ℤ) (costs : List Cost)
  | implRequest (req vehicle task start : ℤ)
  | implResponse (req vehicle task final : ℤ)
  | done (req : ℤ)

/-- RendezvousTask.cpp 143-150, 175-182: `alreadyEncountered`. -/
def Times.isMet (t : Times) (req vehicle : ℤ) : Bool := ((t.met.get req).getD []).contains vehicle

/-- `m_taskStartTime[req][vehicle] = time`. -/
def Times.setStart (t : Times) (req vehicle time : ℤ) : Times :=
  { t with start := t.start.put req (((t.start.get req).getD []).put vehicle time) }

/-- RendezvousTask.cpp 161-167: vehicles of the assignment without a start time get `time`. -/
def Times.fill (req time : ℤ) : List Asg → Times → Times
  | [], t => t
  | a :: as, t =>
    fill req time as (if (((t.start.get req).getD []).get a.vehicle).isNone then t.setStart req a.vehicle time else t)

/-- RendezvousTask.cpp 93-126, 131-186; `task` is the rendezvous task. -/
def Times.step (task : ℤ) (t : Times) : Note → Times
  | .summary req list => { t with summary := t.summary.put req list }
  | .matrix req costs => { t with matrix := t.matrix.put req costs }
  | .implRequest req vehicle task' start =>
    let t := if t.isMet req vehicle then t
      else
        let t := t.setStart req vehicle start
        if task' = task then { t with met := t.met.put req (vehicle :: (t.met.get req).getD []) } else t
    match t.summary.get req with
    | none => t
    | some list => t.fill req start list
  | .implResponse req vehicle task' final =>
    if task' ≠ task ∧ t.isMet req vehicle = false then t.setStart req vehicle final else t
  | .done req => { t with summary := t.summary.del req, matrix := t.matrix.del req, start := t.start.del req }

/-! ## Extending the route -/

/-- The end location of the option. -/
structure Goal where
  lat : ℝ
  lon : ℝ
  altitude : ℝ
  altType : ℕ

/-- RendezvousTask.cpp 354-365: the speed at which the route is planned. -/
def planSpeed (st : Ent) (cfg : Option Cfg) : ℝ :=
  match cfg with
  | some c => if c.air.isSome then c.nominal else st.ground
  | none => st.ground

/-- RendezvousTask.cpp 367-395: the waypoints with the speed and the altitude of the request, at least two of them. -/
noncomputable def prepare (task : ℤ) (st : Ent) (V : ℝ) (goal : Goal) (wpId : ℤ) (ws : List Wp) : List Wp :=
  let ws := if ws.isEmpty then
      [{ lat := goal.lat, lon := goal.lon, speed := 0, number := wpId, next := wpId, rest := { tasks := [task] } }]
    else ws
  let ws := ws.map fun w =>
    { w with speed := V, rest := { w.rest with airspeed := true, altitude := goal.altitude, altType := goal.altType } }
  match ws with
  | [w] => [{ w with lat := st.lat, lon := st.lon, next := w.number + 1 }, { w with number := w.number + 1, next := w.number + 1 }]
  | _ => ws

/-- RendezvousTask.cpp 407-420: the options chosen for this task, by vehicle, and what each vehicle does before. -/
def chosen (task : ℤ) : List Asg → Map ℤ × Map (ℤ × ℤ) → Map ℤ × Map (ℤ × ℤ)
  | [], m => m
  | a :: as, (sel, prev) =>
    chosen task as
      (if a.task = task then (sel.put a.vehicle a.option, prev)
       else if (sel.get a.vehicle).isNone then (sel, prev.put a.vehicle (a.task, a.option))
       else (sel, prev))

/-- RendezvousTask.cpp 426-439: whether an entry of the cost matrix leads a vehicle to its option. -/
def Cost.leads (c : Cost) (task vehicle option : ℤ) (prev : ℤ × ℤ) : Bool :=
  c.vehicle == vehicle && c.toTask == task && c.toOption == option && c.fromTask == prev.1 && c.fromOption == prev.2

/-- RendezvousTask.cpp 422-458: the latest arrival and its vehicle. -/
def latestArrival (task : ℤ) (prev : Map (ℤ × ℤ)) (costs : List Cost) (start : Map ℤ) (now : ℤ) :
    List (ℤ × ℤ) → ℤ × ℤ → ℤ × ℤ
  | [], best => best
  | (v, option) :: more, best =>
    latestArrival task prev costs start now more
      (costs.foldl (fun best c =>
        if c.leads task v option ((prev.get v).getD (0, 0)) then
          let arrival := c.time + (start.get v).getD now
          if arrival > best.1 then (arrival, v) else best
        else best) best)

/-- RendezvousTask.cpp 466-476: the length of the way through the waypoints after the first. -/
noncomputable def travel (asserts : Bool) : List Wp → Earth → (north east : ℝ) → Outcome ℝ
  | [], _, _, _ => .ok 0
  | w :: ws, e, north, east =>
    (e.toNorthEast asserts .deg .m (w.lat, w.lon)).bind fun (e, n, ea) =>
      (travel asserts ws e n ea).bind fun rest =>
        .ok (√((n - north) * (n - north) + (ea - east) * (ea - east)) + rest)

/-- RendezvousTask.cpp 460-476: from the first waypoint. -/
noncomputable def travelDist (asserts : Bool) (ws : List Wp) : Outcome ℝ :=
  match ws with
  | [] => .throws
  | w :: ws => (({} : Earth).initialize asserts (w.lat * degToRad) (w.lon * degToRad)).bind fun e => travel asserts ws e 0 0

/-- RendezvousTask.cpp 484-499: turn radius and smallest speed. -/
noncomputable def manoeuvre (V : ℝ) (air : Option (ℝ × ℝ × ℝ)) : ℝ × ℝ :=
  open Classical in
  let g : ℝ := 980665 / 100000
  match air with
  | none => (12 / 10 * V * V / g / tan (20 * (π / 180)), V)
  | some (lo, hi, bank) =>
    let minV := if max (hi - V) 0 < max (V - lo) 0 then V - max (hi - V) 0 else lo
    let φ := if |bank| < 1 then 1 else |bank|
    (12 / 10 * (V * V / g / tan (φ * (π / 180))), minV)

/-- RendezvousTask.cpp 460-516: the extension, if one is needed.  `best` is the latest arrival with its vehicle, `start` the
start time of this vehicle. -/
noncomputable def stretch (asserts speedOnly : Bool) (V : ℝ) (air : Option (ℝ × ℝ × ℝ)) (vehicle : ℤ) (best : ℤ × ℤ)
    (start : ℤ) (ws : List Wp) : Outcome (List Wp) :=
  open Classical in
  (travelDist asserts ws).bind fun dist =>
    if V = 0 then .ub
    else (toInt64 (dist / V * 1000)).bind fun t =>
      let ext := best.1 - t - start
      if ext ≤ 1000 ∨ best.2 = vehicle then .ok ws
      else
        let (R, minV) := manoeuvre V air
        if speedOnly = true ∧ V - minV > 1 / 10000 ∧ ext * (V - minV) < dist * 1000 then .ok ws
        else
          let seg := 2 * π * R / 8
          (Extend.extendPath asserts ws ext R seg).bind fun (done, rs) =>
            if done then .ok rs
            else (toInt64 (1000 * seg * 8 / V + 1000)).bind fun circle =>
              (Extend.extendPath asserts rs circle R seg).bind fun (_, rs) => .ok rs

/-- RendezvousTask.cpp 348-517: `isProcessTaskImplementationRouteResponse`; `st` and `cfg` are what is known of the vehicle.  `arr`
is the order in which the loop of line 424 runs through the map of the options chosen. -/
noncomputable def implement (arr : List (ℤ × ℤ) → List (ℤ × ℤ)) (asserts speedOnly : Bool) (task : ℤ) (t : Times) (st : Option Ent) (cfg : Option Cfg)
    (goal : Goal) (req vehicle wpId : ℤ) (ws : List Wp) : Outcome (List Wp) :=
  match st with
  | none => .ok ws
  | some st =>
    let V := planSpeed st cfg
    let ws := prepare task st V goal wpId ws
    match t.summary.get req, t.matrix.get req, t.start.get req with
    | some list, some costs, some starts =>
      match starts.get vehicle with
      | none => .ok ws
      | some start =>
        let (sel, prev) := chosen task list ([], [])
        let best := latestArrival task prev costs starts st.time (arr sel) (0, 0)
        stretch asserts speedOnly V (cfg.bind (·.air)) vehicle best start ws
    | _, _, _ => .ok ws

/-! ## Speeds on the way -/

/-- RendezvousTask.cpp 519-533: `SpeedClip`, for a configuration of an air vehicle: smallest, largest and nominal speed. -/
noncomputable def speedClip (air : Option (ℝ × ℝ × ℝ)) (nominal : ℝ) (nom : ℝ) : ℝ × ℝ × ℝ :=
  open Classical in
  match air with
  | none => (nom, nom, nom)
  | some (lo, hi, _) =>
    let nom := if nominal < 1 / 10000 then nom else nominal
    (if lo < 1 / 10000 ∨ lo > nom then nom else lo, if hi < nom then nom else hi, nom)

/-- What the loop over the others gathers: nominal times, end and start of the common window. -/
structure Window where
  times : List ℤ
  last : ℤ
  first : ℤ

/-- RendezvousTask.cpp 563-595: the loop over the remaining distances.  Entries: vehicle, time, distance.  A vehicle without a
configuration is looked up in vain and its entry read nevertheless (line 571 tests the wrong iterator): `ub`. -/
noncomputable def gather (configs : Map Cfg) (self : ℤ) (nom : ℝ) (now : ℤ) : List (ℤ × ℤ × ℝ) → Window → Outcome Window
  | [], w => .ok w
  | (id, time, dist) :: more, w =>
    open Classical in
    if dist < nom then gather configs self nom now more w
    else if id = self then gather configs self nom now more w
    else
      match configs.get id with
      | none => .ub
      | some c =>
        let (lo, hi, nnom) := speedClip c.air c.nominal nom
        let dt := if now - time < 0 then 0 else now - time
        (toInt64 (dist / nnom * 1000 - dt)).bind fun mid =>
          (toInt64 (dist / lo * 1000 - dt)).bind fun last =>
            (toInt64 (dist / hi * 1000 - dt)).bind fun first =>
              gather configs self nom now more
                (if mid > 1000 ∧ dt < 5000 then
                  { times := w.times ++ [mid], last := min last w.last, first := max first w.first }
                else w)

/-- RendezvousTask.cpp 597-617: the time to meet at.  The division of line 614 is unsigned; the sum is not negative. -/
def meetingTime (w : Window) : ℤ :=
  if w.first ≤ w.last then max w.first (min w.last (Int.tdiv w.times.sum w.times.length))
  else Int.tdiv (w.first - w.last) 2 + w.first

/-- RendezvousTask.cpp 630-640: the speed commanded. -/
noncomputable def command (lo hi nom dist : ℝ) (meet : ℤ) : ℝ :=
  open Classical in
  let v := if meet > 1000 ∧ dist > nom then max lo (min hi (dist / (meet / 1000))) else nom
  max lo (min hi (v + 2 * (v - nom)))

/-- RendezvousTask.cpp 535-653: `activeEntityState`; `dist` is the remaining distance, `others` is `m_distanceRemaining` in
the order of the loop.  The
answer is the speed of the command for the vehicle, if one is sent. -/
noncomputable def active (configs : Map Cfg) (others : List (ℤ × ℤ × ℝ)) (st : Ent) (dist : ℝ) : Outcome (Option ℝ) :=
  open Classical in
  match configs.get st.id with
  | none => .ok none
  | some c =>
    match c.air with
    | none => .ok none
    | some _ =>
      let nom := if c.nominal < 1 / 10000 then st.airspeed.getD st.ground else c.nominal
      if nom < 1 / 10000 then .ok none
      else
        let (lo, hi, nom) := speedClip c.air c.nominal nom
        (toInt64 (dist / nom * 1000)).bind fun mid =>
          (toInt64 (dist / lo * 1000)).bind fun last =>
            (toInt64 (dist / hi * 1000)).bind fun first =>
              (gather configs st.id nom st.time others { times := [mid], last := last, first := first }).bind fun w =>
                .ok (some (command lo hi nom dist (meetingTime w)))

/-! ## The distance that remains -/

/-- RendezvousTask.cpp 699-707: `FindWaypointIndex`. -/
def findIndex (ws : List Wp) (number : ℤ) : ℕ := ws.findIdx (·.number == number)

/-- RendezvousTask.cpp 672-694: the loop along the links; `none` if `fuel` rounds were not enough. -/
noncomputable def remaining (asserts : Bool) (task : ℤ) (ws : List Wp) (e : Earth) : ℕ → List ℕ → ℕ → (north east : ℝ) → Option (Outcome ℝ)
  | 0, _, _, _, _ => none
  | fuel + 1, seen, i, north, east =>
    match ws[i]? with
    | none => some (.ok 0)
    | some w =>
      if w.rest.tasks.contains task = false then some (.ok 0)
      else
        match e.toNorthEast asserts .deg .m (w.lat, w.lon) with
        | .ok (_, n, ea) =>
          let leg := √((n - north) * (n - north) + (ea - east) * (ea - east))
          let j := findIndex ws w.next
          if j ∈ seen then some (.ok leg)
          else (remaining asserts task ws e fuel (j :: seen) j n ea).map fun r => r.bind fun d => .ok (leg + d)
        | .throws => some .throws
        | .ub => some .ub

/-- RendezvousTask.cpp 655-697: `ArrivalDistance`; `mission` is the mission known for the vehicle.  (The loop ends:
`remaining_ends`, so the `none` branch is not reached.) -/
noncomputable def arrivalDistance (asserts : Bool) (task : ℤ) (mission : Option (List Wp)) (st : Ent) : Outcome ℝ :=
  match mission with
  | none => .ok 0
  | some ws =>
    (({} : Earth).initialize asserts (st.lat * degToRad) (st.lon * degToRad)).bind fun e =>
      let i := findIndex ws st.cur
      (remaining asserts task ws e (ws.length + 2) [i] i 0 0).getD .ub

end Verif.Rendezvous
