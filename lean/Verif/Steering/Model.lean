import Verif.AMap
import Verif.Trace
import Verif.Earth.Model
import Mathlib.Analysis.SpecialFunctions.Complex.Arg
import Mathlib.Analysis.SpecialFunctions.Trigonometric.Arctan

/-!
# Steering a vehicle along its waypoints

`SteeringService` (`src/cpp/Services/SteeringService.cpp` 65-621, `SteeringService.h` 83-115).

Simplifications: numbers are real, so nothing is rounded, and heading and speed are not cut to `float`; the constants
3.14159265359 and 57.29577951308232 of `Convert.h` are π and 180/π; the clock is read once for each message; pointers that
the message classes set in their constructors (the location of a state, the flight profile of a configuration) and the
entries of lists are not null; identifiers of sent commands are left out.  Times are in milliseconds.  A service does not
receive what it sends itself (`src/cpp/Communications/ZeroMqAddressedAttributedMessageReceiver.cpp` 118, 143).
-/

namespace Verif.Steering

open Real

/-- Latitude and longitude in degrees (`Location3D`). -/
structure Loc where
  lat : ℝ
  lon : ℝ

/-- North and east in metres; `VisiLibity::Point` with x to the north and y to the east. -/
abbrev Pt := ℝ × ℝ

/-- `afrl::cmasi::LoiterDirection`. -/
inductive Dir | vehicleDefault | clockwise | counterClockwise
deriving DecidableEq

/-- `afrl::cmasi::SpeedType`. -/
inductive SpeedType | airspeed | groundspeed
deriving DecidableEq

/-- `afrl::cmasi::LoiterAction`, the fields read (SteeringService.cpp 163, 186, 469, 475, 492). -/
structure Loiter where
  center : Option Loc
  radius : ℝ
  airspeed : ℝ
  duration : ℤ
  dir : Dir

/-- `afrl::cmasi::VehicleAction`; the classes told apart (SteeringService.cpp 121, 387). -/
inductive Action
  | loiter (l : Loiter)
  | flightDirector
  | other

/-- SteeringService.cpp 387: the cast to `FlightDirectorAction` succeeds. -/
def Action.isDirector : Action → Bool
  | .flightDirector => true
  | _ => false

/-- `afrl::cmasi::Waypoint`, the fields read. -/
structure Wp where
  number : ℤ
  next : ℤ
  loc : Loc
  altitude : ℝ
  altType : ℕ
  speed : ℝ
  speedType : SpeedType
  climb : ℝ
  turnShort : Bool
  actions : List Action
  tasks : List ℤ

/-- `afrl::cmasi::MissionCommand`, the fields read. -/
structure Mission where
  vehicle : ℤ
  first : ℤ
  wps : List Wp

/-- `afrl::cmasi::AirVehicleState`; `rest` stands for what is passed on unread. -/
structure AvState where
  id : ℤ
  loc : Loc
  current : ℤ
  tasks : List ℤ
  rest : ℕ

/-- SteeringService.cpp 95-111: the first waypoint with the number. -/
def Mission.find (m : Mission) (id : ℤ) : Option Wp := m.wps.find? (·.number == id)

/-- SteeringService.cpp 126-142: the first loiter action. -/
def Wp.loiter (w : Wp) : Option Loiter :=
  w.actions.findSome? fun | .loiter l => some l | _ => none

/-- SteeringService.cpp 113-124. -/
def Wp.isOrbit (w : Wp) : Bool := w.actions.any fun | .loiter _ => true | _ => false

/-- SteeringService.cpp 402-405, 144-152 with FlatEarth.cpp 30-48, 82-98: north and east of `p` for a new `FlatEarth` whose
first conversion is that of `o`. -/
noncomputable def toNE (o p : Loc) : Pt :=
  let φ := Earth.Angle.deg.toRad o.lat
  (Earth.quot (Earth.radiusEquatorial * (1 - Earth.ecc2)) (Earth.flat φ ^ ((3 : ℝ) / 2))
      * (Earth.Angle.deg.toRad p.lat - φ),
   Earth.quot Earth.radiusEquatorial (Earth.flat φ ^ ((1 : ℝ) / 2)) * cos φ
      * (Earth.Angle.deg.toRad p.lon - Earth.Angle.deg.toRad o.lon))

/-- SteeringService.cpp 154-172: the centre of the loiter if there is one, otherwise the waypoint itself. -/
def Wp.target (w : Wp) : Loc :=
  match w.loiter with
  | some l => l.center.getD w.loc
  | none => w.loc

/-- SteeringService.cpp 70-73. -/
def dot (p q : Pt) : ℝ := p.1 * q.1 + p.2 * q.2

/-- SteeringService.cpp 65-68. -/
noncomputable def mag (p : Pt) : ℝ := √(p.1 * p.1 + p.2 * p.2)

/-- src/cpp/VisilibityLib/visilibity.cpp 509-516. -/
noncomputable def distance (p q : Pt) : ℝ := √((p.1 - q.1) ^ 2 + (p.2 - q.2) ^ 2)

/-- visilibity.cpp 366-369. -/
noncomputable def rotate (p : Pt) (th : ℝ) : Pt := (cos th * p.1 - sin th * p.2, sin th * p.1 + cos th * p.2)

/-- visilibity.cpp 372-378. -/
noncomputable def normalize (p : Pt) : Pt :=
  open Classical in
  let len := √(p.1 * p.1 + p.2 * p.2)
  if len ≠ 0 then (p.1 / len, p.2 / len) else (0, 0)

/-- `atan2(p.y(), p.x())`. -/
noncomputable def atan2 (p : Pt) : ℝ := Complex.arg ⟨p.1, p.2⟩

/-- Convert.h 105-108. -/
noncomputable def toDegrees (x : ℝ) : ℝ := 180 / π * x

/-- Convert.h 93-96. -/
noncomputable def toRadians (x : ℝ) : ℝ := π / 180 * x

/-- Cutting off towards zero, as `std::fmod` does with the quotient (Convert.h 250). -/
noncomputable def trunc (x : ℝ) : ℤ :=
  open Classical in
  if 0 ≤ x then ⌊x⌋ else ⌈x⌉

/-- Convert.h 244-260 with 181-203: `dNormalizeAngleDeg` with the reference -180; the tolerance of comparisons is 1e-9. -/
noncomputable def normalizeDeg (x : ℝ) : ℝ :=
  open Classical in
  let m := x - 360 * trunc (x / 360)
  if m < -180 then m + 360
  else if 180 < m ∨ |m - 180| ≤ 1 / 1000000000 then m - 360
  else m

/-- What is configured (SteeringService.cpp 214-282). -/
structure Config where
  vehicle : ℤ
  acceptTime : ℕ
  safe : Bool
  overrideRegion : Option ℤ
  courseInf : ℝ
  kLine : ℝ
  kOrbit : ℝ

/-- SteeringService.cpp 75-88. -/
noncomputable def ifPositive (given : Option ℝ) (dflt : ℝ) : ℝ :=
  open Classical in
  match given with
  | some v => if v > 0 then v else dflt
  | none => dflt

/-- The attributes of the service's XML node (SteeringService.cpp 47-61, 216-258); `none` if absent. -/
structure Xml where
  vehicle : Option ℕ := none
  acceptTime : Option ℕ := none
  safe : Option Bool := none
  overrideRegion : Option ℕ := none
  maxCourse : Option ℝ := none
  kLine : Option ℝ := none
  kOrbit : Option ℝ := none

/-- SteeringService.cpp 214-258. -/
noncomputable def configure (entity : ℤ) (x : Xml) : Config :=
  open Classical in
  { vehicle := (x.vehicle.map (↑·)).getD entity
    acceptTime := x.acceptTime.getD 0
    safe := x.safe.getD false
    overrideRegion := x.overrideRegion.map (↑·)
    courseInf := match x.maxCourse with
      | some deg => if 0 < toRadians deg ∧ toRadians deg ≤ π / 2 then toRadians deg else π / 2
      | none => π / 2
    kLine := ifPositive x.kLine (1 / 100)
    kOrbit := ifPositive x.kOrbit (1 / 100) }

/-- Where the vehicle is on its route: the members and local variables the acceptance loop changes. -/
structure Nav where
  /-- `m_currentWpID` -/
  cur : ℤ
  /-- `m_currentStartTimestamp_ms` -/
  start : ℤ
  /-- `m_isLastWaypoint` -/
  isLast : Bool
  /-- `m_previousLocation` -/
  prev : Option Loc

/-- SteeringService.h 83-115. -/
structure S where
  cfg : Config
  mission : Option Mission
  nav : Nav
  /-- `m_operatingRegion` -/
  region : ℤ
  /-- `m_requestToRegionMap` -/
  regions : Map ℤ
  /-- `m_leadAheadDistance_m` -/
  lead : ℝ
  /-- `m_loiterRadius_m` -/
  radius : ℝ
  /-- `m_acceptanceDistance` -/
  acceptDist : ℝ
  /-- `m_isSpeedOverridden` with `m_overrideSpeed` -/
  override : Option ℝ
  /-- `m_isHeadingControlledByTask` -/
  byTask : Bool

/-- The state after `configure`.  `start` and `isLast` are not initialised in C++ (SteeringService.h 87-88): they are
whatever the memory held. -/
def S.init (cfg : Config) (start : ℤ) (isLast : Bool) : S :=
  { cfg := cfg, mission := none, nav := { cur := 0, start := start, isLast := isLast, prev := none }
    region := cfg.overrideRegion.getD 0, regions := [], lead := 1000, radius := 250, acceptDist := 0
    override := none, byTask := false }

/-- The messages told apart (SteeringService.cpp 284-395). -/
inductive Msg
  /-- `AirVehicleConfiguration`: vehicle, nominal speed, largest bank angle in degrees -/
  | config (id : ℤ) (speed bank : ℝ)
  /-- `UniqueAutomationRequest`: identifier, sandbox, region of the original request if there is one -/
  | request (id : ℤ) (sandbox : Bool) (region : Option ℤ)
  /-- `UniqueAutomationResponse`: identifier, missions of the original response if there is one -/
  | uniqueResponse (id : ℤ) (missions : Option (List Mission))
  | response (missions : List Mission)
  | mission (m : Mission)
  | speedOverride (id : ℤ) (speed : ℝ)
  | command (id : ℤ) (actions : List Action)
  | state (st : AvState)
  | other

/-- The messages sent (SteeringService.cpp 546, 564, 578). -/
inductive Out
  | safeHeading (vehicle region : ℤ) (lead radius heading altitude : ℝ) (altType : ℕ) (speed : ℝ)
  | command (vehicle : ℤ) (speed : ℝ) (speedType : SpeedType) (heading altitude : ℝ) (altType : ℕ) (climb : ℝ)
  | report (st : AvState)

/-- SteeringService.cpp 174-177. -/
def lineAcceptance (position previous current : Pt) : Prop := dot (previous - current) (position - current) ≤ 0

/-- SteeringService.cpp 179-200. -/
def orbitAcceptance (now start : ℤ) (w : Wp) : Prop :=
  match w.loiter with
  | some l => l.duration ≠ -1 ∧ now - start ≥ l.duration
  | none => False

/-- SteeringService.cpp 607-619. -/
def proximity (acceptTime : ℕ) (acceptDist : ℝ) (position current : Pt) (w : Wp) : Prop :=
  acceptTime > 0 ∧ w.turnShort = true ∧ distance position current ≤ acceptDist

/-- What stays the same during the acceptance loop: the mission, the clock, the configuration and the origin. -/
structure Env where
  mission : Mission
  now : ℤ
  pos : Loc
  acceptTime : ℕ
  acceptDist : ℝ

/-- SteeringService.cpp 406, 441. -/
noncomputable def Env.pt (e : Env) (w : Wp) : Pt := toNE e.pos w.target

/-- SteeringService.cpp 405. -/
noncomputable def Env.position (e : Env) : Pt := toNE e.pos e.pos

/-- SteeringService.cpp 417-418; 63: the threshold of 1 m. -/
def accepts (e : Env) (start : ℤ) (prev : Pt) (w : Wp) : Prop :=
  (w.isOrbit = false ∧ (lineAcceptance e.position prev (e.pt w) ∨ distance (e.pt w) prev ≤ 1 ∨
    proximity e.acceptTime e.acceptDist e.position (e.pt w) w)) ∨
  (w.isOrbit = true ∧ orbitAcceptance e.now start w)

/-- SteeringService.cpp 414-450: the acceptance loop; `prev` is `previous_m`, `w` is `pCurrentWp`, `seen` are the
`acceptedWaypoints`.  `none` if `fuel` rounds were not enough. -/
noncomputable def loop (e : Env) : ℕ → List ℤ → Nav → Pt → Wp → Option (Nav × Pt × Wp)
  | 0, _, _, _, _ => none
  | fuel + 1, seen, n, prev, w =>
    open Classical in
    if n.isLast = false ∧ accepts e n.start prev w then
      if n.cur ∈ seen then some ({ n with isLast := true }, prev, w)
      else
        match e.mission.find w.next with
        | some w' =>
          if w.next ≠ n.cur then
            loop e fuel (n.cur :: seen) { cur := w.next, start := e.now, isLast := false, prev := some w.loc } (e.pt w) w'
          else loop e fuel (n.cur :: seen) { n with isLast := true, prev := some w.loc } (e.pt w) w
        | none => loop e fuel (n.cur :: seen) { n with isLast := true, prev := some w.loc } (e.pt w) w
    else some (n, prev, w)

/-- SteeringService.cpp 477, 482: `atan(m_kOrbit * (d_m - r_m) / r_m)`.  For radius 0 the quotient is infinite and its
arc tangent π/2 (not modelled: at the centre itself it is not a number). -/
noncomputable def orbitTurn (kOrbit d r : ℝ) : ℝ :=
  open Classical in
  if r = 0 then π / 2 else arctan (kOrbit * (d - r) / r)

/-- SteeringService.cpp 461-489: the course on an orbit, in radians. -/
noncomputable def orbitCourse (kOrbit : ℝ) (l : Loiter) (position current : Pt) : ℝ :=
  let rel := position - current
  let γ := atan2 rel
  let d := mag rel
  match l.dir with
  | .clockwise => γ + π / 2 + orbitTurn kOrbit d l.radius
  | _ => γ - π / 2 - orbitTurn kOrbit d l.radius

/-- SteeringService.cpp 497-521: the course along a line, in radians. -/
noncomputable def lineCourse (courseInf kLine : ℝ) (isLast : Bool) (position previous current : Pt) : ℝ :=
  let previous := if isLast then position else previous
  let path := current - previous
  let y := dot (rotate (normalize path) (π / 2)) (position - previous)
  (-2 * courseInf / π) * arctan (kLine * y) + atan2 path

/-- SteeringService.cpp 455-529: heading in degrees, speed and kind of speed. -/
noncomputable def guidance (cfg : Config) (override : Option ℝ) (isLast : Bool) (position previous current : Pt) (w : Wp) :
    ℝ × ℝ × SpeedType :=
  match w.loiter with
  | some l => (normalizeDeg (toDegrees (orbitCourse cfg.kOrbit l position current)), override.getD l.airspeed, .airspeed)
  | none => (normalizeDeg (toDegrees (lineCourse cfg.courseInf cfg.kLine isLast position previous current)),
      override.getD w.speed, w.speedType)

/-- SteeringService.cpp 531-565. -/
noncomputable def S.direct (s : S) (id : ℤ) (w : Wp) (g : ℝ × ℝ × SpeedType) : List Out :=
  if s.byTask then []
  else if s.cfg.safe then [.safeHeading id s.region s.lead s.radius g.1 w.altitude w.altType g.2.1]
  else [.command s.cfg.vehicle g.2.1 g.2.2 g.1 w.altitude w.altType w.climb]

/-- SteeringService.cpp 284-303: radius and distances from a configuration. -/
noncomputable def S.configured (s : S) (speed bank : ℝ) : S :=
  open Classical in
  let φ := if |bank| < 1 then 1 else |bank|
  let radius := 12 / 10 * (speed * speed / (980665 / 100000) / tan (toRadians φ))
  { s with radius := radius, lead := 3 * radius
           acceptDist := if s.cfg.acceptTime > 0 then (s.cfg.acceptTime : ℝ) / 1000 * speed else s.acceptDist }

/-- SteeringService.cpp 584-605. -/
def S.reset (s : S) (now : ℤ) (m : Mission) : S :=
  { s with mission := some m
           nav := { cur := m.first, start := now, isLast := m.wps.length == 1
                    prev := (m.wps.find? (·.next == m.first)).map (·.loc) } }

/-- SteeringService.cpp 353-358, 364-369: a new mission. -/
def S.assign (s : S) (now : ℤ) (m : Mission) : S := { s with byTask := false, override := none }.reset now m

/-- SteeringService.cpp 316-344. -/
def S.answered (s : S) (id : ℤ) (ms : List Mission) : S :=
  let region := s.regions.get id
  { s with
    region :=
      if ms.any (·.vehicle == s.cfg.vehicle) then
        match s.cfg.overrideRegion with
        | some r => r
        | none => region.getD 0
      else s.region
    regions := s.regions.del id }

/-- SteeringService.cpp 395-579: a state of the vehicle.  The outcome is `none` only if the acceptance loop does not end. -/
noncomputable def S.observe (s : S) (now : ℤ) (st : AvState) : Option (S × List Out) :=
  match s.mission.bind (·.find s.nav.cur) with
  | none => some (s, [.report { st with current := s.nav.cur, tasks := [] }])
  | some w =>
    match s.mission with
    | none => none
    | some m =>
      let e : Env := { mission := m, now := now, pos := st.loc, acceptTime := s.cfg.acceptTime, acceptDist := s.acceptDist }
      let prev := match s.nav.prev with
        | some l => toNE st.loc l
        | none => e.position
      (loop e (m.wps.length + 2) [] s.nav prev w).map fun (n, prev, w) =>
        ({ s with nav := n },
          s.direct st.id w (guidance s.cfg s.override n.isLast e.position prev (e.pt w) w) ++
            [.report { st with current := n.cur, tasks := w.tasks }])

/-- SteeringService.cpp 284-582: a message at a time. -/
noncomputable def step (s : S) (i : ℤ × Msg) : S × List Out :=
  match i.2 with
  | .config id speed bank => (if id = s.cfg.vehicle then s.configured speed bank else s, [])
  | .request id sandbox region =>
    (if sandbox = false then
      match region with
      | some r => { s with regions := s.regions.put id r }
      | none => { s with regions := s.regions.del id }
    else { s with regions := s.regions.del id }, [])
  | .uniqueResponse id (some ms) => (s.answered id ms, [])
  | .uniqueResponse _ none => (s, [])
  | .response ms =>
    (match ms.find? (·.vehicle == s.cfg.vehicle) with
      | some m => s.assign i.1 m
      | none => s, [])
  | .mission m => (if m.vehicle = s.cfg.vehicle then s.assign i.1 m else s, [])
  | .speedOverride id speed => (if id = s.cfg.vehicle then { s with override := some speed } else s, [])
  | .command id actions =>
    (if id = s.cfg.vehicle ∧ actions.any Action.isDirector then { s with byTask := true } else s, [])
  | .state st => if st.id = s.cfg.vehicle then (s.observe i.1 st).getD (s, []) else (s, [])
  | .other => (s, [])

end Verif.Steering
