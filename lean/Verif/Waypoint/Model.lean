import Verif.Trace

/-!
Model of `src/cpp/Services/WaypointPlanManagerService.{h,cpp}`: the segmentation of a mission command
and the choice of the segment to send.

Simplifications: of a waypoint only its number, the number of its successor, its speed and the actions
added by the service are named; everything else (position, turn type, tasks) is an opaque content that
the service copies.  `IncrementWaypoint` is compiled only with `STEVETEST` (WaypointPlanManagerService.cpp:250-262) and left out,
so `m_isMoveToNextWaypoint` stays false.  Waypoint numbers are unbounded integers.
-/

namespace Verif.Waypoint

/-- Actions that the service adds to waypoints (WaypointPlanManagerService.cpp:331-347, 381-416). -/
inductive Action where
  | loiter (speed : Int)
  | gimbal (payload : Int)
deriving Repr, DecidableEq

/-- mdms/CMASI.xml 1173-1215: what is read of a `Waypoint`. -/
structure Wp where
  number : Int
  next : Int := 0
  speed : Int := 0
  content : Nat := 0
  actions : List Action := []
deriving Repr, DecidableEq

/-- mdms/CMASI.xml 1227-1237: a mission segment: a `MissionCommand` with command id, first
waypoint and waypoint list. -/
structure Seg where
  id : Int
  first : Int := -1
  wps : List Wp := []
deriving Repr, DecidableEq

/-- Configuration (WaypointPlanManagerService.h:165-197). -/
structure Cfg where
  vehicle : Int := 1
  serve : Int := 100000
  overlap : Nat := 3
  loiterSegments : Bool := false
  loiterMission : Bool := false
  loopBack : Bool := false
  lastSpeed0 : Bool := false
  gimbal : Int := -1
deriving Repr

/-- `NumberWaypointsOverlap` as configured (WaypointPlanManagerService.cpp:97-105). -/
def configOverlap : Option Int → Nat
  | none => 3
  | some n => if n < 2 then 2 else n.toNat

/-- `static_cast<size_t>(m_numberWaypointsToServe)` (WaypointPlanManagerService.cpp:311). -/
def Cfg.serveU (c : Cfg) : Nat := if c.serve < 0 then (18446744073709551616 + c.serve).toNat else c.serve.toNat

/-- For `back()`: change the last element of a list (`back()`; the callers' lists are not
empty). -/
def modifyLast (f : Wp → Wp) : List Wp → List Wp
  | [] => []
  | [w] => [f w]
  | w :: ws => w :: modifyLast f ws

/-- WaypointPlanManagerService.cpp 293-366: the two segments under construction, those
that are finished, and the id counter. -/
structure Build where
  seg1 : Seg
  seg2 : Seg
  done : List Seg := []
  ok : Bool := true
  next : Int

/-- `pLoiterAction->setAirspeed(waypointCurrent->getSpeed())` and the push (WaypointPlanManagerService.cpp:333-347). -/
def Wp.loiter (w : Wp) : Wp := { w with actions := w.actions ++ [.loiter w.speed] }

/-- A waypoint appended to a segment (WaypointPlanManagerService.cpp:313, 317, 332). -/
def Seg.push (s : Seg) (w : Wp) : Seg := { s with wps := s.wps ++ [w] }

/-- "commanded first waypoint is the second one" (WaypointPlanManagerService.cpp:320-328). -/
def Seg.enter (s : Seg) (w : Wp) : Seg := if s.wps.length ≤ 2 then { s with first := w.number } else s

/-- One pass of the loop (WaypointPlanManagerService.cpp:309-361). -/
def place (c : Cfg) (b : Build) (w : Wp) : Build :=
  if b.seg1.wps.length < c.serveU then
    let seg1 := b.seg1.push w
    let seg2 := if c.serveU - seg1.wps.length < c.overlap then b.seg2.push w else b.seg2
    { b with seg1 := seg1.enter w, seg2 := seg2.enter w }
  else
    let seg2 := b.seg2.push w
    if b.seg1.first ≥ 0 then
      let seg1 := if c.loiterSegments then { b.seg1 with wps := modifyLast Wp.loiter b.seg1.wps } else b.seg1
      { b with done := b.done ++ [seg1], seg1 := seg2, seg2 := { id := b.next }, next := b.next + 1 }
    else { b with seg2 := seg2, ok := false }

/-- The changes of the last waypoint (WaypointPlanManagerService.cpp:381-427).  The speed 0 of the loiter action is overwritten
(WaypointPlanManagerService.cpp:386-393, an `else` is missing). -/
def finishWp (c : Cfg) (front : Int) (w : Wp) : Wp :=
  let w := if c.loiterMission then w.loiter else w
  let w := if c.gimbal > 0 then { w with actions := w.actions ++ [.gimbal c.gimbal] } else w
  let w := if c.lastSpeed0 then { w with speed := 0 } else w
  if c.loopBack then { w with next := front } else w

/-- WaypointPlanManagerService.cpp 381-427: change the last segment. -/
def finishSegs (f : Wp → Wp) : List Seg → List Seg
  | [] => []
  | [s] => [{ s with wps := modifyLast f s.wps }]
  | s :: ss => s :: finishSegs f ss

/-- WaypointPlanManagerService.cpp 424: number of the first waypoint of the first
segment. -/
def frontNumber (segs : List Seg) : Int := ((segs.head?.bind (·.wps.head?)).map (·.number)).getD 0

/-- The state before the loop: two empty segments with fresh ids (WaypointPlanManagerService.cpp:293-306). -/
def Build.start (next : Int) : Build := { seg1 := { id := next }, seg2 := { id := next + 1 }, next := next + 2 }

/-- The segments of a non-empty mission (WaypointPlanManagerService.cpp:307-366), before the last waypoint is changed. -/
def buildSegments (c : Cfg) (next : Int) (ws : List Wp) : Build × List Seg :=
  let b := ws.foldl (place c) (Build.start next)
  (b, if b.seg1.first ≥ 0 then b.done ++ [b.seg1] else b.done)

/-- WaypointPlanManagerService.h 160-197: members of the service. -/
structure State where
  segs : List Seg := []
  /-- `m_idMissionSegmentCurrent`. -/
  current : Int := 0
  /-- `_nextMissionCommandToSend`. -/
  toSend : Option Seg := none
  /-- The next unique id (`getUniqueEntitySendMessageId`, shared by all services of the process). -/
  next : Int := 1
deriving Repr, DecidableEq

/-- `isInitializePlan` (WaypointPlanManagerService.cpp:277-447): the new state and the result. -/
def initializePlan (c : Cfg) (s : State) (ws : List Wp) : State × Bool :=
  if c.vehicle > 0 then
    if ws.isEmpty then ({ s with segs := [] }, false)
    else
      let q := buildSegments c s.next ws
      let s := { s with next := q.1.next }
      if q.2.isEmpty then ({ s with segs := [] }, false)
      else ({ s with segs := finishSegs (finishWp c (frontNumber q.2)) q.2 }, q.1.ok)
  else (s, false)

/-- The waypoints of a segment in turn (WaypointPlanManagerService.cpp:458-470): a match that is not the first waypoint of the
segment is taken, any match if none was found before. -/
def scanWps (seg : Seg) (wp : Int) : Bool → Option Seg → List Wp → Option Seg
  | _, found, [] => found
  | atFront, found, w :: ws =>
    scanWps seg wp false
      (if w.number = wp then (if !atFront || found.isNone then some seg else found) else found) ws

/-- All segments in turn (WaypointPlanManagerService.cpp:456-472). -/
def scanSegs (wp : Int) : Option Seg → List Seg → Option Seg
  | found, [] => found
  | found, seg :: segs => scanSegs wp (scanWps seg wp true found seg.wps) segs

/-- `isGetCurrentSegment` (WaypointPlanManagerService.cpp:449-493). -/
def currentSegment (s : State) (wp : Int) : State :=
  match scanSegs wp none s.segs with
  | none => s
  | some seg =>
    if seg.id ≠ s.current then
      let cmd := if (seg.wps.head?.map (·.number)) = some wp then seg else { seg with first := wp }
      { s with current := seg.id, toSend := some cmd }
    else s

/-- A mission command for the own vehicle arrived (WaypointPlanManagerService.cpp:209-227, 228-248). -/
def newPlan (c : Cfg) (s : State) (ws : List Wp) : State :=
  let q := initializePlan c s ws
  if q.2 then
    match ws with
    | [] => q.1
    | w :: _ => currentSegment q.1 w.number
  else q.1

/-- WaypointPlanManagerService.cpp 173-275, 530-538: messages received, and the expiration
of the periodic timer. -/
inductive In where
  /-- `AirVehicleState`: vehicle and its current waypoint. -/
  | airState (vehicle wp : Int)
  /-- `AutomationResponse`: mission commands (vehicle, waypoints). -/
  | automation (missions : List (Int × List Wp))
  /-- `MissionCommand`. -/
  | mission (vehicle : Int) (ws : List Wp)
  | tick
  /-- Some other component draws a unique id. -/
  | idDrawn
deriving Repr, DecidableEq

/-- `processReceivedLmcpMessage` (WaypointPlanManagerService.cpp:173-275) and `OnSendNewMissionTimer` (WaypointPlanManagerService.cpp:530-538). -/
def step (c : Cfg) (s : State) : In → State × Option Seg
  | .airState v wp => (if v = c.vehicle then currentSegment s wp else s, none)
  | .automation ms =>
    (match ms.find? (fun m => m.1 == c.vehicle) with
     | none => s
     | some m => newPlan c s m.2, none)
  | .mission v ws => (if v = c.vehicle then newPlan c s ws else s, none)
  | .tick => ({ s with toSend := none }, s.toSend)
  | .idDrawn => ({ s with next := s.next + 1 }, none)

/-- Not in the code: a history: final state and the mission commands sent. -/
abbrev run (c : Cfg) (h : List In) : State × List (Option Seg) := runM (step c) {} h

end Verif.Waypoint
