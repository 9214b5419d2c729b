import Verif.Common
import Mathlib.Analysis.SpecialFunctions.Complex.Arg
import Mathlib.Analysis.SpecialFunctions.Trigonometric.Inverse

/-!
# Routes of turns and straight lines (C171-C173)

`src/cpp/Plans/Trajectory.cpp`: what `CVisibilityGraph::isGenerateWaypoints` (`VisibilityGraph.cpp` 1212-1262) gives for a path without
corners, as `RoutePlannerVisibilityService` asks for it (`RoutePlannerVisibilityService.cpp` 546-566): no wind, no standoff, one
heading at the end, no lengthening.

Simplifications: a place is a complex number, east plus `i` times north, in metres; numbers are real and `dPi()` is π; altitudes,
speeds, times, ids and the flags of the waypoints are left out, as is the circle that a waypoint is stored with.
-/

namespace Verif.Dubins

open Complex

/-- `CCircle::enTurnDirection_t` (`Circle.h` 53-59); `turnNone` is not used here. -/
inductive Dir | cw | ccw
deriving DecidableEq

/-- `turnClockwise = -1`, `turnCounterclockwise = 1`. -/
def Dir.sign : Dir → ℝ
  | .cw => -1
  | .ccw => 1

/-- The other direction (`Trajectory.cpp` 1520). -/
def Dir.other : Dir → Dir
  | .cw => .ccw
  | .ccw => .cw

/-- `CCircle`. -/
@[ext] structure Circle where
  c : ℂ
  r : ℝ
  dir : Dir

/-- A waypoint: its place and `dGetSegmentLength()`. -/
@[ext] structure Way where
  pos : ℂ
  seg : ℝ

/-- Conversion to an integer, towards zero. -/
noncomputable def trunc (x : ℝ) : ℤ := if 0 ≤ x then ⌊x⌋ else ⌈x⌉

/-- A double to an `int`; undefined outside of its range. -/
noncomputable def toInt (x : ℝ) : Outcome ℤ :=
  if -2147483648 ≤ trunc x ∧ trunc x ≤ 2147483647 then .ok (trunc x) else .ub

/-- `Convert.h` 279-283: `iRound`. -/
noncomputable def iRound (x : ℝ) : Outcome ℤ := toInt (x + 1 / 2)

/-- `Convert.h` 229-243: `dNormalizeAngleRad` with reference 0. -/
noncomputable def normal (x : ℝ) : ℝ :=
  let m := x - 2 * Real.pi * trunc (x / (2 * Real.pi))
  if m < 0 then m + 2 * Real.pi
  else if 2 * Real.pi - 1e-9 ≤ m then m - 2 * Real.pi
  else m

/-- `Position.h` 128-134: the angle of a vector, from east to north. -/
noncomputable def bearing (v : ℂ) : ℝ := normal (arg v)

/-- `Trajectory.cpp` 1564-1643: `AddWaypointsForTurn`, for a radius above 0. -/
noncomputable def turnWays (s e : ℂ) (len : ℝ) (c : ℂ) (r : ℝ) (dir : Dir) (sep : ℝ) : Outcome (List Way) :=
  (if sep < len ∧ sep / r ≠ 0 then toInt (len / r / (sep / r)) else .ok 0).bind fun n =>
    let k := n.toNat - 1
    let a := bearing (s - c)
    .ok ((List.range k).map (fun j : ℕ => ⟨c + r * exp ((a + (j + 1) * (sep / r * dir.sign) : ℝ) * I), sep⟩) ++
      [⟨e, if len < k * sep then 0 else len - k * sep⟩])

/-- `Assignment.h` 184-197: `dGetDistanceTotal`, after the first waypoint. -/
noncomputable def totalFrom : ℂ → List Way → ℝ
  | _, [] => 0
  | p, w :: ws => (if 0 < w.seg then w.seg else ‖w.pos - p‖) + totalFrom w.pos ws

/-- `Assignment.h` 180-206: `dGetDistanceTotal`. -/
noncomputable def total : List Way → ℝ
  | [] => 0
  | w :: ws => (if 0 < w.seg then w.seg else 0) + totalFrom w.pos ws

/-- How a path goes: the end of its first turn, the beginning of its last one, and the lengths of its three parts. -/
structure Shape where
  t1 : ℂ
  t2 : ℂ
  l1 : ℝ
  l2 : ℝ
  l3 : ℝ

/-- `Trajectory.cpp` 1267-1277: the angle at which a turn begins or ends, or that of the place itself if it is within 0.005. -/
noncomputable def snap (star a : ℝ) : ℝ :=
  if |star - a| < 0.005 ∨ |(|star - a| - 2 * Real.pi)| < 0.005 then a else star

/-- `Trajectory.cpp` 1283-1308 and 1314-1338: the angle of a turn. -/
noncomputable def sweep (dir : Dir) (a b : ℝ) : ℝ :=
  match dir with
  | .cw => if b ≤ a then a - b else a + (2 * Real.pi - b)
  | .ccw => if a ≤ b then b - a else (2 * Real.pi - a) + b

/-- `Trajectory.cpp` 1205-1263: where the straight line leaves the first circle and reaches the second, in the frame of their
centres, and the angles there.  `d` is the rounded distance of the centres. -/
noncomputable def tangents (r : ℝ) (d1 d2 : Dir) (d : ℝ) : ℂ × ℂ × ℝ × ℝ :=
  if d1 = d2 then
    match d2 with
    | .ccw => (-(r * I), d - r * I, 1.5 * Real.pi, 1.5 * Real.pi)
    | .cw => (r * I, d + r * I, 0.5 * Real.pi, 0.5 * Real.pi)
  else
    let a0 := if 2 * r / d < 1 then normal (Real.arccos (2 * r / d)) else 0
    let n := r * Real.sin a0
    let e := r * Real.cos a0
    match d2 with
    | .ccw => (e + n * I, ((d - e : ℝ) : ℂ) - n * I, a0, normal (a0 + Real.pi))
    | .cw =>
        let a := normal (2 * Real.pi - a0)
        (e - n * I, ((d - e : ℝ) : ℂ) + n * I, a, normal (a + Real.pi))

/-- `Trajectory.cpp` 1164-1348: the path from `b` over the first circle and the second one to `e`, for the rounded distance `d` of the
centres.  The first circle becomes the second one when they are at one place (1168-1173): it is handed over by reference, so it
stays so.  `least` is the rounded sum of the radii (1186-1194). -/
noncomputable def cscShape (b e : ℂ) (c1 c2 : Circle) (d least : ℤ) : Circle × Option Shape :=
  let c1' := if |(d : ℝ)| ≤ 0.01 then c2 else c1
  let rot : ℂ := if |(d : ℝ)| ≤ 0.01 then 1 else exp (bearing (c2.c - c1.c) * I)
  if d < least ∧ c1'.dir ≠ c2.dir then (c1', none)
  else
    let al := bearing ((b - c1'.c) / rot)
    let be := bearing ((e - c1'.c) / rot - (c2.c - c1'.c) / rot)
    let (p1, p2, as0, bs0) := tangents c1'.r c1'.dir c2.dir d
    (c1', some
      { t1 := p1 * rot + c1'.c
        t2 := p2 * rot + c1'.c
        l1 := sweep c1'.dir al (snap as0 al) * c1'.r
        l2 := ‖p2 - p1‖
        l3 := sweep c2.dir (snap bs0 be) be * c2.r })

/-- `Trajectory.cpp` 1353-1426: the waypoints of such a path. -/
noncomputable def cscWays (b e : ℂ) (c1 c2 : Circle) (s : Shape) (sep : ℝ) : Outcome (List Way) :=
  (if 1 ≤ s.l1 then turnWays b s.t1 s.l1 c1.c c1.r c1.dir sep else .ok []).bind fun w1 =>
  (if 1 ≤ s.l3 then turnWays s.t2 e s.l3 c2.c c2.r c2.dir sep else .ok []).bind fun w3 =>
  .ok (w1 ++ ⟨s.t2, s.l2⟩ :: w3)

/-- `Trajectory.cpp` 1154-1431: `szMinimumDistanceCircle`. -/
noncomputable def csc (b e : ℂ) (sep : ℝ) (c1 c2 : Circle) : Outcome (Circle × Option (List Way)) :=
  (iRound ‖c2.c - c1.c‖).bind fun d =>
  (iRound (c1.r + c2.r)).bind fun least =>
  match cscShape b e c1 c2 d least with
  | (c1', none) => .ok (c1', none)
  | (c1', some s) => (cscWays b e c1' c2 s sep).bind fun ws => .ok (c1', some ws)

/-- `Trajectory.cpp` 1434-1560: `szMinimumDistanceTurnTurnTurn`: the path of three turns.  With centres more than four radii apart
`acos` is not a number, and so is the length; nothing is less than that. -/
noncomputable def cccShape (b e : ℂ) (c1 c2 : Circle) : Circle × ℂ × Shape :=
  let r := c1.r
  let g := Real.arccos (‖c1.c - c2.c‖ / (4 * r))
  let c1' := if ‖c2.c - c1.c‖ ≤ 0.01 then c2 else c1
  let rot : ℂ := if ‖c2.c - c1.c‖ ≤ 0.01 then 1 else exp (bearing (c2.c - c1.c) * I)
  let al := bearing ((b - c1'.c) / rot)
  let p := (c2.c - c1'.c) / rot
  let be := bearing ((e - c1'.c) / rot - p)
  let up (z : ℂ) : ℂ := if c1'.dir = .cw then (starRingEnd ℂ) z else z
  let t1 := up (r * exp (g * I))
  let t2 := up (r * (-exp (-(g * I))) + p)
  let m := up (2 * r * exp (g * I))
  (c1', m * rot + c1'.c,
    { t1 := t1 * rot + c1'.c
      t2 := t2 * rot + c1'.c
      l1 := match c1'.dir with
        | .ccw => if al ≤ g then (g - al) * r else (2 * Real.pi + g - al) * r
        | .cw => if al ≤ 2 * Real.pi - g then (g + al) * r else (g + al - 2 * Real.pi) * r
      l2 := (Real.pi + 2 * g) * r
      l3 := match c1'.dir with
        | .ccw => if be ≤ Real.pi - g then (Real.pi + be + g) * r else (be + g - Real.pi) * r
        | .cw => if be ≤ Real.pi + g then (Real.pi + g - be) * r else (3 * Real.pi + g - be) * r })

/-- `Trajectory.cpp` 1528-1556: its waypoints. -/
noncomputable def ccc (b e : ℂ) (sep : ℝ) (c1 c2 : Circle) : Outcome (Circle × Option (List Way)) :=
  if 4 * c1.r < ‖c1.c - c2.c‖ then .ok (c1, none)
  else
    let (c1', m, s) := cccShape b e c1 c2
    (turnWays b s.t1 s.l1 c1'.c c1'.r c1'.dir sep).bind fun w1 =>
    (turnWays s.t1 s.t2 s.l2 m c1.r c1'.dir.other sep).bind fun w2 =>
    (turnWays s.t2 e s.l3 c2.c c1.r c2.dir sep).bind fun w3 =>
    .ok (c1', some (w1 ++ w2 ++ w3))

/-- The shorter of the best so far and a new one (1109-1114 and 1138-1143). -/
noncomputable def better (best : Option (List Way)) (new : Option (List Way)) : Option (List Way) :=
  match best, new with
  | best, none => best
  | none, some w => some w
  | some v, some w => if total w < total v then some w else some v

/-- `Trajectory.cpp` 1117-1128: whether a path of three turns is tried. -/
def threeTurns (b e : ℂ) (c1 c2 : Circle) : Prop :=
  c1.dir = c2.dir ∧ ‖c1.c - c2.c‖ ≤ 4 * c1.r + 1e-9 ∧ (‖e - b - c1.r‖ < 3 * c1.r ∨ ‖e - b + c1.r‖ < 3 * c1.r)

open Classical in
/-- `Trajectory.cpp` 1094-1146: one pair of circles.  The condition in lines 1096-1098 ends in a comma and `1.0e-8`, so it is always true. -/
noncomputable def pair (b e : ℂ) (sep : ℝ) (st : Circle × Option (List Way)) (c2 : Circle) : Outcome (Circle × Option (List Way)) :=
  (csc b e sep st.1 c2).bind fun x =>
  let best := better st.2 x.2
  if threeTurns b e x.1 c2 then (ccc b e sep x.1 c2).bind fun y => .ok (y.1, better best y.2)
  else .ok (x.1, best)

/-- The direction of a heading, clockwise from north. -/
noncomputable def toward (h : ℝ) : ℂ := exp (((Real.pi / 2 - h : ℝ) : ℂ) * I)

/-- `Trajectory.cpp` 1068-1087: the circles beside a place, the clockwise one first. -/
noncomputable def beside (p : ℂ) (h r : ℝ) (dir : Dir) : Circle := ⟨p + dir.sign * r * I * toward h, r, dir⟩

/-- `Trajectory.cpp` 1052-1149: `dCalculateTrajectoryDubins`. -/
noncomputable def dubins (b : ℂ) (hb : ℝ) (e : ℂ) (he r sep : ℝ) : Outcome (Option (List Way)) :=
  (pair b e sep (beside b hb r .cw, none) (beside e he r .cw)).bind fun x =>
  (pair b e sep x (beside e he r .ccw)).bind fun x =>
  (pair b e sep (beside b hb r .ccw, x.2) (beside e he r .cw)).bind fun x =>
  (pair b e sep x (beside e he r .ccw)).bind fun x => .ok x.2

/-- `VisibilityGraph.cpp` 1317-1355, `Trajectory.cpp` 31-68, 71-118, 121-247: the places of the waypoints of a path without corners.
`straight` is whether neither heading is to be used. -/
noncomputable def direct (straight : Bool) (b : ℂ) (hb : ℝ) (e : ℂ) (he r sep : ℝ) : Outcome (List ℂ) :=
  if straight = true ∨ r < 1 then .ok [b, e]
  else (dubins b hb e he r sep).bind fun w => .ok ((w.getD []).map (·.pos))

end Verif.Dubins
