import Mathlib.Analysis.SpecialFunctions.Trigonometric.Basic
import Verif.Common

/-!
# The routes of area searches

`CmasiAreaSearchTaskService` and `AngledAreaSearchTaskService` fly an area to and
fro in parallel lanes.  When the footprint of the sensor is known, the service
lays the lanes across the area, cuts each with the boundary and asks the route
planner for the cost of the legs and of the turns between them.

Simplified throughout: real arithmetic in place of doubles, π in place of the
constant 3.14159265359, positions in metres north and east (the conversion to and
from latitude and longitude is that of C126 and is left out here).
-/

namespace Verif.Search

/-- src/cpp/Plans/Position.h 273-277: the horizontal coordinates of a `CPosition`. -/
@[ext] structure Pos where
  n : ℝ
  e : ℝ

/-- src/cpp/Plans/Position.h 252-259: `TransformPoint2D`. -/
noncomputable def turnIn (c : Pos) (h : ℝ) (p : Pos) : Pos :=
  { n := (p.n - c.n) * Real.cos h + (p.e - c.e) * Real.sin h
    e := (p.e - c.e) * Real.cos h - (p.n - c.n) * Real.sin h }

/-- src/cpp/Plans/Position.h 261-270: `ReTransformPoint2D`. -/
noncomputable def turnOut (c : Pos) (h : ℝ) (p : Pos) : Pos :=
  { n := p.n * Real.cos h - p.e * Real.sin h + c.n
    e := p.n * Real.sin h + p.e * Real.cos h + c.e }

/-- The kinds of area: CmasiAreaSearchTaskService.cpp 372-461,
AngledAreaSearchTaskService.cpp 359-458.  The rotation of a rectangle is in
degrees. -/
inductive Area
  | circle (c : Pos) (r : ℝ)
  | polygon (vs : List Pos)
  | rectangle (c : Pos) (width height rot : ℝ)
  | other

/-- Which of the two services it is; the second places its lanes by the number of
the option, AngledAreaSearchTaskService.cpp 496. -/
inductive Kind
  | cmasi
  | angled (option : ℕ)

/-- The larger extreme of a coordinate: the loops that start from the most negative
double, CmasiAreaSearchTaskService.cpp 468-497 (Angled: 465-494).  Simplified: the first point
starts the search, which comes to the same for any double. -/
noncomputable def highest (f : Pos → ℝ) : List Pos → ℝ
  | [] => 0
  | p :: ps => ps.foldl (fun m q => if m < f q then f q else m) (f p)

/-- The smaller extreme of a coordinate, the same lines. -/
noncomputable def lowest (f : Pos → ℝ) : List Pos → ℝ
  | [] => 0
  | p :: ps => ps.foldl (fun m q => if f q < m then f q else m) (f p)

/-- `std::numeric_limits<double>::min()`, the smallest positive normal double. -/
noncomputable def dblMin : ℝ := 1 / 2 ^ 1022

/-- CmasiAreaSearchTaskService.cpp 397-429 (Angled: 384-417): the point about which
a polygon is turned.  The code takes half the difference of the extremes, where
the middle would be half the sum, and starts the search for the larger extreme
from the smallest positive double. -/
noncomputable def polygonCentre (vs : List Pos) : Pos :=
  { n := (vs.foldl (fun m q => if m < q.n then q.n else m) dblMin - lowest (·.n) vs) / 2
    e := (vs.foldl (fun m q => if m < q.e then q.e else m) dblMin - lowest (·.e) vs) / 2 }

/-- The point about which the boundary is turned: CmasiAreaSearchTaskService.cpp
378, 427-429, 439-442; AngledAreaSearchTaskService.cpp 365, 415-417, 427-430. -/
noncomputable def centre : Area → Pos
  | .circle c _ => c
  | .polygon vs => polygonCentre vs
  | .rectangle c _ _ _ => c
  | .other => ⟨0, 0⟩

/-- The boundary of the area: CmasiAreaSearchTaskService.cpp 376-388 (a circle is
36 points, at steps of π/18 from the east), 402-409 and 443-454 (a rectangle, its
rotation left aside); AngledAreaSearchTaskService.cpp 363-375, 389-396 and 432-449
(a rectangle with its rotation).  Empty for any other kind of area. -/
noncomputable def boundary (k : Kind) : Area → List Pos
  | .circle c r => (List.range 36).map fun (i : ℕ) =>
      { n := r * Real.sin (i * (Real.pi / 18)) + c.n
        e := r * Real.cos (i * (Real.pi / 18)) + c.e }
  | .polygon vs => vs
  | .rectangle c width height rot =>
      match k with
      | .cmasi =>
          [⟨c.n + height / 2, c.e - width / 2⟩, ⟨c.n + height / 2, c.e + width / 2⟩,
           ⟨c.n - height / 2, c.e + width / 2⟩, ⟨c.n - height / 2, c.e - width / 2⟩]
      | .angled _ =>
          let hh := height / 2
          let hw := width / 2
          let r := rot * (Real.pi / 180)
          [⟨c.n + hh * Real.cos r - -hw * Real.sin r, c.e + hh * Real.sin r + -hw * Real.cos r⟩,
           ⟨c.n + hh * Real.cos r - hw * Real.sin r, c.e + hh * Real.sin r + hw * Real.cos r⟩,
           ⟨c.n + -hh * Real.cos r - hw * Real.sin r, c.e + -hh * Real.sin r + hw * Real.cos r⟩,
           ⟨c.n + -hh * Real.cos r - -hw * Real.sin r,
            c.e + -hh * Real.sin r + -hw * Real.cos r⟩]
  | .other => []

/-- src/cpp/Includes/Constants/Convert.h, `dNormalizeAngleRad(angle, 0)`: the angle brought into
one turn from zero.  Simplified: without the tolerance of the comparisons (C128). -/
noncomputable def wrapRad (h : ℝ) : ℝ := h - 2 * Real.pi * ⌊h / (2 * Real.pi)⌋

/-- The same in degrees: `dNormalizeAngleDeg(angle, 0)`. -/
noncomputable def wrapDeg (h : ℝ) : ℝ := h - 360 * ⌊h / 360⌋

/-- The direction of the lanes, in radians: CmasiAreaSearchTaskService.cpp 367,
AngledAreaSearchTaskService.cpp 354 and, for a rectangle, 451. -/
noncomputable def axis (k : Kind) (a : Area) (h : ℝ) : ℝ :=
  match k, a with
  | .angled _, .rectangle _ _ _ rot => rot * (Real.pi / 180)
  | _, _ => wrapRad h

/-! ### Cutting a lane with the boundary -/

/-- src/cpp/Plans/Edge.cpp 101-108: where `p` lies with respect to the line through
`u` and `v`. -/
noncomputable def lineAt (u v p : Pos) : ℝ :=
  (v.n - u.n) * p.e + (u.e - v.e) * p.n + (v.e * u.n - u.e * v.n)

/-- src/cpp/Plans/Edge.cpp 37: `SAME_SIGNS`, of numbers that are not zero. -/
def SameSigns (a b : ℝ) : Prop := (0 < a ∧ 0 < b) ∨ (a < 0 ∧ b < 0)

open Classical in
/-- src/cpp/Plans/Edge.cpp 39-160: `CEdge::bFindIntersection`: the point reported
for the segments `a b` and `c d`, if they are found to meet. -/
noncomputable def crossing (a b c d : Pos) : Option Pos :=
  let a₁ := b.n - a.n
  let b₁ := a.e - b.e
  let c₁ := b.e * a.n - a.e * b.n
  let a₂ := d.n - c.n
  let b₂ := c.e - d.e
  let c₂ := d.e * c.n - c.e * d.n
  let den := a₁ * b₂ - a₂ * b₁
  let offset := if den < 0 then -den / 2 else den / 2
  let numX := b₁ * c₂ - b₂ * c₁
  let numY := a₂ * c₁ - a₁ * c₂
  if SameSigns (lineAt a b c) (lineAt a b d) then none
  else if SameSigns (lineAt c d a) (lineAt c d b) then none
  else if den = 0 then none
  else some
    { e := (if numX < 0 then numX - offset else numX + offset) / den
      n := (if numY < 0 then numY - offset else numY + offset) / den }

/-- The edges of a path from `a` through the given points. -/
def path (a : Pos) : List Pos → List (Pos × Pos)
  | [] => []
  | b :: ps => (a, b) :: path b ps

/-- src/cpp/Plans/Polygon.h 439-452: the edges of a polygon, the last going back to
the first corner. -/
def ring : List Pos → List (Pos × Pos)
  | [] => []
  | v :: vs => path v (vs ++ [v])

/-- src/cpp/Plans/Polygon.h 610-620 with Edge.cpp 163-187: `findIntersections`. -/
noncomputable def hits (corners : List Pos) (c d : Pos) : List Pos :=
  (ring corners).filterMap fun g => crossing g.1 g.2 c d

/-! ### The lanes -/

/-- A leg of the search: where it starts and stops, and whether it goes up, which is
along the axis, or down. -/
structure Leg where
  start : Pos
  stop : Pos
  up : Bool

/-- CmasiAreaSearchTaskService.cpp 528-559, AngledAreaSearchTaskService.cpp 550-581:
the leg through the first and last of the points where a lane meets the boundary,
moved so that the sensor is over the boundary at either end. -/
noncomputable def leg (first last : Pos) (up : Bool) (lead trail : ℝ) : Leg :=
  let north := if first.n < last.n then last else first
  let south := if first.n < last.n then first else last
  if up then
    { start := ⟨south.n - lead, south.e⟩, stop := ⟨north.n - trail, north.e⟩, up := true }
  else
    { start := ⟨north.n + lead, north.e⟩, stop := ⟨south.n + trail, south.e⟩, up := false }

/-- CmasiAreaSearchTaskService.cpp 521-629, AngledAreaSearchTaskService.cpp 543-676:
the loop over the lanes, in the turned frame: the legs found and whether no lane
failed.  The first number bounds the rounds; `none` when it does not suffice
(see `C138_ends`).  The first service steps by `over > 0` only. -/
noncomputable def scan (corners : List Pos) (lo hi south north over lead trail : ℝ) :
    ℕ → ℝ → Bool → Option (List Leg × Bool)
  | 0, _, _ => none
  | k + 1, x, up =>
      if (0 < over ∧ x < hi) ∨ (¬ 0 < over ∧ lo < x) then
        match hits corners ⟨south, x⟩ ⟨north, x⟩ with
        | p :: q :: ps =>
            match scan corners lo hi south north over lead trail k (x + over) !up with
            | some (legs, good) =>
                some (leg p ((q :: ps).getLast (by simp)) up lead trail :: legs, good)
            | none => none
        | _ => some ([], false)
      else some ([], true)

/-- Where the first lane is: CmasiAreaSearchTaskService.cpp 501-506;
AngledAreaSearchTaskService.cpp 505-513 and 529-532. -/
noncomputable def firstLane (k : Kind) (lo hi s : ℝ) : ℝ :=
  match k with
  | .cmasi => if (hi - lo) / 2 < s then lo + (hi - lo) / 2 else lo + s / 2
  | .angled o =>
      if (hi - lo) * 1.1 < s then lo + (hi - lo) / 2
      else if o % 4 = 1 ∨ o % 4 = 3 then lo + s / 2
      else hi - s / 2

/-- The step from a lane to the next: CmasiAreaSearchTaskService.cpp 621;
AngledAreaSearchTaskService.cpp 498 and 512. -/
noncomputable def laneOver (k : Kind) (s : ℝ) : ℝ :=
  match k with
  | .cmasi => s
  | .angled o => if o % 4 = 1 ∨ o % 4 = 3 then s else -s

/-- Whether the first leg goes up: CmasiAreaSearchTaskService.cpp 520;
AngledAreaSearchTaskService.cpp 499 and 515-519. -/
def firstUp : Kind → Bool
  | .cmasi => true
  | .angled o => !(o % 4 = 3 ∨ o % 4 = 0)

/-- src/cpp: CmasiAreaSearchTaskService.cpp 360-640 and
AngledAreaSearchTaskService.cpp 347-685, `isCalculateRasterScanRoute`: the legs of
the search in metres north and east, and what the function returns.  A boundary
without corners is undefined behaviour (Polygon.h 442 and 475-476).  The loop over
the lanes is given as many rounds as it needs; one that needed more would be given
the outcome `ub`. -/
noncomputable def plan (k : Kind) (a : Area) (h s lead trail : ℝ) : Outcome (List Leg × Bool) :=
  match a with
  | .other => .ok ([], false)
  | _ =>
    let c := centre a
    let ax := axis k a h
    let corners := (boundary k a).map (turnIn c ax)
    if corners = [] then .ub
    else
      let lo := lowest (·.e) corners
      let hi := highest (·.e) corners
      match scan corners lo hi (lowest (·.n) corners - 100000) (highest (·.n) corners + 100000)
          (laneOver k s) lead trail (⌈(hi - lo) / s⌉₊ + 1) (firstLane k lo hi s) (firstUp k) with
      | some (legs, good) =>
          .ok (legs.map fun l => { l with start := turnOut c ax l.start
                                          stop := turnOut c ax l.stop }, good)
      | none => .ub

/-! ### The route requests -/

/-- The parts of a `RouteConstraints` that the services set.  Positions in metres. -/
structure Route where
  id : ℤ
  start : Pos
  stop : Pos
  alt : ℝ
  startHeading : ℝ
  stopHeading : ℝ
  useStart : Bool := true
  useStop : Bool := true

/-- The heading of a leg in degrees: CmasiAreaSearchTaskService.cpp 508-509;
AngledAreaSearchTaskService.cpp 501-502. -/
noncomputable def heading (ax : ℝ) (up : Bool) : ℝ :=
  let u := ax * (180 / Real.pi)
  if up then u else wrapDeg (u + 180)

/-- The routes of a leg after the first: a turn from the end of the leg before, then
the leg.  CmasiAreaSearchTaskService.cpp 586-618;
AngledAreaSearchTaskService.cpp 632-666, where the headings of the leg need not be
kept. -/
noncomputable def routesFrom (k : Kind) (ax alt : ℝ) : Leg → ℤ → List Leg → List Route
  | _, _, [] => []
  | prev, id, l :: ls =>
      let keep := match k with | .cmasi => true | .angled _ => false
      { id := id, start := prev.stop, stop := l.start, alt := alt
        startHeading := heading ax prev.up, stopHeading := heading ax l.up } ::
      { id := id + 1, start := l.start, stop := l.stop, alt := alt
        startHeading := heading ax l.up, stopHeading := heading ax l.up
        useStart := keep, useStop := keep } ::
      routesFrom k ax alt l (id + 2) ls

/-- `TaskOptionClass::m_firstImplementationRouteId`, src/cpp/Tasks/TaskServiceBase.cpp 53. -/
def firstRouteId : ℤ := 2

/-- All the routes asked for; the first leg has no turn before it. -/
noncomputable def routes (k : Kind) (ax alt : ℝ) : List Leg → List Route
  | [] => []
  | l :: ls =>
      { id := firstRouteId, start := l.start, stop := l.stop, alt := alt
        startHeading := heading ax l.up, stopHeading := heading ax l.up } ::
      routesFrom k ax alt l (firstRouteId + 1) ls

/-- The distance between lanes for a footprint of the given width:
CmasiAreaSearchTaskService.cpp 162; AngledAreaSearchTaskService.cpp 194-207, with the
configured limits, -1 when not configured. -/
noncomputable def spacing (k : Kind) (least most : ℤ) (width : ℝ) : ℝ :=
  match k with
  | .cmasi => width * 0.9
  | .angled _ =>
      let s := width * 0.9
      if 0 < most ∧ 0 < least ∧ least < most then
        if (most : ℝ) < s then most else if s < least then least else s
      else s

/-- What comes of a footprint for an option: CmasiAreaSearchTaskService.cpp 162-184;
AngledAreaSearchTaskService.cpp 192-240. -/
structure Reply where
  /-- the routes of the `RoutePlanRequest` that is broadcast, if one is -/
  request : Option (List Route)
  /-- whether a `ServiceStatus` with an error is broadcast -/
  warned : Bool
  /-- the start of the option: position and heading, when they are set -/
  start : Option (Pos × ℝ)
  /-- the end of the option: position and heading, when they are set -/
  stop : Option (Pos × ℝ)
  /-- the ids put in the set of route ids awaited, `m_pendingRouteIds` -/
  pending : List ℤ

/-- CmasiAreaSearchTaskService.cpp 162-184; AngledAreaSearchTaskService.cpp 192-240:
the part of `processReceivedLmcpMessageTask` for one footprint and one option.  The
result of `isCalculateRasterScanRoute` is not looked at. -/
noncomputable def onFootprint (k : Kind) (least most : ℤ) (a : Area) (h alt width lead trail : ℝ) :
    Outcome Reply :=
  let s := spacing k least most width
  if 0.01 < s then
    (plan k a h s lead trail).bind fun r =>
      let rs := routes k (axis k a h) alt r.1
      .ok { request := some rs
            warned := false
            start := rs.head?.map fun r => (r.start, r.startHeading)
            stop := rs.getLast?.map fun r => (r.stop, r.stopHeading)
            pending := rs.map (·.id) }
  else
    .ok { request := none
          warned := match k with | .cmasi => false | .angled _ => true
          start := none, stop := none, pending := [] }

end Verif.Search
