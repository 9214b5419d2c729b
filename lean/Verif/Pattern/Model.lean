import Mathlib.Analysis.SpecialFunctions.Complex.Arg
import Verif.Search.Model

/-!
# The routes of pattern searches

`PatternSearchTaskService` searches a disc about a point, in straight legs through
the point (sector) or in a spiral.  The third pattern (sweep) and patterns that are not known
give no route at all.

Simplified throughout: real arithmetic in place of doubles, π in place of the
constant 3.14159265359, positions in metres north and east of the origin of the flat
earth (the conversion is that of C126).  Loops get a number of rounds; `none` when they do
not suffice.
-/

namespace Verif.Pattern

open Verif.Search

/-- src/cpp/Plans/Position.h 128-134: `relativeAngle2D_rad`: the angle, from the east, under which `p` is seen from `v`. -/
noncomputable def angleAt (p v : Pos) : ℝ := wrapRad (Complex.arg ⟨p.e - v.e, p.n - v.n⟩)

/-- PatternSearchTaskService.h 160-168, `s_SearchLeg`: a leg with its heading in degrees. -/
structure Line where
  start : Pos
  stop : Pos
  heading : ℝ

/-- PatternSearchTaskService.cpp 611-638: the leg at the angle `θ`. -/
noncomputable def sectorLeg (c : Pos) (E lead trail θ : ℝ) (up : Bool) : Line :=
  let r₁ := E + (if up then lead else -trail)
  let r₂ := E - (if up then trail else -lead)
  let p₁ : Pos := ⟨c.n - r₁ * Real.sin θ, c.e - r₁ * Real.cos θ⟩
  let p₂ : Pos := ⟨c.n + r₂ * Real.sin θ, c.e + r₂ * Real.cos θ⟩
  if up then ⟨p₁, p₂, wrapDeg ((Real.pi + Real.pi / 2 - angleAt p₁ p₂) * (180 / Real.pi))⟩
  else ⟨p₂, p₁, wrapDeg ((Real.pi + Real.pi / 2 - angleAt p₂ p₁) * (180 / Real.pi))⟩

/-- PatternSearchTaskService.cpp 606-642: the loop over the legs. -/
noncomputable def sectorFrom (c : Pos) (E lead trail step stop : ℝ) : ℕ → ℝ → Bool → Option (List Line)
  | 0, _, _ => none
  | k + 1, θ, up =>
      if θ < stop then (sectorFrom c E lead trail step stop k (θ + step) !up).map (sectorLeg c E lead trail θ up :: ·)
      else some []

/-- PatternSearchTaskService.cpp 594-642: the legs of a sector search of the disc of radius `E` about `c`, with lanes `s`
apart.  For `E = 0` the step is infinite and the loop is not entered. -/
noncomputable def sector (rounds : ℕ) (c : Pos) (E s lead trail : ℝ) : Option (List Line) :=
  if E = 0 then some []
  else sectorFrom c E lead trail (s / E) (Real.pi - s / E / 2) rounds 0 true

/-- PatternSearchTaskService.cpp 672-703: the routes of a leg after the first: the way to it, then the leg. -/
def lineRoutesFrom (alt : ℝ) : Line → ℤ → List Line → List Route
  | _, _, [] => []
  | prev, id, l :: ls =>
      { id := id, start := prev.stop, stop := l.start, alt := alt
        startHeading := prev.heading, stopHeading := l.heading } ::
      { id := id + 1, start := l.start, stop := l.stop, alt := alt
        startHeading := l.heading, stopHeading := l.heading } ::
      lineRoutesFrom alt l (id + 2) ls

/-- PatternSearchTaskService.cpp 644-703: all the routes asked for. -/
def lineRoutes (alt : ℝ) : List Line → List Route
  | [] => []
  | l :: ls =>
      { id := firstRouteId, start := l.start, stop := l.stop, alt := alt
        startHeading := l.heading, stopHeading := l.heading } ::
      lineRoutesFrom alt l (firstRouteId + 1) ls

/-- PatternSearchTaskService.cpp 222-242 for the sector pattern: what comes of a footprint for an option.  A request is
broadcast unless there are no routes.  `none` when the rounds do not suffice. -/
noncomputable def onSector (rounds : ℕ) (c : Pos) (E alt width lead trail : ℝ) : Option Reply :=
  if 0.01 < width * 0.9 then
    (sector rounds c E (width * 0.9) lead trail).map fun legs =>
      let rs := lineRoutes alt legs
      { request := if rs = [] then none else some rs
        warned := false
        start := rs.head?.map fun r => (r.start, r.startHeading)
        stop := rs.getLast?.map fun r => (r.stop, r.stopHeading)
        pending := rs.map (·.id) }
  else some { request := none, warned := false, start := none, stop := none, pending := [] }

/-! ### The spiral -/

/-- A point for the sensor to look at and the waypoint that goes with it. -/
structure Turn where
  road : Pos
  vehicle : Pos

/-- PatternSearchTaskService.h 173: `m_waypointSpacing_m`. -/
def waypointSpacing : ℝ := 50

/-- PatternSearchTaskService.cpp 492-496: the radius at the angle `θ`; that of the first point is fixed. -/
noncomputable def spiralRadius (s θ : ℝ) (first : Bool) : ℝ :=
  if first then 50 else 0.45 * s * (1 + θ / Real.pi)

/-- The point at a radius and an angle: PatternSearchTaskService.cpp 497-498, 512-513 (the starting heading is 0). -/
noncomputable def polar (c : Pos) (r θ : ℝ) : Pos := ⟨r * Real.sin θ + c.n, r * Real.cos θ + c.e⟩

/-- PatternSearchTaskService.cpp 502-506: the vehicle stays out of the centre. -/
noncomputable def vehicleRadius (centre r : ℝ) : ℝ := if r < centre then centre else r

/-- PatternSearchTaskService.cpp 490-560: the loop.  `radius` is that of the point before. -/
noncomputable def spiralFrom (c : Pos) (s bound centre : ℝ) : ℕ → (θ radius : ℝ) → Bool → Option (List Turn)
  | 0, _, _, _ => none
  | k + 1, θ, radius, first =>
      if radius ≤ bound then
        let r := spiralRadius s θ first
        (spiralFrom c s bound centre k (if 0 < r then θ + waypointSpacing / r else θ) r false).map
          ({ road := polar c r θ, vehicle := polar c (vehicleRadius centre r) θ } :: ·)
      else some []

/-- PatternSearchTaskService.cpp 488-560. -/
noncomputable def spiral (rounds : ℕ) (c : Pos) (E s centre : ℝ) : Option (List Turn) :=
  spiralFrom c s (E + 0.55 * s) centre rounds 0 0 true

/-- The distance of two positions, as in PatternSearchTaskService.cpp 550. -/
noncomputable def apart (p q : Pos) : ℝ := √((q.n - p.n) ^ 2 + (q.e - p.e) ^ 2)

/-- PatternSearchTaskService.cpp 514-515, 550, 557-558: the length summed up, from the point before. -/
noncomputable def summed : Pos → List Pos → ℝ
  | _, [] => 0
  | p, q :: qs => apart p q + summed q qs

/-- What a spiral search leaves in the option and its route: the waypoints, the points to look at, start and end of the
option, and the cost in ms. -/
structure SpiralPlan where
  waypoints : List Pos
  look : List Pos
  start : Pos
  startHeading : ℝ
  stop : Pos
  stopHeading : ℝ
  cost : ℤ

/-- The last two of the positions the loop went through, the origin before the first. -/
def lastTwo : Pos → Pos → List Pos → Pos × Pos
  | p, q, [] => (p, q)
  | _, q, x :: xs => lastTwo q x xs

/-- PatternSearchTaskService.cpp 429-592, `isCalculatePatternScanRoute_Spiral`.  Without waypoints the end of the option is
read from an empty vector (line 569), undefined behaviour.  The segments for the sensor steering are in
`Verif.Stare.spiralSegs`.  Simplified: the cost is not too large for an `int64_t`. -/
noncomputable def spiralPlan (rounds : ℕ) (c : Pos) (E s centre speed : ℝ) : Option (Outcome SpiralPlan) :=
  (spiral rounds c E s centre).map fun turns =>
    match turns.map (·.vehicle) with
    | [] => .ub
    | v :: vs =>
        let (p, q) := lastTwo ⟨0, 0⟩ v vs
        .ok { waypoints := v :: vs
              look := turns.map (·.road)
              start := v
              startHeading := 0
              stop := q
              stopHeading := Complex.arg ⟨q.n - p.n, q.e - p.e⟩ * (180 / Real.pi)
              cost := ⌊(if 0 < speed then summed ⟨0, 0⟩ (v :: vs) / speed else 0) * 1000⌋ }

end Verif.Pattern
