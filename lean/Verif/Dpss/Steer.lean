import Verif.Dpss.Offset

/-!
# Which point of the road a searching vehicle looks at

`SetObjective`, `CalculateWpToRdIndexMap`, `BuildConversionMappings`, `CalculateStarePoint` and
`CorrespondingNormalizedRoadLocation` for points of the plane (src/cpp/DPSS/Dpss.cpp 167-199, SensorSteering2.cpp,
CoordinateConversions.cpp), for plans in one direction, as `CmasiLineSearchTaskService` makes them (line 303).

Simplified: altitudes, which are treated as the coordinates are, and the files written for debugging are left out.
-/

namespace Verif.Dpss

open Complex
open Verif.Escort (closestPoint distTo)

/-- SensorSteering2.cpp 215-230: the place for a new point of the road at the distance `t`; `n` is the place of the first
point of the list, `c` the distance of the point `p` before it. -/
noncomputable def placeFrom (t : ℝ) : ℕ → ℝ → ℂ → List ℂ → Option (ℕ × ℂ)
  | _, _, _, [] => none
  | n, c, p, q :: l =>
      if t ≤ c + ‖q - p‖ then some (n, if 1e-6 < ‖q - p‖ then p + (q - p) * (((t - c) / ‖q - p‖ : ℝ) : ℂ) else p)
      else placeFrom t (n + 1) (c + ‖q - p‖) q l

/-- SensorSteering2.cpp 208-236. -/
noncomputable def place (t : ℝ) : List ℂ → ℕ × ℂ
  | [] => (0, 0)
  | r :: road => (placeFrom t 1 0 r road).getD (road.length, (r :: road).getLast (by simp))

/-- SensorSteering2.cpp 206-241: a new point of the road for each distance in turn; the places and the road. -/
noncomputable def insertAll : List ℝ → List ℂ → List ℕ × List ℂ
  | [], road => ([], road)
  | t :: ts, road =>
      let r := insertAll ts (road.insertIdx (place t road).1 (place t road).2)
      ((place t road).1 :: r.1, r.2)

/-- SensorSteering2.cpp 146-155 and 212: the distances along the road for the waypoints but the first and the last; `c` is the
length covered to the waypoint `p`. -/
noncomputable def targets (total roadLength : ℝ) : ℝ → ℂ → List ℂ → List ℝ
  | c, p, q :: x :: l => ((c + ‖q - p‖) / total * roadLength) :: targets total roadLength (c + ‖q - p‖) q (x :: l)
  | _, _, _ => []

/-- SensorSteering2.cpp 174-180: `m_TrueRoadLengths` after the first entry. -/
noncomputable def lengthsFrom (roadLength : ℝ) : ℝ → ℂ → List ℂ → List ℝ
  | c, p, q :: x :: l => (c + ‖q - p‖ / roadLength) :: lengthsFrom roadLength (c + ‖q - p‖ / roadLength) q (x :: l)
  | _, _, _ => [1]

/-- SensorSteering2.cpp 174-181: `m_TrueRoadLengths`. -/
noncomputable def lengths (roadLength : ℝ) : List ℂ → List ℝ
  | [] => [0, 1]
  | p :: l => 0 :: lengthsFrom roadLength 0 p l

/-- What `SetObjective` leaves behind. -/
structure Objective where
  /-- `m_TrueWaypoints`. -/
  plan : List ℂ
  /-- `m_TrueRoad`, with the points that were added. -/
  road : List ℂ
  /-- `m_RdIDList`. -/
  ids : List ℕ
  /-- `m_TrueRoadLengths`. -/
  norm : List ℝ

/-- Dpss.cpp 167-199 and SensorSteering2.cpp 88-242 for plans in one direction, for which `m_ReturnPlanWpIndex` is the number of
waypoints (110).  `none`: there is no road or no plan, and nothing is set (170-171), or one of them has no length and quotients 0 / 0
are formed, which is not followed further. -/
noncomputable def setObjective (road plan : List ℂ) : Option Objective :=
  match road, plan with
  | r :: road, p :: plan =>
      if lengthOf (r :: road) = 0 ∨ lengthOf (p :: plan) = 0 then none
      else
        let m := insertAll (targets (lengthOf (p :: plan)) (lengthOf (r :: road)) 0 p plan) (r :: road)
        some { plan := p :: plan, road := m.2, ids := 0 :: m.1 ++ [m.2.length - 1], norm := lengths (lengthOf (r :: road)) m.2 }
  | _, _ => none

/-- CoordinateConversions.cpp 469-478: the segments from the second on; `k` is the place of the first point of the list, `p` the
point before it, `best` and `d` what is the nearest so far. -/
noncomputable def nearestFrom (pos : ℂ) : ℕ → ℕ → ℝ → ℂ → List ℂ → ℕ
  | _, best, _, _, [] => best
  | k, best, d, p, x :: l =>
      if distTo x p pos < d then nearestFrom pos (k + 1) k (distTo x p pos) x l else nearestFrom pos (k + 1) best d x l

/-- CoordinateConversions.cpp 464-478: the place of the second point of the nearest segment. -/
noncomputable def nearest (pos : ℂ) : List ℂ → ℕ
  | a :: b :: l => nearestFrom pos 2 1 (distTo a b pos) b l
  | _ => 0

/-- CoordinateConversions.cpp 549-566: the loop from the place `k` on, the number is how many places there still are. -/
noncomputable def locateFrom (norm : List ℝ) (road : List ℂ) : ℕ → ℕ → ℝ → ℝ
  | 0, k, _ => norm.getD k 0
  | n + 1, k, d =>
      if ‖road.getD (k + 1) 0 - road.getD k 0‖ < d then
        locateFrom norm road n (k + 1) (d - ‖road.getD (k + 1) 0 - road.getD k 0‖)
      else if 1e-6 < ‖road.getD (k + 1) 0 - road.getD k 0‖ then
        norm.getD k 0 + d / ‖road.getD (k + 1) 0 - road.getD k 0‖ * (norm.getD (k + 1) 0 - norm.getD k 0)
      else norm.getD k 0

/-- CoordinateConversions.cpp 452-570: `CorrespondingNormalizedRoadLocation`.  With plans in one direction the places of the road
increase, so the loops for decreasing ones (517-523, 534-547) are left out. -/
noncomputable def located (o : Objective) (pos : ℂ) : ℝ :=
  if o.plan.length < 2 then 0
  else
    let k := nearest pos o.plan
    let a := o.plan.getD (k - 1) 0
    let b := o.plan.getD k 0
    let frm := o.ids.getD (k - 1) 0
    let upto := o.ids.getD k 0
    let percent := if 1e-10 < ‖b - a‖ then ‖closestPoint a b pos - a‖ / ‖b - a‖ else 0
    if frm = upto then o.norm.getD frm 0
    else locateFrom o.norm o.road (upto - frm) frm (percent * lengthOf ((o.road.drop frm).take (upto + 1 - frm)))

/-- CoordinateConversions.cpp 280-300: the road from the point `p`, which is at `c`. -/
noncomputable def roadFrom (x : ℝ) : ℝ → ℂ → List (ℝ × ℂ) → ℂ
  | _, _, [] => 0
  | c, p, (d, q) :: l =>
      if x ≤ d then (if 1e-6 < d - c then p + (q - p) * (((x - c) / (d - c) : ℝ) : ℂ) else p) else roadFrom x d q l

/-- CoordinateConversions.cpp 265-302: `NormalizedRoadPosToXyRoadPos`. -/
noncomputable def roadAt (o : Objective) (x : ℝ) : ℂ :=
  if x ≤ 0 then o.road.getD 0 0
  else if 1 ≤ x then o.road.getD (o.norm.length - 1) 0
  else roadFrom x (o.norm.getD 0 0) (o.road.getD 0 0) (o.norm.tail.zip o.road.tail)

/-- SensorSteering2.cpp 57-86: `CalculateStarePoint`. -/
noncomputable def starePoint (o : Objective) (pos : ℂ) : ℂ :=
  let x := located o pos
  if x < 0 then pos
  else if x = 1 then o.road.getLastD 0
  else if x = 0 then o.road.getD 0 0
  else roadAt o x

end Verif.Dpss
