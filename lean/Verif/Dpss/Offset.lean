import Verif.Dpss.Model
import Verif.Escort.Segment

/-!
# Waypoints beside a road

`OffsetPlanForward`, `OffsetPlanReverse` and `CleanUpStareAngles`, src/cpp/DPSS/PlanOffset.cpp.
-/

namespace Verif.Dpss

open Complex
open Verif.Escort (side swathSide intersectPoint)

/-- From where the road is to be looked at: `m_NominalAzimuth`, `m_NominalElevation` (Dpss.h 165-168 take its absolute value) and
`m_NominalAltitudeInMeters`.  Left out: `m_TerrainFollowing`, which is true (Dpss.cpp 31) and which no task changes. -/
structure Look where
  azimuth : ℝ
  elevation : ℝ
  altitude : ℝ

/-- DpssDataTypes.cpp 14-19. -/
noncomputable def rotate (th : ℝ) (v : ℂ) : ℂ :=
  ⟨Real.cos th * v.re - Real.sin th * v.im, Real.sin th * v.re + Real.cos th * v.im⟩

/-- PlanOffset.cpp 36-45 and 88-97: how far beside the road; `inner`: neither the first nor the last point. -/
noncomputable def reach (k : Look) (inner : Bool) : ℝ :=
  if k.elevation < 1 * (Real.pi / 180) ∨ 89 * (Real.pi / 180) < k.elevation then 0
  else if inner then k.altitude / Real.tan k.elevation * Real.sin k.azimuth
  else k.altitude / Real.tan k.elevation

/-- PlanOffset.cpp 56-60 (111-114): the vector from `a` to `b` turned by `th`, made `d` long and put at `p`; the altitudes are
treated as the other coordinates are.  The factor is computed after the turn. -/
noncomputable def beside (a b p : Pt) (th d : ℝ) : Pt :=
  let v := rotate th (b.at_ - a.at_)
  let s := if 1e-10 < ‖v‖ then d / ‖v‖ else 1
  ⟨v * (s : ℂ) + p.at_, (b.z - a.z) * s + p.z, p.keep⟩

/-- PlanOffset.cpp 31-62 from the second point on, `a` the point before. -/
noncomputable def besideFrom (k : Look) : Pt → List Pt → List Pt
  | _, [] => []
  | a, [b] => [beside a b b (Real.pi - k.azimuth) (reach k false)]
  | a, b :: c :: l =>
      beside a b b ((Real.pi - (separation a.at_ b.at_ c.at_).1) / 2) (reach k true) :: besideFrom k b (c :: l)

/-- PlanOffset.cpp 19-62: the loop of `OffsetPlanForward`, with what is done for fewer than two points. -/
noncomputable def forwardRaw (k : Look) : List Pt → List Pt
  | [] => []
  | [a] => [a]
  | a :: b :: l => beside a b a (Real.pi - k.azimuth) (reach k false) :: besideFrom k a (b :: l)

/-- PlanOffset.cpp 79-117: the loop of `OffsetPlanReverse`: it goes through the points from the last one on as the other does
through those from the first one on (83, 99, 105), with the negative azimuth if both are to be on one side (81; the sign of line 109 is
that of the sine).  The attributes, which nothing reads from here on, are not copied. -/
noncomputable def reverseRaw (k : Look) (sameSide : Bool) (l : List Pt) : List Pt :=
  forwardRaw { k with azimuth := if sameSide then -k.azimuth else k.azimuth } l.reverse

/-- PlanOffset.cpp 229-247: the point of a road at the distance `t`, `c` the distance of the point `p`; without one, a new point. -/
noncomputable def stareFrom (t : ℝ) : ℝ → ℂ → List ℂ → ℂ
  | _, _, [] => 0
  | c, p, q :: l =>
      if t < c + ‖q - p‖ then (if 1e-6 < ‖q - p‖ then p + (q - p) * (((t - c) / ‖q - p‖ : ℝ) : ℂ) else p)
      else stareFrom t (c + ‖q - p‖) q l

/-- PlanOffset.cpp 204-218, SensorSteering2.cpp 119-138: a length. -/
noncomputable def lengthOf : List ℂ → ℝ
  | p :: q :: l => ‖q - p‖ + lengthOf (q :: l)
  | _ => 0

/-- PlanOffset.cpp 223-248: the points for the plan from the second on, but for the last; `c` is the length covered.  0 divided by 0
(231) is less than nothing and nothing is less than it. -/
noncomputable def staresFrom (r : ℂ) (road : List ℂ) (total : ℝ) : ℝ → ℂ → List ℂ → List ℂ
  | c, p, q :: x :: l =>
      (if total = 0 then 0 else stareFrom ((c + ‖q - p‖) / total * lengthOf (r :: road)) 0 r road) ::
        staresFrom r road total (c + ‖q - p‖) q (x :: l)
  | _, _, _ => []

/-- PlanOffset.cpp 200-250: `CorrespondingStarePoints` for a plan of two points or more. -/
noncomputable def stares (plan : List ℂ) (r : ℂ) (road : List ℂ) : List ℂ :=
  match plan with
  | [] => [r, (r :: road).getLast (by simp)]
  | p :: l => r :: staresFrom r road (lengthOf (p :: l)) 0 p l ++ [(r :: road).getLast (by simp)]

/-- DpssDataTypes.cpp 91-100. -/
def intersects (a b c d : ℂ) : Prop := side a b c = 0 ∨ side a b d = 0 ∨ side a b c ≠ side a b d

/-- PlanOffset.cpp 174-181: whether the looks from one waypoint (`r`) and from the next (`s`) cross.  Where there is no intersection
the point (0, 0) is returned for it (DpssDataTypes.cpp 115). -/
def crosses (r s : ℂ × ℂ) : Prop :=
  1e-4 < ‖s.2 - s.1‖ ∧ 1e-4 < ‖r.2 - r.1‖ ∧
  ((intersects s.1 s.2 r.1 r.2 ∧ intersectPoint s.1 s.2 r.1 r.2 = none) ∨
   (swathSide s.1 s.2 ((intersectPoint s.1 s.2 r.1 r.2).getD 0) = 0 ∧ swathSide r.1 r.2 ((intersectPoint s.1 s.2 r.1 r.2).getD 0) = 0))

open Classical in
/-- PlanOffset.cpp 172-185: the first waypoint whose look crosses that of the one before; `k` is the place of the second. -/
noncomputable def firstCross : ℕ → List (ℂ × ℂ) → Option ℕ
  | k, r :: s :: l => if crosses r s then some k else firstCross (k + 1) (s :: l)
  | _, _ => none

/-- PlanOffset.cpp 191. -/
noncomputable def mid (a b : Pt) : Pt := ⟨(a.at_ + b.at_) / 2, (a.z + b.z) / 2, false⟩

/-- PlanOffset.cpp 191-194: the points at the places `k` and before it become one. -/
noncomputable def merge : ℕ → List Pt → List Pt
  | 1, a :: b :: l => mid a b :: l
  | k + 2, a :: l => a :: merge (k + 1) l
  | _, l => l

/-- PlanOffset.cpp 170-197: the loop; the number is how many points more than two there are. -/
noncomputable def cleanLoop (r : ℂ) (road : List ℂ) : ℕ → List Pt → List Pt
  | 0, l => l
  | n + 1, l =>
      match firstCross 1 ((l.map (·.at_)).zip (stares (l.map (·.at_)) r road)) with
      | none => l
      | some k => cleanLoop r road n (merge (if k = l.length - 1 then k - 1 else k) l)

/-- PlanOffset.cpp 159-198: `CleanUpStareAngles`.  `road[0]` (221) is read even if there is none. -/
noncomputable def cleanUp (road : List ℂ) (l : List Pt) : Outcome (List Pt) :=
  match road with
  | [] => .ub
  | r :: road => .ok (cleanLoop r road (l.length - 2) l)

/-- PlanOffset.cpp 14-68: `OffsetPlanForward`, `road` the planning road. -/
noncomputable def offsetForward (k : Look) (road : List ℂ) (l : List Pt) : Outcome (List Pt) :=
  match removeZero l with
  | [] => .ok []
  | [a] => .ok [a]
  | a :: b :: l => (cleanUp road (removeZero (forwardRaw k (a :: b :: l)))).bind fun p => .ok (removeZero p)

/-- PlanOffset.cpp 70-135: `OffsetPlanReverse`. -/
noncomputable def offsetReverse (k : Look) (sameSide : Bool) (road : List ℂ) (l : List Pt) : Outcome (List Pt) :=
  match removeZero l with
  | [] => .ok []
  | [_] => .ok []
  | a :: b :: l =>
      (cleanUp road (removeZero (reverseRaw k sameSide (a :: b :: l))).reverse).bind fun p => .ok (removeZero p.reverse)

end Verif.Dpss
