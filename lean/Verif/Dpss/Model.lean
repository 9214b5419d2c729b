import Mathlib.Analysis.SpecialFunctions.Complex.Arg
import Verif.Common

/-!
# Simplifying a road and laying out waypoints beside it

`Dpss`, src/cpp/DPSS, as the line searches call it: `PreProcessPath`, `PlanQuickly`,
`RemoveZeroLengthSegments`.

The plane is that of `Verif.Escort.Segment`: the member `x` of a point is the real and `y` the
imaginary part.  Simplified throughout: real arithmetic in place of doubles, π in place of the
constants of the code; the ids of the points, which nothing here reads, are left out.
-/

namespace Verif.Dpss

open Complex

/-- DpssDataTypes.h 21-60: `xyPoint`.  `keep`: its attributes are not `None`. -/
@[ext] structure Pt where
  at_ : ℂ
  z : ℝ
  keep : Bool

/-- DpssUtilities.cpp 405-451, `ComputeSeperation`: the angle that is passed back, then the value. -/
noncomputable def separation (a b c : ℂ) : ℝ × ℝ :=
  let q₁ := b - a
  let q₂ := c - b
  if ‖q₁‖ < 1e-6 then (0, 0)
  else if ‖q₂‖ < 1e-6 then (0, 0)
  else
    let beta := arg q₁ - arg q₂
    let beta := if beta < -Real.pi then beta + 2 * Real.pi else beta
    let beta := if Real.pi < beta then beta - 2 * Real.pi else beta
    let q₃ := c - a
    (beta, if ‖q₃‖ < 1e-6 then ‖q₁‖ else |q₁.re * q₃.im - q₃.re * q₁.im| / ‖q₃‖)

/-- DpssUtilities.cpp 157-158: whether the middle one of three points is left out. -/
noncomputable def straight (a b c : Pt) : Prop :=
  |(separation a.at_ b.at_ c.at_).1| < Real.pi / 180 * 0.1 ∧ (separation a.at_ b.at_ c.at_).2 < 1

open Classical in
/-- DpssUtilities.cpp 151-164: the loop, `a` the point at the first iterator and the list what follows it. -/
noncomputable def straighten : Pt → List Pt → List Pt
  | _, [] => []
  | _, [b] => [b]
  | a, b :: c :: l => if straight a b c then straighten a (c :: l) else b :: straighten b (c :: l)

/-- DpssUtilities.cpp 137-169: `PreProcessPath` of a vector; what is left is also the planning road. -/
noncomputable def preProcess : List Pt → List Pt
  | [] => []
  | a :: l => a :: straighten a l

/-- A point of the plan with its entries of `effect` and `m_QuickPlanIndices`. -/
structure Way where
  pt : Pt
  effect : ℝ
  index : ℕ

/-- PlanQuickly.cpp 26-35, for the points from the second on; the two lists that the code fills have as many entries as there
are points, but for fewer than two points, when nothing more is done with them. -/
noncomputable def waysFrom (i : ℕ) (a : Pt) : List Pt → List Way
  | [] => []
  | [b] => [⟨b, 0, i⟩]
  | b :: c :: l => ⟨b, (separation a.at_ b.at_ c.at_).2, i⟩ :: waysFrom (i + 1) b (c :: l)

/-- PlanQuickly.cpp 26-35. -/
noncomputable def ways : List Pt → List Way
  | [] => []
  | a :: l => ⟨a, 0, 0⟩ :: waysFrom 1 a l

/-- PlanQuickly.cpp 41-66: the place of the least effect among those that may be left out, of the list from the place `i` on;
the last one does not count. -/
noncomputable def least (best : Option (ℕ × ℝ)) (i : ℕ) : List Way → Option (ℕ × ℝ)
  | [] => best
  | [_] => best
  | w :: x :: l =>
      least (if w.pt.keep then best
        else match best with
          | none => some (i, w.effect)
          | some b => if w.effect < b.2 then some (i, w.effect) else best) (i + 1) (x :: l)

/-- PlanQuickly.cpp 79-85 and 89-95: the effect of leaving out `w` between `u` and `v`: the greatest separation of a point of the
given road between the two.  The indices (80, 90) are of points of the road. -/
noncomputable def effectOf (road : List Pt) (u w v : Way) : ℝ :=
  ((road.drop (u.index + 1)).take (v.index - (u.index + 1))).foldl
    (fun e p => if e < (separation u.pt.at_ p.at_ v.pt.at_).2 then (separation u.pt.at_ p.at_ v.pt.at_).2 else e)
    (separation u.pt.at_ w.pt.at_ v.pt.at_).2

/-- The effect at the second of these, if it is not the last. -/
noncomputable def refresh (road : List Pt) : List Way → List Way
  | u :: w :: v :: l => u :: { w with effect := effectOf road u w v } :: v :: l
  | l => l

/-- PlanQuickly.cpp 68-96: the point at the place `n` + 1 is left out (`erase`), then the effects of the two neighbours are computed
again: that of the one after (77-86) and, unless it is the first, that of the one before (87-96). -/
noncomputable def leaveOut (road : List Pt) : ℕ → List Way → List Way
  | 0, u :: _ :: l => refresh road (u :: l)
  | 1, t :: u :: _ :: l => refresh road (t :: refresh road (u :: l))
  | n + 2, t :: l => t :: leaveOut road (n + 1) l
  | _, l => l

/-- PlanQuickly.cpp 37-97: the loop; the first number is how many points are too many. -/
noncomputable def thin (road : List Pt) : ℕ → List Way → List Way
  | 0, l => l
  | n + 1, l =>
      match least none 1 l.tail with
      | none => l
      | some b => thin road n (leaveOut road (b.1 - 1) l)

/-- PlanQuickly.cpp 15-98. -/
noncomputable def planQuickly (l : List Pt) (maxWps : ℤ) : List Way :=
  thin l ((l.length : ℤ) - maxWps).toNat (ways l)

open Classical in
/-- DpssUtilities.cpp 356-366: the loop, `q` the point at the first iterator.  Line 361 takes the `y` of that point from the `x` of
the next. -/
noncomputable def nonZero : Pt → List Pt → List Pt
  | _, [] => []
  | q, r :: l =>
      if ‖(⟨r.at_.re - q.at_.im, r.at_.im - q.at_.im⟩ : ℂ)‖ < 1e-10 then nonZero q l else r :: nonZero r l

/-- DpssUtilities.cpp 351-367: `RemoveZeroLengthSegments`. -/
noncomputable def removeZero : List Pt → List Pt
  | [] => []
  | q :: l => q :: nonZero q l

end Verif.Dpss
