import Verif.Earth.Model
import Mathlib.Analysis.SpecialFunctions.Complex.Arg
import Mathlib.Analysis.SpecialFunctions.Trigonometric.Inverse

/-!
# Extending a route by a time

`RouteExtension`, `src/cpp/Utilities/RouteExtension.cpp` 11-495 and `RouteExtension.h` 18-91, which the rendezvous task uses
to delay a vehicle.  Simplification: numbers are real, so nothing is rounded, and the constant `dPi()` is π (it differs by
less than 3 parts in 10^13, see C128).
-/

namespace Verif.Extend

open Real Verif.Earth

/-- RouteExtension.h 18-34: the end of a piece of a path, its length, and for an arc its centre and direction (1 to the
left, -1 to the right, 0 for a straight piece). -/
structure Dubins where
  x : ℝ
  y : ℝ
  len : ℝ := 0
  tx : ℝ := 0
  ty : ℝ := 0
  turn : ℤ := 0

/-- RouteExtension.cpp 208-221: `SingleArcLen`, `SingleStraightLen`, `SingleBubbleExtensionError`. -/
noncomputable def bubbleArc (th R : ℝ) : ℝ := 4 * R * th

/-- RouteExtension.cpp 213-216. -/
noncomputable def bubbleStraight (th R : ℝ) : ℝ := 4 * R * sin th

/-- RouteExtension.cpp 218-221. -/
noncomputable def bubbleError (extend R th : ℝ) : ℝ := extend + bubbleStraight th R - bubbleArc th R

/-- RouteExtension.cpp 251-270: `SlideArcLen`. -/
noncomputable def slideArc (th R : ℝ) : ℝ :=
  3 * π / 2 * R + th * R + (π / 2 + arccos (1 - sin th) + th) * R + arccos (1 - sin th) * R

/-- RouteExtension.cpp 272-284: `SlideStraightLen`. -/
noncomputable def slideStraight (th R : ℝ) : ℝ :=
  2 * R + 2 * R * cos th + 2 * R * √(1 - (1 - sin th) * (1 - sin th))

/-- RouteExtension.cpp 286-289. -/
noncomputable def slideError (extend R th : ℝ) : ℝ := extend + slideStraight th R - slideArc th R

/-- RouteExtension.cpp 227, 295. -/
noncomputable def eps : ℝ := 1 / 100000000

/-- RouteExtension.cpp 232-248, 300-316: the loop of the bisection, for at most `n` rounds; `f_min` is the value at
`min_th` in every round. -/
noncomputable def bisect (f : ℝ → ℝ) : ℕ → ℝ → ℝ → ℝ
  | 0, lo, _ => lo
  | n + 1, lo, hi =>
    open Classical in
    if lo + eps < hi then
      let mid := 1 / 2 * lo + 1 / 2 * hi
      if (f lo < 0) = (f mid < 0) then bisect f n mid hi else bisect f n lo mid
    else lo

/-- RouteExtension.cpp 225-249 and 293-317: `SingleBubbleBisectionSearch`, `SlideBisectionSearch`.  The loop ends after at
most 28 rounds, as the interval from 0 to π/2 is then shorter than `eps`. -/
noncomputable def search (f : ℝ → ℝ) : ℝ := bisect f 28 0 (π / 2)

/-- `static_cast<int32_t>` of a number without a fraction: undefined outside the range of the type. -/
noncomputable def toInt32 (v : ℤ) : Outcome ℤ := if -2147483648 ≤ v ∧ v ≤ 2147483647 then .ok v else .ub

/-- `floor(a/b)` converted to `int32_t`; a quotient by 0 is infinite or not a number, and its conversion undefined. -/
noncomputable def floorDiv (a b : ℝ) : Outcome ℤ :=
  open Classical in if b = 0 then .ub else toInt32 ⌊a / b⌋

/-- `fmod` for a divisor that is not 0. -/
noncomputable def rfmod (a m : ℝ) : ℝ := if 0 ≤ a / m then a - m * ⌊a / m⌋ else a - m * ⌈a / m⌉

/-- RouteExtension.cpp 185-206: `RequiredSegmentLength`. -/
noncomputable def required (extend R : ℝ) : Outcome ℝ :=
  if extend < 2 * R * (π - 2) then .ok (bubbleStraight (search (bubbleError extend R)) R)
  else if extend < 2 * π * R then .ok (slideStraight (search (slideError extend R)) R)
  else (floorDiv extend (2 * π * R)).bind fun _ => .ok (rfmod extend (2 * π * R) / 2)

/-- RouteExtension.cpp 322, 384, 430: the direction from a point to another. -/
noncomputable def direction (a b : Dubins) : ℝ := Complex.arg ⟨b.x - a.x, b.y - a.y⟩

/-- A position and a heading, the variables `x`, `y`, `psi` of the builders. -/
structure Pose where
  x : ℝ
  y : ℝ
  psi : ℝ

/-- RouteExtension.cpp 336-340, 354-358, 371-375: a quarter circle to the left around a centre. -/
noncomputable def quarter (R tx ty : ℝ) (p : Pose) : Pose × Dubins :=
  let nx := -p.y + ty + tx
  let y := p.x - tx + ty
  ({ x := nx, y := y, psi := p.psi + π / 2 }, { x := nx, y := y, len := π / 2 * R, tx := tx, ty := ty, turn := 1 })

/-- `n` quarter circles. -/
noncomputable def quarters (R tx ty : ℝ) : ℕ → Pose → Pose × List Dubins
  | 0, p => (p, [])
  | n + 1, p =>
    let a := quarter R tx ty p
    let b := quarters R tx ty n a.1
    (b.1, a.2 :: b.2)

/-- RouteExtension.cpp 344-347, 361-364: a straight piece. -/
noncomputable def straight (len : ℝ) (p : Pose) : Pose × Dubins :=
  let x := p.x + len * cos p.psi
  let y := p.y + len * sin p.psi
  ({ p with x := x, y := y }, { x := x, y := y, len := len })

/-- RouteExtension.cpp 319-379: `BuildRaceTrack`. -/
noncomputable def buildRaceTrack (N : ℕ) (track R : ℝ) (a b : Dubins) : List Dubins :=
  let p0 : Pose := ⟨a.x, a.y, direction a b⟩
  let c0 := quarters R (p0.x - R * sin p0.psi) (p0.y + R * cos p0.psi) (N * 4) p0
  let s1 := straight track c0.1
  let h1 := quarters R (s1.1.x - R * sin s1.1.psi) (s1.1.y + R * cos s1.1.psi) 2 s1.1
  let s2 := straight track h1.1
  let h2 := quarters R (s2.1.x - R * sin s2.1.psi) (s2.1.y + R * cos s2.1.psi) 2 s2.1
  c0.2 ++ [s1.2] ++ h1.2 ++ [s2.2] ++ h2.2

/-- RouteExtension.cpp 391-397, 416-422, 439-445, 475-481: an arc to the left. -/
noncomputable def left (R th : ℝ) (p : Pose) : Pose × Dubins :=
  let tx := p.x - R * sin p.psi
  let ty := p.y + R * cos p.psi
  let angle := p.psi - π / 2 + th
  let x := p.x - R * sin p.psi + R * cos angle
  let y := p.y + R * cos p.psi + R * sin angle
  ({ x := x, y := y, psi := p.psi + th }, { x := x, y := y, len := th * R, tx := tx, ty := ty, turn := 1 })

/-- RouteExtension.cpp 402-406, 409-413, 448-454, 457-461, 465-469, 486-492: an arc to the right with a given centre. -/
noncomputable def rightAround (R th tx ty : ℝ) (p : Pose) : Pose × Dubins :=
  let angle := p.psi + π / 2 - th
  let x := p.x + R * sin p.psi + R * cos angle
  let y := p.y - R * cos p.psi + R * sin angle
  ({ x := x, y := y, psi := p.psi - th }, { x := x, y := y, len := th * R, tx := tx, ty := ty, turn := -1 })

/-- RouteExtension.cpp 400-406, 448-454, 486-492: an arc to the right. -/
noncomputable def right (R th : ℝ) (p : Pose) : Pose × Dubins :=
  rightAround R th (p.x + R * sin p.psi) (p.y - R * cos p.psi) p

/-- RouteExtension.cpp 381-425: `BuildSingleBubble`.  The second arc to the right keeps the centre of the first. -/
noncomputable def buildBubble (th R : ℝ) (a b : Dubins) : List Dubins :=
  let p0 : Pose := ⟨a.x, a.y, direction a b⟩
  let w1 := left R th p0
  let w2 := right R th w1.1
  let w3 := rightAround R th w2.2.tx w2.2.ty w2.1
  let w4 := left R th w3.1
  [w1.2, w2.2, w3.2, w4.2]

/-- RouteExtension.cpp 427-495: `BuildSlideBack`. -/
noncomputable def buildSlide (th R : ℝ) (a b : Dubins) : List Dubins :=
  let p0 : Pose := ⟨a.x, a.y, direction a b⟩
  let w1 := left R (π / 2) p0
  let w2 := right R (π / 2) w1.1
  let w3 := rightAround R (π / 2) w2.2.tx w2.2.ty w2.1
  let w4 := rightAround R th w2.2.tx w2.2.ty w3.1
  let del := arccos (1 - sin th)
  let w5 := left R (π / 2 + del + th) w4.1
  let w6 := right R (arccos (1 - sin th)) w5.1
  [w1.2, w2.2, w3.2, w4.2, w5.2, w6.2]

/-- RouteExtension.cpp 161-183: `ExtendSegment`. -/
noncomputable def extendSegment (a b : Dubins) (extend R : ℝ) : Outcome (List Dubins) :=
  if extend < 2 * R * (π - 2) then .ok (buildBubble (search (bubbleError extend R)) R a b)
  else if extend < 2 * π * R then .ok (buildSlide (search (slideError extend R)) R a b)
  else (floorDiv extend (2 * π * R)).bind fun n =>
    (toInt32 (n - 1)).bind fun n =>
      .ok (buildRaceTrack n.toNat (rfmod extend (2 * π * R) / 2) R a b)

end Verif.Extend
