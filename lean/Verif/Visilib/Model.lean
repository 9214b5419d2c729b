/-
The geometry of VisiLibity that the route planner is built on
(src/cpp/VisilibityLib/visilibity.cpp): points, segments and polygons.

Simplifications: `double` is exact; x is `e`, y is `n`.  A distance is the square
root of `d2`; distances are only ever compared with each other or with an `epsilon`
that is not negative, and then their squares are compared here.
-/
import Verif.RoutePlanner.Model

namespace Verif.Visilib

open Verif.Visibility (Pt)
open Verif.RoutePlanner (Poly area)

/-! ### Points and segments -/

/-- visilibity.cpp 509-516: `distance`, squared. -/
def d2 (p q : Pt) : Rat := (p.e - q.e) * (p.e - q.e) + (p.n - q.n) * (p.n - q.n)

/-- visilibity.cpp 665-679: `Line_Segment`, of two points or of one, when they are
not further apart than epsilon. -/
def isPoint (a b : Pt) (eps : Rat) : Bool := d2 a b ≤ eps * eps

/-- visilibity.cpp 86-121: `Point::projection_onto` the segment of `a` and `b`, as
made with an epsilon of 0. -/
def proj (p a b : Pt) : Pt :=
  if isPoint a b 0 then a
  else
    let th := ((b.e - p.e) * (b.e - a.e) + (b.n - p.n) * (b.n - a.n)) / d2 a b
    if 0 ≤ th ∧ th ≤ 1 then ⟨th * a.n + (1 - th) * b.n, th * a.e + (1 - th) * b.e⟩
    else if d2 p a < d2 p b then a else b

/-- visilibity.cpp 519-527: `distance` of a point and a segment, squared. -/
def segD2 (p a b : Pt) : Rat := d2 p (proj p a b)

/-- visilibity.cpp 499-506: `cross`. -/
def cross (p q : Pt) : Rat := p.e * q.n - q.e * p.n

/-- visilibity.cpp 473-477: the difference of two points. -/
def sub (p q : Pt) : Pt := ⟨p.n - q.n, p.e - q.e⟩

/-- visilibity.cpp 898-909, 959-969: the least of the distances of four ends from the
other segment, squared. -/
def endsD2 (a b c d : Pt) : Rat :=
  let m := segD2 a c d
  let m := if segD2 b c d < m then segD2 b c d else m
  let m := if segD2 c a b < m then segD2 c a b else m
  if segD2 d a b < m then segD2 d a b else m

/-- visilibity.cpp 945-980: `intersect_proper`. -/
def proper (eps : Rat) (a b c d : Pt) : Bool :=
  if endsD2 a b c d ≤ eps * eps then false
  else cross (sub b a) (sub c b) * cross (sub b a) (sub d b) < 0 &&
    cross (sub d c) (sub b d) * cross (sub d c) (sub a d) < 0

/-- visilibity.cpp 887-910: `distance` of two segments, squared. -/
def distD2 (a b c d : Pt) : Rat := if proper 0 a b c d then 0 else endsD2 a b c d

/-- visilibity.cpp 933-942: `intersect`. -/
def intersect (eps : Rat) (a b c d : Pt) : Bool := distD2 a b c d ≤ eps * eps

/-! ### Polygons -/

/-- visilibity.h 1250-1256: the sides, by `operator []`, which wraps around. -/
def sides (p : Poly) : List (Pt × Pt) := p.zip (p.drop 1 ++ p.take 1)

/-- visilibity.cpp 200-217: `projection_onto_boundary_of` a polygon that is not
empty (an assertion; `vs` are the corners after the first, `v`). -/
def projBoundary (p v : Pt) (vs : List Pt) : Pt :=
  (sides (v :: vs)).foldl (fun m s => if segD2 p s.1 s.2 < d2 p m then proj p s.1 s.2 else m) v

/-- visilibity.cpp 241-252: `on_boundary_of`.  Taking the first corner of an empty
polygon is undefined. -/
def onBoundary (eps : Rat) (p : Pt) : Poly → Outcome Bool
  | [] => .ub
  | v :: vs => .ok (d2 p (projBoundary p v vs) ≤ eps * eps)

/-- visilibity.cpp 309-319: whether a ray to the right crosses the side from `b` to
`a`. -/
def hit (p a b : Pt) : Bool :=
  (decide (a.n ≤ p.n ∧ p.n < b.n) || decide (b.n ≤ p.n ∧ p.n < a.n)) &&
    decide (p.e < (b.e - a.e) * (p.n - a.n) / (b.n - a.n) + a.e)

/-- visilibity.cpp 308: each corner with the one before, the first with the
last. -/
def backSides (p : Poly) : List (Pt × Pt) := p.zip (p.drop (p.length - 1) ++ p)

/-- visilibity.cpp 307-321: whether the ray crosses an odd number of sides. -/
def odd (p : Pt) (poly : Poly) : Bool :=
  (backSides poly).foldl (fun c s => if hit p s.1 s.2 then !c else c) false

/-- visilibity.cpp 293-322: `Point::in` a polygon. -/
def inPoly (eps : Rat) (p : Pt) (poly : Poly) : Outcome Bool :=
  (onBoundary eps p poly).bind fun b => .ok (b || odd p poly)

/-- visilibity.cpp 432-442: `operator <`. -/
def less (p q : Pt) : Bool := p.e < q.e || (p.e == q.e && p.n < q.n)

/-- visilibity.cpp 2017-2021: the index of the first of the least corners; `i` is
the index of the first of those given, `b` and `j` the least so far. -/
def leastAt : Nat → Nat → Pt → List Pt → Nat
  | _, j, _, [] => j
  | i, j, b, c :: cs => if less c b then leastAt (i + 1) i c cs else leastAt (i + 1) j b cs

/-- visilibity.cpp 2010-2029: `enforce_standard_form`. -/
def standard (p : Poly) : Poly :=
  match p with
  | [] => p
  | [_] => p
  | a :: cs => p.drop (leastAt 1 0 a cs) ++ p.take (leastAt 1 0 a cs)

/-- visilibity.cpp 1656-1663: `is_in_standard_form`. -/
def isStandard (p : Poly) : Bool :=
  match p with
  | [] => true
  | a :: cs => cs.all fun c => !less c a

/-- visilibity.cpp 2047-2074: the corners kept; `f` and `s` are the last kept and the
one looked at, the list are those that follow, with the first corner last. -/
def keep (eps : Rat) : Pt → Pt → List Pt → List Pt
  | _, _, [] => []
  | f, s, t :: ts =>
    if isPoint f t eps then
      match ts with
      | [] => []
      | u :: us => keep eps t u us
    else if segD2 s f t ≤ eps * eps then keep eps f t ts
    else s :: keep eps s t ts

/-- visilibity.cpp 2032-2085: `eliminate_redundant_vertices`. -/
def reduce (eps : Rat) (p : Poly) : Poly :=
  match p with
  | a :: b :: c :: d :: cs =>
    let k := keep eps a b (c :: d :: cs ++ [a])
    match k with
    | [] => []
    | x :: xs => if eps * eps < segD2 a x (xs.getLastD x) then k ++ [a] else k
  | _ => p

end Verif.Visilib
