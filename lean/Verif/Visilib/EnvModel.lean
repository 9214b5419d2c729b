/-
Environments of VisiLibity (src/cpp/VisilibityLib/visilibity.cpp): an outer boundary
with holes.  Simplifications as in Model.
-/
import Verif.Visilib.Model

namespace Verif.Visilib

open Verif.Visibility (Pt)
open Verif.RoutePlanner (Poly area)

/-! ### Whether a polygon is simple -/

/-- visilibity.cpp 753-771, 785-803: the ends of a segment of which `set_first` and then
`set_second` set the first two: one if they are not further apart than epsilon. -/
def ends (eps : Rat) (p q : Pt) : Nat := if isPoint p q eps then 1 else 2

/-- visilibity.cpp 983-1066: the number of ends of `intersection`, 0 if it is empty.
The points themselves are not modelled. -/
def meetSize (eps : Rat) (a b c d : Pt) : Nat :=
  if !intersect eps a b c d then 0
  else if proper eps a b c d then 1
  else
    let na := decide (segD2 a c d ≤ eps * eps)
    let nb := decide (segD2 b c d ≤ eps * eps)
    let nc := decide (segD2 c a b ≤ eps * eps)
    let nd := decide (segD2 d a b ≤ eps * eps)
    if na && nb then ends eps a b
    else if nc && nd then ends eps c d
    else if na && nc then ends eps a c
    else if na && nd then ends eps a d
    else if nb && nc then ends eps b c
    else if nb && nd then ends eps b d
    else if na || nb || nc || nd then 1
    else 0

/-- visilibity.h 1250-1256: `operator []`, which wraps around; only for polygons that
are not empty. -/
def corner (p : Poly) (i : Nat) : Pt := (p[i % p.length]?).getD ⟨0, 0⟩

/-- visilibity.cpp 1631-1653: `is_simple`. -/
def isSimple (eps : Rat) (p : Poly) : Bool :=
  if p.length ≤ 2 then false
  else
    ((List.range p.length).all fun i =>
      meetSize eps (corner p i) (corner p (i + 1)) (corner p (i + 1)) (corner p (i + 2)) ≤ 1) &&
    (List.range (p.length - 2)).all fun i =>
      (List.range' (i + 2) (p.length - (i + 2))).all fun j =>
        !((j + 1) % p.length != 0 && decide
          (distD2 (corner p i) (corner p (i + 1)) (corner p j) (corner p (j + 1)) ≤ eps * eps))

/-! ### Points in an environment -/

/-- visilibity.cpp 200-217: `projection_onto_boundary_of` a polygon. -/
def projPoly (x : Pt) : Poly → Outcome Pt
  | [] => .ub
  | v :: vs => .ok (projBoundary x v vs)

/-- visilibity.cpp 229-236: the nearest of the projection so far and those onto the
holes. -/
def projHoles (x m : Pt) : List Poly → Outcome Pt
  | [] => .ok m
  | h :: hs => (projPoly x h).bind fun q => projHoles x (if d2 x q < d2 x m then q else m) hs

/-- visilibity.cpp 336-339: whether the point is in no hole. -/
def inNoHole (x : Pt) : List Poly → Outcome Bool
  | [] => .ok true
  | h :: hs => (inPoly 0 x h).bind fun b => if b then .ok false else inNoHole x hs

/-- visilibity.cpp 325-342 with 220-238 and 255-266: `Point::in` an environment, of the
outer boundary `o` and the holes `hs`. -/
def inEnv (eps : Rat) (x : Pt) (o : Poly) (hs : List Poly) : Outcome Bool :=
  (projPoly x o).bind fun m => (projHoles x m hs).bind fun m =>
    if d2 x m ≤ eps * eps then .ok true
    else (inPoly eps x o).bind fun b => if !b then .ok false else inNoHole x hs

/-! ### Whether an environment is valid -/

/-- visilibity.cpp 575-590: `boundary_distance` of a point and a polygon that is not
empty, squared.  The loop looks at the first side again at its end. -/
def pointD2 (x v : Pt) (vs : List Pt) : Rat :=
  (sides (v :: vs) ++ (sides (v :: vs)).take 1).foldl
    (fun m s => if segD2 x s.1 s.2 < m then segD2 x s.1 s.2 else m) (d2 x v)

/-- visilibity.cpp 2130-2151: `boundary_distance` of two polygons,
squared. -/
def boundaryD2 : Poly → Poly → Outcome Rat
  | [], _ => .ub
  | _, [] => .ub
  | [a], w :: ws => .ok (pointD2 a w ws)
  | v :: vs, [b] => .ok (pointD2 b v vs)
  | v :: vs, w :: ws => .ok ((sides (v :: vs)).foldl (fun m s =>
      (sides (w :: ws)).foldl (fun m t =>
        if distD2 s.1 s.2 t.1 t.2 < m then distD2 s.1 s.2 t.1 t.2 else m) m)
      (pointD2 v w ws))

/-- For the loops of Environment::is_valid, visilibity.cpp: a loop that ends with `false`
at the first element that fails a test. -/
def allM {α : Type} (f : α → Outcome Bool) : List α → Outcome Bool
  | [] => .ok true
  | a :: l => (f a).bind fun b => if b then allM f l else .ok false

/-- visilibity.cpp 2300, 2308: whether two boundaries are further apart than epsilon. -/
def apart (eps : Rat) (p q : Poly) : Outcome Bool :=
  (boundaryD2 p q).bind fun d => .ok (!decide (d ≤ eps * eps))

/-- visilibity.cpp 2306-2307: the pairs of a hole and a later one. -/
def pairs : List Poly → List (Poly × Poly)
  | [] => []
  | h :: hs => hs.map (fun k => (h, k)) ++ pairs hs

/-- visilibity.cpp 2320-2338: whether the corners of hole `i` are in the outer boundary
and in no other hole. -/
def holeOk (eps : Rat) (o : Poly) (hs : List Poly) (i : Nat) : Outcome Bool :=
  allM (fun v => (inPoly eps v o).bind fun b => if !b then .ok false
    else allM (fun k => (inPoly eps v k).bind fun c => .ok (!c)) (hs.eraseIdx i))
    ((hs[i]?).getD [])

/-- visilibity.cpp 2278-2358: `Environment::is_valid`, of the outer boundary `o` and the
holes `hs`. -/
def isValid (eps : Rat) (o : Poly) (hs : List Poly) : Outcome Bool :=
  if o.length + (hs.map List.length).sum ≤ 2 then .ok false
  else if !isSimple eps o then .ok false
  else if !hs.all (isSimple eps) then .ok false
  else (allM (apart eps o) hs).bind fun b => if !b then .ok false
  else (allM (fun p => apart eps p.1 p.2) (pairs hs)).bind fun b => if !b then .ok false
  else (allM (holeOk eps o hs) (List.range hs.length)).bind fun b => if !b then .ok false
  else if area o ≤ 0 then .ok false
  else .ok (hs.all fun h => area h < 0)

end Verif.Visilib
