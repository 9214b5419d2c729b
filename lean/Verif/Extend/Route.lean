import Verif.Extend.Model

/-!
# `ExtendPath` and `DiscretizeExtension`

`src/cpp/Utilities/RouteExtension.cpp` 11-159.
-/

namespace Verif.Extend

open Real Verif.Earth

/-- A waypoint (`afrl::cmasi::Waypoint`).  `rest` stands for the fields that are only copied: altitude and its type, speed type,
climb rate, turn type, vehicle actions, contingency waypoints, associated tasks. -/
structure Wp (β : Type) where
  lat : ℝ
  lon : ℝ
  speed : ℝ
  number : ℤ
  next : ℤ
  rest : β

variable {β : Type}

/-- RouteExtension.cpp 134-136: the next of the points on an arc. -/
noncomputable def turnBy (g : ℝ) (v : ℝ × ℝ) : ℝ × ℝ := (cos g * v.1 + sin g * v.2, -sin g * v.1 + cos g * v.2)

/-- RouteExtension.cpp 132-146: the loop over the inner points of an arc. -/
noncomputable def arcPoints (tx ty g : ℝ) : ℕ → ℝ × ℝ → List (ℝ × ℝ)
  | 0, _ => []
  | m + 1, v =>
    let w := turnBy g v
    (w.1 + tx, w.2 + ty) :: arcPoints tx ty g m w

/-- RouteExtension.cpp 113-156: the points a piece of the path is replaced by.  A circle with radius 0 has angles that are not
numbers; here the outcome is `ub`. -/
noncomputable def piecePoints (d : ℝ) (w : Dubins) : Outcome (List (ℝ × ℝ)) :=
  open Classical in
  if w.turn ≠ 0 then
    let R := √((w.x - w.tx) * (w.x - w.tx) + (w.y - w.ty) * (w.y - w.ty))
    if R = 0 then .ub
    else
      let th := w.turn * w.len / R
      let v := turnBy th (w.x - w.tx, w.y - w.ty)
      (floorDiv w.len d).bind fun q =>
        (toInt32 (q - 1)).bind fun M =>
          .ok (arcPoints w.tx w.ty (-w.turn * w.len / R / (M + 1)) M.toNat v ++ [(w.x, w.y)])
  else .ok [(w.x, w.y)]

/-- The points of all pieces. -/
noncomputable def pathPoints (d : ℝ) : List Dubins → Outcome (List (ℝ × ℝ))
  | [] => .ok []
  | w :: ws => (piecePoints d w).bind fun a => (pathPoints d ws).bind fun b => .ok (a ++ b)

/-- RouteExtension.cpp 138-144, 150-155: copies of the waypoint `base` at the points, numbered from `n`. -/
noncomputable def place_ (asserts : Bool) (e : Earth) (base : Wp β) : ℤ → List (ℝ × ℝ) → Outcome (List (Wp β))
  | _, [] => .ok []
  | n, z :: zs => (e.toLatLong asserts .m .deg (z.2, z.1)).bind fun p =>
    (place_ asserts e base (n + 1) zs).bind fun ws =>
      .ok ({ base with lat := p.1, lon := p.2, number := n, next := n + 1 } :: ws)

/-- RouteExtension.cpp 107-159: `DiscretizeExtension`.  The model computes the points of all pieces before it makes the
waypoints. -/
noncomputable def discretize (asserts : Bool) (ws : List Dubins) (d : ℝ) (e : Earth) (base : Wp β) :
    Outcome (List (Wp β)) :=
  (pathPoints d ws).bind (place_ asserts e base 1)

/-- RouteExtension.cpp 94-99: the loop that numbers the waypoints anew; a signed number that would pass its largest value is
undefined. -/
def renumber : ℤ → List (Wp β) → Outcome (List (Wp β))
  | _, [] => .ok []
  | n, w :: ws =>
    if n = 9223372036854775807 then .ub
    else (renumber (n + 1) ws).bind fun vs => .ok ({ w with number := n, next := n + 1 } :: vs)

/-- RouteExtension.cpp 100: the last waypoint points to itself. -/
def closeLast : List (Wp β) → List (Wp β)
  | [] => []
  | [w] => [{ w with next := w.number }]
  | w :: ws => w :: closeLast ws

/-- RouteExtension.cpp 29-33: what the search for a segment remembers (the largest length, where it was found, the extension
and the length needed there). -/
structure Best where
  index : ℕ := 0
  cleared : ℝ := 0
  extend : ℝ := 0
  need : ℝ := 0

/-- RouteExtension.cpp 41: whether the speed of a waypoint replaces the current speed. -/
def newSpeed (v s : ℝ) : Prop := 1 / 10000 < |v - s| ∧ 1 / 10000 < s

/-- RouteExtension.cpp 35-63: the loop over the segments.  `x`, `y`: the start of the next segment; `i`: its index. -/
noncomputable def scan (asserts : Bool) (ms : ℤ) (R : ℝ) (e : Earth) :
    List (Wp β) → (x y v ext min : ℝ) → ℕ → Best → Outcome Best
  | [], _, _, _, _, _, _, best => .ok best
  | w :: ws, x, y, v, ext, min, i, best =>
    open Classical in
    (e.toNorthEast asserts .deg .m (w.lat, w.lon)).bind fun (e, north, east) =>
      (if newSpeed v w.speed then
        let ext := ms / 1000 * w.speed
        (required ext R).bind fun min => .ok (w.speed, ext, min)
      else Outcome.ok (v, ext, min)).bind fun (v, ext, min) =>
        let len := √((east - x) * (east - x) + (north - y) * (north - y))
        scan asserts ms R e ws east north v ext min (i + 1)
          (if min ≤ len ∧ best.cleared < len then { index := i, cleared := len, extend := ext, need := min } else best)

/-- RouteExtension.cpp 67-101: the extension of the segment found. -/
noncomputable def insertAt (asserts : Bool) (R d : ℝ) (e : Earth) (ws : List (Wp β)) (best : Best) :
    Outcome (List (Wp β)) :=
  match ws[best.index]?, ws[best.index + 1]? with
  | some wa, some wb =>
    (e.toNorthEast asserts .deg .m (wa.lat, wa.lon)).bind fun (e, n1, e1) =>
      (e.toNorthEast asserts .deg .m (wb.lat, wb.lon)).bind fun (e, n2, e2) =>
        let f := (best.cleared - best.need) / 2 / best.cleared
        let s : Dubins := { x := e1 + (e2 - e1) * f, y := n1 + (n2 - n1) * f }
        let t : Dubins := { x := e2, y := n2 }
        (e.toLatLong asserts .m .deg (s.y, s.x)).bind fun p =>
          let start := { wb with lat := p.1, lon := p.2 }
          (extendSegment s t best.extend R).bind fun dub =>
            (discretize asserts dub d e start).bind fun ext =>
              (renumber wb.number (start :: ext ++ ws.drop (best.index + 1))).bind fun tail =>
                .ok (closeLast (ws.take (best.index + 1) ++ tail))
  | _, _ => .ub

/-- RouteExtension.cpp 11-105: `ExtendPath`. -/
noncomputable def extendPath (asserts : Bool) (ws : List (Wp β)) (ms : ℤ) (R d : ℝ) : Outcome (Bool × List (Wp β)) :=
  open Classical in
  match ws with
  | w :: w2 :: more =>
    if w.speed < 1 / 10000 then .ok (false, ws)
    else
      let ext := ms / 1000 * w.speed
      (required ext R).bind fun min =>
        (({} : Earth).toNorthEast asserts .deg .m (w.lat, w.lon)).bind fun (e, north, east) =>
          (scan asserts ms R e (w2 :: more) east north w.speed ext min 0 {}).bind fun best =>
            if 1 / 10000 < best.cleared then
              (insertAt asserts R d e ws best).bind fun r => .ok (true, r)
            else .ok (false, ws)
  | _ => .ok (false, ws)

end Verif.Extend
