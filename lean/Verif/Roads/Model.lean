/-
Reading a road map, as `OsmPlannerService` does it: which points are used for
planning, how roads are cut into pieces at these points, and the graph of the pieces.

Simplifications, throughout: positions are given in metres north and east (the map's
conversion from latitude and longitude is the subject of `Verif.Earth`), distances are
real numbers, whole numbers do not overflow, and what is only written to log and
plot files is left out.
-/
import Verif.Common
import Verif.Roads.AStar
import Mathlib.Analysis.Real.Sqrt
import Mathlib.Algebra.Order.Floor.Semiring

namespace Verif.Roads

open Verif.Visibility (Edge)

/-- The identifiers of nodes and ways (64 bits in the code). -/
abbrev Id := Int

/-- A position, north and east in metres (src/cpp/Plans/Position.h). -/
structure Pt where
  n : ℝ
  e : ℝ

/-- src/cpp/Plans/Position.h 153-160, `relativeDistance2D_m`. -/
noncomputable def dist (p q : Pt) : ℝ :=
  Real.sqrt ((p.n - q.n) * (p.n - q.n) + (p.e - q.e) * (p.e - q.e))

/-- A `way` of the file: its id, whether it has a `highway` tag, and the points it
goes over (OsmPlannerService.cpp 972-999).  Ways without an id are skipped there
(1044-1047) and left out here. -/
structure Way where
  id : Id
  highway : Bool
  nodes : List Id

/-- A `node` of the file: its id, and its position when both `lat` and `lon` are
given (OsmPlannerService.cpp 1061-1107). -/
structure NodeEl where
  id : Id
  at_ : Option Pt

/-- A function changed at one place. -/
def put {α β : Type} [DecidableEq α] (f : α → β) (a : α) (b : β) : α → β :=
  fun x => if x = a then b else f x

/-! ### Points used for planning -/

/-- OsmPlannerService.cpp 1021-1040: a point is flagged at its place on a road: the
ends of the road are used for planning, and so are points met before. -/
def flag (m : Id → Option Bool) (x : Id) (isEnd : Bool) : Id → Option Bool :=
  put m x (some (isEnd || (m x).isSome))

/-- OsmPlannerService.cpp 1012-1041: the points of one road, with their place on it.
`i` is the place of the first of the list, `len` the number of points of the road. -/
def flagNodes (len : Nat) : Nat → List Id → (Id → Option Bool) → (Id → Option Bool)
  | _, [], m => m
  | i, x :: xs, m => flagNodes len (i + 1) xs (flag m x (i == 0 || i + 1 == len))

/-- OsmPlannerService.cpp 972-1048: all roads. -/
def flags : List Way → (Id → Option Bool) → (Id → Option Bool)
  | [], m => m
  | w :: ws, m => flags ws (if w.highway then flagNodes w.nodes.length 0 w.nodes m else m)

/-! ### Reading the points -/

/-- What is known of the points: `m_idVsNode`, `m_nodeIdVsPlanningIndex`,
`m_planningIndexVsNodeId`, `planningNodeIds` and `planinngIndex`
(OsmPlannerService.cpp 1052-1056). -/
structure Loaded where
  pos : Id → Option Pt
  ix : Id → Option Nat
  ids : Nat → Option Id
  planning : List Id
  count : Nat

/-- OsmPlannerService.cpp 1064-1112: a point of the file is loaded when it lies on a
road and is not there yet; if it is used for planning it gets the next index, from 1;
it gets a position if the file gives one. -/
def load1 (fl : Id → Option Bool) (L : Loaded) (el : NodeEl) : Loaded :=
  match fl el.id with
  | none => L
  | some b =>
    if (L.pos el.id).isSome then L
    else
      let L := if b then
          { L with
            planning := if el.id ∈ L.planning then L.planning else L.planning ++ [el.id]
            count := L.count + 1, ix := put L.ix el.id (some (L.count + 1))
            ids := put L.ids (L.count + 1) (some el.id) }
        else L
      match el.at_ with
      | some q => { L with pos := put L.pos el.id (some q) }
      | none => L

/-- OsmPlannerService.cpp 1061-1115: all points of the file. -/
def load (fl : Id → Option Bool) (els : List NodeEl) : Loaded :=
  els.foldl (load1 fl) ⟨fun _ => none, fun _ => none, fun _ => none, [], 0⟩

/-! ### Pieces of roads -/

/-- The order in which `std::unordered_multimap` gives back the points of a road
(`m_wayIdVsNodeId`, OsmPlannerService.h 233).  The standard leaves it open; the
libraries in use give them in the order they were put in or (GNU) the other way
round, and the planner depends on it being one of the two. -/
structure Order where
  f : Id → List Id → List Id
  ok : ∀ w l, f w l = l ∨ f w l = l.reverse

/-- OsmPlannerService.cpp 1002: the ids of the roads, in the order of the file. -/
def highways (ways : List Way) : List Id := (ways.filter (·.highway)).map (·.id)

/-- The points of the road `w`: `m_wayIdVsNodeId.equal_range(w)`
(OsmPlannerService.cpp 1015, 1202, 1382).  The points of roads with the same id are
together. -/
def pointsOf (o : Order) (ways : List Way) (w : Id) : List Id :=
  o.f w ((ways.filter fun v => v.highway && v.id == w).flatMap (·.nodes))

/-- OsmPlannerService.h 216-221, `s_EdgeIds`: a piece of a road. -/
structure Piece where
  nodes : List Id
  way : Id
  len : ℝ

/-- `m_nodeIdsVsEdgeNodeIds` (OsmPlannerService.h 235).  A multimap, but nothing is
put in for a pair that is already there. -/
abbrev Table := List ((Id × Id) × Piece)

/-- `m_nodeIdsVsEdgeNodeIds.find`. -/
def Table.get (T : Table) (k : Id × Id) : Option Piece :=
  (T.find? fun e => e.1 = k).map (·.2)

/-- OsmPlannerService.cpp 1234-1241 and 1245-1252: put in if the pair is not there. -/
def Table.add (T : Table) (k : Id × Id) (p : Piece) : Table :=
  match T.get k with
  | some _ => T
  | none => T ++ [(k, p)]

/-- What is kept while a road is followed: the first point of the piece
(`itEdgeFirst`), its points so far, forward and reverse, its length so far and the
position of the last point (OsmPlannerService.cpp 1196-1205). -/
structure Cut where
  first : Option Id
  fwd : List Id
  rev : List Id
  len : ℝ
  prev : Pt

/-- OsmPlannerService.cpp 1206-1290: a road is followed and cut at the points used
for planning; each piece is put in forward and reverse.  The position of a point that
was not loaded is looked up without a test (1215, 1225, 1272): undefined.  (The case
of a point without a flag, 1284-1289, does not arise: `flags_some`.) -/
noncomputable def cut (plan : Id → Bool) (pos : Id → Option Pt) (way : Id) :
    List Id → Cut → Table → Outcome Table
  | [], _, T => .ok T
  | x :: xs, c, T =>
    if plan x then
      match pos x with
      | none => .ub
      | some q =>
        match c.first with
        | none => cut plan pos way xs
            { c with first := some x, fwd := c.fwd ++ [x], rev := x :: c.rev, prev := q } T
        | some a =>
          let len := c.len + dist c.prev q
          let T := T.add (a, x) ⟨c.fwd ++ [x], way, len⟩
          let T := T.add (x, a) ⟨x :: c.rev, way, len⟩
          cut plan pos way xs ⟨some x, [x], [x], 0, q⟩ T
    else
      match c.first with
      | none => cut plan pos way xs c T
      | some _ =>
        match pos x with
        | none => .ub
        | some q => cut plan pos way xs
            { c with fwd := c.fwd ++ [x], rev := x :: c.rev, len := c.len + dist c.prev q, prev := q } T

/-- OsmPlannerService.cpp 1193-1291, `isProcessHighwayNodes`: all roads. -/
noncomputable def cutAll (o : Order) (ways : List Way) (plan : Id → Bool)
    (pos : Id → Option Pt) : List Id → Table → Outcome Table
  | [], T => .ok T
  | w :: ws, T =>
    (cut plan pos w (pointsOf o ways w) ⟨none, [], [], 0, ⟨0, 0⟩⟩ T).bind fun T =>
      cutAll o ways plan pos ws T

/-! ### The graph -/

/-- What is kept from road to road while the graph is laid: `currentWayId`,
`startIndex` and `m_edges` (OsmPlannerService.cpp 1374-1376). -/
structure Lay where
  cur : Id
  start : Nat
  edges : List Edge

/-- OsmPlannerService.cpp 1385-1457: a road is followed; `run` is
`runningLength_m` and `last` the position of the last point (`itLastNode`, at first
none, 1383-1384).  It is used without a test (1425, 1449): undefined when there is
none. -/
noncomputable def lay (plan : Id → Bool) (L : Loaded) (w : Id) :
    List Id → ℝ → Option Pt → Lay → Outcome Lay
  | [], _, _, y => .ok y
  | x :: xs, run, last, y =>
    if plan x then
      if w ≠ y.cur then
        match L.pos x, L.ix x with
        | some q, some i => lay plan L w xs run (some q) { y with cur := w, start := i }
        | _, _ => lay plan L w xs run last { y with cur := -1 }
      else
        match L.pos x, L.ix x with
        | some q, some j =>
          match last with
          | none => .ub
          | some r => lay plan L w xs run (some q)
              { y with start := j, edges := y.edges ++ [⟨y.start, j, ⌊dist q r + run⌋₊⟩] }
        | _, _ => lay plan L w xs run last y
    else
      match L.pos x with
      | none => lay plan L w xs run last y
      | some q =>
        match last with
        | none => .ub
        | some r => lay plan L w xs (run + dist q r) (some q) y

/-- OsmPlannerService.cpp 1380-1458: all roads. -/
noncomputable def layAll (o : Order) (ways : List Way) (plan : Id → Bool) (L : Loaded) :
    List Id → Lay → Outcome Lay
  | [], y => .ok y
  | w :: ws, y =>
    (lay plan L w (pointsOf o ways w) 0 none y).bind fun y => layAll o ways plan L ws y

/-- The number of vertices of the graph: as many as there are points used for
planning (OsmPlannerService.cpp 1467-1468), and as many as the edges need
(`boost::adjacency_list` adds vertices for edges beyond the last). -/
def vertices (n : Nat) (E : List Edge) : Nat :=
  E.foldl (fun n g => max n (max (g.a + 1) (g.b + 1))) n

/-- The map as it is kept: the points, the pieces and the graph. -/
structure RoadMap where
  pts : Loaded
  table : Table
  edges : List Edge
  size : Nat

/-- OsmPlannerService.cpp 945-1185, `isBuildRoadGraphWithOsm`, for the ways and nodes
of a file. -/
noncomputable def build (o : Order) (ways : List Way) (els : List NodeEl) : Outcome RoadMap :=
  let fl := flags ways fun _ => none
  let L := load fl els
  (cutAll o ways (fun x => fl x == some true) L.pos (highways ways) []).bind fun T =>
    (layAll o ways (fun x => decide (x ∈ L.planning)) L (highways ways) ⟨-1, 0, []⟩).bind fun y =>
      .ok ⟨L, T, y.edges, vertices L.planning.length y.edges⟩

/-! ### The nearest point -/

/-- A real number without its fraction: `static_cast<int32_t>` of a `double`. -/
noncomputable def trunc (x : ℝ) : Int := if 0 ≤ x then ⌊x⌋ else ⌈x⌉

/-- The cell of a point of the map (OsmPlannerService.cpp 1145-1147, 1156-1158; cells
are 100 m wide, 1135-1136). -/
noncomputable def cellOf (q : Pt) : Int × Int := (trunc (q.n / 100), trunc (q.e / 100))

/-- The cell where the search begins: whole metres first, then whole numbers divided
(OsmPlannerService.cpp 1606-1607). -/
noncomputable def cellAt (q : Pt) : Int × Int := ((trunc q.n).tdiv 100, (trunc q.e).tdiv 100)

/-- OsmPlannerService.cpp 1681-1702, the loop of `isExamineCell`, over the points of a
cell with their positions: a point is taken if it is nearer.  (Points of the cells
all have positions, so the branch 1696-1701 is not taken.) -/
noncomputable def nearer (p : Pt) : Option (Id × ℝ) → List (Id × Pt) → Option (Id × ℝ)
  | best, [] => best
  | best, (i, q) :: l =>
    let d := dist p q
    nearer p (match best with
      | none => some (i, d)
      | some b => open Classical in if d < b.2 then some (i, d) else some b) l

/-- The points of a cell, in the order of the list
(`cellVsNodeIds.equal_range`, OsmPlannerService.cpp 1680-1681). -/
noncomputable def inCell (pts : List (Id × Pt)) (c : Int × Int) : List (Id × Pt) :=
  open Classical in pts.filter fun x => cellOf x.2 = c

/-- The whole numbers from `a` on, `k` of them. -/
def upFrom (a : Int) (k : Nat) : List Int := (List.range k).map fun i : Nat => a + (i : Int)

/-- OsmPlannerService.cpp 1643-1667: the cells on the border of a square around `c`, in
the order they are examined; cells may come twice. -/
def square (c : Int × Int) (r : Nat) : List (Int × Int) :=
  (upFrom (c.1 - r) (2 * r + 1)).flatMap (fun n => [(n, c.2 - r), (n, c.2 + r)]) ++
    (upFrom (c.2 - r + 1) (2 * r)).flatMap fun e => [(c.1 - r, e), (c.1 + r, e)]

/-- OsmPlannerService.cpp 1619, `nodeId > 0` (it is −1 at first). -/
def hasId : Option (Id × ℝ) → Bool
  | none => false
  | some b => decide (0 < b.1)

/-- OsmPlannerService.cpp 1611-1628: squares around the cell of the position, one after
the other, until a point with a positive id is found (not before the second square)
or eleven squares are examined; `left` is the number of squares left. -/
noncomputable def rings (pts : List (Id × Pt)) (p : Pt) (c : Int × Int) :
    Nat → Nat → Option (Id × ℝ) → Option (Id × ℝ)
  | 0, _, best => best
  | left + 1, r, best =>
    let best := (square c r).foldl (fun b k => nearer p b (inCell pts k)) best
    if hasId best && decide (0 < r) then best
    else rings pts p c left (r + 1) best

/-- OsmPlannerService.cpp 1596-1631, `isFindClosestNodeId`: the point found and its
distance.  (At first the id is −1 and the length the largest number; here: none.) -/
noncomputable def closest (pts : List (Id × Pt)) (p : Pt) : Option (Id × ℝ) :=
  rings pts p (cellAt p) 11 0 none

/-! ### The route between two points used for planning -/

/-- OsmPlannerService.h 328-343, the estimate of the rest: the distance in a straight
line in whole metres; the largest number for vertices without a position. -/
noncomputable def estimate (L : Loaded) (goal : Pt) (v : Nat) : Nat :=
  match (L.ids v).bind L.pos with
  | some q => ⌊dist goal q⌋₊
  | none => 2 ^ 63 - 1

/-- OsmPlannerService.cpp 1512-1594, `isFindShortestRoute`: the length and the points of
the route, or none.  A vertex that the graph does not have is used without a test
(1530-1548): undefined. -/
noncomputable def shortest (M : RoadMap) (c : Chooser) (a b : Id) :
    Outcome (Option (Nat × List Id)) :=
  match M.pts.ix a, M.pts.ix b, M.pts.pos b with
  | some s, some g, some q =>
    if s < M.size ∧ g < M.size then
      match astar M.edges c (estimate M.pts q) M.size s g with
      | .found t =>
        match trace M.pts.ids t.p M.size g [] with
        | (true, l) => .ok (some (t.d g, l))
        | (false, _) => .ok none
      | .empty _ => .ok none
      | .spent => .ok none
    else .ub
  | _, _, _ => .ok none

end Verif.Roads
