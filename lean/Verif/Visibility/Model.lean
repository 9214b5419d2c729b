/-
The visibility graph of an operating region and the search for the shortest
route in it (src/cpp/Plans/VisibilityGraph.cpp, Polygon.cpp, Polygon.h,
Edge.cpp), as used by the visibility route planner.

Positions are exact rational numbers of metres north and east.  A `double` is a
rational; the model computes with it exactly and leaves rounding out.
-/
import Verif.Common

namespace Verif.Visibility

/-- src/cpp/Plans/Position.h 56-62, 273-274: a position, in metres north and
east.  Simplification: altitude, latitude and longitude are left out; planning
is two-dimensional. -/
structure Pt where
  n : Rat
  e : Rat
deriving DecidableEq, Repr, Inhabited

/-- src/cpp/Plans/Position.h 85, 275-276: `CPosition()`. -/
def Pt.origin : Pt := ⟨0, 0⟩

/-- src/cpp/Plans/Edge.cpp 37: `(a == 0) ? 1 : a / fabs(a)`. -/
def signOf (a : Rat) : Int := if a = 0 then 1 else if a < 0 then -1 else 1

/-- src/cpp/Plans/Edge.cpp 101-104, 107-108: the value of
`a x + b y + c` at `p`, for the line through `u` and `v`. -/
def lineAt (u v p : Pt) : Rat :=
  (v.n - u.n) * p.e + (u.e - v.e) * p.n + (v.e * u.n - u.e * v.n)

/-- src/cpp/Plans/Edge.cpp 134: `a1 * b2 - a2 * b1`. -/
def denom (a b c d : Pt) : Rat :=
  (b.n - a.n) * (c.e - d.e) - (d.n - c.n) * (a.e - b.e)

/-- src/cpp/Plans/Edge.cpp 39-160: `CEdge::bFindIntersection`, whether the
segments `a b` and `c d` intersect.  The point of intersection is `crossing`. -/
def crosses (a b c d : Pt) : Bool :=
  let r₃ := lineAt a b c
  let r₄ := lineAt a b d
  if r₃ ≠ 0 ∧ r₄ ≠ 0 ∧ signOf r₃ = signOf r₄ then false
  else
    let r₁ := lineAt c d a
    let r₂ := lineAt c d b
    if r₁ ≠ 0 ∧ r₂ ≠ 0 ∧ signOf r₁ = signOf r₂ then false
    else if denom a b c d = 0 then false
    else true

/-- src/cpp/Plans/Edge.cpp 138-153: the point that `CEdge::bFindIntersection`
reports, when it finds the segments to intersect. -/
def crossing (a b c d : Pt) : Pt :=
  let a₁ := b.n - a.n
  let b₁ := a.e - b.e
  let c₁ := b.e * a.n - a.e * b.n
  let a₂ := d.n - c.n
  let b₂ := c.e - d.e
  let c₂ := d.e * c.n - c.e * d.n
  let den := a₁ * b₂ - a₂ * b₁
  let offset := if den < 0 then -den / 2 else den / 2
  let numX := b₁ * c₂ - b₂ * c₁
  let numY := a₂ * c₁ - a₁ * c₂
  { e := (if numX < 0 then numX - offset else numX + offset) / den
    n := (if numY < 0 then numY - offset else numY + offset) / den }

/-- src/cpp/Plans/Edge.h 44-102: an edge between two numbered vertices, with its
length in whole metres. -/
structure Edge where
  a : Nat
  b : Nat
  len : Nat
deriving DecidableEq, Repr

/-- src/cpp/Plans/Polygon.h 662-676: a zone of the region: whether it is to be
kept in, its vertices by number, and its edges. -/
structure Poly where
  keepIn : Bool
  verts : List Nat
  edges : List Edge
deriving DecidableEq, Repr

/-- VisibilityGraph.h 779-783: src/cpp/Plans/VisibilityGraph.h: the vertices of all zones
(`vposGetVerticiesBase`), the zones, and the edges of the base graph
(`veGetEdgesVisibleBase`). -/
structure Graph where
  pts : List Pt
  polys : List Poly
  base : List Edge
deriving DecidableEq, Repr

/-- VisibilityGraph.h 708-714: the position of vertex number `i`
(`vposGetVerticiesBase()[i]`). Numbers of vertices are below the number of positions in
every graph that `build` makes (`verts_bound`, `base_bound`), so the default is not used.
-/
def pt (pts : List Pt) (i : Nat) : Pt := pts.getD i .origin

/-- src/cpp/Plans/Edge.cpp 163-187, 189-213: `CEdge::bIntersection`: an edge
that has a vertex in common with the segment is not tested.  `none` stands for
the index -1. -/
def Edge.hits (pts : List Pt) (g : Edge) (p q : Pt) (i j : Option Nat) : Bool :=
  if some g.a = i ∨ some g.a = j ∨ some g.b = i ∨ some g.b = j then false
  else crosses (pt pts g.a) (pt pts g.b) p q

/-- src/cpp/Plans/VisibilityGraph.cpp 605-621:
`CVisibilityGraph::bFindIntersection`; also the loops of Polygon.h 595-608 with
Polygon.cpp 404-414 and 460-470, which ask the zones in another order. -/
def blocked (pts : List Pt) (polys : List Poly) (p q : Pt) (i j : Option Nat) : Bool :=
  polys.any fun z => z.edges.any fun g => g.hits pts p q i j

/-! ### The shape of a zone -/

/-- src/cpp/Plans/Polygon.h 564-572: `Compare`. -/
def compare (p q : Pt) : Int :=
  if p.n < q.n then -1 else if q.n < p.n then 1
  else if p.e < q.e then -1 else if q.e < p.e then 1 else 0

/-- src/cpp/Plans/Polygon.h 554-562: `WhichSide`. -/
def whichSide (p q r : Pt) : Int :=
  let result := (p.n - q.n) * (q.e - r.e) - (p.e - q.e) * (q.n - r.n)
  if result < 0 then -1 else if 0 < result then 1 else 0

/-- src/cpp/Plans/Polygon.h 282-289: `enPolygonClassification`. -/
inductive Class
  | notConvex | notConvexDegenerate | convexDegenerate | convexCCW | convexCW
deriving DecidableEq, Repr

/-- Polygon.cpp 179-227: the variables of `CPolygon::errCheckForConcavity`. -/
structure Scan where
  first : Pt
  second : Pt
  dir : Int
  angle : Int := 0
  changes : Nat := 0
deriving DecidableEq, Repr

/-- src/cpp/Plans/Polygon.cpp 228-244, 255-271, 274-290: `CheckTriple`; `none`
when the zone turns both ways. -/
def Scan.triple (s : Scan) (third : Pt) : Option Scan :=
  let dir := compare s.second third
  let sign := whichSide s.first s.second third
  if sign ≠ 0 ∧ s.angle = -sign then none
  else some { first := s.second, second := third, dir := dir
              angle := if sign ≠ 0 then sign else s.angle
              changes := if dir = -s.dir then s.changes + 1 else s.changes }

/-- Polygon.cpp 228-290: the triples, one after the other. -/
def Scan.triples (s : Scan) : List Pt → Option Scan
  | [] => some s
  | p :: ps => match s.triple p with
    | none => none
    | some t => t.triples ps

/-- src/cpp/Plans/Polygon.cpp 179-311: `CPolygon::errCheckForConcavity`. -/
def classify : List Pt → Class
  | [] => .convexDegenerate
  | [_] => .convexDegenerate
  | a :: b :: rest =>
    let close := if compare ((b :: rest).getLast (by simp)) a ≠ 0 then [a] else []
    match ({ first := a, second := b, dir := compare a b : Scan }).triples (rest ++ close ++ [b]) with
    | none => .notConvex
    | some s =>
      if s.changes > 2 then (if s.angle ≠ 0 then .notConvex else .notConvexDegenerate)
      else if s.angle > 0 then .convexCCW
      else if s.angle < 0 then .convexCW
      else .convexDegenerate

section Build

/-- Not in the code: what the construction of the graph takes from elsewhere: the length
of a segment in whole metres (`static_cast<int>(relativeDistance2D_m)`), and whether a
point is inside a zone (`CPolygon::InPolygon`, CGrid.cpp). -/
structure Geo where
  len : Pt → Pt → Nat
  inside : List Pt → Pt → Bool

variable (geo : Geo)

/-- src/cpp/Plans/Polygon.h 441-452: the edges of a zone, from each vertex to
the next and from the last to the first. -/
def ring (pts : List Pt) (vs : List Nat) : List Edge :=
  (vs.zip (vs.drop 1 ++ vs.take 1)).map fun p =>
    { a := p.1, b := p.2, len := geo.len (pt pts p.1) (pt pts p.2) }

/-- src/cpp/Plans/VisibilityGraph.cpp 152-180: the corners of the zones are
numbered in order. -/
def number : Nat → List (Bool × List Pt) → List (Bool × List Nat)
  | _, [] => []
  | k, z :: zs => (z.1, List.range' k z.2.length) :: number (k + z.2.length) zs

/-- src/cpp/Plans/VisibilityGraph.cpp 152-180 and VisibilityGraph.h 266-278: the
vertices and the zones after they have been merged.  Simplification: the
growing and merging of zones (VisiLibity, 90-145) is left out; `zs` are the
zones that result, those to be kept in first. -/
def layout (zs : List (Bool × List Pt)) : List Pt × List Poly :=
  let pts := zs.flatMap (·.2)
  (pts, (number 0 zs).map fun z => { keepIn := z.1, verts := z.2, edges := ring geo pts z.2 })

/-- The point half-way (Polygon.cpp 339-340, 385-386, VisibilityGraph.cpp
236-238). -/
def mid (p q : Pt) : Pt := ⟨(q.n - p.n) / 2 + p.n, (q.e - p.e) / 2 + p.e⟩

/-- VisibilityGraph.cpp 245-247, 638: `itPolygon->InPolygon(p)`. -/
def within (pts : List Pt) (z : Poly) (p : Pt) : Bool :=
  geo.inside (z.verts.map (pt pts)) p

/-- src/cpp/Plans/VisibilityGraph.cpp 229-254: whether an edge of a zone to be
kept out of lies on one side of every boundary of a zone to be kept in. -/
def oneSide (pts : List Pt) (polys : List Poly) (g : Edge) : Bool :=
  (polys.filter (·.keepIn)).all fun z =>
    let one := within geo pts z (pt pts g.a)
    let two := within geo pts z (pt pts g.b)
    let three := within geo pts z (mid (pt pts g.a) (pt pts g.b))
    one == two && one == three

/-- src/cpp/Plans/VisibilityGraph.cpp 213-261: the edges of the zones. -/
def boundaryEdges (pts : List Pt) (polys : List Poly) : List Edge :=
  polys.flatMap fun z =>
    if z.keepIn then z.edges else z.edges.filter (oneSide geo pts polys)

/-- src/cpp/Plans/Polygon.cpp 371-426: `CPolygon::errFindVisibleEdges`. -/
def visibleEdges (pts : List Pt) (polys : List Poly) (y z : Poly) : List Edge :=
  y.verts.flatMap fun u => z.verts.filterMap fun v =>
    if y.keepIn && !within geo pts y (mid (pt pts u) (pt pts v)) then none
    else if blocked pts polys (pt pts u) (pt pts v) (some u) (some v) then none
    else some { a := u, b := v, len := geo.len (pt pts u) (pt pts v) }

/-- src/cpp/Plans/VisibilityGraph.cpp 283-292: each zone with each later one. -/
def pairEdges (pts : List Pt) (polys : List Poly) : List Poly → List Edge
  | [] => []
  | y :: zs => zs.flatMap (visibleEdges geo pts polys y) ++ pairEdges pts polys zs

/-- src/cpp/Plans/Polygon.cpp 322-366: the pairs of an earlier and a later
vertex. -/
def laterPairs : List Nat → List (Nat × Nat)
  | [] => []
  | u :: us => us.map (fun v => (u, v)) ++ laterPairs us

/-- src/cpp/Plans/Polygon.cpp 315-369: `CPolygon::errFindSelfVisibleEdges`. -/
def selfEdges (pts : List Pt) (z : Poly) : List Edge :=
  if classify (z.verts.map (pt pts)) = .notConvex then
    (laterPairs z.verts).filterMap fun p =>
      if z.edges.any (fun g => (g.a = p.1 ∧ g.b = p.2) ∨ (g.a = p.2 ∧ g.b = p.1)) then none
      else if within geo pts z (mid (pt pts p.1) (pt pts p.2)) != z.keepIn then none
      else if z.edges.any (fun g => g.hits pts (pt pts p.1) (pt pts p.2) (some p.1) (some p.2))
        then none
      else some { a := p.1, b := p.2, len := geo.len (pt pts p.1) (pt pts p.2) }
  else []

/-- src/cpp/Plans/Polygon.cpp 436-477: the edges that one call of
`CPolygon::errAddExtraVisibleEdges` takes over.  Simplification: each call finds
the same edges again and adds them once more to those already found, so that the
code adds some edges more often; parallel edges of one length do not matter to
the search. -/
def extraEdges (pts : List Pt) (polys : List Poly) (z : Poly) : List Edge :=
  (selfEdges geo pts z).filter fun g =>
    !(z.keepIn && !within geo pts z (mid (pt pts g.a) (pt pts g.b))) &&
    !blocked pts polys (pt pts g.a) (pt pts g.b) (some g.a) (some g.b)

/-- src/cpp/Plans/VisibilityGraph.cpp 189-322:
`CVisibilityGraph::errBuildVisibilityGraph`. -/
def build (zs : List (Bool × List Pt)) : Graph :=
  let pts := (layout geo zs).1
  let polys := (layout geo zs).2
  { pts := pts
    polys := polys
    base := boundaryEdges geo pts polys ++ pairEdges geo pts polys polys ++
      polys.flatMap (extraEdges geo pts polys) }

end Build

/-! ### The search -/

/-- For VisibilityGraph.cpp 549-601, the length of no path in boost's tables:
`std::numeric_limits<int32_t>::max()`. -/
def intMax : Nat := 2147483647

/-- What `errInitializeGraphBase` keeps (VisibilityGraph.cpp 549-601): for each
start vertex the distances of all vertices and their parents
(`vviGetVertexDistancesBase`, `vvvtxGetVertexParentBase`). -/
structure Tables where
  dist : Nat → Nat → Nat
  parent : Nat → Nat → Nat

/-- src/cpp/Plans/PathInformation.h 50-140: a path: the first and the last
vertex on it (-1 for none), its length and its ends. -/
structure Path where
  first : Int := -1
  last : Int := -1
  len : Int := -1
  start : Pt := .origin
  stop : Pt := .origin
deriving DecidableEq, Repr

/-- src/cpp/Plans/VisibilityGraph.cpp 758-779: the vertices that can be seen
from `p`, in ascending order (`std::map`), with the length of the leg. -/
def fromStart (geo : Geo) (g : Graph) (p : Pt) : List (Nat × Nat) :=
  ((List.range g.pts.length).filter fun v =>
    g.polys.any (fun z => z.edges.any (fun x => x.a = v)) &&
    !blocked g.pts g.polys p (pt g.pts v) none (some v)).map
      fun v => (v, geo.len p (pt g.pts v))

/-- src/cpp/Plans/VisibilityGraph.cpp 784-804: the vertices from which `q` can
be seen. -/
def toEnd (geo : Geo) (g : Graph) (q : Pt) : List (Nat × Nat) :=
  ((List.range g.pts.length).filter fun v =>
    g.polys.any (fun z => z.edges.any (fun x => x.a = v)) &&
    !blocked g.pts g.polys (pt g.pts v) q (some v) none).map
      fun v => (v, geo.len q (pt g.pts v))

/-- VisibilityGraph.cpp 820-841: a way through the base graph: its first and last vertex
and the length of the whole route by it. -/
structure Cand where
  u : Nat
  v : Nat
  total : Nat
deriving DecidableEq, Repr

/-- src/cpp/Plans/VisibilityGraph.cpp 820-841: all ways, in the order in which
they are tried. -/
def candidates (t : Tables) (ss es : List (Nat × Nat)) : List Cand :=
  ss.flatMap fun s => es.map fun e =>
    { u := s.1, v := e.1, total := s.2 + t.dist s.1 e.1 + e.2 }

/-- src/cpp/Plans/VisibilityGraph.cpp 843-851: the shortest way so far is
replaced by a shorter one.  The cast of its length to `int` is undefined when it
does not fit. -/
def pick : Option Cand → List Cand → Outcome (Option Cand)
  | best, [] => .ok best
  | best, c :: cs =>
    if (match best with
        | none => true
        | some b => decide (c.total < b.total)) then
      if c.total ≤ intMax then pick (some c) cs else .ub
    else pick best cs

/-- src/cpp/Plans/VisibilityGraph.cpp 662-676, 724-860 and 1076-1085:
`CVisibilityGraph::isFindPath`, which always succeeds: `errFindShortestPathLinear`
returns no error.  When there is no way at all the result is a path as
constructed by default. -/
def findPath (geo : Geo) (g : Graph) (t : Tables) (p q : Pt) : Outcome Path :=
  if !blocked g.pts g.polys p q none none then
    .ok { len := geo.len p q, start := p, stop := q }
  else
    match pick none (candidates t (fromStart geo g p) (toEnd geo g q)) with
    | .ok none => .ok {}
    | .ok (some c) => .ok { first := c.u, last := c.v, len := c.total, start := p, stop := q }
    | .throws => .throws
    | .ub => .ub

/-- src/cpp/Plans/VisibilityGraph.cpp 1440-1459: back along the parents, from
`cur` to `root`; `left` further steps may be made.  `acc` are the positions
after.  `none` is `errPathConstruction`. -/
def walkBack (pts : List Pt) (par : Nat → Nat) (root : Nat) : Nat → Nat → List Pt → Option (List Pt)
  | left, cur, acc =>
    if cur = root then some (pt pts root :: acc)
    else match left with
      | 0 => none
      | left + 1 => walkBack pts par root left (par cur) (pt pts cur :: acc)

/-- src/cpp/Plans/VisibilityGraph.cpp 1306-1459: the positions that a route
takes: straight to the end, or over the vertices of the base graph
(`dposPathPositions`; the start is added here).  `none` when the path could not
be constructed. -/
def positions (g : Graph) (t : Tables) (r : Path) : Option (List Pt) :=
  if r.first < 0 then some [r.start, r.stop]
  else
    (walkBack g.pts (t.parent r.first.toNat) r.first.toNat (g.pts.length + 1)
      (t.parent r.first.toNat r.last.toNat) [pt g.pts r.last.toNat, r.stop]).map
        fun ps => r.start :: ps

end Verif.Visibility
