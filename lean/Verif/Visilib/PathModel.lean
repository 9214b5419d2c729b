/-
The shortest path in an environment of VisiLibity: `Environment::shortest_path`
(src/cpp/VisilibityLib/visilibity.cpp 2411-2723), a search of the visibility graph.

Simplifications: which corners see which, and which are seen from the start and the
finish, is given (the visibility polygons are not modelled), and so is the distance,
since it is a square root.  A pointer into the search tree is the index of the vertex it
points to: there is one entry for each.
-/
import Verif.Visilib.Model

namespace Verif.Visilib

open Verif.Visibility (Pt)

/-- What is searched: `n` corners (0 to `n - 1`), the start (`n`) and the finish (`n + 1`),
visilibity.cpp 2468-2469. -/
structure Graph where
  n : Nat
  /-- visilibity.h 1517: the corners, by `operator ()`; and the start and the finish. -/
  pos : Nat → Pt
  /-- visilibity.cpp 2558: whether corners see each other, by the visibility graph. -/
  see : Nat → Nat → Bool
  /-- visilibity.cpp 2444-2447: whether a corner is seen from the start. -/
  fromStart : Nat → Bool
  /-- visilibity.cpp 2448-2451: whether a corner is seen from the finish. -/
  toFinish : Nat → Bool
  /-- visilibity.cpp 2430: whether the finish is seen from the start. -/
  direct : Bool
  /-- visilibity.cpp 509: `distance`. -/
  dist : Pt → Pt → Rat

/-- visilibity.h 1732-1746: `Shortest_Path_Node`, without the pointer to itself and the
estimate, which is a function of the vertex. -/
structure Node where
  v : Nat
  par : Nat
  cost : Rat
deriving DecidableEq, Repr

/-- visilibity.cpp 1462-1468: `Polyline::length`, of a path that is not empty. -/
def pathLength (dist : Pt → Pt → Rat) : List Pt → Rat
  | a :: b :: l => dist a b + pathLength dist (b :: l)
  | _ => 0

namespace Graph

variable (g : Graph)

/-- visilibity.cpp 2472, 2541, 2565, 2583: `estimated_cost_to_go`. -/
def est (v : Nat) : Rat := if v = g.n + 1 then 0 else g.dist (g.pos v) (g.pos (g.n + 1))

/-- visilibity.h 1750-1751: what the queue is ordered by. -/
def f (c : Node) : Rat := c.cost + g.est c.v

/-- visilibity.h 1748-1765: `operator <`.  The address of the parent, by which two
entries of the same vertex are ordered, is left out: the queue never holds two. -/
def before (a b : Node) : Bool := g.f a < g.f b || (g.f a == g.f b && a.v < b.v)

/-- visilibity.cpp 2491: the first element of the queue. -/
def least : Node → List Node → Node
  | a, [] => a
  | a, b :: l => if g.before b a then least b l else least a l

/-- visilibity.cpp 2479, 2635, 2655, 2660: `Q.insert`, which does nothing if there is an
equal element. -/
def insert (c : Node) (q : List Node) : List Node :=
  if q.any fun d => d.v == c.v && d.par == c.par && g.f d == g.f c then q else c :: q

/-- visilibity.cpp 2532-2593: the children of a node. -/
def children (c : Node) : List Node :=
  if c.v = g.n then
    ((List.range g.n).filter g.fromStart).map fun i => ⟨i, c.v, g.dist (g.pos g.n) (g.pos i)⟩
  else
    (((List.range g.n).filter fun i => c.v != i && g.see c.v i).map fun i =>
      ⟨i, c.v, c.cost + g.dist (g.pos c.v) (g.pos i)⟩) ++
    if g.toFinish c.v then [⟨g.n + 1, c.v, c.cost + g.dist (g.pos c.v) (g.pos (g.n + 1))⟩] else []

/-- visilibity.cpp 2639-2644: the entry of a vertex in the tree is given the parent and
the cost of the child. -/
def redirect (c : Node) : List Node → List Node
  | [] => []
  | t :: l => if t.v = c.v then c :: l else t :: redirect c l

/-- visilibity.cpp 2618-2660: a child is taken into the tree and the queue. -/
def process (s : List Node × List Node) (c : Node) : List Node × List Node :=
  match s.1.find? (·.v == c.v) with
  | none => (s.1 ++ [c], g.insert c (g.insert c s.2))
  | some t =>
    if c.cost < t.cost then (redirect c s.1, g.insert c (s.2.eraseP (·.v == c.v)))
    else s

/-- visilibity.cpp 2488-2669: the main loop, with the tree and the queue: the node of the
finish, if it is found, and the tree; `none` if it has not ended after `fuel` rounds. -/
def loop : Nat → List Node → List Node → Option (Option Node × List Node)
  | 0, _, _ => none
  | _ + 1, t, [] => some (none, t)
  | fuel + 1, t, q :: qs =>
    let c := g.least q qs
    let q' := (q :: qs).erase c
    if c.v = g.n + 1 then some (some c, t)
    else
      let s := (g.children c).foldl g.process (t, q')
      loop fuel s.1 s.2

/-- visilibity.cpp 2686-2708: tracing back from a vertex; `out` is what is to follow, not
empty.  `none` if it has not ended after `fuel` rounds, or is at a vertex that is not in
the tree. -/
def trace (eps : Rat) (t : List Node) : Nat → Nat → List Pt → Option (List Pt)
  | 0, _, _ => none
  | fuel + 1, v, out =>
    match t.find? (·.v == v) with
    | none => none
    | some c =>
      let w := g.pos v
      let out := match out with
        | p :: _ => if eps < g.dist p w then w :: out else out
        | [] => out
      if c.cost = 0 then some out else trace eps t fuel c.par out

/-- visilibity.cpp 2466-2478: the first node; the start is its own parent. -/
def root : Node := ⟨g.n, g.n, 0⟩

/-- visilibity.cpp 2411-2723: `Environment::shortest_path`, with `fuel` rounds at most of
each loop. -/
def shortest (eps : Rat) (fuel : Nat) : Option (List Pt) :=
  let start := g.pos g.n
  let finish := g.pos (g.n + 1)
  if g.dist start finish ≤ eps then some [start]
  else if g.direct then some [start, finish]
  else match g.loop fuel [g.root] [g.root] with
    | none => none
    | some (none, _) => some []
    | some (some c, t) => g.trace eps t fuel c.par [finish]

end Graph

end Verif.Visilib
