import Mathlib.Data.Rat.Floor
import Mathlib.Algebra.Order.Field.Rat
import Mathlib.Tactic.Linarith
import Mathlib.Tactic.Ring
import Mathlib.Tactic.FieldSimp

/-!
# Points in polygons: the grid of `CGrid` (C193)

`src/cpp/Plans/Polygon.cpp` 48-177 (`CPolygon::InPolygon`, `GridTest`, `PointInBoundingBox`, `FindPolygonBoundingBox`) and
`src/cpp/Plans/CGrid.{h,cpp}` (the constructor, `Setup_Corner_Value`, `Setup_GridData`, `InPolygon`).

Simplifications.  Numbers are rational and are not rounded.  The constructor measures the way along an edge in metres, from 0 to
`tmax = sqrt(xdiff² + ydiff²)`; here it is measured in shares of the edge, from 0 to 1, so that no square root is needed: every quantity
compared is the one of the code divided by `tmax`.  `dHUGE`, as a way to a line that is never reached, is `none`.  The three distances of the
last test (CGrid.cpp 805-812) are a parameter, `near`.  The altitude is not used by the code.  Messages to `sstrErrorMessage` are left out.
-/

namespace Verif.Grid

/-- src/cpp/Plans/Position.h: `CPosition`, north (`x`) and east (`y`). -/
structure Pt where
  x : ℚ
  y : ℚ
deriving DecidableEq, Repr

/-- src/cpp/Plans/Polygon.h 711-712: `posminBBoxPoint`, `posmaxBBoxPoint`. -/
structure Box where
  lo : Pt
  hi : Pt
deriving DecidableEq, Repr

/-- How a step of the code ends: with a value, with `Setup_GridData` refusing a piece (`corner`), with `std::out_of_range` of `vector::at`
(`throws`), with undefined behaviour (`ub`), or not within the steps given (`long`). -/
inductive Res (α : Type) where
  | ok (a : α)
  | corner
  | throws
  | ub
  | long
deriving DecidableEq, Repr

/-- Not in the code: sequencing. -/
def Res.bind {α β : Type} : Res α → (α → Res β) → Res β
  | .ok a, f => f a
  | .corner, _ => .corner
  | .throws, _ => .throws
  | .ub, _ => .ub
  | .long, _ => .long

/-- Polygon.cpp 150-161: one vertex of the loop. -/
def widen (b : Box) (v : Pt) : Box :=
  let nx : ℚ × ℚ := if b.lo.x > v.x then (v.x, b.hi.x) else if b.hi.x ≤ v.x then (b.lo.x, v.x) else (b.lo.x, b.hi.x)
  let ny : ℚ × ℚ := if b.lo.y > v.y then (v.y, b.hi.y) else if b.hi.y ≤ v.y then (b.lo.y, v.y) else (b.lo.y, b.hi.y)
  ⟨⟨nx.1, ny.1⟩, ⟨nx.2, ny.2⟩⟩

/-- Polygon.cpp 136-177: `FindPolygonBoundingBox`, for a polygon whose first vertex is `v`. -/
def boundingBox (v : Pt) (vs : List Pt) : Box :=
  let b := (v :: vs).foldl widen ⟨v, v⟩
  let dx := (b.hi.x - b.lo.x) / 100000
  let dy := (b.hi.y - b.lo.y) / 100000
  ⟨⟨b.lo.x - dx, b.lo.y - dy⟩, ⟨b.hi.x + dx, b.hi.y + dy⟩⟩

/-- Polygon.cpp 124-131: `PointInBoundingBox`. -/
def inBox (b : Box) (p : Pt) : Bool := decide (b.lo.x ≤ p.x ∧ p.x ≤ b.hi.x ∧ b.lo.y ≤ p.y ∧ p.y ≤ b.hi.y)

/-- CGrid.cpp 133, 135: `xdelta`, for five cells (Polygon.cpp 109). -/
def Box.dx (b : Box) : ℚ := (b.hi.x - b.lo.x) / 5

/-- CGrid.cpp 135: `ydelta`. -/
def Box.dy (b : Box) : ℚ := (b.hi.y - b.lo.y) / 5

/-- CGrid.cpp 139-142: `glx`. -/
def Box.gx (b : Box) (i : ℤ) : ℚ := if i = 5 then b.hi.x else b.lo.x + i * b.dx

/-- CGrid.cpp 144-146: `gly`. -/
def Box.gy (b : Box) (j : ℤ) : ℚ := if j = 5 then b.hi.y else b.lo.y + j * b.dy

/-- CGrid.h 45: `Near`, with the epsilon of CGrid.cpp 102. -/
def nearly (a b : ℚ) : Bool := decide (b - 1 / 10 ^ 9 < a ∧ a - 1 / 10 ^ 9 < b)

/-- CGrid.cpp 103: `dHUGE`, as a slope. -/
def huge : ℚ := 1797693134862315 * 10 ^ 293

/-- CGrid.h 53-60: `CellData`: the part of an edge in a cell, from `a` to `b`, and the ends of the edge.  The minima, maxima, differences and slopes the
code keeps are computed from these (`Setup_GridData` 535-589). -/
structure Piece where
  a : Pt
  b : Pt
  va : Pt
  vb : Pt
deriving DecidableEq, Repr

/-- CGrid.cpp 526-540: `slope`. -/
def Piece.slope (p : Piece) : ℚ :=
  if nearly p.a.y p.b.y then huge else if nearly p.a.x p.b.x then 0 else (p.b.x - p.a.x) / (p.b.y - p.a.y)

/-- CGrid.cpp 526-540: `inv_slope`. -/
def Piece.invSlope (p : Piece) : ℚ :=
  if nearly p.a.y p.b.y then 0 else if nearly p.a.x p.b.x then huge else (p.b.y - p.a.y) / (p.b.x - p.a.x)

/-- CGrid.cpp 521-525: what `Setup_GridData` refuses. -/
def Piece.refused (p : Piece) : Bool := nearly p.a.y p.b.y && nearly p.a.x p.b.x

/-- CGrid.h 86-95: the sides of a cell. -/
inductive Side where
  | l | r | b | t
deriving DecidableEq, Repr

/-- What the constructor does to the cells, in order: `gc_flags |= GC_x_EDGE_HIT`, `gc_flags ^= GC_T_EDGE_PARITY`, and adding to `Data`.
(`GC_B_EDGE_PARITY` is never read.) -/
inductive Ev where
  | hit (cell : ℤ) (s : Side)
  | parity (cell : ℤ)
  | piece (cell : ℤ) (p : Piece)
deriving DecidableEq, Repr

/-- CGrid.cpp 153-166: the variables of the loop over the cells along an edge. -/
structure Walk where
  i : ℤ
  j : ℤ
  tx : Option ℚ
  ty : Option ℚ
  t : ℚ
  at' : Pt
deriving DecidableEq, Repr

/-- CGrid.cpp 232: `tx <= ty`. -/
def xFirst : Option ℚ → Option ℚ → Bool
  | some a, some b => decide (a ≤ b)
  | some _, none => true
  | none, some _ => false
  | none, none => true

/-- CGrid.cpp 192, 200: the sign of the way north. -/
def signX (va vb : Pt) : ℤ := if va.x = vb.x then 0 else if va.x < vb.x then 1 else -1

/-- CGrid.cpp 201, 204: `tgcx`: the way from one line to the next. -/
def tgcx (b : Box) (va vb : Pt) : Option ℚ :=
  if va.x = vb.x then none else some ((if va.x < vb.x then b.dx else -b.dx) * (1 / (vb.x - va.x)))

/-- CGrid.cpp 214: `tgcy`. -/
def tgcy (b : Box) (va vb : Pt) : Option ℚ := if va.y = vb.y then none else some (b.dy * (1 / (vb.y - va.y)))

/-- `VGrid.at`: the cells are numbered row by row, five in each. -/
def cellOf (i j : ℤ) : Res ℤ := if 0 ≤ j * 5 + i ∧ j * 5 + i < 25 then .ok (j * 5 + i) else .throws

/-- Reading one of the six entries of `glx` or `gly`. -/
def line (g : ℤ → ℚ) (k : ℤ) : Res ℚ := if 0 ≤ k ∧ k ≤ 5 then .ok (g k) else .ub

/-- CGrid.cpp 230-358: the loop over the cells along an edge from `va` to `vb`; at most the given number of steps.  `cur` is the number of the
cell `p_gc` points to. -/
def walk (b : Box) (va vb : Pt) : ℕ → ℤ → Walk → Res (List Ev)
  | 0, _, _ => .long
  | n + 1, cur, w =>
    if xFirst w.tx w.ty then
      match w.tx with
      | none => .ub
      | some τ =>
        let i' := w.i + signX va vb
        let t' := w.t + τ
        let ty' := w.ty.map (· - τ)
        if t' < 1 then
          (line b.gx (if 0 < signX va vb then i' else i' + 1)).bind fun x1 =>
          let q : Pt := ⟨x1, t' * (vb.y - va.y) + va.y⟩
          if (Piece.mk w.at' q va vb).refused then .corner else
          (cellOf i' w.j).bind fun next =>
          (walk b va vb n next ⟨i', w.j, tgcx b va vb, ty', t', q⟩).bind fun evs =>
          .ok (Ev.hit cur (if 0 < signX va vb then .r else .l) :: Ev.piece cur ⟨w.at', q, va, vb⟩ ::
            Ev.hit next (if 0 < signX va vb then .l else .r) :: evs)
        else if (Piece.mk w.at' vb va vb).refused then .corner
        else .ok [Ev.piece cur ⟨w.at', vb, va, vb⟩]
    else
      match w.ty with
      | none => .ub
      | some τ =>
        let j' := w.j + 1
        let t' := w.t + τ
        let tx' := w.tx.map (· - τ)
        if t' < 1 then
          (line b.gy j').bind fun y1 =>
          let q : Pt := ⟨t' * (vb.x - va.x) + va.x, y1⟩
          if (Piece.mk w.at' q va vb).refused then .corner else
          (cellOf w.i j').bind fun next =>
          (walk b va vb n next ⟨w.i, j', tx', tgcy b va vb, t', q⟩).bind fun evs =>
          .ok (Ev.hit cur .t :: Ev.parity cur :: Ev.piece cur ⟨w.at', q, va, vb⟩ :: Ev.hit next .b :: evs)
        else if (Piece.mk w.at' vb va vb).refused then .corner
        else .ok [Ev.piece cur ⟨w.at', vb, va, vb⟩]

/-- CGrid.cpp 188-189: `(int)((v - min) * inv_delta)`.  For a box without extent the quotient is infinite or no number and the conversion is
undefined; below zero the code rounds towards zero. -/
def cellIndex (v lo d : ℚ) : Res ℤ := if d = 0 then .ub else .ok (if 0 ≤ (v - lo) / d then ⌊(v - lo) / d⌋ else ⌈(v - lo) / d⌉)

/-- CGrid.cpp 188-228: where the walk along an edge starts. -/
def start (b : Box) (va vb : Pt) (i j : ℤ) : Walk where
  i := i
  j := j
  tx := if va.x = vb.x then none else
    some ((b.dx * i + b.lo.x - va.x + (if va.x < vb.x then b.dx else 0)) * (1 / (vb.x - va.x)))
  ty := if va.y = vb.y then none else some ((b.dy * (j + 1) + b.lo.y - va.y) * (1 / (vb.y - va.y)))
  t := 0
  at' := va

/-- CGrid.cpp 171-179: an edge is walked from its end with the smaller east coordinate. -/
def ordered (v0 v1 : Pt) : Pt × Pt := if v0.y < v1.y then (v0, v1) else (v1, v0)

/-- CGrid.cpp 171-360: one edge.  In exact numbers the walk has at most nine steps (`walk_ends`), so that 25 are enough. -/
def edgeEvents (b : Box) (e : Pt × Pt) : Res (List Ev) :=
  let va := (ordered e.1 e.2).1
  let vb := (ordered e.1 e.2).2
  if va = vb then .ok [] else
  (cellIndex va.x b.lo.x b.dx).bind fun i =>
  (cellIndex va.y b.lo.y b.dy).bind fun j =>
  (cellOf i j).bind fun cur =>
  walk b va vb 25 cur (start b va vb i j)

/-- CGrid.cpp 168, 361: the pairs of a vertex and the one before it. -/
def pairs : Pt → List Pt → List (Pt × Pt)
  | _, [] => []
  | u, v :: vs => (u, v) :: pairs v vs

/-- CGrid.cpp 168: the first edge comes from the last vertex. -/
def edges : List Pt → List (Pt × Pt)
  | [] => []
  | v :: vs => pairs ((v :: vs).getLast (by simp)) (v :: vs)

/-- CGrid.cpp 148-362: all edges; the first refused piece ends the attempt. -/
def allEvents (b : Box) : List (Pt × Pt) → Res (List Ev)
  | [] => .ok []
  | e :: es => (edgeEvents b e).bind fun a => (allEvents b es).bind fun c => .ok (a ++ c)

/-- CGrid.cpp 314-326: the box for the next attempt. -/
def stretch (b : Box) : Box :=
  ⟨⟨b.lo.x - (b.hi.x - b.lo.x) / 100000 * (24 / 100), b.lo.y - (b.hi.y - b.lo.y) / 100000 * (10 / 100)⟩, b.hi⟩

/-- CGrid.cpp 88-370: the constructor: attempts until no piece is refused, at most the given number of them.  The box is changed by reference. -/
def build (es : List (Pt × Pt)) : ℕ → Box → Res (Box × List Ev)
  | 0, _ => .long
  | n + 1, b =>
    match allEvents b es with
    | .ok evs => .ok (b, evs)
    | .corner => build es n (stretch b)
    | .throws => .throws
    | .ub => .ub
    | .long => .long

/-- CGrid.h 66-71: the pieces of a cell, in order. -/
def piecesAt (evs : List Ev) (c : ℤ) : List Piece :=
  evs.filterMap fun e => match e with
    | .piece k p => if k = c then some p else none
    | _ => none

/-- CGrid.h 88-91: whether a side of a cell is hit. -/
def hitAt (evs : List Ev) (c : ℤ) (s : Side) : Bool := decide (Ev.hit c s ∈ evs)

/-- CGrid.h 93: `GC_T_EDGE_PARITY` of a cell. -/
def parityAt (evs : List Ev) (c : ℤ) : Bool := evs.foldr (fun e s => xor (decide (e = Ev.parity c)) s) false

/-- CGrid.cpp 459-482: `io_state` before cell `j` of row `r`. -/
def ioState (evs : List Ev) (r : ℤ) : ℕ → Bool
  | 0 => false
  | j + 1 => xor (ioState evs r j) (parityAt evs (r * 5 + j))

/-- CGrid.cpp 454-482: `GC_BL_IN` of the cell in column `i` and row `j`; no flag is set in the first row. -/
def blIn (evs : List Ev) (i j : ℤ) : Bool := if j = 0 then false else ioState evs (j - 1) i.toNat

/-- CGrid.cpp 454-482: `GC_TR_IN` of the cell in column `i` and row `j`; no flag is set in the last row. -/
def trIn (evs : List Ev) (i j : ℤ) : Bool := if j = 4 then false else ioState evs j (i.toNat + 1)

/-- CGrid.cpp 633-655: a piece toggles the flag if the left side is clear. -/
def toggleL (p : Pt) (q : Piece) : Bool :=
  decide (min q.a.y q.b.y ≤ p.y) && decide (p.y < max q.a.y q.b.y) &&
    (decide (p.x > max q.a.x q.b.x) || (decide (p.x > min q.a.x q.b.x) && decide (q.a.x - (q.a.y - p.y) * q.slope < p.x)))

/-- CGrid.cpp 665-688: a piece toggles the flag if the bottom side is clear. -/
def toggleB (p : Pt) (q : Piece) : Bool :=
  decide (min q.a.x q.b.x ≤ p.x) && decide (p.x < max q.a.x q.b.x) &&
    (decide (p.y > max q.a.y q.b.y) || (decide (p.y > min q.a.y q.b.y) && decide (q.a.y - (q.a.x - p.x) * q.invSlope < p.y)))

/-- CGrid.cpp 698-721: a piece toggles the flag if the right side is clear. -/
def toggleR (p : Pt) (q : Piece) : Bool :=
  decide (min q.a.y q.b.y ≤ p.y) && decide (p.y < max q.a.y q.b.y) &&
    (decide (p.x ≤ min q.a.x q.b.x) || (decide (p.x ≤ max q.a.x q.b.x) && decide (q.a.x - (q.a.y - p.y) * q.slope ≥ p.x)))

/-- CGrid.cpp 727-746: a piece toggles the flag if the top side is clear. -/
def toggleT (p : Pt) (q : Piece) : Bool :=
  decide (min q.a.x q.b.x ≤ p.x) && decide (p.x < max q.a.x q.b.x) &&
    (decide (p.y ≤ min q.a.y q.b.y) || (decide (p.y ≤ max q.a.y q.b.y) && decide (q.a.y - (q.a.x - p.x) * q.invSlope ≥ p.y)))

/-- CGrid.cpp 763-808: a piece toggles the flag if no side is clear: it meets the segment from the corner `c` to the point. -/
def toggleC (c p : Pt) (q : Piece) : Bool :=
  if p.x ≥ min q.a.x q.b.x ∧ p.y ≥ min q.a.y q.b.y then
    let bx := p.x - c.x
    let by' := p.y - c.y
    let ax := q.b.x - q.a.x
    let ay := q.b.y - q.a.y
    let denom := ay * bx - ax * by'
    let cx := q.a.x - p.x
    let cy := q.a.y - p.y
    let alpha := by' * cx - bx * cy
    let beta := ax * cy - ay * cx
    if denom > 0 then !(decide (alpha < 0 ∨ alpha ≥ denom)) && !(decide (beta < 0 ∨ beta ≥ denom))
    else if denom < 0 then !(decide (alpha > 0 ∨ alpha ≤ denom)) && !(decide (beta > 0 ∨ beta ≤ denom))
    else false
  else false

/-- The flag after all pieces. -/
def toggled (f : Piece → Bool) (s : Bool) : List Piece → Bool
  | [] => s
  | q :: qs => toggled f (xor s (f q)) qs

/-- CGrid.cpp 484-501 and 630-812: the flag of a cell with edges, before the test of nearness: the first clear side in the order left, bottom, right, top
decides, else the corner at the bottom left. -/
def crossFlag (corner : Pt) (evs : List Ev) (i j : ℤ) (p : Pt) : Bool :=
  let c := j * 5 + i
  let qs := piecesAt evs c
  if !hitAt evs c .l then toggled (toggleL p) (blIn evs i j) qs
  else if !hitAt evs c .b then toggled (toggleB p) (blIn evs i j) qs
  else if !hitAt evs c .r then toggled (toggleR p) (trIn evs i j) qs
  else if !hitAt evs c .t then toggled (toggleT p) (trIn evs i j) qs
  else toggled (toggleC corner p) (blIn evs i j) qs

/-- CGrid.cpp 594-856: `CGrid::InPolygon`.  `i` and `j` are read from the linear number of the cell, as the code has only that. -/
def gridTest (near : Pt → Pt → Pt → Bool) (b : Box) (evs : List Ev) (p : Pt) : Res Bool :=
  (cellIndex p.y b.lo.y b.dy).bind fun yc =>
  (cellIndex p.x b.lo.x b.dx).bind fun xc =>
  (cellOf xc yc).bind fun c =>
  let i := c % 5
  let j := c / 5
  if piecesAt evs c = [] then .ok (blIn evs i j)
  else .ok (crossFlag ⟨b.gx xc, b.gy yc⟩ evs i j p || (piecesAt evs c).any fun q => near q.va q.vb p)

/-- Polygon.cpp 48-91: `CPolygon::InPolygon` of a polygon that has not been asked before (the box and the grid are kept for later calls); at most the
given number of attempts at the grid. -/
def inPolygon (near : Pt → Pt → Pt → Bool) (attempts : ℕ) (vs : List Pt) (p : Pt) : Res Bool :=
  match vs with
  | [] => .ok false
  | v :: r =>
    let b := boundingBox v r
    if inBox b p then
      (build (edges vs) attempts b).bind fun g => gridTest near g.1 g.2 p
    else .ok false

end Verif.Grid
