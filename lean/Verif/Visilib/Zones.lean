import Verif.Visibility.ServiceProps
import Mathlib.Algebra.Order.Group.Unbundled.Abs
import Mathlib.Algebra.Order.Field.Rat
import Mathlib.Data.List.Perm.Basic

/-!
Padding and merging the zones of a region (src/cpp/Plans/VisibilityGraph.cpp 83-185, `errExpandAndMergePolygons`, and
src/cpp/VisilibityLib/visilibity.cpp 1801-2008, `Polygon::offset_polygons`).

The geometry is a parameter: the pieces around a polygon are those of C197, the union is the one of C196.  Numbers are rational.
-/

namespace Verif.Visilib.Zones

/-- Not in the code: what is taken from the library: eliminating redundant corners (visilibity.cpp 2032-2095, with a tolerance of
1 m), `is_simple`, `area`, `reverse`, the pieces put around a polygon (1865-1953) and `boost_union` (4126-4207; `none` when it
answers false). -/
structure Lib (P : Type) where
  reduce : P → P
  simple : P → Bool
  area : P → Rat
  reverse : P → P
  pieces : P → Rat → List P
  union : List P → Option (List P)

/-- visilibity.cpp 1809-1811 and 1814-1816: the sign of an offset, zero within the tolerance. -/
def sign (eps d : Rat) : Int := if d > eps then 1 else if d < -eps then -1 else 0

/-- visilibity.cpp 1812-1827: the common sign of the offsets; `none` when it is refused to offset. -/
def direction (eps : Rat) : List Rat → Option Int
  | [] => some 0
  | d :: ds => ds.foldlM (fun v d => if v = 0 then some (if sign eps d ≠ 0 then sign eps d else v)
      else if sign eps d ≠ v then none else some v) (sign eps d)

variable {P : Type}

/-- visilibity.cpp 1801-2008: `offset_polygons`, for as many offsets as polygons; `none` for the answer false. -/
def offset (L : Lib P) (eps : Rat) (zs : List (P × Rat)) : Option (List P) :=
  if zs.isEmpty then some [] else
  match direction |eps| (zs.map (·.2)) with
  | none => none
  | some v =>
    if v = 0 then (L.union (zs.map (·.1))).map (·.filter fun p => decide (L.area p > |eps|)) else
    match L.union (zs.flatMap fun z => (if v > 0 then [z.1] else []) ++ if |z.2| < |eps| then [] else L.pieces z.1 z.2) with
    | none => none
    | some out =>
      if v > 0 then some (out.filter fun p => decide (L.area p > |eps|)) else
      let still := (zs.filter fun z => decide (|z.2| < |eps|)).map (·.1)
      let holes := (out.filter fun p => decide (L.area p < -|eps|)).map L.reverse
      if still.isEmpty then some holes else (L.union (still ++ holes)).map (·.filter fun p => decide (L.area p > |eps|))

/-- VisibilityGraph.h 60-90: the errors of `errExpandAndMergePolygons`. -/
inductive Err
  | creation | merging
deriving DecidableEq, Repr

/-- A zone as it is kept in the graph (Polygon.h 640-690): whether to be kept in, its corners, its padding. -/
structure Zone (P : Type) where
  keepIn : Bool
  poly : P
  padding : Rat

/-- VisibilityGraph.cpp 99-116: one polygon: redundant corners are eliminated, it has to be simple, and it is oriented. -/
def prepare (L : Lib P) (z : Zone P) : Option (Zone P) :=
  let q := L.reduce z.poly
  if !L.simple q then none else some { z with poly := if L.area q < 0 then L.reverse q else q }

/-- VisibilityGraph.cpp 103: the tolerance. -/
def tol : Rat := 1 / 100000000

/-- VisibilityGraph.cpp 127-128: "don't let it shrink!". -/
def grow (d : Rat) : Rat := if d < 0 then 0 else d

/-- VisibilityGraph.cpp 153-165 and 167-179: what is put back: only polygons of more than 1 m². -/
def putBack (L : Lib P) (keepIn : Bool) (ps : List P) : List (Bool × P) :=
  ((ps.map L.reduce).filter fun p => decide (|L.area p| > 1)).map fun p => (keepIn, p)

/-- VisibilityGraph.cpp 83-185: `errExpandAndMergePolygons`. -/
def expandMerge (L : Lib P) (zs : List (Zone P)) : Except Err (List (Bool × P)) :=
  if zs.isEmpty then .ok [] else
  match zs.mapM (prepare L) with
  | none => .error .creation
  | some qs =>
    match offset L tol ((qs.filter fun z => !z.keepIn).map fun z => (z.poly, grow z.padding)) with
    | none => .error .merging
    | some expanded =>
      match offset L tol ((qs.filter fun z => z.keepIn).map fun z => (z.poly, 0)) with
      | none => .error .merging
      | some shrunken => .ok (putBack L true shrunken ++ putBack L false expanded)

/-- RoutePlannerVisibilityService.cpp 340-372: a region is taken up only without an error. -/
def mergeZones (L : Lib (List Visibility.Pt)) (zs : List Visibility.Zone) : Option (List (Bool × List Visibility.Pt)) :=
  match expandMerge L (zs.map fun z => ⟨z.keepIn, z.pts, z.padding⟩) with
  | .ok out => some out
  | .error _ => none

/-! ### The common sign -/

theorem sign_cases (eps d : Rat) : sign eps d = 1 ∧ eps < d ∨ sign eps d = 0 ∧ -eps ≤ d ∧ d ≤ eps ∨
    sign eps d = -1 ∧ d < -eps := by
  unfold sign
  by_cases h1 : d > eps
  · rw [if_pos h1]; exact .inl ⟨rfl, h1⟩
  · rw [if_neg h1]
    by_cases h2 : d < -eps
    · rw [if_pos h2]; exact .inr (.inr ⟨rfl, h2⟩)
    · rw [if_neg h2]; exact .inr (.inl ⟨rfl, not_lt.1 h2, not_lt.1 h1⟩)

theorem direction_some {eps : Rat} : ∀ (ds : List Rat) (s v : Int), s ≠ 0 →
    (ds.foldlM (fun v d => if v = 0 then some (if sign eps d ≠ 0 then sign eps d else v)
      else if sign eps d ≠ v then none else some v) s = some v ↔ v = s ∧ ∀ x ∈ ds, sign eps x = s)
  | [], s, v, hs => by
    simp [eq_comm]
  | d :: ds, s, v, hs => by
    rw [List.foldlM_cons, if_neg hs]
    by_cases h : sign eps d = s
    · rw [if_neg (not_not.2 h)]
      refine (direction_some ds s v hs).trans ?_
      simp [h]
    · rw [if_pos h]
      simp [h]

theorem direction_zero {eps : Rat} : ∀ (ds : List Rat) (v : Int),
    (ds.foldlM (fun v d => if v = 0 then some (if sign eps d ≠ 0 then sign eps d else v)
      else if sign eps d ≠ v then none else some v) 0 = some v ↔
      ∃ pre post, ds = pre ++ post ∧ (∀ x ∈ pre, sign eps x = 0) ∧ (∀ x ∈ post, sign eps x = v) ∧ (post = [] → v = 0))
  | [], v => by
    constructor
    · intro h
      have : v = 0 := by simpa [eq_comm] using h
      exact ⟨[], [], rfl, by simp, by simp, fun _ => this⟩
    · rintro ⟨pre, post, e, -, -, h⟩
      obtain ⟨rfl, rfl⟩ := List.append_eq_nil_iff.1 e.symm
      rw [h rfl]; rfl
  | d :: ds, v => by
    rw [List.foldlM_cons, if_pos rfl]
    by_cases h : sign eps d = 0
    · rw [if_neg (not_not.2 h)]
      refine (direction_zero ds v).trans ?_
      constructor
      · rintro ⟨pre, post, rfl, h1, h2, h3⟩
        exact ⟨d :: pre, post, rfl, by simpa [h] using h1, h2, h3⟩
      · rintro ⟨pre, post, e, h1, h2, h3⟩
        cases pre with
        | nil =>
          rw [List.nil_append] at e
          subst e
          have hv : v = 0 := (h2 d (by simp)).symm.trans h
          subst hv
          exact ⟨[], ds, rfl, by simp, fun x hx => h2 x (by simp [hx]), fun _ => rfl⟩
        | cons a pre =>
          rw [List.cons_append] at e
          cases e
          exact ⟨pre, post, rfl, fun x hx => h1 x (by simp [hx]), h2, h3⟩
    · rw [if_pos h]
      refine (direction_some ds _ v h).trans ?_
      constructor
      · rintro ⟨rfl, h1⟩
        exact ⟨[], d :: ds, rfl, by simp, by simpa using h1, by simp⟩
      · rintro ⟨pre, post, e, h1, h2, h3⟩
        cases pre with
        | nil =>
          rw [List.nil_append] at e
          subst e
          have hv : v = sign eps d := (h2 d (by simp)).symm
          exact ⟨hv, fun x hx => (h2 x (by simp [hx])).trans hv⟩
        | cons a pre =>
          rw [List.cons_append] at e
          cases e
          exact absurd (h1 d (by simp)) h

/-- Offsets have a common sign exactly if those that are zero come first and the others have it. -/
theorem direction_iff {eps : Rat} (ds : List Rat) (v : Int) : direction eps ds = some v ↔
    ∃ pre post, ds = pre ++ post ∧ (∀ x ∈ pre, sign eps x = 0) ∧ (∀ x ∈ post, sign eps x = v) ∧ (post = [] → v = 0) := by
  have : direction eps ds = ds.foldlM (fun v d => if v = 0 then some (if sign eps d ≠ 0 then sign eps d else v)
      else if sign eps d ≠ v then none else some v) 0 := by
    cases ds with
    | nil => rfl
    | cons d ds =>
      rw [List.foldlM_cons, if_pos rfl]
      by_cases h : sign eps d = 0
      · rw [if_neg (not_not.2 h)]
        show ds.foldlM _ (sign eps d) = ds.foldlM _ 0
        rw [h]
      · rw [if_pos h]; rfl
  rw [this]
  exact direction_zero ds v

end Verif.Visilib.Zones
