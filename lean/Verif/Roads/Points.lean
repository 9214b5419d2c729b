/-
Lines along roads: the answers to road points requests of `OsmPlannerService`.
-/
import Verif.Roads.Egress

namespace Verif.Roads

/-! ### The model -/

/-- OsmPlannerService.cpp 1834-1863, the loop of `isGetNodesOnSegment`: the points of a
piece from `start` to `stop`.  `extra` is `isAddExtraNodeIds`, `first` is true for the first
point only, `last` is `*edgeNodeIdLast`, `acc` what is collected so far.  The result is
what is collected, and the last point if the loop ran to the end of the piece. -/
def segLoop (extra : Bool) (start stop : Id) : Bool → List Id → Id → List Id → List Id × Option Id
  | _, [], last, acc => (acc, some last)
  | first, x :: xs, last, acc =>
    let last := if extra then last else x
    if (start ≤ 0 ∧ first = true) ∨ x = start then
      segLoop extra start stop false xs x (acc ++ [last])
    else if 0 < stop ∧ last = stop then
      (if acc = [] then acc else acc ++ (if extra then [last] else [last, x]), none)
    else segLoop extra start stop false xs x (if acc = [] then acc else acc ++ [last])

/-- OsmPlannerService.cpp 1832-1868: the points of a piece, from one to another; none if
they are not found. -/
def along (extra : Bool) (start stop : Id) (nodes : List Id) : List Id :=
  match segLoop extra start stop true nodes (nodes.headD 0) [] with
  | (l, some last) => if extra ∧ l ≠ [] then l ++ [last] else l
  | (l, none) => l

/-- OsmPlannerService.cpp 1822-1873, `isGetNodesOnSegment`: for the piece that is kept for
two points. -/
def onSegment (T : Table) (k : Id × Id) (start stop : Id) (extra : Bool) : List Id :=
  match T.get k with
  | some p => along extra start stop p.nodes
  | none => []

/-- OsmPlannerService.cpp 917-938, `isGetRoadPoints`. -/
noncomputable def between (M : RoadMap) (c : Chooser) (a b : Id) : Outcome (Option (Nat × List Id)) :=
  if a ≠ b then shortest M c a b else .ok (some (0, [a]))

/-- OsmPlannerService.cpp 706-714 (and 715-741): a route is taken if it is cheaper, with the
straight lines to the two places.  The distance is the largest number if a point is not
loaded; making a whole number of it is undefined. -/
noncomputable def cheaper (M : RoadMap) (pa pb : Pt) (a b : Id) (best : Option (Int × List Id))
    (r : Option (Nat × List Id)) : Outcome (Option (Int × List Id)) :=
  match r with
  | none => .ok best
  | some (k, l) =>
    match M.pts.pos a, M.pts.pos b with
    | some p, some q =>
      let cost : Int := k + trunc (dist pa p + dist pb q)
      match best with
      | none => .ok (some (cost, l))
      | some b => if cost < b.1 then .ok (some (cost, l)) else .ok (some b)
    | _, _ => .ub

/-- OsmPlannerService.cpp 700-741: the best of the four routes between the ends of the two
pieces. -/
noncomputable def bestOf (M : RoadMap) (c : Chooser) (pa pb : Pt) (s e : Id × Id) :
    Outcome (Option (Int × List Id)) :=
  (between M c s.1 e.1).bind fun r => (cheaper M pa pb s.1 e.1 none r).bind fun b =>
  (between M c s.1 e.2).bind fun r => (cheaper M pa pb s.1 e.2 b r).bind fun b =>
  (between M c s.2 e.1).bind fun r => (cheaper M pa pb s.2 e.1 b r).bind fun b =>
  (between M c s.2 e.2).bind fun r => cheaper M pa pb s.2 e.2 b r

/-- OsmPlannerService.cpp 758-778: the pieces between the points of the route.  `stop` is
the first point of the route (766: the end of the first piece, not of this one). -/
def middle (T : Table) (stop : Id) : List Id → Bool × List Id
  | a :: b :: l =>
    let s := onSegment T (a, b) a stop false
    let r := middle T stop (b :: l)
    (!s.isEmpty && r.1, s ++ r.2)
  | _ => (true, [])

/-- OsmPlannerService.cpp 743-798: the line along a route: from the point `x` to the
first point of the route, along the route, and from there to the point `y`. -/
def joined (T : Table) (s e : Id × Id) (x y : Id) (route : List Id) : Bool × List Id :=
  match route.head?, route.getLast? with
  | some f, some g =>
    let b := if s.2 = f then s.1 else s.2
    let l₁ := onSegment T (b, f) x f false
    if l₁ = [] then (false, [])
    else
      let m := middle T f route
      let d := if g = e.1 then e.2 else e.1
      let l₂ := onSegment T (g, d) g y false
      (m.1 && !l₂.isEmpty, l₁ ++ m.2 ++ l₂)
  | _, _ => (true, [])

/-- OsmPlannerService.cpp 559-838: the points of the line from the point `x` to the point
`y`, and whether there was no error; no points: no line. -/
noncomputable def lineOver (M : RoadMap) (c : Chooser) (S : Listing M.table) (pa pb : Pt) (x y : Id) :
    Outcome (Bool × List Id) :=
  match (S.f x).find? (· ∈ S.f y) with
  | some k =>
    let l := onSegment M.table k x y true
    .ok (true, if l = [] then onSegment M.table (k.2, k.1) x y true else l)
  | none =>
    match S.f x, S.f y with
    | s :: _, e :: _ =>
      (bestOf M c pa pb s e).bind fun b =>
        match b with
        | some (_, route) => .ok (joined M.table s e x y route)
        | none => .ok (true, [])
    | _, _ => .ok (true, [])

/-- `RoadPointsConstraints`: what is used of them. -/
structure PointsReq where
  id : Int
  from_ : Pt
  to_ : Pt

/-- `LineOfInterest`. -/
structure Line where
  id : Int
  points : List Pt

/-- All points that are loaded, with their positions (OsmPlannerService.cpp
1153-1161). -/
def allPts (M : RoadMap) (els : List NodeEl) : List (Id × Pt) :=
  els.filterMap fun el => (M.pts.pos el.id).map fun q => (el.id, q)

/-- OsmPlannerService.cpp 534-909: one request.  `ok` is `isSuccess` before it, and is
the first of the result after it. -/
noncomputable def points1 (M : RoadMap) (c : Chooser) (S : Listing M.table) (pts : List (Id × Pt))
    (ok : Bool) (r : PointsReq) : Outcome (Bool × List Line) :=
  match closest pts r.from_, closest pts r.to_ with
  | some (x, _), some (y, _) =>
    if ok then
      (lineOver M c S r.from_ r.to_ x y).bind fun kl =>
        let ok := kl.1 && kl.2.all fun z => (M.pts.pos z).isSome
        .ok (ok, if ok = true ∧ kl.2 ≠ [] then [⟨r.id, kl.2.map (posOf M.pts.pos)⟩] else [])
    else .ok (false, [])
  | _, _ => .ok (false, [])

/-- OsmPlannerService.cpp 534-909: all requests, one after the other. -/
noncomputable def pointsAll (M : RoadMap) (c : Chooser) (S : Listing M.table) (pts : List (Id × Pt)) :
    Bool → List PointsReq → Outcome (Bool × List Line)
  | ok, [] => .ok (ok, [])
  | ok, r :: rs =>
    (points1 M c S pts ok r).bind fun a =>
      (pointsAll M c S pts a.1 rs).bind fun b => .ok (b.1, a.2 ++ b.2)

/-- OsmPlannerService.cpp 526-912 and 186-194: the lines of the answer; none: no answer is
sent. -/
noncomputable def roadPoints (M : RoadMap) (c : Chooser) (S : Listing M.table) (pts : List (Id × Pt))
    (rs : List PointsReq) : Outcome (Option (List Line)) :=
  (pointsAll M c S pts true rs).bind fun a => .ok (if a.1 then some a.2 else none)

/-! ### Points of one piece -/

section along
variable {start stop : Id}

theorem notStart (hs : 0 < start) (f : Bool) {x : Id} (h : x ≠ start) :
    ¬ ((start ≤ 0 ∧ f = true) ∨ x = start) := by
  rintro (⟨h', -⟩ | h')
  · exact absurd h' (not_le.mpr hs)
  · exact h h'

theorem lastD (A : List Id) (a b : Id) : A.getLastD a = (a :: A).getLastD b := by
  rw [List.getLastD_cons]

theorem segLoop_skip (hs : 0 < start) {extra : Bool} : ∀ (A R : List Id) (f : Bool) (last : Id),
    start ∉ A → (0 < stop → stop ∉ A ∧ (extra = true → A ≠ [] → last ≠ stop)) →
    ∃ f', segLoop extra start stop f (A ++ R) last [] =
      segLoop extra start stop f' R (A.getLastD last) []
  | [], R, f, last, _, _ => ⟨f, rfl⟩
  | a :: A, R, f, last, h₁, h₂ => by
    simp only [List.mem_cons, not_or] at h₁
    obtain ⟨f', ih⟩ := segLoop_skip hs (extra := extra) A R false a h₁.2 fun h => by
      have := h₂ h
      simp only [List.mem_cons, not_or] at this
      exact ⟨this.1.2, fun _ _ => Ne.symm this.1.1⟩
    refine ⟨f', ?_⟩
    rw [List.cons_append, segLoop]
    rw [if_neg (notStart hs f (Ne.symm h₁.1)), if_neg, if_pos rfl, ih, lastD A a last]
    · rintro ⟨h₀, h⟩
      obtain ⟨h₃, h₄⟩ := h₂ h₀
      cases extra with
      | true => exact h₄ rfl (by simp) h
      | false => exact h₃ (by rw [← h]; simp)

/-- Without the extra point: all points are collected. -/
theorem segLoop_take (hs : 0 < start) : ∀ (A R : List Id) (last : Id) (acc : List Id),
    acc ≠ [] → stop ∉ A →
    segLoop false start stop false (A ++ R) last acc =
      segLoop false start stop false R (A.getLastD last) (acc ++ A)
  | [], R, last, acc, _, _ => by simp
  | a :: A, R, last, acc, h₁, h₂ => by
    simp only [List.mem_cons, not_or] at h₂
    have ih := segLoop_take hs A R a (acc ++ [a]) (by simp) h₂.2
    rw [List.cons_append, segLoop]
    have e : A.getLastD a = (a :: A).getLastD last := lastD A a last
    rw [List.append_assoc, List.singleton_append, e] at ih
    rw [if_neg (by simp : ¬ (false = true)), if_neg h₁]
    split
    · exact ih
    · rw [if_neg fun h => h₂.1 h.2.symm]
      exact ih

/-- With the extra point: all points but the last are collected. -/
theorem segLoop_takeX (hs : 0 < start) : ∀ (A R : List Id) (last : Id) (acc : List Id),
    acc ≠ [] → stop ∉ (last :: A).dropLast → start ∉ A →
    segLoop true start stop false (A ++ R) last acc =
      segLoop true start stop false R (A.getLastD last) (acc ++ (last :: A).dropLast)
  | [], R, last, acc, _, _, _ => by simp
  | a :: A, R, last, acc, h₁, h₂, h₃ => by
    rw [List.dropLast_cons_of_ne_nil (by simp)] at h₂ ⊢
    simp only [List.mem_cons, not_or] at h₂ h₃
    have ih := segLoop_takeX hs A R a (acc ++ [last]) (by simp) h₂.2 h₃.2
    rw [List.cons_append, segLoop]
    have e : A.getLastD a = (a :: A).getLastD last := lastD A a last
    rw [List.append_assoc, List.singleton_append, e] at ih
    rw [if_pos rfl, if_neg (notStart hs _ (Ne.symm h₃.1)), if_neg fun h => h₂.1 h.2.symm, if_neg h₁]
    exact ih

/-- Without the extra point, from a point to a later one: the points between them, and the
later one twice. -/
theorem along_to (hs : 0 < start) (he : 0 < stop) {A B C : List Id} (h₁ : start ∉ A) (h₂ : stop ∉ A)
    (h₃ : stop ∉ B) (h₄ : start ≠ stop) :
    along false start stop (A ++ start :: (B ++ stop :: C)) = start :: (B ++ [stop, stop]) := by
  unfold along
  obtain ⟨f, e⟩ := segLoop_skip (start := start) (stop := stop) hs (extra := false) A
    (start :: (B ++ stop :: C)) true ((A ++ start :: (B ++ stop :: C)).headD 0) h₁
    (fun _ => ⟨h₂, fun h => by cases h⟩)
  rw [e, segLoop]
  rw [if_pos (.inr rfl), segLoop_take hs B _ _ _ (by simp) h₃, segLoop]
  rw [if_neg (notStart hs _ (Ne.symm h₄))]
  rw [if_neg (by simp : ¬ (false = true)), if_pos ⟨he, rfl⟩]
  simp

/-- Without the extra point, if the other point does not come later: all points up to the
end of the piece. -/
theorem along_rest (hs : 0 < start) {A B : List Id} (h₁ : start ∉ A) (h₂ : stop ∉ A) (h₃ : stop ∉ B) :
    along false start stop (A ++ start :: B) = start :: B := by
  unfold along
  obtain ⟨f, e⟩ := segLoop_skip (start := start) (stop := stop) hs (extra := false) A
    (start :: B) true ((A ++ start :: B).headD 0) h₁ (fun _ => ⟨h₂, fun h => by cases h⟩)
  rw [e, segLoop]
  have := segLoop_take (start := start) (stop := stop) hs B [] start [start] (by simp) h₃
  rw [List.append_nil] at this
  rw [if_pos (.inr rfl)]
  rw [if_neg (by simp : ¬ (false = true)), List.nil_append, this, segLoop]
  simp

/-- With the extra point, from a point to a later one: the point before the first, and the
points up to the later one. -/
theorem alongX_to (hs : 0 < start) (he : 0 < stop) {A B C : List Id}
    (hn : (A ++ start :: (B ++ stop :: C)).Nodup) :
    along true start stop (A ++ start :: (B ++ stop :: C)) =
      A.getLastD start :: start :: (B ++ [stop]) := by
  have hn' := hn
  simp only [List.nodup_append, List.nodup_cons, List.mem_append, List.mem_cons] at hn
  have hA : stop ∉ A := fun h => hn.2.2 _ h _ (.inr (.inr (.inl rfl))) rfl
  have hsA : start ∉ A := fun h => hn.2.2 _ h _ (.inl rfl) rfl
  have hB : stop ∉ B := fun h => hn.2.1.2.2.2 _ h _ (.inl rfl) rfl
  have hne : start ≠ stop := fun h => hn.2.1.1 (.inr (.inl h))
  have hsB : start ∉ B := fun h => hn.2.1.1 (.inl h)
  have hsC : start ∉ C := fun h => hn.2.1.1 (.inr (.inr h))
  unfold along
  obtain ⟨f, e⟩ := segLoop_skip (start := start) (stop := stop) hs (extra := true) A
    (start :: (B ++ stop :: C)) true ((A ++ start :: (B ++ stop :: C)).headD 0) hsA
    (fun _ => ⟨hA, fun _ h => by
      cases A with
      | nil => exact absurd rfl h
      | cons a A => simp only [List.cons_append, List.headD_cons]; rintro rfl; exact hA (by simp)⟩)
  rw [e, segLoop]
  have hd : ((A.getLastD ((A ++ start :: (B ++ stop :: C)).headD 0))) = A.getLastD start := by
    cases A with
    | nil => rfl
    | cons a A => rw [List.getLastD_cons, List.getLastD_cons]
  rw [hd, if_pos (.inr rfl), if_pos rfl, List.nil_append]
  have e₂ : B ++ stop :: C = (B ++ [stop]) ++ C := by simp
  have := segLoop_takeX (start := start) (stop := stop) hs (B ++ [stop]) C start [A.getLastD start]
    (by simp) (by
      rw [← List.cons_append, List.dropLast_concat]
      simp only [List.mem_cons, not_or]
      exact ⟨Ne.symm hne, hB⟩) (by simp only [List.mem_append, List.mem_singleton, not_or]; exact ⟨hsB, hne⟩)
  rw [e₂, this, ← List.cons_append, List.dropLast_concat]
  have hl : (B ++ [stop]).getLastD start = stop := by simp
  rw [hl]
  cases C with
  | nil =>
    rw [segLoop]
    simp
  | cons c C =>
    rw [segLoop]
    rw [if_neg (notStart hs _ fun h => hsC (by simp [h])), if_pos rfl, if_pos ⟨he, rfl⟩]
    simp

/-- With the extra point, from a point to an earlier one with a point between: nothing. -/
theorem alongX_gap (hs : 0 < start) (he : 0 < stop) {A B C : List Id} {z : Id}
    (hn : (A ++ stop :: z :: (B ++ start :: C)).Nodup) :
    along true start stop (A ++ stop :: z :: (B ++ start :: C)) = [] := by
  simp only [List.nodup_append, List.nodup_cons, List.mem_append, List.mem_cons] at hn
  have hA : stop ∉ A := fun h => hn.2.2 _ h _ (.inl rfl) rfl
  have hsA : start ∉ A := fun h => hn.2.2 _ h _ (.inr (.inr (.inr (.inl rfl)))) rfl
  have hne : stop ≠ start := fun h => hn.2.1.1 (.inr (.inr (.inl h)))
  have hz : z ≠ start := fun h => hn.2.1.2.1 (.inr (.inl h))
  unfold along
  obtain ⟨f, e⟩ := segLoop_skip (start := start) (stop := stop) hs (extra := true) A
    (stop :: z :: (B ++ start :: C)) true ((A ++ stop :: z :: (B ++ start :: C)).headD 0) hsA
    (fun _ => ⟨hA, fun _ h => by
      cases A with
      | nil => exact absurd rfl h
      | cons a A => simp only [List.cons_append, List.headD_cons]; rintro rfl; exact hA (by simp)⟩)
  rw [e, segLoop]
  rw [if_neg (notStart hs _ hne), if_pos rfl]
  by_cases hl : A.getLastD ((A ++ stop :: z :: (B ++ start :: C)).headD 0) = stop
  · rw [if_pos ⟨he, hl⟩]
    simp
  · rw [if_neg fun h => hl h.2, if_pos rfl, segLoop]
    rw [if_neg (notStart hs _ hz), if_pos rfl, if_pos ⟨he, rfl⟩]
    simp

/-- With the extra point, from a point to the one just before it: that point, and the points
from the first one to the end of the piece. -/
theorem alongX_back (hs : 0 < start) (he : 0 < stop) {A C : List Id}
    (hn : (A ++ stop :: start :: C).Nodup) :
    along true start stop (A ++ stop :: start :: C) = if A = [] then [] else stop :: start :: C := by
  simp only [List.nodup_append, List.nodup_cons, List.mem_cons] at hn
  have hA : stop ∉ A := fun h => hn.2.2 _ h _ (.inl rfl) rfl
  have hsA : start ∉ A := fun h => hn.2.2 _ h _ (.inr (.inl rfl)) rfl
  have hne : stop ≠ start := fun h => hn.2.1.1 (.inl h)
  have hC : stop ∉ C := fun h => hn.2.1.1 (.inr h)
  have hsC : start ∉ C := hn.2.1.2.1
  unfold along
  obtain ⟨f, e⟩ := segLoop_skip (start := start) (stop := stop) hs (extra := true) A
    (stop :: start :: C) true ((A ++ stop :: start :: C).headD 0) hsA
    (fun _ => ⟨hA, fun _ h => by
      cases A with
      | nil => exact absurd rfl h
      | cons a A => simp only [List.cons_append, List.headD_cons]; rintro rfl; exact hA (by simp)⟩)
  rw [e, segLoop]
  rw [if_neg (notStart hs _ hne), if_pos rfl]
  by_cases hA0 : A = []
  · subst hA0
    rw [if_pos ⟨he, rfl⟩]
    simp
  · have hl : A.getLastD ((A ++ stop :: start :: C).headD 0) ≠ stop := by
      intro h
      apply hA
      rw [← h]
      cases A with
      | nil => exact absurd rfl hA0
      | cons a A =>
        rw [List.getLastD_cons]
        exact List.getLastD_mem_cons
    rw [if_neg fun h => hl h.2, if_pos rfl, segLoop]
    rw [if_pos (.inr rfl), if_pos rfl, List.nil_append]
    have := segLoop_takeX (start := start) (stop := stop) hs C [] start [stop] (by simp)
      (fun h => by
        rcases List.mem_cons.mp (List.mem_of_mem_dropLast h) with h | h
        · exact hne h
        · exact hC h) hsC
    rw [List.append_nil] at this
    rw [this, segLoop]
    dsimp only
    rw [if_pos ⟨rfl, by simp⟩, if_neg hA0]
    cases C with
    | nil => simp
    | cons c C =>
      have e₃ : (start :: c :: C).dropLast ++ [(c :: C).getLastD start] = start :: c :: C := by
        have : (c :: C).getLastD start = (start :: c :: C).getLast (by simp) := by
          rw [lastD _ start 0, List.getLastD_eq_getLast?, List.getLast?_eq_some_getLast (by simp)]
          rfl
        rw [this, List.dropLast_append_getLast]
      rw [List.append_assoc, e₃]
      rfl

end along

end Verif.Roads
