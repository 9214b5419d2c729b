/-
Route plans along roads: requests and answers of `OsmPlannerService`.

As in `Verif.Roads.Model` positions are north and east in metres; numbers are exact (the
code has `float` and `int64_t`); altitudes, which are all 0, are left out.
-/
import Verif.Roads.Find
import Verif.Roads.Closest

namespace Verif.Roads

/-! ### The model -/

/-- A waypoint: number, next, place and speed (OsmPlannerService.cpp 330-337; the turn
type is the same for all and left out). -/
structure Wp where
  number : Nat
  next : Nat
  at_ : Pt
  speed : ℝ

/-- `RouteConstraints`: what is used of them (OsmPlannerService.cpp 287, 296-304). -/
structure RouteReq where
  id : Int
  from_ : Pt
  to_ : Pt

/-- `RoutePlanRequest`: what is used of it. -/
structure PlanReq where
  id : Int
  task : Int
  region : Int
  vehicle : Int
  costOnly : Bool
  routes : List RouteReq

/-- `RoutePlan`. -/
structure RoutePlan where
  id : Int
  cost : Int
  wps : List Wp

/-- `RoutePlanResponse`. -/
structure PlanResp where
  id : Int
  task : Int
  region : Int
  vehicle : Int
  plans : List RoutePlan

/-- `getWaypoints().back()->setNextWaypoint(n)` (OsmPlannerService.cpp 369, 406, 433). -/
def linkLast (n : Nat) : List Wp → List Wp
  | [] => []
  | [w] => [{ w with next := n }]
  | w :: v :: ws => w :: linkLast n (v :: ws)

/-- OsmPlannerService.cpp 368-378 and 405-415: the number goes up by one (it is the
number of waypoints so far), the last waypoint leads to the new one, and the new one is
added; where it leads is not set (0). -/
def push (speed : ℝ) (ws : List Wp) (q : Pt) : List Wp :=
  linkLast (ws.length + 1) ws ++ [⟨ws.length + 1, 0, q, speed⟩]

/-- OsmPlannerService.cpp 360-388: the points of a piece; it ends at a point that is
not loaded. -/
def addNodes (speed : ℝ) (pos : Id → Option Pt) : List Id → List Wp → List Wp
  | [], ws => ws
  | x :: xs, ws =>
    match pos x with
    | some q => addNodes speed pos xs (push speed ws q)
    | none => ws

/-- OsmPlannerService.cpp 347-430: the points of the pieces between one point of the
path and the next, then the last point of the path. -/
noncomputable def follow (speed : ℝ) (M : RoadMap) : List Id → List Wp → List Wp
  | [], ws => ws
  | [x], ws =>
    match M.pts.pos x with
    | some q => push speed ws q
    | none => ws
  | x :: y :: l, ws =>
    match M.table.get (x, y) with
    | some p => follow speed M (y :: l) (addNodes speed M.pts.pos p.nodes ws)
    | none => follow speed M (y :: l) ws

/-- OsmPlannerService.cpp 326-443: all waypoints; the last one leads to itself. -/
noncomputable def waypoints (speed : ℝ) (M : RoadMap) (l : List Id) (s e : Pt) : List Wp :=
  let ws := follow speed M l [⟨1, 0, s, speed⟩]
  linkLast (ws.length + 1) ws ++ [⟨ws.length + 1, ws.length + 1, e, speed⟩]

/-- The points used for planning with their positions, `m_cellVsPlanningNodeIds`
(OsmPlannerService.cpp 1151-1161). -/
def planPts (M : RoadMap) : List (Id × Pt) :=
  M.pts.planning.filterMap fun i => (M.pts.pos i).map fun q => (i, q)

/-- OsmPlannerService.cpp 286-520: the plan for one route, with the map if there is one.
The cost is in milliseconds. -/
noncomputable def plan1 (M : Option RoadMap) (c : Chooser) (speed : ℝ) (costOnly : Bool)
    (r : RouteReq) : Outcome RoutePlan :=
  match M with
  | none => .ok ⟨r.id, -1, []⟩
  | some M =>
    match closest (planPts M) r.from_, closest (planPts M) r.to_ with
    | some a, some b =>
      (shortest M c a.1 b.1).bind fun
        | some (k, l) => .ok ⟨r.id, ⌊(a.2 + b.2 + k) / speed * 1000⌋,
            if costOnly then [] else waypoints speed M l r.from_ r.to_⟩
        | none => .ok ⟨r.id, -1, []⟩
    | _, _ => .ok ⟨r.id, -1, []⟩

/-- OsmPlannerService.cpp 282-521: the plans for all routes. -/
noncomputable def plans (M : Option RoadMap) (c : Chooser) (speed : ℝ) (costOnly : Bool) :
    List RouteReq → Outcome (List RoutePlan)
  | [] => .ok []
  | r :: rs => (plan1 M c speed costOnly r).bind fun p =>
      (plans M c speed costOnly rs).bind fun ps => .ok (p :: ps)

/-- OsmPlannerService.cpp 271-280: the speed, at least one. -/
noncomputable def speedOf (nominal : ℝ) : ℝ := open Classical in if nominal < 1 then 1 else nominal

/-- OsmPlannerService.cpp 161-180 and 261-524: the answer to a request, for vehicles whose
configuration is known: `nominal` gives their nominal speeds. -/
noncomputable def answer (M : Option RoadMap) (c : Chooser) (nominal : Int → Option ℝ)
    (r : PlanReq) : Outcome (Option PlanResp) :=
  match nominal r.vehicle with
  | none => .ok none
  | some v => (plans M c (speedOf v) r.costOnly r.routes).bind fun ps =>
      .ok (some ⟨r.id, r.task, r.region, r.vehicle, ps⟩)

/-! ### Numbers -/

/-- Numbered from one on, each leading to the one after it; the last leads to `last`. -/
def Chain (last : Nat) (ws : List Wp) : Prop :=
  ∀ i (h : i < ws.length), ws[i].number = i + 1 ∧
    ws[i].next = if i + 1 = ws.length then last else i + 2

theorem linkLast_length (n : Nat) : ∀ ws, (linkLast n ws).length = ws.length
  | [] => rfl
  | [_] => rfl
  | w :: v :: ws => by rw [linkLast, List.length_cons, linkLast_length n (v :: ws)]; rfl

theorem linkLast_get (n : Nat) : ∀ (ws : List Wp) (i : Nat) (h : i < ws.length)
    (h' : i < (linkLast n ws).length), (linkLast n ws)[i] =
      if i + 1 = ws.length then { ws[i] with next := n } else ws[i]
  | [], i, h, _ => by cases h
  | [w], i, h, _ => by
    have : i = 0 := by simp at h; exact h
    subst this
    rfl
  | w :: v :: ws, i, h, h' => by
    cases i with
    | zero =>
      have : ¬ (0 + 1 = (w :: v :: ws).length) := by simp
      rw [if_neg this]
      rfl
    | succ i =>
      have := linkLast_get n (v :: ws) i (by simpa using h) (by rw [linkLast_length]; simpa using h)
      simp only [linkLast, List.getElem_cons_succ]
      rw [this]
      have e : (i + 1 = (v :: ws).length) ↔ (i + 1 + 1 = (w :: v :: ws).length) := by
        simp
      simp only [e]

theorem linkLast_map {β : Type} (f : Wp → β) (hf : ∀ w n, f { w with next := n } = f w) (n : Nat) :
    ∀ ws, (linkLast n ws).map f = ws.map f
  | [] => rfl
  | [w] => by rw [linkLast, List.map_singleton, hf]; rfl
  | w :: v :: ws => by
    rw [linkLast, List.map_cons, linkLast_map f hf n (v :: ws)]; rfl

theorem chain_push {ws : List Wp} {w : Wp} (h : Chain 0 ws) (hw : w.number = ws.length + 1) :
    Chain w.next (linkLast (ws.length + 1) ws ++ [w]) := by
  intro i hi
  have e : (linkLast (ws.length + 1) ws ++ [w]).length = ws.length + 1 := by
    rw [List.length_append, linkLast_length, List.length_singleton]
  rcases Nat.lt_or_ge i ws.length with h' | h'
  · have hne : ¬ (i + 1 = (linkLast (ws.length + 1) ws ++ [w]).length) := by omega
    rw [if_neg hne, List.getElem_append_left (by rw [linkLast_length]; exact h'),
      linkLast_get _ _ _ h']
    obtain ⟨h₁, h₂⟩ := h i h'
    by_cases hl : i + 1 = ws.length
    · rw [if_pos hl]
      exact ⟨h₁, by show ws.length + 1 = _; omega⟩
    · rw [if_neg hl]
      rw [if_neg hl] at h₂
      exact ⟨h₁, h₂⟩
  · have ei : i = ws.length := by omega
    subst ei
    rw [if_pos e.symm, List.getElem_append_right (by rw [linkLast_length])]
    simp only [linkLast_length, Nat.sub_self, List.getElem_singleton]
    exact ⟨hw, trivial⟩

theorem chain_add (speed : ℝ) (pos : Id → Option Pt) : ∀ (xs : List Id) (ws : List Wp),
    Chain 0 ws → Chain 0 (addNodes speed pos xs ws)
  | [], _, h => h
  | x :: xs, ws, h => by
    rw [addNodes]
    cases pos x with
    | none => exact h
    | some q => exact chain_add speed pos xs _ (chain_push h rfl)

theorem chain_follow (speed : ℝ) (M : RoadMap) : ∀ (l : List Id) (ws : List Wp),
    Chain 0 ws → Chain 0 (follow speed M l ws)
  | [], _, h => h
  | [x], ws, h => by
    rw [follow]
    cases M.pts.pos x with
    | none => exact h
    | some q => exact chain_push h rfl
  | x :: y :: l, ws, h => by
    rw [follow]
    cases M.table.get (x, y) with
    | none => exact chain_follow speed M (y :: l) ws h
    | some p => exact chain_follow speed M (y :: l) _ (chain_add _ _ _ _ h)

theorem waypoints_chain (speed : ℝ) (M : RoadMap) (l : List Id) (s e : Pt) :
    Chain (waypoints speed M l s e).length (waypoints speed M l s e) := by
  unfold waypoints
  dsimp only
  have h₁ : Chain 0 [(⟨1, 0, s, speed⟩ : Wp)] := by
    intro i hi
    have : i = 0 := by simp at hi; exact hi
    subst this
    exact ⟨rfl, by simp⟩
  have := chain_push (w := ⟨(follow speed M l [⟨1, 0, s, speed⟩]).length + 1,
    (follow speed M l [⟨1, 0, s, speed⟩]).length + 1, e, speed⟩) (chain_follow speed M l _ h₁) rfl
  rw [List.length_append, linkLast_length, List.length_singleton]
  exact this

/-! ### Places -/

theorem push_map {β : Type} (f : Wp → β) (hf : ∀ w n, f { w with next := n } = f w) (speed : ℝ)
    (ws : List Wp) (q : Pt) :
    (push speed ws q).map f = ws.map f ++ [f ⟨ws.length + 1, 0, q, speed⟩] := by
  unfold push
  rw [List.map_append, linkLast_map f hf]; rfl

theorem add_places (speed : ℝ) {pos : Id → Option Pt} : ∀ (xs : List Id) (ws : List Wp),
    (∀ x ∈ xs, pos x ≠ none) →
    (addNodes speed pos xs ws).map (·.at_) = ws.map (·.at_) ++ xs.map (posOf pos)
  | [], ws, _ => by simp [addNodes]
  | x :: xs, ws, h => by
    obtain ⟨q, hq⟩ := Option.ne_none_iff_exists'.mp (h x (by simp))
    rw [addNodes, hq]
    dsimp only
    rw [add_places speed xs _ fun y hy => h y (by simp [hy]), push_map _ (fun _ _ => rfl)]
    simp [posOf_some hq]

theorem add_speed (speed : ℝ) (pos : Id → Option Pt) : ∀ (xs : List Id) (ws : List Wp),
    (∀ w ∈ ws, w.speed = speed) → ∀ w ∈ addNodes speed pos xs ws, w.speed = speed
  | [], _, h => h
  | x :: xs, ws, h => by
    rw [addNodes]
    cases pos x with
    | none => exact h
    | some q =>
      refine add_speed speed pos xs _ fun w hw => ?_
      have := List.mem_map_of_mem (f := (·.speed)) hw
      rw [push_map _ (fun _ _ => rfl)] at this
      rcases List.mem_append.mp this with h' | h'
      · obtain ⟨v, hv, e⟩ := List.mem_map.mp h'
        rw [← e]; exact h v hv
      · exact List.mem_singleton.mp h'

theorem follow_speed (speed : ℝ) (M : RoadMap) : ∀ (l : List Id) (ws : List Wp),
    (∀ w ∈ ws, w.speed = speed) → ∀ w ∈ follow speed M l ws, w.speed = speed
  | [], _, h => h
  | [x], ws, h => by
    rw [follow]
    cases M.pts.pos x with
    | none => exact h
    | some q =>
      intro w hw
      have := List.mem_map_of_mem (f := (·.speed)) hw
      rw [push_map _ (fun _ _ => rfl)] at this
      rcases List.mem_append.mp this with h' | h'
      · obtain ⟨v, hv, e⟩ := List.mem_map.mp h'
        rw [← e]; exact h v hv
      · exact List.mem_singleton.mp h'
  | x :: y :: l, ws, h => by
    rw [follow]
    cases M.table.get (x, y) with
    | none => exact follow_speed speed M (y :: l) ws h
    | some p => exact follow_speed speed M (y :: l) _ (add_speed _ _ _ _ h)

theorem waypoints_speed (speed : ℝ) (M : RoadMap) (l : List Id) (s e : Pt) :
    ∀ w ∈ waypoints speed M l s e, w.speed = speed := by
  intro w hw
  have := List.mem_map_of_mem (f := (·.speed)) hw
  unfold waypoints at this
  dsimp only at this
  rw [List.map_append, linkLast_map _ (fun _ _ => rfl)] at this
  rcases List.mem_append.mp this with h' | h'
  · obtain ⟨v, hv, e⟩ := List.mem_map.mp h'
    rw [← e]
    exact follow_speed speed M l _ (by simp) v hv
  · exact List.mem_singleton.mp h'

/-- The points that are driven over between the points of a path: those of the pieces
that are kept, and the last point of the path. -/
noncomputable def over (T : Table) : List Id → List Id
  | [] => []
  | [x] => [x]
  | x :: y :: l => (match T.get (x, y) with | some p => p.nodes | none => []) ++ over T (y :: l)

theorem follow_places (speed : ℝ) {M : RoadMap} : ∀ (l : List Id) (ws : List Wp),
    (∀ x ∈ over M.table l, M.pts.pos x ≠ none) →
    (follow speed M l ws).map (·.at_) = ws.map (·.at_) ++ (over M.table l).map (posOf M.pts.pos)
  | [], ws, _ => by simp [follow, over]
  | [x], ws, h => by
    obtain ⟨q, hq⟩ := Option.ne_none_iff_exists'.mp (h x (by simp [over]))
    rw [follow, hq]
    dsimp only
    rw [push_map _ (fun _ _ => rfl)]
    simp [over, posOf_some hq]
  | x :: y :: l, ws, h => by
    rw [follow]
    rw [over] at h ⊢
    cases e : M.table.get (x, y) with
    | none =>
      rw [e] at h
      dsimp only at h ⊢
      rw [follow_places speed (y :: l) ws (fun z hz => h z (by simpa using hz))]
      simp
    | some p =>
      rw [e] at h
      dsimp only at h ⊢
      rw [follow_places speed (y :: l) _ (fun z hz => h z (by simp [hz])),
        add_places speed _ _ (fun z hz => h z (by simp [hz]))]
      simp

theorem waypoints_places (speed : ℝ) {M : RoadMap} {l : List Id} (s e : Pt)
    (h : ∀ x ∈ over M.table l, M.pts.pos x ≠ none) :
    (waypoints speed M l s e).map (·.at_) =
      s :: ((over M.table l).map (posOf M.pts.pos) ++ [e]) := by
  unfold waypoints
  dsimp only
  rw [List.map_append, linkLast_map _ (fun _ _ => rfl), follow_places speed l _ h]
  rfl

end Verif.Roads
