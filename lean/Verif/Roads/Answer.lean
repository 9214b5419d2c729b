/-
The answers to route plan requests, in terms of the roads.
-/
import Verif.Roads.Route
import Mathlib.Data.List.Chain

namespace Verif.Roads

/-- The points are next to each other on a road. -/
def Beside (ways : List Way) (x y : Id) : Prop :=
  ∃ w ∈ ways, w.highway = true ∧ ([x, y] <:+: w.nodes ∨ [y, x] <:+: w.nodes)

theorem road_chain {ways : List Way} {w : Way} (hw : w ∈ ways) (hh : w.highway = true) :
    w.nodes.IsChain (Beside ways) ∧ w.nodes.reverse.IsChain (Beside ways) := by
  rw [List.isChain_reverse]
  constructor <;> rw [List.isChain_iff_forall_rel_of_append_cons_cons] <;> intro a b l₁ l₂ e
  · exact ⟨w, hw, hh, .inl ⟨l₁, l₂, by rw [e]; simp⟩⟩
  · exact ⟨w, hw, hh, .inr ⟨l₁, l₂, by rw [e]; simp⟩⟩

theorem piece_chain {ways : List Way} {p : List Id} {a b : Id} (hp : RoadPiece ways p a b) :
    p.IsChain (Beside ways) ∧ p.head? = some a ∧ p.getLast? = some b := by
  obtain ⟨⟨w, hw, hh, hin⟩, -, -, mid, rfl, -⟩ := hp
  refine ⟨?_, rfl, by rw [← List.cons_append, List.getLast?_append]; rfl⟩
  rcases hin with h | h
  · exact (road_chain hw hh).1.infix h
  · exact (road_chain hw hh).2.infix h

theorem drive_chain {ways : List Way} {P : Id → Pt} {a b : Id} {l : List Id} {m : Nat}
    (hd : Drive ways P a b l m) :
    l.IsChain (fun x y => ∃ p, RoadPiece ways p x y) ∧ l.head? = some a ∧ l.getLast? = some b := by
  induction hd with
  | here => exact ⟨List.isChain_singleton _, rfl, rfl⟩
  | @step b c l p m _ hp ih =>
    obtain ⟨h₁, h₂, h₃⟩ := ih
    refine ⟨?_, ?_, by rw [List.getLast?_append]; rfl⟩
    · rw [List.isChain_append]
      refine ⟨h₁, List.isChain_singleton _, fun x hx y hy => ?_⟩
      rw [h₃] at hx
      cases hx
      cases hy
      exact ⟨p, hp⟩
    · rw [List.head?_append, h₂]; rfl

section
variable {o : Order} {ways : List Way} {els : List NodeEl} {M : RoadMap}

/-- The piece kept for two ends of a piece. -/
theorem table_piece (h : Whole ways els) (hM : build o ways els = .ok M) {x y : Id} {p : List Id}
    (hp : RoadPiece ways p x y) : ∃ e, M.table.get (x, y) = some e ∧ RoadPiece ways e.nodes x y := by
  have : M.table.get (x, y) ≠ none := by
    obtain ⟨⟨w, hw, hh, hin⟩, hx, hy, mid, rfl, hm⟩ := hp
    rcases hin with ⟨pre, post, e⟩ | ⟨pre, post, e⟩
    · exact (C154_all h.ids hM hw hh (pre := pre) (post := post) (by rw [← e]; simp) hx hy hm).1
    · exact (C154_all h.ids hM hw hh (pre := post.reverse) (mid := mid.reverse) (post := pre.reverse)
        (by rw [← List.reverse_reverse w.nodes, ← e]; simp) hy hx
        (fun z hz => hm z (List.mem_reverse.mp hz))).2
  obtain ⟨e, he⟩ := Option.ne_none_iff_exists'.mp this
  obtain ⟨w, hw, hh, -, hin, ⟨mid, hmid, hx, hy, hm⟩, -⟩ := C154_piece h.ids hM he
  exact ⟨e, he, ⟨w, hw, hh, hin⟩, hx, hy, mid, hmid, hm⟩

theorem over_spec (h : Whole ways els) (hM : build o ways els = .ok M) : ∀ (l : List Id),
    l.IsChain (fun x y => ∃ p, RoadPiece ways p x y) → (∀ x ∈ l, x ∈ onRoads ways) →
    (over M.table l).IsChain (fun x y => x = y ∨ Beside ways x y) ∧
      (over M.table l).head? = l.head? ∧ (over M.table l).getLast? = l.getLast? ∧
      ∀ x ∈ over M.table l, x ∈ onRoads ways
  | [], _, _ => ⟨List.isChain_nil, rfl, rfl, fun _ h => by cases h⟩
  | [x], _, h => ⟨List.isChain_singleton _, rfl, rfl, h⟩
  | x :: y :: l, hc, hon => by
    rw [List.isChain_cons_cons] at hc
    obtain ⟨⟨p, hp⟩, hc⟩ := hc
    obtain ⟨h₁, h₂, h₃, h₄⟩ := over_spec h hM (y :: l) hc fun z hz => hon z (by simp [hz])
    obtain ⟨e, he, hpe⟩ := table_piece h hM hp
    obtain ⟨c₁, c₂, c₃⟩ := piece_chain hpe
    rw [over, he]
    dsimp only
    refine ⟨?_, ?_, ?_, ?_⟩
    · rw [List.isChain_append]
      refine ⟨c₁.imp fun _ _ => .inr, h₁, fun u hu v hv => .inl ?_⟩
      rw [c₃] at hu
      rw [h₂] at hv
      cases hu
      cases hv
      rfl
    · rw [List.head?_append, c₂]; rfl
    · rw [List.getLast?_append, h₃, List.getLast?_cons_cons]
      cases e' : (y :: l).getLast? with
      | none => simp at e'
      | some _ => rfl
    · intro z hz
      rcases List.mem_append.mp hz with hz | hz
      · obtain ⟨⟨w, hw, hh, hin⟩, -⟩ := hpe
        refine mem_onRoads.mpr ⟨w, hw, hh, ?_⟩
        rcases hin with k | k
        · exact k.subset hz
        · exact List.mem_reverse.mp (k.subset hz)
      · exact h₄ z hz

/-! ### The plans -/

theorem plans_spec {M : Option RoadMap} {c : Chooser} {speed : ℝ} {co : Bool} :
    ∀ (rs : List RouteReq) (ps : List RoutePlan), plans M c speed co rs = .ok ps →
      List.Forall₂ (fun r p => plan1 M c speed co r = .ok p) rs ps
  | [], ps, h => by cases h; exact .nil
  | r :: rs, ps, h => by
    rw [plans] at h
    obtain ⟨p, h₁, h⟩ := Outcome.bind_eq_ok.mp h
    obtain ⟨ps', h₂, h⟩ := Outcome.bind_eq_ok.mp h
    cases h
    exact .cons h₁ (plans_spec rs ps' h₂)

theorem answer_spec {M : Option RoadMap} {c : Chooser} {nominal : Int → Option ℝ} {r : PlanReq}
    {a : PlanResp} (h : answer M c nominal r = .ok (some a)) : ∃ v, nominal r.vehicle = some v ∧
      a.id = r.id ∧ a.task = r.task ∧ a.region = r.region ∧ a.vehicle = r.vehicle ∧
      List.Forall₂ (fun q p => plan1 M c (speedOf v) r.costOnly q = .ok p) r.routes a.plans := by
  unfold answer at h
  cases hv : nominal r.vehicle with
  | none => rw [hv] at h; cases h
  | some v =>
    rw [hv] at h
    obtain ⟨ps, h₁, h⟩ := Outcome.bind_eq_ok.mp h
    cases h
    exact ⟨v, rfl, rfl, rfl, rfl, rfl, plans_spec _ _ h₁⟩

theorem speedOf_eq (v : ℝ) : speedOf v = max v 1 := by
  unfold speedOf
  split
  · rename_i h; rw [max_eq_right h.le]
  · rename_i h; rw [max_eq_left (not_lt.mp h)]

theorem plan1_cases {M : Option RoadMap} {c : Chooser} {speed : ℝ} {co : Bool} {r : RouteReq}
    {p : RoutePlan} (h : plan1 M c speed co r = .ok p) :
    p.id = r.id ∧ ((p.cost = -1 ∧ p.wps = []) ∨ ∃ N a b k l, M = some N ∧
      closest (planPts N) r.from_ = some a ∧ closest (planPts N) r.to_ = some b ∧
      shortest N c a.1 b.1 = .ok (some (k, l)) ∧ p.cost = ⌊(a.2 + b.2 + k) / speed * 1000⌋ ∧
      p.wps = if co then [] else waypoints speed N l r.from_ r.to_) := by
  unfold plan1 at h
  cases M with
  | none => cases h; exact ⟨rfl, .inl ⟨rfl, rfl⟩⟩
  | some N =>
    dsimp only at h
    cases ha : closest (planPts N) r.from_ with
    | none => rw [ha] at h; cases h; exact ⟨rfl, .inl ⟨rfl, rfl⟩⟩
    | some a =>
      cases hb : closest (planPts N) r.to_ with
      | none => rw [ha, hb] at h; cases h; exact ⟨rfl, .inl ⟨rfl, rfl⟩⟩
      | some b =>
        rw [ha, hb] at h
        dsimp only at h
        obtain ⟨x, hx, h⟩ := Outcome.bind_eq_ok.mp h
        cases x with
        | none => cases h; exact ⟨rfl, .inl ⟨rfl, rfl⟩⟩
        | some x => cases h; exact ⟨rfl, .inr ⟨N, a, b, x.1, x.2, rfl, ha, hb, hx, rfl, rfl⟩⟩

theorem closest_nonneg {pts : List (Id × Pt)} {p : Pt} {a : Id × ℝ} (h : closest pts p = some a) :
    0 ≤ a.2 := by
  obtain ⟨⟨q, -, e⟩, -⟩ := C156_found (i := a.1) (d := a.2) h
  rw [e]; exact dist_nonneg _ _

/-- **C158.**  There is an answer for vehicles whose configuration is known and only for
them; it has the ids of the request, and a plan for each route of the request in its
order. -/
theorem C158_ids {M : Option RoadMap} {c : Chooser} {nominal : Int → Option ℝ} {r : PlanReq}
    {x : Option PlanResp} (h : answer M c nominal r = .ok x) :
    (x = none ↔ nominal r.vehicle = none) ∧ ∀ a, x = some a →
      a.id = r.id ∧ a.task = r.task ∧ a.region = r.region ∧ a.vehicle = r.vehicle ∧
      a.plans.map (·.id) = r.routes.map (·.id) := by
  constructor
  · unfold answer at h
    cases hv : nominal r.vehicle with
    | none => rw [hv] at h; cases h; simp
    | some v =>
      rw [hv] at h
      obtain ⟨ps, -, h⟩ := Outcome.bind_eq_ok.mp h
      cases h
      simp
  · rintro a rfl
    obtain ⟨v, -, h₁, h₂, h₃, h₄, h₅⟩ := answer_spec h
    refine ⟨h₁, h₂, h₃, h₄, ?_⟩
    generalize r.routes = rs at h₅
    generalize a.plans = ps at h₅
    induction h₅ with
    | nil => rfl
    | cons hp _ ih => rw [List.map_cons, List.map_cons, ih, (plan1_cases hp).1]

/-- **C158.**  The waypoints of every plan are numbered from one on; each leads to the one
after it and the last to itself; all have the nominal speed, but at least 1 m/s.  Requests
for costs only have no waypoints, and plans that failed have cost −1 and none; all other
costs are not negative. -/
theorem C158_numbers {M : Option RoadMap} {c : Chooser} {nominal : Int → Option ℝ} {r : PlanReq}
    {a : PlanResp} (h : answer M c nominal r = .ok (some a)) {p : RoutePlan} (hp : p ∈ a.plans) :
    (∀ i (hi : i < p.wps.length), p.wps[i].number = i + 1 ∧
      p.wps[i].next = (if i + 1 = p.wps.length then i + 1 else i + 2)) ∧
    (∀ w ∈ p.wps, ∃ v, nominal r.vehicle = some v ∧ w.speed = max v 1) ∧
    (r.costOnly = true → p.wps = []) ∧ (p.cost = -1 ∧ p.wps = [] ∨
      0 ≤ p.cost ∧ (r.costOnly = false → 2 ≤ p.wps.length)) := by
  obtain ⟨v, hv, -, -, -, -, hf⟩ := answer_spec h
  obtain ⟨q, hq⟩ : ∃ q, plan1 M c (speedOf v) r.costOnly q = .ok p := by
    obtain ⟨hl, hg⟩ := List.forall₂_iff_get.mp hf
    obtain ⟨i, hi, e⟩ := List.getElem_of_mem hp
    refine ⟨r.routes[i]'(by rw [hl]; exact hi), ?_⟩
    have := hg i (by rw [hl]; exact hi) hi
    simp only [List.get_eq_getElem] at this
    rw [e] at this
    exact this
  obtain ⟨-, hc⟩ := plan1_cases hq
  rcases hc with ⟨h₁, h₂⟩ | ⟨N, x, y, k, l, -, hx, hy, -, h₁, h₂⟩
  · rw [h₂]
    exact ⟨fun i hi => (by cases hi), fun w hw => (by cases hw), fun _ => rfl, .inl ⟨h₁, rfl⟩⟩
  · have hcost : 0 ≤ p.cost := by
      rw [h₁]
      refine Int.floor_nonneg.mpr ?_
      have := closest_nonneg hx
      have := closest_nonneg hy
      have : (0 : ℝ) < speedOf v := by rw [speedOf_eq]; exact lt_max_of_lt_right one_pos
      positivity
    cases hco : r.costOnly with
    | true =>
      rw [hco, if_pos rfl] at h₂
      rw [h₂]
      exact ⟨fun i hi => (by cases hi), fun w hw => (by cases hw), fun _ => rfl,
        .inr ⟨hcost, fun h => by cases h⟩⟩
    | false =>
      rw [hco, if_neg (by decide)] at h₂
      refine ⟨fun i hi => ?_, fun w hw => ⟨v, hv, ?_⟩, fun h => (by cases h), .inr ⟨hcost, fun _ => ?_⟩⟩
      · have hch := waypoints_chain (speedOf v) N l q.from_ q.to_
        rw [← h₂] at hch
        obtain ⟨h₃, h₄⟩ := hch i hi
        refine ⟨h₃, h₄.trans ?_⟩
        by_cases he : i + 1 = p.wps.length
        · rw [if_pos he, if_pos he, he]
        · rw [if_neg he, if_neg he]
      · rw [h₂] at hw
        rw [waypoints_speed _ _ _ _ _ w hw, speedOf_eq]
      · rw [h₂]
        unfold waypoints
        dsimp only
        rw [List.length_append, linkLast_length, List.length_singleton]
        have : 1 ≤ (follow (speedOf v) N l [⟨1, 0, q.from_, speedOf v⟩]).length := by
          have grow : ∀ (xs : List Id) (ws : List Wp), ws.length ≤
              (addNodes (speedOf v) N.pts.pos xs ws).length := by
            intro xs
            induction xs with
            | nil => intro ws; exact Nat.le_refl _
            | cons z zs ih =>
              intro ws
              rw [addNodes]
              cases N.pts.pos z with
              | none => exact Nat.le_refl _
              | some q =>
                refine Nat.le_trans ?_ (ih _)
                unfold push
                rw [List.length_append, linkLast_length]; omega
          have grow' : ∀ (xs : List Id) (ws : List Wp), ws.length ≤
              (follow (speedOf v) N xs ws).length := by
            intro xs
            induction xs with
            | nil => intro ws; exact Nat.le_refl _
            | cons z zs ih =>
              intro ws
              cases zs with
              | nil =>
                rw [follow]
                cases N.pts.pos z with
                | none => exact Nat.le_refl _
                | some q =>
                  dsimp only
                  unfold push
                  rw [List.length_append, linkLast_length]; omega
              | cons z' zs =>
                rw [follow]
                cases N.table.get (z, z') with
                | none => exact ih ws
                | some p => exact Nat.le_trans (grow _ _) (ih _)
          exact grow' l [⟨1, 0, q.from_, speedOf v⟩]
        omega

theorem mem_planPts {x : Id × Pt} : x ∈ planPts M ↔
    x.1 ∈ M.pts.planning ∧ M.pts.pos x.1 = some x.2 := by
  obtain ⟨i, q⟩ := x
  unfold planPts
  rw [List.mem_filterMap]
  constructor
  · rintro ⟨j, hj, e⟩
    cases hp : M.pts.pos j with
    | none => rw [hp] at e; cases e
    | some q' =>
      rw [hp] at e
      cases e
      exact ⟨hj, hp⟩
  · rintro ⟨h₁, h₂⟩
    exact ⟨i, h₁, by dsimp only at h₂; rw [h₂]; rfl⟩

/-- **C158.**  A plan that succeeds drives from the start straight to a point used for
planning, from there from point to neighbouring point of roads (points of crossings come
twice), and straight to the end. -/
theorem C158_places {c : Chooser} {nominal : Int → Option ℝ} {r : PlanReq} {a : PlanResp}
    (h : Whole ways els) (hM : build o ways els = .ok M)
    (ha : answer (some M) c nominal r = .ok (some a)) {i : Nat} (hi : i < a.plans.length)
    (hi' : i < r.routes.length) (hw : a.plans[i].wps ≠ []) :
    ∃ (on : List Id) (x y : Id) (d e : ℝ),
      closest (planPts M) r.routes[i].from_ = some (x, d) ∧
      closest (planPts M) r.routes[i].to_ = some (y, e) ∧
      on.head? = some x ∧ on.getLast? = some y ∧
      on.IsChain (fun x y => x = y ∨ Beside ways x y) ∧ (∀ z ∈ on, M.pts.pos z ≠ none) ∧
      a.plans[i].wps.map (·.at_) =
        r.routes[i].from_ :: (on.map (posOf M.pts.pos) ++ [r.routes[i].to_]) := by
  obtain ⟨v, hv, -, -, -, -, hf⟩ := answer_spec ha
  have hp := (List.forall₂_iff_get.mp hf).2 i hi' hi
  simp only [List.get_eq_getElem] at hp
  obtain ⟨-, ⟨-, h₂⟩ | ⟨N, x, y, k, l, e, hx, hy, hs, h₁, h₂⟩⟩ := plan1_cases hp
  · exact absurd h₂ hw
  · cases e
    cases hco : r.costOnly with
    | true => rw [hco, if_pos rfl] at h₂; exact absurd h₂ hw
    | false =>
      rw [hco, if_neg (by decide)] at h₂
      obtain ⟨m, hd, -⟩ := C157_route h hM hs
      obtain ⟨c₁, c₂, c₃⟩ := drive_chain hd
      have hx' : x.1 ∈ onRoads ways := by
        obtain ⟨⟨q, hq, -⟩, -⟩ := C156_found (i := x.1) (d := x.2) hx
        have := (mem_planPts.mp hq).1
        obtain ⟨e, -⟩ := build_parts hM
        rw [e] at this
        exact planned_onRoads (h.planning.mp this)
      have hl : ∀ z ∈ l, z ∈ onRoads ways := by
        have : ∀ {b l m}, Drive ways (posOf M.pts.pos) x.1 b l m → ∀ z ∈ l, z ∈ onRoads ways := by
          intro b l m hd
          induction hd with
          | here => intro z hz; rw [List.mem_singleton.mp hz]; exact hx'
          | step _ hp ih =>
            intro z hz
            rcases List.mem_append.mp hz with hz | hz
            · exact ih z hz
            · rw [List.mem_singleton.mp hz]; exact planned_onRoads hp.2.2.1
        exact this hd
      obtain ⟨o₁, o₂, o₃, o₄⟩ := over_spec h hM l c₁ hl
      have hpos : ∀ z ∈ over M.table l, M.pts.pos z ≠ none := by
        intro z hz
        obtain ⟨e, -⟩ := build_parts hM
        rw [e]
        exact h.pos (o₄ z hz)
      refine ⟨over M.table l, x.1, y.1, x.2, y.2, hx, hy, o₂.trans c₂, o₃.trans c₃, o₁, hpos, ?_⟩
      rw [h₂]
      exact waypoints_places _ _ _ hpos

/-- **C158, in part.**  The cost of a plan that succeeds, in milliseconds, is that of the
straight lines to and from the roads and of a drive along them at the speed of the
vehicle; at least, for the length of the drive is given too long (C155). -/
theorem C158_cost_partial {c : Chooser} {nominal : Int → Option ℝ} {r : PlanReq} {a : PlanResp}
    (h : Whole ways els) (hM : build o ways els = .ok M)
    (ha : answer (some M) c nominal r = .ok (some a)) {i : Nat} (hi : i < a.plans.length)
    (hi' : i < r.routes.length) (hc : a.plans[i].cost ≠ -1) :
    ∃ (v : ℝ) (x y : Id) (d e : ℝ) (l : List Id) (m k : Nat), nominal r.vehicle = some v ∧
      closest (planPts M) r.routes[i].from_ = some (x, d) ∧
      closest (planPts M) r.routes[i].to_ = some (y, e) ∧
      Drive ways (posOf M.pts.pos) x y l m ∧ m ≤ k ∧
      a.plans[i].cost = ⌊(d + e + k) / max v 1 * 1000⌋ := by
  obtain ⟨v, hv, -, -, -, -, hf⟩ := answer_spec ha
  have hp := (List.forall₂_iff_get.mp hf).2 i hi' hi
  simp only [List.get_eq_getElem] at hp
  obtain ⟨-, ⟨h₁, -⟩ | ⟨N, x, y, k, l, e, hx, hy, hs, h₁, -⟩⟩ := plan1_cases hp
  · exact absurd h₁ hc
  · cases e
    obtain ⟨m, hd, hle⟩ := C157_route h hM hs
    rw [speedOf_eq] at h₁
    exact ⟨v, x.1, y.1, x.2, y.2, l, m, k, hv, hx, hy, hd, hle, h₁⟩

/-! ### Requests are answered -/

theorem planned_next {l : List Id} {plan : Id → Prop} : ∀ (post : List Id), post ≠ [] →
    (∀ y, post.getLast? = some y → plan y) →
    ∃ mid b rest, post = mid ++ b :: rest ∧ plan b ∧ ∀ z ∈ mid, ¬ plan z
  | [], h, _ => absurd rfl h
  | y :: post, _, hl => by
    by_cases hy : plan y
    · exact ⟨[], y, post, rfl, hy, fun z hz => by cases hz⟩
    · cases post with
      | nil => exact absurd (hl y rfl) hy
      | cons y' post =>
        obtain ⟨mid, b, rest, e, hb, hm⟩ := planned_next (l := l) (y' :: post) (by simp) fun z hz =>
          hl z (by rw [List.getLast?_cons_cons]; exact hz)
        refine ⟨y :: mid, b, rest, by rw [e]; rfl, hb, fun z hz => ?_⟩
        rcases List.mem_cons.mp hz with rfl | hz
        · exact hy
        · exact hm z hz

/-- On roads of two points or more every point used for planning has a piece. -/
theorem planned_piece (htwo : ∀ w ∈ ways, w.highway = true → w.nodes.length ≠ 1) {x : Id}
    (hx : Planned ways x) : ∃ y p, RoadPiece ways p x y := by
  obtain ⟨w, hw, hh, hxw⟩ := mem_onRoads.mp (planned_onRoads hx)
  obtain ⟨pre, post, e⟩ := List.append_of_mem hxw
  have hlast : ∀ y, w.nodes.getLast? = some y → Planned ways y := fun y hy => .inl ⟨w, hw, hh, .inr hy⟩
  have hhead : ∀ y, w.nodes.head? = some y → Planned ways y := fun y hy => .inl ⟨w, hw, hh, .inl hy⟩
  have go : ∀ (pre post l : List Id), l = pre ++ x :: post → post ≠ [] →
      (∀ y, l.getLast? = some y → Planned ways y) → (l = w.nodes ∨ l = w.nodes.reverse) →
      ∃ y p, RoadPiece ways p x y := by
    intro pre post l e hne hl hw'
    obtain ⟨mid, b, rest, e', hb, hm⟩ := planned_next (l := l) post hne (fun y hy => hl y (by
      rw [e, List.getLast?_append]
      cases post with
      | nil => exact absurd rfl hne
      | cons z post => rw [List.getLast?_cons_cons, hy]; rfl))
    refine ⟨b, x :: (mid ++ [b]), ⟨w, hw, hh, ?_⟩, hx, hb, mid, rfl, hm⟩
    have hin : (x :: (mid ++ [b])) <:+: l := ⟨pre, rest, by rw [e, e']; simp⟩
    rcases hw' with rfl | rfl
    · exact .inl hin
    · exact .inr hin
  by_cases hp : post = []
  · have hpre : pre ≠ [] := by
      rintro rfl
      refine htwo w hw hh ?_
      rw [e, hp]; rfl
    exact go post.reverse pre.reverse w.nodes.reverse (by rw [e]; simp) (by simpa using hpre)
      (fun y hy => hhead y (by rw [List.getLast?_reverse] at hy; exact hy)) (.inr rfl)
  · exact go pre post w.nodes e hp hlast (.inl rfl)

/-- **C158.**  With a map where nothing is missing and no road has just one point, every
request gets its answer. -/
theorem C158_answered {c : Chooser} {nominal : Int → Option ℝ} (h : Whole ways els)
    (hM : build o ways els = .ok M) (htwo : ∀ w ∈ ways, w.highway = true → w.nodes.length ≠ 1)
    (r : PlanReq) : ∃ x, answer (some M) c nominal r = .ok x := by
  unfold answer
  cases nominal r.vehicle with
  | none => exact ⟨_, rfl⟩
  | some v =>
    dsimp only
    have hpiece : ∀ {p : Pt} {a : Id × ℝ}, closest (planPts M) p = some a →
        ∃ y q, RoadPiece ways q a.1 y := by
      intro p a ha
      obtain ⟨⟨q, hq, -⟩, -⟩ := C156_found (i := a.1) (d := a.2) ha
      have := (mem_planPts.mp hq).1
      obtain ⟨e, -⟩ := build_parts hM
      rw [e] at this
      exact planned_piece htwo (h.planning.mp this)
    have one : ∀ q, ∃ p, plan1 (some M) c (speedOf v) r.costOnly q = .ok p := by
      intro q
      unfold plan1
      dsimp only
      cases ha : closest (planPts M) q.from_ with
      | none => exact ⟨_, rfl⟩
      | some a =>
        cases hb : closest (planPts M) q.to_ with
        | none => exact ⟨_, rfl⟩
        | some b =>
          dsimp only
          obtain ⟨s, hs⟩ := C157_defined (c := c) h hM (hpiece ha) (hpiece hb)
          rw [hs, Outcome.bind_ok]
          cases s with
          | none => exact ⟨_, rfl⟩
          | some s => exact ⟨_, rfl⟩
    have all : ∀ rs, ∃ ps, plans (some M) c (speedOf v) r.costOnly rs = .ok ps := by
      intro rs
      induction rs with
      | nil => exact ⟨_, rfl⟩
      | cons q rs ih =>
        obtain ⟨p, hp⟩ := one q
        obtain ⟨ps, hps⟩ := ih
        refine ⟨p :: ps, ?_⟩
        rw [plans, hp, Outcome.bind_ok, hps, Outcome.bind_ok]
    obtain ⟨ps, hps⟩ := all r.routes
    rw [hps, Outcome.bind_ok]
    exact ⟨_, rfl⟩

end

end Verif.Roads
