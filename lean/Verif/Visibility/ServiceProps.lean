/-
C111: the answers of the visibility route planner service.
-/
import Verif.Visibility.Service

namespace Verif.Visibility

theorem routes_spec {f : RouteReq → Outcome RoutePlan} {qs : List RouteReq} {ps : List RoutePlan}
    (h : routes f qs = .ok ps) : ps.length = qs.length ∧ ∀ x ∈ qs.zip ps, f x.1 = .ok x.2 := by
  induction qs generalizing ps with
  | nil =>
    have : ps = [] := by simpa [routes] using h.symm
    subst this
    exact ⟨rfl, by simp⟩
  | cons q qs ih =>
    obtain ⟨p, hp, h⟩ := Outcome.bind_eq_ok.mp h
    obtain ⟨ps', hps, h⟩ := Outcome.bind_eq_ok.mp h
    cases h
    obtain ⟨h₁, h₂⟩ := ih hps
    refine ⟨by simp [h₁], fun x hx => ?_⟩
    rw [List.zip_cons_cons] at hx
    rcases List.mem_cons.mp hx with rfl | hx
    · exact hp
    · exact h₂ x hx

theorem routes_ok {f : RouteReq → Outcome RoutePlan} {qs : List RouteReq}
    (h : ∀ q ∈ qs, ∃ p, f q = .ok p) : ∃ ps, routes f qs = .ok ps := by
  induction qs with
  | nil => exact ⟨[], rfl⟩
  | cons q qs ih =>
    obtain ⟨p, hp⟩ := h q (by simp)
    obtain ⟨ps, hps⟩ := ih fun q hq => h q (List.mem_cons_of_mem _ hq)
    exact ⟨p :: ps, by rw [routes, hp, Outcome.bind_ok, hps, Outcome.bind_ok]⟩

theorem toInt64_ok {x : Rat} {c : Int} (h : toInt64 x = .ok c) : c = trunc x := by
  unfold toInt64 at h
  by_cases hr : -9223372036854775808 ≤ trunc x ∧ trunc x ≤ 9223372036854775807
  · rw [if_pos hr] at h; cases h; rfl
  · rw [if_neg hr] at h; cases h

theorem route_spec {env : Env} {zs : List (Bool × List Pt)} {speed : Rat} {c : Bool} {q : RouteReq}
    {p : RoutePlan} (h : route env zs speed c q = .ok p) :
    p.routeId = q.routeId ∧ (c = true → p.waypoints = []) ∧
      ∃ path, findPath env.geo (build env.geo zs)
          (env.tables (build env.geo zs).base (build env.geo zs).pts.length) q.start q.stop = .ok path ∧
        p.cost = trunc ((if 0 < speed then path.len / speed else 0) * 1000) := by
  obtain ⟨path, hp, h⟩ := Outcome.bind_eq_ok.mp h
  obtain ⟨cost, hc, h⟩ := Outcome.bind_eq_ok.mp h
  cases h
  refine ⟨rfl, fun e => by simp [e], path, hp, ?_⟩
  exact toInt64_ok hc

/-- **C111.**  A request for a vehicle whose last configuration is that of an
aircraft or a surface vehicle, in a region that is known, is answered to its
sender, once, with one route for each one asked for, in the same order and with
the same identifiers; the cost of a route is the time to fly the path found,
at the last configured speed, among the zones as they were when the region
came. -/
theorem C111_answer {env : Env} {h : List Msg} {src : Nat} {r : PlanReq} {k : Kind}
    (hk : lastKind h r.vehicle = some k) (ho : k ≠ .other) {zs : List (Bool × List Pt)}
    (hz : RegionIs env h r.region zs) {out : List (Nat × PlanResp)}
    (hr : (St.after env h).reply env (.request src r) = .ok out) :
    ∃ ps, out = [(src, { responseId := r.requestId, taskId := r.taskId, region := r.region
                         vehicle := r.vehicle, routes := ps })] ∧
      ps.map (·.routeId) = r.routes.map (·.routeId) ∧
      ∀ x ∈ r.routes.zip ps, ∃ path,
        findPath env.geo (build env.geo zs)
          (env.tables (build env.geo zs).base (build env.geo zs).pts.length) x.1.start x.1.stop =
            .ok path ∧
        x.2.cost = trunc ((if 0 < k.speed then path.len / k.speed else 0) * 1000) := by
  obtain ⟨ek, -, eg⟩ := after_spec env h
  have eg := (eg _ _).mpr hz
  have ek := (ek r.vehicle).trans hk
  have hr : (routes (route env zs k.speed r.costOnly) r.routes).bind (fun ps =>
      .ok [(src, { responseId := r.requestId, taskId := r.taskId, region := r.region
                   vehicle := r.vehicle, routes := ps : PlanResp })]) = .ok out := by
    unfold St.reply at hr
    dsimp only at hr
    rw [ek] at hr
    cases k with
    | other => exact absurd rfl ho
    | air v => dsimp only at hr; rw [eg] at hr; exact hr
    | surface => dsimp only at hr; rw [eg] at hr; exact hr
  obtain ⟨ps, hps, hr⟩ := Outcome.bind_eq_ok.mp hr
  cases hr
  obtain ⟨hl, hx⟩ := routes_spec hps
  refine ⟨ps, rfl, ?_, fun x hx' => (route_spec (hx x hx')).2.2⟩
  apply List.ext_getElem
  · simp [hl]
  · intro i h₁ h₂
    simp only [List.length_map] at h₁ h₂
    rw [List.getElem_map, List.getElem_map]
    have hm : (r.routes[i], ps[i]) ∈ r.routes.zip ps := by
      rw [← List.getElem_zip (h := by simp; omega)]
      exact List.getElem_mem _
    exact (route_spec (hx _ hm)).1

/-- **C111.**  Any other request is not answered at all. -/
theorem C111_silent {env : Env} {h : List Msg} {src : Nat} {r : PlanReq}
    (hn : lastKind h r.vehicle = none ∨ lastKind h r.vehicle = some .other ∨
      ∀ zs, ¬ RegionIs env h r.region zs) :
    (St.after env h).reply env (.request src r) = .ok [] := by
  obtain ⟨ek, -, eg⟩ := after_spec env h
  have ek := ek r.vehicle
  unfold St.reply
  dsimp only
  rcases hn with hn | hn | hn
  · rw [ek, hn]
  · rw [ek, hn]
  · have : (St.after env h).graphs.get r.region = none := by
      cases e : (St.after env h).graphs.get r.region with
      | none => rfl
      | some zs => exact absurd ((eg _ _).mp e) (hn zs)
    rw [this]
    split <;> rfl

/-- **C111.**  The cost is that of a shortest route: when a path is found, it is
the length of its legs over the speed, and no way over the visibility graph is
shorter. -/
theorem C111_shortest {env : Env} (hsym : ∀ p q, env.geo.len p q = env.geo.len q p)
    (hself : ∀ p, env.geo.len p p = 0) {zs : List (Bool × List Pt)}
    (ht : Shortest (build env.geo zs).base (build env.geo zs).pts.length
      (env.tables (build env.geo zs).base (build env.geo zs).pts.length))
    {speed : Rat} (hs : 0 < speed) {path : Path} {p q : Pt}
    (hf : findPath env.geo (build env.geo zs)
      (env.tables (build env.geo zs).base (build env.geo zs).pts.length) p q = .ok path)
    (hb : ¬ Clear zs p q) (h₀ : 0 ≤ path.len) (h₁ : path.len < intMax) :
    ∃ m, positions (build env.geo zs)
        (env.tables (build env.geo zs).base (build env.geo zs).pts.length) path =
          some (p :: (m ++ [q])) ∧
      (if 0 < speed then (path.len : Rat) / speed else 0) * 1000 =
        (routeLen env.geo (p :: (m ++ [q])) : Rat) / speed * 1000 ∧
      ∀ u v l w, Sees (build env.geo zs) p u → Walk (build env.geo zs).base u v l w →
        Seen (build env.geo zs) v q →
        routeLen env.geo (p :: (m ++ [q])) ≤
          routeLen env.geo (p :: (l.map (pt (build env.geo zs).pts) ++ [q])) := by
  obtain ⟨m, hp, -, -, hl, hmin⟩ := C107_shortest hsym hself ht hb hf h₀ h₁
  refine ⟨m, hp, ?_, fun u v l w hu hw hv => ?_⟩
  · rw [if_pos hs, hl]
    rfl
  · have := hmin u v l w hu hw hv
    rw [hl] at this
    exact Int.ofNat_le.mp this

/-! ### Examples -/

/-- A service that leaves zones as they are and does not smooth. -/
def plain : Env where
  geo := euclid
  merge zs := some (zs.map fun z => (z.keepIn, z.pts))
  tables := tables
  way _ _ _ := []

/-- The zones of `square`, `walled` and others, as messages. -/
def squareZone : Msg := .zone { id := 1, keepIn := false, pts := square.2 } true

/-- Not in the code: a request, for the examples. -/
def ask (v region : Int) (p q : Pt) : Msg :=
  .request 7 { requestId := 3, taskId := 4, region := region, vehicle := v
               routes := [{ routeId := 11, start := p, stop := q }] }

/-- Round the square in region 5, at 20 m/s: 22 m in 1100 ms. -/
example : (St.after plain [squareZone, .region 5 [] [1], .config 9 (.air 20)]).reply plain
      (ask 9 5 ⟨4, -5⟩ ⟨4, 15⟩) =
    .ok [(7, { responseId := 3, taskId := 4, region := 5, vehicle := 9
               routes := [{ routeId := 11, cost := 1100 }] })] := by decide +kernel

/-- The hypotheses of `C111_answer` are met there. -/
example : ∃ zs, lastKind [squareZone, .region 5 [] [1], .config 9 (.air 20)] 9 = some (.air 20) ∧
    RegionIs plain [squareZone, .region 5 [] [1], .config 9 (.air 20)] 5 zs := by
  refine ⟨[square], by decide +kernel, ?_⟩
  rw [← (after_spec plain _).2.2]
  decide +kernel

/-- Region 0 has no zones and is always known. -/
example : (St.after plain [.config 9 (.air 20)]).reply plain (ask 9 0 ⟨4, -5⟩ ⟨4, 15⟩) =
    .ok [(7, { responseId := 3, taskId := 4, region := 0, vehicle := 9
               routes := [{ routeId := 11, cost := 1000 }] })] := by decide +kernel

/-! ### What is false -/

/-- Not in the code: zones for the examples. -/
def walledZones : List Msg :=
  [.zone { id := 1, keepIn := true, pts := [⟨-1, -10⟩, ⟨-1, 10⟩, ⟨1, 10⟩, ⟨1, -10⟩] } true,
   .zone { id := 2, keepIn := false, pts := [⟨-10, -4⟩, ⟨-10, -2⟩, ⟨10, -2⟩, ⟨10, -4⟩] } true,
   .zone { id := 3, keepIn := false, pts := [⟨-10, 2⟩, ⟨-10, 4⟩, ⟨10, 4⟩, ⟨10, 2⟩] } true,
   .region 5 [1] [2, 3], .config 9 (.air 20)]

/-- **A place that cannot be reached is offered at a negative cost**: cheaper than
any place that can. -/
theorem C111_unreachable_violated :
    ∃ p q, (St.after plain walledZones).reply plain (ask 9 5 p q) =
      .ok [(7, { responseId := 3, taskId := 4, region := 5, vehicle := 9
                 routes := [{ routeId := 11, cost := -50 }] })] :=
  ⟨⟨0, -7⟩, ⟨0, 1⟩, by decide +kernel⟩

/-- **For a surface vehicle every route costs nothing**, however long. -/
theorem C111_surface_violated :
    (St.after plain [.config 9 .surface]).reply plain (ask 9 0 ⟨0, 0⟩ ⟨0, 100000⟩) =
      .ok [(7, { responseId := 3, taskId := 4, region := 0, vehicle := 9
                 routes := [{ routeId := 11, cost := 0 }] })] := by decide +kernel

/-- **A zone that changes after the region came is planned with as it was**, though
the zone is known. -/
theorem C111_changed_violated :
    lastZone [.zone { id := 1, keepIn := false, pts := [⟨90, 0⟩, ⟨90, 10⟩, ⟨99, 10⟩] } true,
        .region 5 [] [1], squareZone, .config 9 (.air 20)] 1 =
      some { id := 1, keepIn := false, pts := square.2 } ∧
    ¬ Clear [square] ⟨4, -5⟩ ⟨4, 15⟩ ∧
    (St.after plain [.zone { id := 1, keepIn := false, pts := [⟨90, 0⟩, ⟨90, 10⟩, ⟨99, 10⟩] } true,
        .region 5 [] [1], squareZone, .config 9 (.air 20)]).reply plain
        (ask 9 5 ⟨4, -5⟩ ⟨4, 15⟩) =
      .ok [(7, { responseId := 3, taskId := 4, region := 5, vehicle := 9
                 routes := [{ routeId := 11, cost := 1000 }] })] := by
  refine ⟨by decide +kernel, ?_, by decide +kernel⟩
  rw [← clear_iff euclid]
  decide +kernel

/-- **A region that names a zone before the zone came stays unknown**, also when
the zone has come: requests in it are never answered. -/
theorem C111_late_zone_violated :
    (St.after plain [.region 5 [] [1], squareZone, .config 9 (.air 20)]).reply plain
      (ask 9 5 ⟨4, -5⟩ ⟨4, 15⟩) = .ok [] := by decide +kernel

/-- **Zones whose identifiers agree in the lower 32 bits replace each other.** -/
theorem C111_wide_ids_violated :
    resolve plain (lastZone [squareZone,
        .zone { id := 4294967297, keepIn := false, pts := [⟨90, 0⟩, ⟨90, 10⟩, ⟨99, 10⟩] } true])
      [] [1, 4294967297] = some [(false, [⟨90, 0⟩, ⟨90, 10⟩, ⟨99, 10⟩])] := by decide +kernel

end Verif.Visibility
