/-
The visibility route planner service
(src/cpp/Services/RoutePlannerVisibilityService.cpp).
-/
import Verif.Visibility.Examples
import Verif.AMap
import Verif.Trace

namespace Verif.Visibility

/-! ### Messages -/

/-- RoutePlannerVisibilityService.cpp 211-213: which kind of entity a configuration is
for. -/
inductive Kind
  | air (speed : Rat) | surface | other
deriving DecidableEq, Repr

/-- Polygon.h 78-132: a zone as the service keeps it (`CBoundary`). -/
structure Zone where
  id : Int
  keepIn : Bool
  pts : List Pt
  padding : Rat := 0
deriving DecidableEq, Repr

/-- mdms/ROUTE.xml 61-81: `RouteRequest` constraints: one route asked for. Simplification:
positions are in the local metres of the flat earth; headings are left out. -/
structure RouteReq where
  routeId : Int
  start : Pt
  stop : Pt
deriving DecidableEq, Repr

/-- mdms/ROUTE.xml 102-116: `RoutePlanRequest`. -/
structure PlanReq where
  requestId : Int
  taskId : Int
  region : Int
  vehicle : Int
  costOnly : Bool := true
  routes : List RouteReq
deriving DecidableEq, Repr

/-- mdms/ROUTE.xml 119-128: `RoutePlan`. -/
structure RoutePlan where
  routeId : Int
  cost : Int
  waypoints : List Pt := []
deriving DecidableEq, Repr

/-- mdms/ROUTE.xml 131-142: `RoutePlanResponse`. -/
structure PlanResp where
  responseId : Int
  taskId : Int
  region : Int
  vehicle : Int
  routes : List RoutePlan
deriving DecidableEq, Repr

/-- RoutePlannerVisibilityService.cpp 174-242: the messages the service acts on. The
boundary of a zone is `none` when its geometry is of no known type. `src` is the address
of the sender. -/
inductive Msg
  | config (id : Int) (k : Kind)
  | zone (z : Zone) (known : Bool)
  | region (id : Int) (ins outs : List Int)
  | request (src : Nat) (r : PlanReq)
  | other
deriving DecidableEq, Repr

/-! ### The service -/

/-- Not in the code: what is taken from elsewhere: the geometry; the growing and merging
of zones (VisiLibity; `none` when it fails); the distance tables; and the smoothing of
waypoints. -/
structure Env where
  geo : Geo
  merge : List Zone → Option (List (Bool × List Pt))
  tables : List Edge → Nat → Tables
  way : Graph → Tables → Path → List Pt

/-- RoutePlannerVisibilityService.h 150-200: the members.  A graph is kept as the
zones it was built of. -/
structure St where
  kinds : Map Kind := []
  zones : Map Zone := []
  graphs : Map (List (Bool × List Pt)) := []

/-- The identifier of a polygon is an `int` (VisibilityGraph.h 211). -/
def wrap32 (i : Int) : Int := (i + 2147483648) % 4294967296 - 2147483648

/-- src/cpp/Plans/VisibilityGraph.h 211-250: `errAddPolygon`: a polygon of the same
identifier is replaced. -/
def addPoly (z : Zone) : List Zone → List Zone
  | [] => [z]
  | y :: ys => if wrap32 y.id = wrap32 z.id then z :: ys else y :: addPoly z ys

/-- RoutePlannerVisibilityService.cpp 278-305, 308-338: the zones of a list of
identifiers are added; `none` when one is not known.  Zones without corners are
left out. -/
def collect (look : Int → Option Zone) : List Int → List Zone → Option (List Zone)
  | [], acc => some acc
  | i :: is, acc => match look i with
    | none => none
    | some z => collect look is (if z.pts.isEmpty then acc else addPoly z acc)

/-- RoutePlannerVisibilityService.cpp 265-373: the zones of a region, merged. -/
def resolve (env : Env) (look : Int → Option Zone) (ins outs : List Int) :
    Option (List (Bool × List Pt)) :=
  match collect look ins [] with
  | none => none
  | some l => match collect look outs l with
    | none => none
    | some l' => env.merge l'

/-- RoutePlannerVisibilityService.cpp 174-263: what a message changes. -/
def St.upd (env : Env) (s : St) : Msg → St
  | .config id k => { s with kinds := s.kinds.put id k }
  | .zone z known => if known then { s with zones := s.zones.put z.id z } else s
  | .region id ins outs => match resolve env s.zones.get ins outs with
    | none => s
    | some zs => { s with graphs := s.graphs.put id zs }
  | .request _ _ => s
  | .other => s

/-- RoutePlannerVisibilityService.cpp 158-172: `initialize`: region 0 without
zones. -/
def St.init (env : Env) : St := ({} : St).upd env (.region 0 [] [])

/-- Not in the code: the state after a history. -/
def St.after (env : Env) (h : List Msg) : St := h.foldl (St.upd env) (St.init env)

/-- The speed kept for a vehicle (RoutePlannerVisibilityService.cpp 569-590; the
default is 0, RoutePlannerVisibilityService.h 174). -/
def Kind.speed : Kind → Rat
  | .air v => v
  | _ => 0

/-- For RoutePlannerVisibilityService.cpp 433: truncation towards zero. -/
def trunc (x : Rat) : Int := if 0 ≤ x then x.floor else -(-x).floor

/-- For RoutePlannerVisibilityService.cpp 433: `static_cast<int64_t>` of a `double`. -/
def toInt64 (x : Rat) : Outcome Int :=
  if -9223372036854775808 ≤ trunc x ∧ trunc x ≤ 9223372036854775807 then .ok (trunc x) else .ub

/-- RoutePlannerVisibilityService.cpp 433-435: the cost of a route, in
milliseconds. -/
def costOf (speed : Rat) (len : Int) : Outcome Int :=
  toInt64 ((if 0 < speed then len / speed else 0) * 1000)

/-- RoutePlannerVisibilityService.cpp 417-448: one route. -/
def route (env : Env) (zs : List (Bool × List Pt)) (speed : Rat) (costOnly : Bool)
    (q : RouteReq) : Outcome RoutePlan :=
  let g := build env.geo zs
  let t := env.tables g.base g.pts.length
  (findPath env.geo g t q.start q.stop).bind fun p =>
    (costOf speed p.len).bind fun c =>
      .ok { routeId := q.routeId, cost := c
            waypoints := if costOnly then [] else env.way g t p }

/-- RoutePlannerVisibilityService.cpp 417-448: the routes, one after the other. -/
def routes (f : RouteReq → Outcome RoutePlan) : List RouteReq → Outcome (List RoutePlan)
  | [] => .ok []
  | q :: qs => (f q).bind fun p => (routes f qs).bind fun ps => .ok (p :: ps)

/-- RoutePlannerVisibilityService.cpp 203-231, 383-456: the answer to a message,
and to whom it is sent. -/
def St.reply (env : Env) (s : St) : Msg → Outcome (List (Nat × PlanResp))
  | .request src r =>
    match s.kinds.get r.vehicle with
    | none => .ok []
    | some .other => .ok []
    | some k => match s.graphs.get r.region with
      | none => .ok []
      | some zs => (routes (route env zs k.speed r.costOnly) r.routes).bind fun ps =>
          .ok [(src, { responseId := r.requestId, taskId := r.taskId, region := r.region
                       vehicle := r.vehicle, routes := ps })]
  | _ => .ok []

/-! ### What the history says -/

/-- Specification: the last configuration of a vehicle. -/
def lastKind (h : List Msg) (v : Int) : Option Kind :=
  h.reverse.findSome? fun
    | .config id k => if id = v then some k else none
    | _ => none

/-- Specification: the zone last published under an identifier. -/
def lastZone (h : List Msg) (i : Int) : Option Zone :=
  h.reverse.findSome? fun
    | .zone z true => if z.id = i then some z else none
    | _ => none

/-- Specification: the zones of a region: those that the last message for the region
named, among those that could be resolved, as they were when it came. -/
def RegionIs (env : Env) (h : List Msg) (id : Int) (zs : List (Bool × List Pt)) : Prop :=
  ∃ pre ins outs post, .region 0 [] [] :: h = pre ++ .region id ins outs :: post ∧
    resolve env (lastZone pre) ins outs = some zs ∧
    ∀ pre' ins' outs' post', post = pre' ++ .region id ins' outs' :: post' →
      resolve env (lastZone (pre ++ .region id ins outs :: pre')) ins' outs' = none

theorem after_snoc (env : Env) (h : List Msg) (m : Msg) :
    St.after env (h ++ [m]) = (St.after env h).upd env m := by
  unfold St.after
  rw [List.foldl_append]
  rfl

theorem lastKind_snoc (h : List Msg) (m : Msg) (v : Int) :
    lastKind (h ++ [m]) v = match m with
      | .config id k => if id = v then some k else lastKind h v
      | _ => lastKind h v := by
  unfold lastKind
  rw [List.reverse_append, List.reverse_singleton, List.singleton_append, List.findSome?_cons]
  cases m with
  | config id k =>
    dsimp only
    by_cases e : id = v
    · rw [if_pos e, if_pos e]
    · rw [if_neg e, if_neg e]
  | _ => rfl

theorem lastZone_snoc (h : List Msg) (m : Msg) (i : Int) :
    lastZone (h ++ [m]) i = match m with
      | .zone z true => if z.id = i then some z else lastZone h i
      | _ => lastZone h i := by
  unfold lastZone
  rw [List.reverse_append, List.reverse_singleton, List.singleton_append, List.findSome?_cons]
  cases m with
  | zone z k =>
    cases k with
    | true =>
      dsimp only
      by_cases e : z.id = i
      · rw [if_pos e, if_pos e]
      · rw [if_neg e, if_neg e]
    | false => rfl
  | _ => rfl

theorem lastZone_region (id : Int) (ins outs : List Int) (h : List Msg) :
    lastZone (.region id ins outs :: h) = lastZone h := by
  funext i
  unfold lastZone
  rw [List.reverse_cons, List.findSome?_append]
  cases (h.reverse.findSome? _) <;> rfl

/-- The last message of a list with more at the end. -/
theorem split_snoc {α : Type} {h : List α} {m x : α} {pre post : List α}
    (e : h ++ [m] = pre ++ x :: post) :
    (post = [] ∧ x = m ∧ pre = h) ∨ ∃ post', post = post' ++ [m] ∧ h = pre ++ x :: post' := by
  rcases List.eq_nil_or_concat post with rfl | ⟨post', y, rfl⟩
  · obtain ⟨e₁, e₂⟩ := List.append_inj' e rfl
    cases e₂
    exact .inl ⟨rfl, rfl, e₁.symm⟩
  · have e' : h ++ [m] = (pre ++ x :: post') ++ [y] := by
      rw [e]; simp
    obtain ⟨e₁, e₂⟩ := List.append_inj' e' rfl
    cases e₂
    exact .inr ⟨post', by simp, e₁⟩

/-- A message leaves the zones of a region, or gives it new ones. -/
theorem regionIs_snoc (env : Env) (h : List Msg) (m : Msg) (id : Int)
    (zs : List (Bool × List Pt)) :
    RegionIs env (h ++ [m]) id zs ↔
      (∃ ins outs, m = .region id ins outs ∧ resolve env (lastZone h) ins outs = some zs) ∨
      (RegionIs env h id zs ∧
        ∀ ins outs, m = .region id ins outs → resolve env (lastZone h) ins outs = none) := by
  have hz : ∀ l, lastZone (.region 0 [] [] :: l) = lastZone l := lastZone_region 0 [] []
  constructor
  · rintro ⟨pre, ins, outs, post, e, hr, hl⟩
    rw [← List.cons_append] at e
    rcases split_snoc e with ⟨rfl, e₁, rfl⟩ | ⟨post', rfl, e₁⟩
    · rw [hz] at hr
      exact .inl ⟨ins, outs, e₁.symm, hr⟩
    · refine .inr ⟨⟨pre, ins, outs, post', e₁, hr, fun pre' ins' outs' q e₂ => ?_⟩,
        fun ins' outs' em => ?_⟩
      · exact hl pre' ins' outs' (q ++ [m]) (by rw [e₂]; simp)
      · have := hl post' ins' outs' [] (by rw [em])
        rw [← e₁, hz] at this
        exact this
  · rintro (⟨ins, outs, rfl, hr⟩ | ⟨⟨pre, ins, outs, post, e, hr, hl⟩, hm⟩)
    · refine ⟨.region 0 [] [] :: h, ins, outs, [], by simp, by rw [hz]; exact hr, ?_⟩
      intro pre' ins' outs' post' e
      cases pre' <;> cases e
    · refine ⟨pre, ins, outs, post ++ [m], by rw [← List.cons_append, e]; simp, hr, ?_⟩
      intro pre' ins' outs' post' e₂
      rcases split_snoc e₂ with ⟨rfl, e₃, rfl⟩ | ⟨q, rfl, e₃⟩
      · rw [← e, hz]
        exact hm ins' outs' e₃.symm
      · exact hl pre' ins' outs' q e₃

/-- What the service knows is what the history says. -/
theorem after_spec (env : Env) (h : List Msg) :
    (∀ v, (St.after env h).kinds.get v = lastKind h v) ∧
    (∀ i, (St.after env h).zones.get i = lastZone h i) ∧
    ∀ id zs, (St.after env h).graphs.get id = some zs ↔ RegionIs env h id zs := by
  induction h using snocRec with
  | nil =>
    refine ⟨?_, ?_, ?_⟩
    · intro v
      show (St.init env).kinds.get v = none
      unfold St.init St.upd
      dsimp only
      cases resolve env (Map.get ([] : Map Zone)) [] [] <;> rfl
    · intro i
      show (St.init env).zones.get i = none
      unfold St.init St.upd
      dsimp only
      cases resolve env (Map.get ([] : Map Zone)) [] [] <;> rfl
    · intro id zs
      show (St.init env).graphs.get id = some zs ↔ _
      have hl : lastZone ([] : List Msg) = Map.get ([] : Map Zone) := rfl
      have hr : RegionIs env [] id zs ↔ id = 0 ∧ resolve env (lastZone []) [] [] = some zs := by
        constructor
        · rintro ⟨pre, ins, outs, post, e, hr, -⟩
          cases pre with
          | nil => cases e; exact ⟨rfl, hr⟩
          | cons a pre => cases pre <;> cases e
        · rintro ⟨rfl, hr⟩
          refine ⟨[], [], [], [], rfl, hr, ?_⟩
          intro pre' ins' outs' post' e
          cases pre' <;> cases e
      rw [hr, hl]
      unfold St.init St.upd
      dsimp only
      cases e : resolve env (Map.get ([] : Map Zone)) [] [] with
      | none =>
        constructor
        · intro k; cases k
        · rintro ⟨-, k⟩; cases k
      | some zs' =>
        dsimp only
        rw [Map.get_put]
        by_cases k : id = 0
        · rw [if_pos k]; simp [k]
        · rw [if_neg k]
          constructor
          · intro k'; cases k'
          · rintro ⟨k', -⟩; exact absurd k' k
  | append_singleton h m ih =>
    obtain ⟨ihk, ihz, ihg⟩ := ih
    rw [after_snoc]
    have ez : (St.after env h).zones.get = lastZone h := funext ihz
    cases m with
    | config id k =>
      refine ⟨?_, ?_, ?_⟩
      · intro v
        rw [lastKind_snoc]
        show ((St.after env h).kinds.put id k).get v = if id = v then some k else lastKind h v
        rw [Map.get_put, ihk]
        by_cases e : v = id
        · rw [if_pos e, if_pos e.symm]
        · rw [if_neg e, if_neg (fun e' => e e'.symm)]
      · intro i; rw [lastZone_snoc]; exact ihz i
      · intro i zs
        rw [regionIs_snoc, ← ihg]
        constructor
        · intro e; exact .inr ⟨e, fun _ _ e => by cases e⟩
        · rintro (⟨_, _, e, -⟩ | ⟨e, -⟩)
          · cases e
          · exact e
    | zone z known =>
      refine ⟨?_, ?_, ?_⟩
      · intro v
        rw [lastKind_snoc, ← ihk v]
        cases known <;> rfl
      · intro i
        rw [lastZone_snoc]
        cases known with
        | false => exact ihz i
        | true =>
          show ((St.after env h).zones.put z.id z).get i = if z.id = i then some z else lastZone h i
          rw [Map.get_put, ihz]
          by_cases e : i = z.id
          · rw [if_pos e, if_pos e.symm]
          · rw [if_neg e, if_neg (fun e' => e e'.symm)]
      · intro i zs
        rw [regionIs_snoc, ← ihg]
        have : ((St.after env h).upd env (.zone z known)).graphs = (St.after env h).graphs := by
          cases known <;> rfl
        rw [this]
        constructor
        · intro e; exact .inr ⟨e, fun _ _ e => by cases e⟩
        · rintro (⟨_, _, e, -⟩ | ⟨e, -⟩)
          · cases e
          · exact e
    | region id ins outs =>
      have hk : ((St.after env h).upd env (.region id ins outs)).kinds = (St.after env h).kinds := by
        unfold St.upd
        dsimp only
        cases resolve env (St.after env h).zones.get ins outs <;> rfl
      have hz : ((St.after env h).upd env (.region id ins outs)).zones = (St.after env h).zones := by
        unfold St.upd
        dsimp only
        cases resolve env (St.after env h).zones.get ins outs <;> rfl
      refine ⟨?_, ?_, ?_⟩
      · intro v; rw [hk, lastKind_snoc]; exact ihk v
      · intro i; rw [hz, lastZone_snoc]; exact ihz i
      · intro i zs
        rw [regionIs_snoc, ← ihg]
        unfold St.upd
        dsimp only
        rw [ez]
        cases e : resolve env (lastZone h) ins outs with
        | none =>
          dsimp only
          constructor
          · intro k; exact .inr ⟨k, fun _ _ e' => by cases e'; exact e⟩
          · rintro (⟨_, _, e', k⟩ | ⟨k, -⟩)
            · cases e'; rw [e] at k; cases k
            · exact k
        | some zs' =>
          dsimp only
          rw [Map.get_put]
          by_cases k : i = id
          · subst k
            rw [if_pos rfl]
            constructor
            · intro e'
              cases e'
              exact .inl ⟨ins, outs, rfl, e⟩
            · rintro (⟨_, _, e', k⟩ | ⟨-, k⟩)
              · cases e'; rw [e] at k; exact k
              · have := k _ _ rfl
                rw [e] at this
                cases this
          · rw [if_neg k]
            constructor
            · intro e'; exact .inr ⟨e', fun _ _ e'' => by cases e''; exact absurd rfl k⟩
            · rintro (⟨_, _, e', -⟩ | ⟨e', -⟩)
              · cases e'; exact absurd rfl k
              · exact e'
    | request src r =>
      refine ⟨fun v => by rw [lastKind_snoc]; exact ihk v, fun i => by rw [lastZone_snoc]; exact ihz i, ?_⟩
      intro i zs
      rw [regionIs_snoc, ← ihg]
      constructor
      · intro e; exact .inr ⟨e, fun _ _ e => by cases e⟩
      · rintro (⟨_, _, e, -⟩ | ⟨e, -⟩)
        · cases e
        · exact e
    | other =>
      refine ⟨fun v => by rw [lastKind_snoc]; exact ihk v, fun i => by rw [lastZone_snoc]; exact ihz i, ?_⟩
      intro i zs
      rw [regionIs_snoc, ← ihg]
      constructor
      · intro e; exact .inr ⟨e, fun _ _ e => by cases e⟩
      · rintro (⟨_, _, e, -⟩ | ⟨e, -⟩)
        · cases e
        · exact e

end Verif.Visibility
