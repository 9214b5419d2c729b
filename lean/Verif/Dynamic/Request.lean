import Verif.Dynamic.Pace

/-!
# What is asked for (C148), and the missions that are sent (C149)
-/

namespace Verif.Dynamic

open Complex Verif.Blockade

variable {p : Params} {config : ℤ → Option Config}

/-- **C148.**  A request for a route is for the vehicle whose state was heard and is answered to this service; the route ends at
the place that the task computes, moved off keep-out zones for an air vehicle, which is not near the vehicle nor near the last
place it was sent to, and starts at the lead distance from the vehicle on the straight way there.  A ground vehicle is left
alone until it is at the last waypoint of its mission. -/
theorem C148_request {s s' : St} {now : ℤ} {v : VState} {loc : Option Loc} {r : Request}
    (h : activeEntityState p config s now v loc = .ok (s', some r)) :
    r.vehicle = v.id ∧ r.requestId = p.service ∧ r.task = 0 ∧ r.routeId = 1 ∧ s'.target v.id = some r.stop ∧
    (∃ l, loc = some l ∧ r.stop.altitude = l.altitude ∧
      (∀ q, s.target v.id = some q → (p.threshold : ℝ) ≤ ‖l.place - q.place‖) ∧
      (v.kind ≠ .air ∨ config v.id = none → r.stop = l) ∧
      (∀ c, v.kind = .air → config v.id = some c → r.stop = attemptMove s l (loiterRadius c.nominalSpeed * 1.5))) ∧
    (p.threshold : ℝ) ≤ ‖r.stop.place - v.loc.place‖ ∧
    r.start.altitude = v.loc.altitude ∧
    (r.stop.place ≠ v.loc.place →
      r.start.place = v.loc.place + ((p.lead / ‖r.stop.place - v.loc.place‖ : ℝ) : ℂ) * (r.stop.place - v.loc.place)) ∧
    (v.kind = .ground → ∀ w, s.lastWaypoint v.id = some w → v.currentWaypoint = w) := by
  unfold activeEntityState at h
  simp only at h
  split_ifs at h with c1 c2
  · simp only [Outcome.ok.injEq, Prod.mk.injEq, reduceCtorEq, and_false] at h
  swap
  · simp only [Outcome.ok.injEq, Prod.mk.injEq, reduceCtorEq, and_false] at h
  have hg : v.kind = .ground → ∀ w, s.lastWaypoint v.id = some w → v.currentWaypoint = w := by
    intro hk w hw
    by_contra hne
    exact c2 ⟨hk, w, hw, hne⟩
  rcases loc with _ | l
  · split at h
    · cases h
    · simp only [Outcome.ok.injEq, Prod.mk.injEq, reduceCtorEq, and_false] at h
    · rename_i hl; cases hl
  · simp only at h
    split_ifs at h with c3 c4
    · simp only [Outcome.ok.injEq, Prod.mk.injEq, reduceCtorEq, and_false] at h
    · simp only [Outcome.ok.injEq, Prod.mk.injEq, reduceCtorEq, and_false] at h
    · simp only [Outcome.ok.injEq, Prod.mk.injEq, Option.some.injEq] at h
      obtain ⟨rfl, rfl⟩ := h
      have hpl : ∀ l' : Loc, l'.place ≠ v.loc.place → v.loc.place + normalize (l'.place - v.loc.place) * p.lead =
          v.loc.place + ((p.lead / ‖l'.place - v.loc.place‖ : ℝ) : ℂ) * (l'.place - v.loc.place) := by
        intro l' _
        rw [normalize_eq]; push_cast; ring
      refine ⟨rfl, rfl, rfl, rfl, Function.update_self _ _ _, ⟨l, rfl, ?_, ?_, ?_, ?_⟩, not_lt.1 c4, rfl, hpl _, hg⟩
      · simp only
        split
        · unfold attemptMove; split <;> rfl
        · rfl
      · intro q hq
        by_contra hlt
        exact c3 ⟨q, hq, not_le.1 hlt⟩
      · intro hk
        simp only
        split
        · rename_i c hk' hc
          rcases hk with hk | hk
          · exact absurd hk' hk
          · rw [hk] at hc; cases hc
        · rfl
      · intro c hk hc
        simp only [hk, hc]
        rfl

/-- **C148.**  And a request is sent whenever the time has come, the vehicle may be redirected, and the place computed for it is
far from the last one and from the vehicle (for other than air vehicles, whose place is not moved). -/
theorem C148_sent {s : St} {now c : ℤ} {v : VState} {l : Loc} (hc : s.clock v.id = some c) (ht : c + p.throttle ≤ now)
    (hg : v.kind = .ground → ∀ w, s.lastWaypoint v.id = some w → v.currentWaypoint = w) (ha : v.kind ≠ .air)
    (hq : ∀ q, s.target v.id = some q → (p.threshold : ℝ) ≤ ‖l.place - q.place‖)
    (hd : (p.threshold : ℝ) ≤ ‖l.place - v.loc.place‖) :
    ∃ s' r, activeEntityState p config s now v (some l) = .ok (s', some r) := by
  unfold activeEntityState
  simp only [hc, Option.getD_some]
  rw [if_pos ht, if_neg (by rintro ⟨h1, w, h2, h3⟩; exact h3 (hg h1 w h2)),
    if_neg (by rintro ⟨q, h1, h2⟩; exact absurd (hq q h1) (not_le.2 h2))]
  split
  · rename_i h _; exact absurd h ha
  · rw [if_neg (not_lt.2 hd)]
    exact ⟨_, _, rfl⟩

/-- **C148**, what holds of failures: none, as long as the task computes a place.  Missing from the full claim: tasks that
return none, such as an overwatch whose target was not heard of for 15 s. -/
theorem C148_no_failure_partial (s : St) (now : ℤ) (v : VState) (l : Loc) :
    ∃ s' o, activeEntityState p config s now v (some l) = .ok (s', o) := by
  simp only [activeEntityState]
  split_ifs
  all_goals exact ⟨_, _, rfl⟩

/-- **C148, violated**: when the task computes no place for a vehicle that was sent to one before, the null pointer is used. -/
theorem C148_null_violated {s : St} {now c : ℤ} {v : VState} {q : Loc} (hc : s.clock v.id = some c) (ht : c + p.throttle ≤ now)
    (hg : v.kind ≠ .ground) (hq : s.target v.id = some q) : activeEntityState p config s now v none = .ub := by
  unfold activeEntityState
  simp only [hc, Option.getD_some]
  rw [if_pos ht, if_neg (fun h => hg h.1)]
  simp only [hq]

/-! ### Missions -/

theorem onLast_append (f : Waypoint → Waypoint) : ∀ (l : List Waypoint) (w : Waypoint), onLast f (l ++ [w]) = l ++ [f w]
  | [], w => rfl
  | [a], w => rfl
  | a :: b :: l, w => by
      have := onLast_append f (b :: l) w
      simp only [List.cons_append] at this ⊢
      rw [onLast, this]

theorem onLast_length (f : Waypoint → Waypoint) : ∀ l : List Waypoint, (onLast f l).length = l.length
  | [] => rfl
  | [_] => rfl
  | _ :: b :: l => by rw [onLast, List.length_cons, onLast_length f (b :: l)]; rfl

theorem onFirst_length (f : Waypoint → Waypoint) (l : List Waypoint) : (onFirst f l).length = l.length := by
  cases l <;> rfl

theorem onLast_get (f : Waypoint → Waypoint) : ∀ (l : List Waypoint) (i : ℕ) (hi : i < (onLast f l).length),
    (onLast f l)[i] = if i + 1 = l.length then f (l[i]'(by rwa [onLast_length] at hi)) else l[i]'(by rwa [onLast_length] at hi)
  | [], i, hi => by simp [onLast] at hi
  | [w], i, hi => by
      have : i = 0 := by simp [onLast] at hi; exact hi
      subst this; simp [onLast]
  | w :: b :: l, 0, hi => by simp [onLast]
  | w :: b :: l, i + 1, hi => by
      have h' : i < (onLast f (b :: l)).length := by simpa [onLast] using hi
      have := onLast_get f (b :: l) i h'
      simp only [onLast, List.getElem_cons_succ, List.length_cons] at this ⊢
      rw [this]
      congr 1
      simp

theorem onFirst_get (f : Waypoint → Waypoint) (l : List Waypoint) (i : ℕ) (hi : i < (onFirst f l).length) :
    (onFirst f l)[i] = if i = 0 then f (l[i]'(by rwa [onFirst_length] at hi)) else l[i]'(by rwa [onFirst_length] at hi) := by
  cases l with
  | nil => simp [onFirst] at hi
  | cons w l => cases i <;> simp [onFirst]

theorem dressed_get (us vs : List Waypoint) (oc : Option Config) (ol : Option Loc) (f : Config → Loc → List Action)
    (g : Config → Loc → Action) (n : ℕ) (hn : us.length = n)
    (hvs : vs = (match (generalizing := false) oc, ol with
      | some c, some loc =>
          onLast (fun w => { w with actions := w.actions ++ [g c loc] })
            (onFirst (fun w => { w with actions := w.actions ++ f c loc }) us)
      | _, _ => us)) (i : ℕ) (hi : i < us.length) (hi' : i < vs.length) :
    vs[i] = { us[i] with actions := us[i].actions ++
      (match (generalizing := false) oc, ol with
        | some c, some loc => (if i = 0 then f c loc else []) ++ (if i + 1 = n then [g c loc] else [])
        | _, _ => []) } := by
  subst hn
  rcases oc with _ | c
  · simp only at hvs
    subst hvs; simp
  rcases ol with _ | loc
  · simp only at hvs
    subst hvs; simp
  simp only at hvs
  subst hvs
  rw [onLast_get]
  simp only [onFirst_get, onFirst_length]
  by_cases a : i + 1 = us.length <;> by_cases b : i = 0
  · rw [if_pos a, if_pos b, if_pos b, if_pos a]; simp
  · rw [if_pos a, if_neg b, if_neg b, if_pos a]; simp
  · rw [if_neg a, if_pos b, if_pos b, if_neg a]; simp
  · rw [if_neg a, if_neg b, if_neg b, if_neg a]; simp

/-- **C149.**  A route that answers a request of this service becomes the mission of the vehicle it was asked for: the same
places in the same order, each marked with the task and, once a plan gave the vehicle a speed and an altitude, at these; the
last waypoint follows itself.  When the configuration of the vehicle and the place it is sent to are known, its gimbals stare at
that place from the first waypoint on, and at the last one it loiters there.  The service notes the last waypoint. -/
theorem C149_mission {s : St} {r : Response} {ws : List Waypoint} {rest : List (ℤ × List Waypoint)} (h1 : r.id = p.service)
    (h2 : r.routes = (1, ws) :: rest) (h3 : ws ≠ []) :
    ∃ m, (response p config s r).2 = some m ∧ m.vehicle = r.vehicle ∧
      ∃ hl : m.waypoints.length = ws.length,
      (∀ i (hi : i < ws.length),
        (m.waypoints[i].number = ws[i].number ∧ m.waypoints[i].loc.place = ws[i].loc.place ∧
          m.waypoints[i].tasks = ws[i].tasks ++ [p.task]) ∧
        (∀ o, s.override r.vehicle = some o → m.waypoints[i].speed = o.1 ∧ m.waypoints[i].loc.altitude = o.2) ∧
        (s.override r.vehicle = none → m.waypoints[i].speed = ws[i].speed ∧ m.waypoints[i].loc.altitude = ws[i].loc.altitude) ∧
        (m.waypoints[i].next = if i + 1 = ws.length then ws[i].number else ws[i].next) ∧
        m.waypoints[i].actions = ws[i].actions ++
          (match config r.vehicle, s.target r.vehicle with
            | some c, some loc =>
                (if i = 0 then stares p c loc else []) ++ (if i + 1 = ws.length then [loiter p s r.vehicle c loc] else [])
            | _, _ => [])) ∧
      m.first = (ws.head h3).number ∧
      (response p config s r).1.lastWaypoint r.vehicle = some (ws.getLast h3).number ∧
      (∀ i, i ≠ r.vehicle → (response p config s r).1.lastWaypoint i = s.lastWaypoint i) := by
  have hpos : 0 < ws.length := List.length_pos_of_ne_nil h3
  set us := onLast (fun w => { w with next := w.number }) (ws.map (takeOver p (s.override r.vehicle))) with hus
  have hul : us.length = ws.length := by rw [hus, onLast_length, List.length_map]
  have hug : ∀ i (hi : i < ws.length), us[i]'(by omega) =
      if i + 1 = ws.length then { takeOver p (s.override r.vehicle) ws[i] with next := (takeOver p (s.override r.vehicle) ws[i]).number }
      else takeOver p (s.override r.vehicle) ws[i] := by
    intro i hi
    simp only [hus]
    rw [onLast_get]
    simp only [List.length_map, List.getElem_map]
  have hto : ∀ w, (takeOver p (s.override r.vehicle) w).number = w.number ∧
      (takeOver p (s.override r.vehicle) w).loc.place = w.loc.place ∧
      (takeOver p (s.override r.vehicle) w).tasks = w.tasks ++ [p.task] ∧
      (takeOver p (s.override r.vehicle) w).next = w.next ∧
      (takeOver p (s.override r.vehicle) w).actions = w.actions ∧
      (∀ o, s.override r.vehicle = some o → (takeOver p (s.override r.vehicle) w).speed = o.1 ∧
        (takeOver p (s.override r.vehicle) w).loc.altitude = o.2) ∧
      (s.override r.vehicle = none → (takeOver p (s.override r.vehicle) w).speed = w.speed ∧
        (takeOver p (s.override r.vehicle) w).loc.altitude = w.loc.altitude) := by
    intro w
    cases ho : s.override r.vehicle with
    | none => exact ⟨rfl, rfl, rfl, rfl, rfl, fun o h => absurd h (by simp), fun _ => ⟨rfl, rfl⟩⟩
    | some o =>
        refine ⟨rfl, rfl, rfl, rfl, rfl, fun o' h => ?_, fun h => by cases h⟩
        rw [Option.some.injEq] at h; subst h; exact ⟨rfl, rfl⟩
  set num : Option Waypoint → ℤ := fun d => match d with
    | some w => w.number
    | none => 0 with hnum
  set s₁ : St := { s with lastWaypoint := Function.update s.lastWaypoint r.vehicle (some (num us.getLast?)) } with hs1
  set vs := (match config r.vehicle, s.target r.vehicle with
    | some c, some loc =>
        onLast (fun w => { w with actions := w.actions ++ [loiter p s r.vehicle c loc] })
          (onFirst (fun w => { w with actions := w.actions ++ stares p c loc }) us)
    | _, _ => us) with hvs
  have hresp : response p config s r = (s₁, some { vehicle := r.vehicle, first := num vs.head?, waypoints := vs }) := by
    unfold response
    rw [h2]
    simp only
    rw [if_pos ⟨h1, trivial, h3⟩]
    rfl
  have hvl : vs.length = us.length := by
    rw [hvs]
    split
    · rw [onLast_length, onFirst_length]
    · rfl
  have hvg : ∀ i (hi : i < ws.length), vs[i]'(by omega) = { us[i]'(by omega) with actions := (us[i]'(by omega)).actions ++
      (match config r.vehicle, s.target r.vehicle with
        | some c, some loc =>
            (if i = 0 then stares p c loc else []) ++ (if i + 1 = ws.length then [loiter p s r.vehicle c loc] else [])
        | _, _ => []) } :=
    fun i hi => dressed_get us vs _ _ _ _ ws.length hul hvs i (by omega) (by omega)
  have hnumu : ∀ i (hi : i < ws.length), (us[i]'(by omega)).number = ws[i].number := by
    intro i hi
    rw [hug i hi]; split <;> exact (hto ws[i]).1
  refine ⟨_, by rw [hresp], rfl, by simp only; omega, ?_, ?_, ?_, ?_⟩
  · intro i hi
    simp only
    rw [hvg i hi]
    have hu := hug i hi
    obtain ⟨t1, t2, t3, t4, t5, t6, t7⟩ := hto ws[i]
    by_cases a : i + 1 = ws.length
    · rw [if_pos a] at hu
      rw [hu]
      simp only [if_pos a]
      exact ⟨⟨t1, t2, t3⟩, t6, t7, t1, by rw [t5]⟩
    · rw [if_neg a] at hu
      rw [hu]
      simp only [if_neg a]
      exact ⟨⟨t1, t2, t3⟩, t6, t7, t4, by rw [t5]⟩
  · simp only
    have e : vs.head? = some (vs[0]'(by omega)) := by rw [List.head?_eq_getElem?, List.getElem?_eq_getElem]
    rw [e]
    simp only [hnum]
    rw [hvg 0 hpos]
    simp only
    rw [hnumu 0 hpos, List.head_eq_getElem]
  · rw [hresp]
    simp only [hs1, Function.update_self, Option.some.injEq]
    have e : us.getLast? = some (us[ws.length - 1]'(by omega)) := by
      have e1 : us.length - 1 = ws.length - 1 := by rw [hul]
      rw [List.getLast?_eq_getElem?, e1, List.getElem?_eq_getElem]
    rw [e]
    simp only [hnum]
    rw [hnumu (ws.length - 1) (by omega), List.getLast_eq_getElem]
  · intro i hi
    rw [hresp]
    exact Function.update_of_ne hi _ _

/-- **C149.**  Nothing else that the route planner sends has an effect: not the answers to others, nor routes with another id or
without waypoints. -/
theorem C149_others {s : St} {r : Response}
    (h : r.id ≠ p.service ∨ r.routes = [] ∨ (∃ i ws rest, r.routes = (i, ws) :: rest ∧ (i ≠ 1 ∨ ws = []))) :
    response p config s r = (s, none) := by
  unfold response
  split
  · rfl
  · rename_i i ws rest hr
    rw [if_neg]
    rintro ⟨h1, h2, h3⟩
    rcases h with h | h | ⟨i', ws', rest', h, h'⟩
    · exact h h1
    · rw [hr] at h; cases h
    · rw [hr] at h
      simp only [List.cons.injEq, Prod.mk.injEq] at h
      obtain ⟨⟨rfl, rfl⟩, -⟩ := h
      rcases h' with h' | h'
      · exact h' h2
      · exact h3 h'

/-- **C149.**  The gimbals that stare are those of the configuration. -/
theorem C149_stares (c : Config) (loc : Loc) (a : Action) :
    a ∈ stares p c loc ↔ ∃ g, (g, true) ∈ c.payloads ∧ a = .stare g loc p.task := by
  unfold stares
  simp only [List.mem_map, List.mem_filter, Prod.exists, Bool.exists_bool]
  constructor
  · rintro ⟨g, ⟨⟨-, h⟩, -⟩ | ⟨⟨h, -⟩, rfl⟩⟩
    · cases h
    · exact ⟨g, h, rfl⟩
  · rintro ⟨g, h, rfl⟩
    exact ⟨g, .inr ⟨⟨h, trivial⟩, rfl⟩⟩

/-- **C149.**  The loiter is at the place of the target, at the altitude of the plan or else the nominal one, and at nominal
speed; ground and surface vehicles are to stop there. -/
theorem C149_loiter (s : St) (id : ℤ) (c : Config) (loc : Loc) :
    ∃ alt r hover, loiter p s id c loc = .loiter ⟨loc.place, alt⟩ c.nominalSpeed r hover p.task ∧
      (∀ o, s.override id = some o → alt = o.2) ∧ (s.override id = none → alt = c.nominalAltitude) ∧
      (c.kind = .ground ∨ c.kind = .surface → r = 0 ∧ hover = true) ∧
      (c.kind = .air ∨ c.kind = .other → r = loiterRadius c.nominalSpeed ∧ hover = false) := by
  unfold loiter
  simp only
  by_cases hk : c.kind = .ground ∨ c.kind = .surface
  · rw [if_pos hk]
    refine ⟨_, _, _, rfl, ?_, ?_, fun _ => ⟨rfl, rfl⟩, ?_⟩
    · intro o ho; rw [ho]
    · intro ho; rw [ho]
    · rintro (h | h) <;> rw [h] at hk <;> simp at hk
  · rw [if_neg hk]
    refine ⟨_, _, _, rfl, ?_, ?_, fun h => absurd h hk, fun _ => ⟨rfl, rfl⟩⟩
    · intro o ho; rw [ho]
    · intro ho; rw [ho]

/-- **C149.**  The circle of an air vehicle is one that it can fly with 25 degrees of bank at its nominal speed, and is less than
100 m larger than need be. -/
theorem C149_radius (speed : ℝ) :
    speed ^ 2 / (9.80665 * Real.tan (25 * (Real.pi / 180))) ≤ loiterRadius speed ∧
    loiterRadius speed < speed ^ 2 / (9.80665 * Real.tan (25 * (Real.pi / 180))) + 100 := by
  unfold loiterRadius
  set x := speed * speed / (9.80665 * Real.tan (25 * (Real.pi / 180))) with hx
  have e : speed ^ 2 / (9.80665 * Real.tan (25 * (Real.pi / 180))) = x := by rw [hx, sq]
  rw [e]
  have h1 := Int.le_ceil (x / 100)
  have h2 := Int.ceil_lt_add_one (x / 100)
  constructor <;> linarith

end Verif.Dynamic
