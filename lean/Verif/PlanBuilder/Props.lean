import Verif.PlanBuilder.Numbers

/-!
# Claims about the plan builder

C39 (plans in the order of the assignment), C40 (responses that repeat or are not asked for), C67 (where each task
starts), C68 (numbers and links of waypoints), C69 (overrides of speed and altitude), C70 (loiters and turn types),
C71 (ids of mission commands), C72 (errors).
-/

namespace Verif.PlanBuilder

open Verif

/-- The vehicle takes part in the request: it is listed, or none is listed and a state of it is known. -/
def TakesPart (A : List In) (r : Request) (v : Int) : Prop :=
  v ∈ r.vehicles ∨ r.vehicles = [] ∧ (lastState v A).isSome = true

theorem mem_initOf {c : Config} {A : List In} (hu : (after c A).ub = false) {r : Request}
    (hv : ∀ v ∈ r.vehicles, (lastState v A).isSome = true) (v : Int) :
    v ∈ (initOf c A r).map (·.planning.vehicle) ↔ TakesPart A r v := by
  have e2 : ∀ x, ((after c A).initial r x).planning.vehicle = x.id := by
    intro x; rw [initial_planning, startOf_vehicle]
  have hst := (seen c A).states hu
  simp only [initOf, List.map_map, List.mem_map, List.mem_filterMap, Function.comp, e2, St.participants, TakesPart]
  constructor
  · rintro ⟨x, ⟨k, hk, hx⟩, rfl⟩
    rw [hst] at hx
    rw [lastState_id hx]
    by_cases hr : r.vehicles = []
    · exact .inr ⟨hr, by simp [hx]⟩
    · rw [if_neg hr] at hk; exact .inl hk
  · rintro (h | ⟨hr, h⟩)
    · have := hv v h
      obtain ⟨x, hx⟩ := Option.isSome_iff_exists.mp this
      refine ⟨x, ⟨v, ?_, by rw [hst]; exact hx⟩, lastState_id hx⟩
      rw [if_neg (fun e => by rw [e] at h; simp at h)]
      exact h
    · obtain ⟨x, hx⟩ := Option.isSome_iff_exists.mp h
      refine ⟨x, ⟨v, ?_, by rw [hst]; exact hx⟩, lastState_id hx⟩
      rw [if_pos hr]
      have : ((after c A).states.get v).isSome = true := by rw [hst]; exact h
      rw [Map.get_isSome_iff] at this
      exact this

theorem Session.facts {c : Config} {A : List In} {m : Summary} {B : List In} (h : Session c A m B) :
    (after c A).ub = false ∧ ∃ r, lastRequest m.req A = some r ∧ (after c A).requests.get m.req = some r ∧
      ∀ v ∈ r.vehicles, (lastState v A).isSome = true := by
  obtain ⟨hub, r, _, _, _, hr, hv, _, _, _⟩ := begun_cases h.begun
  refine ⟨hub, r, by rw [← (seen c A).requests hub]; exact hr, hr, fun v hm => ?_⟩
  rw [← (seen c A).states hub]
  exact hv v hm

/-! ## The cases used as examples -/

/-- Two vehicles, and an automation request for them. -/
def exA : List In :=
  [.state { id := 1, place := 10, time := 5, gimbals := [4] }, .state { id := 2, place := 30, time := 6 },
   .request { id := 7, vehicles := [1, 2], region := 3 }]

/-- Three tasks, two for the first vehicle. -/
def exM : Summary := { req := 7, tasks := [⟨1, 100, 0, 0⟩, ⟨2, 101, 0, 0⟩, ⟨1, 102, 5, 0⟩] }

/-- Not in the code: an example. -/
def ex1 : Response := { id := 1, vehicle := 1, task := 100, wps := [⟨1, 2, 11, 0, 0, 0, 0, []⟩, ⟨2, 0, 12, 0, 0, 0, 0, []⟩], place := 12, time := 50 }
/-- Not in the code: an example. -/
def ex2 : Response := { id := 2, vehicle := 2, task := 101, wps := [⟨1, 0, 31, 0, 0, 0, 0, []⟩], place := 31, time := 60 }
/-- Not in the code: an example. -/
def ex3 : Response := { id := 3, vehicle := 1, task := 102, option := 5, wps := [⟨3, 4, 13, 0, 0, 0, 0, []⟩, ⟨4, 0, 14, 0, 0, 0, 0, []⟩], place := 14, time := 70 }

/-- Not in the code: an example. -/
def exB : List In := [.response ex1, .state { id := 2, place := 35, time := 7 }, .response ex2, .response ex3]

theorem ex_session : Session {} exA exM exB := ⟨by decide, by decide⟩
theorem ex_inTurn : InTurn {} exA exM exB := inTurn_of (by decide)

/-! ## C39: plans in the order of the assignment -/

/-- The work begins when an assignment arrives for a known request, each of whose vehicles has a known state, and the
vehicle of the first task takes part. -/
theorem C39_begins (c : Config) (A : List In) (m : Summary) (r : Request) (t : Assign) (ts : List Assign)
    (hub : (after c A).ub = false) (hr : lastRequest m.req A = some r)
    (hv : ∀ v ∈ r.vehicles, (lastState v A).isSome = true) (ht : m.tasks = t :: ts) (hp : TakesPart A r t.vehicle) :
    ∃ a, (step (after c A) (.summary m)).2 = [.ask a] ∧ a.req = m.req ∧ a.key = t := by
  have hr' : (after c A).requests.get m.req = some r := by rw [(seen c A).requests hub]; exact hr
  have hfn : r.vehicles.find? (fun v => ((after c A).states.get v).isNone) = none := by
    rw [List.find?_eq_none]
    intro v hm
    have := hv v hm
    rw [(seen c A).states hub]
    cases h : lastState v A <;> simp_all
  have hst : step (after c A) (.summary m) = ((after c A).begun m r).sendNext m.req := by
    rw [step, if_neg (by rw [hub]; simp)]
    simp only [St.summary, hr', hfn]
    rw [if_neg (by rw [ht]; simp)]
    rfl
  have hin := (mem_initOf hub hv t.vehicle).mpr hp
  cases hf : (initOf c A r).find? (·.planning.vehicle == t.vehicle) with
  | none => exact absurd hin (find_eq_none hf)
  | some p =>
    have e1 : ((after c A).begun m r).remaining.get m.req = some (t :: ts) := by simp [St.begun, Map.get_put, ht]
    have e2 : ((after c A).begun m r).projected.get m.req = some (initOf c A r) := by
      simp [St.begun, Map.get_put, initOf]
    rw [hst, sendNext_some (s := (after c A).begun m r) hr' e1 e2 hf]
    exact ⟨_, rfl, rfl, rfl⟩

example : (after {} exA).ub = false ∧ lastRequest exM.req exA = some { id := 7, vehicles := [1, 2], region := 3 } ∧
    (∀ v ∈ ([1, 2] : List Int), (lastState v exA).isSome = true) ∧
    TakesPart exA { id := 7, vehicles := [1, 2], region := 3 } 1 := by
  refine ⟨by decide, by decide, by decide, .inl (by decide)⟩

/-- Without the option for loiters there is no undefined behaviour. -/
theorem C39_defined (c : Config) (hl : c.loiter = false) (h : List In) : (after c h).ub = false := no_ub hl h

/-- However the tasks answer, they are asked in the order of the assignment, each once. -/
theorem C39_order (c : Config) (A : List In) (m : Summary) (B : List In) (h : Session c A m B) :
    (asked c A m B).map Ask.key <+: m.tasks := by
  obtain ⟨rest, _, h2⟩ := (weak h).order
  exact ⟨rest, h2⟩

example : (asked {} exA exM exB).map Ask.key = exM.tasks := by decide

/-- However the tasks answer, at most one plan is sent for an assignment, and only when all its tasks were asked. -/
theorem C39_once (c : Config) (A : List In) (m : Summary) (B : List In) (h : Session c A m B) :
    (published c A m B).length ≤ 1 ∧
    (published c A m B ≠ [] → (asked c A m B).map Ask.key = m.tasks) := by
  rcases (weak h).state with ⟨h1, _⟩ | ⟨⟨p, h1⟩, _, h2⟩
  · rw [h1]; simp
  · rw [h1]; exact ⟨by simp, fun _ => h2⟩

theorem strong_opening {c : Config} {A : List In} {m : Summary} {B : List In} (h : Session c A m B)
    (hp : InTurn c A m B) : ∃ r, (after c A).requests.get m.req = some r ∧
    Strong (Opening (overridesIn (A ++ .summary m :: B))) c A m B r (initOf c A r) (answers c A m B) (asked c A m B)
      (published c A m B) (runM step (after c A) (.summary m :: B)).1 := by
  refine strong h hp (fun B' hB _ x => newMission_opening _ _ fun p hpp o ho => ?_) ?_
  · have := (seen c (A ++ .summary m :: B')).overrides p hpp o ho
    obtain ⟨B'', rfl⟩ := hB
    rw [show A ++ In.summary m :: (B' ++ B'') = (A ++ .summary m :: B') ++ B'' by simp, overridesIn_append]
    exact List.mem_append_left _ this
  · intro r m ho hne
    obtain ⟨os', _, e⟩ := ho.wps
    rw [e]
    simpa using hne

/-- When the tasks answer in turn, a plan is sent only when each task of the assignment was asked and has answered, and it
is made of the answers: for each vehicle with waypoints one mission, which is its waypoint lists joined in the order of the
assignment, each leading to the next.  Without the options for loiters and turn types the missions are exactly those made of
the answers; with them the courses are.  What is missing: with a repeated response, or one for an earlier assignment of the
same request, the plan is another, see below. -/
theorem C39_plan_partial (c : Config) (A : List In) (m : Summary) (B : List In) (h : Session c A m B)
    (hp : InTurn c A m B) (p : Plan) (hm : p ∈ published c A m B) :
    p.req = m.req ∧
    (asked c A m B).map Ask.key = m.tasks ∧
    (answers c A m B).map (·.id) = (asked c A m B).map (·.id) ∧
    ∃ ms, IsPlan (Opening (overridesIn (A ++ .summary m :: B))) (answers c A m B) ms ∧
      p.missions.map Mission.course = ms.map Mission.course ∧
      (c.loiter = false → c.turn = none → p.missions = ms) := by
  obtain ⟨r, hr, hs⟩ := strong_opening h hp
  rcases hs.state with hl | hl | hl
  · rw [hl.none] at hm; simp at hm
  · obtain ⟨p', ms, B', h1, h2, h3, _, h4, _⟩ := hl.plan
    rw [h1] at hm
    simp only [List.mem_singleton] at hm
    subst hm
    exact ⟨h2, hl.all, hl.ids.symm, ms, h3, h4.course, h4.plain⟩
  · rw [hl.none] at hm; simp at hm

example : ∃ p, p ∈ published {} exA exM exB ∧ p.missions.map Mission.course =
    [⟨1, 1, 1, [⟨1, 2, 11⟩, ⟨2, 3, 12⟩, ⟨3, 4, 13⟩, ⟨4, 0, 14⟩]⟩, ⟨2, 2, 1, [⟨1, 0, 31⟩]⟩] := by
  refine ⟨((published {} exA exM exB).head?).getD ⟨0, [], []⟩, by decide, by decide⟩

example : Session {} exA exM exB ∧ InTurn {} exA exM exB := ⟨ex_session, ex_inTurn⟩

/-- When the tasks answer in turn and the vehicle of every task takes part, the next task is asked at once, and when all
have answered the plan has been sent. -/
theorem C39_published_partial (c : Config) (A : List In) (m : Summary) (B : List In) (h : Session c A m B)
    (hp : InTurn c A m B) (r : Request) (hr : lastRequest m.req A = some r)
    (ht : ∀ t ∈ m.tasks, TakesPart A r t.vehicle) (hub : (after c (A ++ .summary m :: B)).ub = false) :
    ((answers c A m B).length < m.tasks.length → (asked c A m B).length = (answers c A m B).length + 1) ∧
    ((answers c A m B).length = m.tasks.length → (published c A m B).length = 1) ∧
    (answers c A m B).length ≤ m.tasks.length := by
  obtain ⟨r', hr', hs⟩ := strong_opening h hp
  obtain ⟨hub0, r'', hl1, hl2, hv⟩ := h.facts
  rw [hr] at hl1
  simp only [Option.some.injEq] at hl1
  subst hl1
  rw [hl2] at hr'
  simp only [Option.some.injEq] at hr'
  subst hr'
  obtain ⟨rest, hrest, hord⟩ := (weak h).order
  have hlen := congrArg List.length hord
  simp only [List.length_append, List.length_map] at hlen
  rcases hs.state with hl | hl | hl
  · rcases hl.waits with ⟨i, hi⟩ | ⟨hi, t, ts, h1, h2⟩
    · have := congrArg List.length hi
      simp only [List.length_append, List.length_map, List.length_singleton] at this
      exact ⟨fun _ => this, fun e => by omega, by omega⟩
    · rw [hrest] at h1
      simp only [Option.some.injEq] at h1
      subst h1
      refine absurd ((mem_initOf hub0 hv t.vehicle).mpr (ht t ?_)) h2
      rw [← hord]; simp
  · have h1 := congrArg List.length hl.ids
    have h2 := congrArg List.length hl.all
    simp only [List.length_map] at h1 h2
    obtain ⟨p, ms, B', h3, _⟩ := hl.plan
    exact ⟨fun e => by omega, fun _ => by rw [h3]; rfl, by omega⟩
  · have := hl.ub
    rw [runM_after, hub] at this
    simp at this

example : lastRequest exM.req exA = some { id := 7, vehicles := [1, 2], region := 3 } ∧
    (∀ t ∈ exM.tasks, TakesPart exA { id := 7, vehicles := [1, 2], region := 3 } t.vehicle) ∧
    (after {} (exA ++ .summary exM :: exB)).ub = false ∧ (answers {} exA exM exB).length = exM.tasks.length := by
  refine ⟨by decide, ?_, by decide, by decide⟩
  intro t ht
  left
  revert t
  decide

/-- Every task of a plan that is sent is for a vehicle that takes part. -/
theorem published_takesPart {c : Config} {A : List In} {m : Summary} {B : List In} (h : Session c A m B)
    (hp : InTurn c A m B) (hne : published c A m B ≠ []) {r : Request} (hr : lastRequest m.req A = some r) :
    ∀ t ∈ m.tasks, TakesPart A r t.vehicle := by
  obtain ⟨r', hr', hs⟩ := strong_opening h hp
  obtain ⟨hub0, r'', hl1, hl2, hv⟩ := h.facts
  rw [hr] at hl1
  simp only [Option.some.injEq] at hl1
  subst hl1
  rw [hl2] at hr'
  simp only [Option.some.injEq] at hr'
  subst hr'
  intro t ht
  rw [← (C39_once c A m B h).2 hne] at ht
  obtain ⟨a, ha, rfl⟩ := List.mem_map.mp ht
  obtain ⟨k, hk⟩ := List.mem_iff_getElem?.mp ha
  obtain ⟨p, hp, _⟩ := (hs.asksOk k a hk).from_
  refine (mem_initOf hub0 hv _).mp ?_
  rw [← projAfter_vehicles (initOf c A r) ((answers c A m B).take k)]
  have h1 := List.mem_of_find?_eq_some hp
  have h2 := List.find?_some hp
  simp only [beq_iff_eq] at h2
  rw [show a.key.vehicle = a.vehicle from rfl, ← h2]
  exact List.mem_map_of_mem (f := fun p : Proj => p.planning.vehicle) h1

/-- If a task is assigned to a vehicle that is not of the request, the work stops there without an error, and no plan is
ever sent, however the tasks answer (in turn). -/
theorem C39_stalls_violated : ∃ (c : Config) (A : List In) (m : Summary), Session c A m [] ∧
    ∀ B, Session c A m B → InTurn c A m B → published c A m B = [] := by
  refine ⟨{}, [.state { id := 1 }, .state { id := 2 }, .request { id := 7, vehicles := [1] }],
    { req := 7, tasks := [⟨1, 100, 0, 0⟩, ⟨2, 101, 0, 0⟩] }, ⟨by decide, by decide⟩, fun B h hp => ?_⟩
  by_cases hne : published {} [.state { id := 1 }, .state { id := 2 }, .request { id := 7, vehicles := [1] }]
      { req := 7, tasks := [⟨1, 100, 0, 0⟩, ⟨2, 101, 0, 0⟩] } B = []
  · exact hne
  · have := published_takesPart h hp hne (r := { id := 7, vehicles := [1] }) (by decide) ⟨2, 101, 0, 0⟩ (by decide)
    rcases this with h | ⟨h, _⟩
    · exact absurd h (by decide)
    · exact absurd h (by decide)

/-- With the option for loiters, a plan for which no task gave waypoints is undefined behaviour instead of a message. -/
theorem C39_empty_violated : ∃ (c : Config) (A : List In) (m : Summary) (B : List In), Session c A m B ∧
    InTurn c A m B ∧ (answers c A m B).length = m.tasks.length ∧ (after c (A ++ .summary m :: B)).ub = true := by
  refine ⟨{ loiter := true }, exA, { req := 7, tasks := [⟨1, 100, 0, 0⟩] },
    [.response { id := 1, vehicle := 1, wps := [] }], ⟨by decide, by decide⟩, inTurn_of (by decide), by decide, by decide⟩

/-- A response to an implementation request of an earlier assignment is used for a later one of the same request: a plan is
sent though its task has not answered. -/
theorem C39_stale_violated : ∃ (c : Config) (A : List In) (m : Summary) (B : List In) (p : Plan), Session c A m B ∧
    p ∈ published c A m B ∧ (asked c A m B).map (·.id) = [2] ∧ (∀ r, .response r ∈ B → r.id ≠ 2) ∧
    p.missions.map Mission.course = [⟨1, 1, 1, [⟨1, 2, 11⟩, ⟨2, 0, 12⟩]⟩] := by
  refine ⟨{}, exA ++ [.summary { req := 7, tasks := [⟨1, 100, 0, 0⟩] },
      .request { id := 7, vehicles := [1, 2], region := 3 }],
    { req := 7, tasks := [⟨1, 105, 0, 0⟩] }, [.response ex1], ?_⟩
  refine ⟨((published {} (exA ++ [.summary { req := 7, tasks := [⟨1, 100, 0, 0⟩] },
      .request { id := 7, vehicles := [1, 2], region := 3 }])
    { req := 7, tasks := [⟨1, 105, 0, 0⟩] } [.response ex1]).head?).getD ⟨0, [], []⟩,
    ⟨by decide, by decide⟩, by decide, by decide, ?_, by decide⟩
  intro r hr
  simp only [List.mem_singleton, In.response.injEq] at hr
  subst hr
  decide

/-- A plan is always followed by the status message that its request is done, and that is only sent with a plan. -/
theorem C39_status (c : Config) (h : List In) (i : In) (q : Int) :
    (plansOf q (step (after c h) i).2 ≠ [] ↔ .done q ∈ (step (after c h) i).2) := by
  generalize after c h = s
  have hsend : ∀ (s : St) k, plansOf q (s.sendNext k).2 = [] ∧ Out.done q ∉ (s.sendNext k).2 := fun s k => by
    rcases sendNext_cases s k with e | ⟨_, _, _, _, _, _, _, e⟩ <;> rw [e] <;> simp [plansOf]
  by_cases hub : s.ub = true
  · rw [step_ub hub]; simp [plansOf]
  · have hst : ∀ x : St × List Out, (if s.ub = true then (s, []) else x) = x := fun x => if_neg hub
    cases i with
    | state v => rw [step, hst]; simp [plansOf]
    | overrides k os => rw [step, hst]; simp [plansOf]
    | impactResponse k => rw [step, hst]; simp [plansOf]
    | request r => rw [step, hst]; simp [plansOf]
    | summary m =>
      rw [step, hst]
      rcases summary_cases s m with ⟨e, he⟩ | ⟨r, _, _, _, he⟩ <;> rw [he]
      · simp [plansOf]
      · simp [(hsend (s.begun m r) m.req).1, (hsend (s.begun m r) m.req).2]
    | response r =>
      rw [step, hst]
      rcases response_cases s r with ⟨e, _⟩ | ⟨k, ms, g1, g2, e⟩ <;> rw [e]
      · simp [plansOf]
      · have hc : Out.done q ∉ complaint r := by simp only [complaint]; split <;> simp
        rw [plansOf_append, plansOf_complaint, List.nil_append]
        simp only [List.mem_append, hc, false_or]
        rcases checkNext_cases (s.taken k r ms) k (s.absorbed r ms) with ⟨e, _⟩ | ⟨e, _⟩ | ⟨e, _⟩ | ⟨ms', _, _, e⟩ <;> rw [e]
        · simp [plansOf]
        · simp [(hsend (s.taken k r ms) k).1, (hsend (s.taken k r ms) k).2]
        · simp [plansOf]
        · by_cases hk : k = q
          · simp [plansOf, hk]
          · have hk' : ¬ q = k := fun e => hk e.symm
            simp [plansOf, hk, hk']

example : (sentIn {} (exA ++ .summary exM :: exB)).getLast? = some (.done 7) := by decide

/-! ## C40: responses that repeat or are not asked for -/

/-- A response with an id that was not asked for is ignored. -/
theorem C40_unknown (c : Config) (h : List In) (r : Response)
    (hr : ∀ a, .ask a ∈ sentIn c h → a.id ≠ r.id) : step (after c h) (.response r) = (after c h, []) := by
  by_cases hub : (after c h).ub = true
  · exact step_ub hub _
  · have hst : step (after c h) (.response r) = (after c h).response r := by
      simp only [step, hub, Bool.false_eq_true, if_false]
    rw [hst]
    rcases response_cases (after c h) r with ⟨e, _⟩ | ⟨q, ms, h1, _, _⟩
    · exact e
    · rw [(glob c h).exp] at h1
      obtain ⟨a, ha, e⟩ := List.mem_map.mp h1
      simp only [asksOf, List.mem_filterMap] at ha
      obtain ⟨o, ho, hoa⟩ := ha
      cases o with
      | ask a' =>
        simp only at hoa
        split at hoa
        · simp only [Option.some.injEq] at hoa
          subst hoa
          exact absurd e (hr _ ho)
        · simp at hoa
      | _ => simp at hoa

example : (∀ a, Out.ask a ∈ sentIn {} (exA ++ [.summary exM]) → a.id ≠ ex2.id) ∧
    ∃ a, Out.ask a ∈ sentIn {} (exA ++ [.summary exM]) := by
  have e : sentIn {} (exA ++ [.summary exM]) = [.ask ⟨1, 7, 1, 1, 100, 0, 3, 0, 10, 0, 5, [⟨2, 30, 0⟩]⟩] := by decide
  rw [e]
  refine ⟨?_, _, List.mem_singleton.mpr rfl⟩
  intro a ha
  simp only [List.mem_singleton, Out.ask.injEq] at ha
  subst ha
  decide

/-- Once the plan has been sent, responses to its implementation requests, and to those of earlier assignments of the same
request, are ignored.  What is missing: before that a repeated response is not ignored, see below. -/
theorem C40_after_partial (c : Config) (A : List In) (m : Summary) (B : List In) (h : Session c A m B)
    (hp : published c A m B ≠ []) (r : Response) (hr : ∃ a, .ask a ∈ sentIn c (A ++ .summary m :: B) ∧ a.id = r.id ∧ a.req = m.req) :
    step (after c (A ++ .summary m :: B)) (.response r) = (after c (A ++ .summary m :: B), []) := by
  have hw := weak h
  rw [runM_after] at hw
  have hnone : (after c (A ++ .summary m :: B)).progress.get m.req = none := by
    rcases hw.state with ⟨h1, _⟩ | ⟨_, h1, _⟩
    · exact absurd h1 hp
    · exact h1
  have hexp : (after c (A ++ .summary m :: B)).expected.get r.id = some m.req := by
    rw [(glob c _).exp]
    obtain ⟨a, h1, h2, h3⟩ := hr
    refine List.mem_map.mpr ⟨a, ?_, h2⟩
    simp only [asksOf, List.mem_filterMap]
    exact ⟨_, h1, by simp [h3]⟩
  by_cases hub : (after c (A ++ .summary m :: B)).ub = true
  · exact step_ub hub _
  · have hst : step (after c (A ++ .summary m :: B)) (.response r) = (after c (A ++ .summary m :: B)).response r := by
      simp only [step, hub, Bool.false_eq_true, if_false]
    rw [hst]
    simp only [St.response, hexp, hnone]

example : published {} exA exM exB ≠ [] ∧ (sentIn {} (exA ++ .summary exM :: exB)).any
    (fun | .ask a => a.id == ex1.id && a.req == exM.req | _ => false) = true := by decide

/-- A repeated response is taken for the answer to the next task: a plan is sent that has the waypoints of the first task
twice, and those of the second not at all. -/
theorem C40_repeat_violated : ∃ (c : Config) (A : List In) (m : Summary) (B : List In) (p : Plan), Session c A m B ∧
    p ∈ published c A m B ∧ (asked c A m B).map (·.id) = [1, 2] ∧ (∀ r, .response r ∈ B → r.id = 1) ∧
    p.missions.map Mission.course = [⟨1, 1, 1, [⟨1, 2, 11⟩, ⟨2, 1, 12⟩, ⟨1, 2, 11⟩, ⟨2, 0, 12⟩]⟩] := by
  refine ⟨{}, exA, { req := 7, tasks := [⟨1, 100, 0, 0⟩, ⟨2, 101, 0, 0⟩] }, [.response ex1, .response ex1],
    ((published {} exA { req := 7, tasks := [⟨1, 100, 0, 0⟩, ⟨2, 101, 0, 0⟩] }
      [.response ex1, .response ex1]).head?).getD ⟨0, [], []⟩, ⟨by decide, by decide⟩, by decide, by decide, ?_, by decide⟩
  intro r hr
  simp only [List.mem_cons, List.not_mem_nil, or_false, In.response.injEq, or_self] at hr
  subst hr
  decide

/-! ## C67: where each task starts -/

/-- When the tasks answer in turn, each is asked to start where, and when, the vehicle is after the answers for it so far,
with the waypoint number after the last; without such an answer, at the planning state in the request or else ahead of the
last position known when the assignment came, with waypoint number 1. -/
theorem C67_start_partial (c : Config) (A : List In) (m : Summary) (B : List In) (h : Session c A m B)
    (hp : InTurn c A m B) (r : Request) (hr : lastRequest m.req A = some r) (k : Nat) (a : Ask)
    (ha : (asked c A m B)[k]? = some a) :
    a.region = r.region ∧
    (∀ x, lastFor a.vehicle ((answers c A m B).take k) = some x →
      some (a.start - 1) = ((x.wps.getLast?).map (·.number)) ∧ a.place = x.place ∧ a.heading = x.heading ∧ a.time = x.time) ∧
    (lastFor a.vehicle ((answers c A m B).take k) = none → a.start = 1 ∧
      ∃ x, lastState a.vehicle A = some x ∧ a.place = (startOf c r x).place ∧ a.heading = (startOf c r x).heading ∧
        a.time = x.time) := by
  obtain ⟨r', hr', hs⟩ := strong_opening h hp
  obtain ⟨hub0, r'', hl1, hl2, hv⟩ := h.facts
  rw [hr] at hl1
  simp only [Option.some.injEq] at hl1
  subst hl1
  rw [hl2] at hr'
  simp only [Option.some.injEq] at hr'
  subst hr'
  have hk := hs.asksOk k a ha
  obtain ⟨p, hf, h1, h2, h3, h4⟩ := hk.from_
  rw [projAfter_find, Option.map_eq_some_iff] at hf
  obtain ⟨p0, hf0, rfl⟩ := hf
  obtain ⟨x0, hx0, rfl⟩ := initOf_find hub0 hf0
  have hveh : (startOf c r x0).vehicle = a.vehicle := by rw [startOf_vehicle, lastState_id hx0]
  simp only [movedBy, hveh] at h1 h2 h3 h4
  refine ⟨hk.region, fun x hx => ?_, fun hx => ?_⟩
  · rw [hx] at h1 h2 h3 h4
    refine ⟨?_, h2, h3, h4⟩
    have hne : x.wps ≠ [] := givenFor_ne (List.mem_of_getLast? hx)
    cases hl : x.wps.getLast? with
    | none => simp at hl; exact absurd hl hne
    | some w =>
      simp only [List.getLast?_map, hl, Option.map_some, Option.getD_some] at h1 ⊢
      rw [h1]
      congr 1
      omega
  · rw [hx] at h1 h2 h3 h4
    exact ⟨h1, x0, hx0, h2, h3, h4⟩

example : (asked {} exA exM exB).map (fun a => (a.vehicle, a.start, a.place, a.time)) =
    [(1, 1, 10, 5), (2, 1, 30, 6), (1, 3, 12, 50)] := by decide

theorem places_after {c : Config} {A : List In} {r : Request} (hub0 : (after c A).ub = false)
    (hv : ∀ v ∈ r.vehicles, (lastState v A).isSome = true) (hne : r.vehicles ≠ []) (hnd : r.vehicles.Nodup)
    (rs : List Response) (ok : Int → Bool) :
    ((projAfter (initOf c A r) rs).filter (fun p => ok p.planning.vehicle)).map (·.planning) =
      (r.vehicles.filter ok).filterMap (placeAfter c A r rs) := by
  have hiv := (initOf_vehicles hub0 hv hne).2
  rw [projAfter_map (by rw [hiv]; exact hnd)]
  have e : initOf c A r = (r.vehicles.filterMap (fun v => lastState v A)).map ((after c A).initial r) := by
    rw [initOf, St.participants, if_neg hne]
    congr 1
    congr 1
    funext v
    exact (seen c A).states hub0 v
  rw [e]
  have e2 : ∀ x, ((after c A).initial r x).planning = startOf c r x := by
    intro x; rw [initial_planning, (seen c A).cfg]
  clear e hiv hne hnd
  generalize r.vehicles = l at hv
  induction l with
  | nil => rfl
  | cons v l ih =>
    have h1 := hv v (by simp)
    obtain ⟨x, hx⟩ := Option.isSome_iff_exists.mp h1
    have hxid := lastState_id hx
    rw [List.filterMap_cons, hx, List.filter_cons]
    simp only [List.map_cons, List.filter_cons, movedBy_vehicle, e2, startOf_vehicle, hxid]
    have ih := ih (fun w hw => hv w (List.mem_cons_of_mem _ hw))
    by_cases hva : ok v = true
    · rw [if_pos hva, if_pos hva, List.map_cons, ih, List.filterMap_cons]
      have : placeAfter c A r rs v = some (movedBy rs ((after c A).initial r x)).planning := by
        simp only [placeAfter, movedBy, e2, startOf_vehicle, hxid, hx]
        cases lastFor v rs with
        | none => simp [e2]
        | some y => rfl
      rw [this]
    · rw [if_neg hva, if_neg hva]
      exact ih

/-- When the tasks answer in turn, each is told where the other vehicles of the request are planned to be then. -/
theorem C67_neighbours_partial (c : Config) (A : List In) (m : Summary) (B : List In) (h : Session c A m B)
    (hp : InTurn c A m B) (r : Request) (hr : lastRequest m.req A = some r) (hne : r.vehicles ≠ [])
    (hnd : r.vehicles.Nodup) (k : Nat) (a : Ask) (ha : (asked c A m B)[k]? = some a) :
    a.neighbours = (r.vehicles.filter (· != a.vehicle)).filterMap (placeAfter c A r ((answers c A m B).take k)) := by
  obtain ⟨r', hr', hs⟩ := strong_opening h hp
  obtain ⟨hub0, r'', hl1, hl2, hv⟩ := h.facts
  rw [hr] at hl1
  simp only [Option.some.injEq] at hl1
  subst hl1
  rw [hl2] at hr'
  simp only [Option.some.injEq] at hr'
  subst hr'
  rw [(hs.asksOk k a ha).neighbours]
  exact places_after hub0 hv hne hnd _ (· != a.vehicle)

/-- When the tasks answer in turn, the plan tells where each vehicle of the request is planned to be in the end. -/
theorem C67_final_partial (c : Config) (A : List In) (m : Summary) (B : List In) (h : Session c A m B)
    (hp : InTurn c A m B) (r : Request) (hr : lastRequest m.req A = some r) (hne : r.vehicles ≠ [])
    (hnd : r.vehicles.Nodup) (p : Plan) (hm : p ∈ published c A m B) :
    p.finals = r.vehicles.filterMap (placeAfter c A r (answers c A m B)) := by
  obtain ⟨r', hr', hs⟩ := strong_opening h hp
  obtain ⟨hub0, r'', hl1, hl2, hv⟩ := h.facts
  rw [hr] at hl1
  simp only [Option.some.injEq] at hl1
  subst hl1
  rw [hl2] at hr'
  simp only [Option.some.injEq] at hr'
  subst hr'
  rcases hs.state with hl | hl | hl
  · rw [hl.none] at hm; simp at hm
  · obtain ⟨p', ms, B', h1, _, _, _, _, h2⟩ := hl.plan
    rw [h1] at hm
    simp only [List.mem_singleton] at hm
    subst hm
    rw [h2]
    have := places_after hub0 hv hne hnd (answers c A m B) (fun _ => true)
    have ft : ∀ {α : Type} (l : List α), l.filter (fun _ => true) = l := fun l => List.filter_eq_self.mpr fun _ _ => rfl
    rwa [ft, ft] at this
  · rw [hl.none] at hm; simp at hm

example : (published {} exA exM exB).map (·.finals) = [[⟨1, 14, 0⟩, ⟨2, 31, 0⟩]] := by decide

example : ((asked {} exA exM exB).map (·.neighbours)) = [[⟨2, 30, 0⟩], [⟨1, 12, 0⟩], [⟨2, 31, 0⟩]] := by decide

/-! ## C68: numbers and links of waypoints -/

theorem mission_of_plan {c : Config} {A : List In} {m : Summary} {B : List In} (h : Session c A m B)
    (hp : InTurn c A m B) {p : Plan} (hm : p ∈ published c A m B) {μ : Mission} (hμ : μ ∈ p.missions) :
    ∃ (x : Response) (rest : List Response) (m0 : Mission), givenFor μ.vehicle (answers c A m B) = x :: rest ∧
      Opening (overridesIn (A ++ .summary m :: B)) x m0 ∧
      μ.first = m0.first ∧ μ.wps.map Wp.leg = (joined (m0.wps :: rest.map (·.wps))).map Wp.leg := by
  obtain ⟨_, _, _, ms, h1, h2, _⟩ := C39_plan_partial c A m B h hp p hm
  have : μ.course ∈ ms.map Mission.course := by rw [← h2]; exact List.mem_map_of_mem hμ
  obtain ⟨m1, hm1, e⟩ := List.mem_map.mp this
  obtain ⟨x, rest, m0, g1, g2, g3⟩ := h1.content m1 hm1
  simp only [Mission.course, Course.mk.injEq] at e
  refine ⟨x, rest, m0, by rw [← e.2.1]; exact g1, g2, ?_, ?_⟩
  · rw [← e.2.2.1, g3]
  · rw [← e.2.2.2, g3]

/-- When the tasks answer in turn, and within each answer every waypoint leads to the one after it, so it is in each
mission. -/
theorem C68_linked_partial (c : Config) (A : List In) (m : Summary) (B : List In) (h : Session c A m B)
    (hp : InTurn c A m B) (hl : ∀ x ∈ answers c A m B, Linked (x.wps.map Wp.leg)) (p : Plan)
    (hm : p ∈ published c A m B) (μ : Mission) (hμ : μ ∈ p.missions) : Linked (μ.wps.map Wp.leg) := by
  obtain ⟨x, rest, m0, h1, h2, _, h4⟩ := mission_of_plan h hp hm hμ
  have hin : ∀ y ∈ x :: rest, y.wps ≠ [] ∧ Linked (y.wps.map Wp.leg) := by
    intro y hy
    rw [← h1] at hy
    exact ⟨givenFor_ne hy, hl y (List.mem_filter.mp hy).1⟩
  rw [h4]
  refine joined_linked ?_
  intro ws hws
  rcases List.mem_cons.mp hws with rfl | hws
  · have := hin x (by simp)
    rw [(opening_legs h2).1]
    refine ⟨?_, this.2⟩
    obtain ⟨os', _, e⟩ := h2.wps
    rw [e]
    simpa using this.1
  · obtain ⟨y, hy, rfl⟩ := List.mem_map.mp hws
    exact hin y (List.mem_cons_of_mem _ hy)

theorem numbers_count {c : Config} {A : List In} {m : Summary} {B : List In} (h : Session c A m B)
    (hp : InTurn c A m B)
    (hn : ∀ (k : Nat) a x, (asked c A m B)[k]? = some a → (answers c A m B)[k]? = some x →
      x.vehicle = a.vehicle ∧ CountsFrom a.start (x.wps.map (·.number)))
    (hall : (answers c A m B).length ≤ (asked c A m B).length) :
    ∀ (k : Nat), k ≤ (answers c A m B).length → ∀ v, CountsFrom 1 (numbersFor v ((answers c A m B).take k)) := by
  intro k
  induction k with
  | zero => intro _ v; simp [numbersFor, givenFor, CountsFrom]
  | succ k ih =>
    intro hk v
    have hkl : k < (answers c A m B).length := by omega
    obtain ⟨x, hx⟩ : ∃ x, (answers c A m B)[k]? = some x := ⟨_, List.getElem?_eq_getElem hkl⟩
    obtain ⟨a, ha⟩ : ∃ a, (asked c A m B)[k]? = some a := ⟨_, List.getElem?_eq_getElem (by omega)⟩
    obtain ⟨h1, h2⟩ := hn k a x ha hx
    have ih := ih (by omega)
    rw [List.take_add_one, hx, Option.toList_some, numbersFor_snoc]
    by_cases hv : x.vehicle = v
    · rw [if_pos hv]
      refine (ih v).append ?_
      obtain ⟨_, r, hr, _⟩ := h.facts
      obtain ⟨_, c1, c2⟩ := C67_start_partial c A m B h hp r hr k a ha
      have hlast := last_number (ih v)
      rw [← h1, hv] at c1 c2
      have : a.start = 1 + ((numbersFor v ((answers c A m B).take k)).length : Int) := by
        rw [← hlast]
        cases hl : lastFor v ((answers c A m B).take k) with
        | none => rw [(c2 hl).1]; rfl
        | some y =>
          have := (c1 y hl).1
          show a.start = 1 + ((y.wps.map (·.number)).getLast?).getD 0
          rw [List.getLast?_map, ← this, Option.getD_some]
          omega
      rw [← this]
      exact h2
    · rw [if_neg hv, List.append_nil]; exact ih v

/-- When the tasks answer in turn, each for the vehicle it was asked for, and number their waypoints one by one from the
number they were asked to start with, then the waypoints of each mission are numbered from 1, and the mission starts at
waypoint 1. -/
theorem C68_numbers_partial (c : Config) (A : List In) (m : Summary) (B : List In) (h : Session c A m B)
    (hp : InTurn c A m B)
    (hn : ∀ (k : Nat) a x, (asked c A m B)[k]? = some a → (answers c A m B)[k]? = some x →
      x.vehicle = a.vehicle ∧ CountsFrom a.start (x.wps.map (·.number)))
    (p : Plan) (hm : p ∈ published c A m B) (μ : Mission) (hμ : μ ∈ p.missions) :
    CountsFrom 1 (μ.wps.map (·.number)) ∧ μ.first = 1 := by
  have hids := (C39_plan_partial c A m B h hp p hm).2.2.1
  have hlen := congrArg List.length hids
  simp only [List.length_map] at hlen
  have hc := numbers_count h hp hn (by omega) _ (Nat.le_refl _) μ.vehicle
  rw [List.take_length] at hc
  obtain ⟨x, rest, m0, h1, h2, h3, h4⟩ := mission_of_plan h hp hm hμ
  have hnum : μ.wps.map (·.number) = numbersFor μ.vehicle (answers c A m B) := by
    have := congrArg (List.map Leg.number) h4
    simp only [List.map_map, Function.comp_def, Wp.leg] at this
    rw [this, joined_numbers, numbersFor, h1, List.flatMap_cons, List.flatMap_cons, (opening_legs h2).2,
      List.flatMap_map]
  refine ⟨by rw [hnum]; exact hc, ?_⟩
  rw [h3, h2.first]
  have hne : x.wps ≠ [] := givenFor_ne (v := μ.vehicle) (rs := answers c A m B) (by rw [h1]; simp)
  rw [numbersFor, h1, List.flatMap_cons] at hc
  cases hx : x.wps with
  | nil => exact absurd hx hne
  | cons w ws =>
    rw [hx] at hc
    have := hc 0 w.number (by simp)
    simpa using this

example : ((asked {} exA exM exB).zip (answers {} exA exM exB)).all (fun (a, x) =>
    a.vehicle == x.vehicle && (x.wps.map (·.number) == (List.range x.wps.length).map fun j : Nat => a.start + (j : Int))) = true ∧
    (published {} exA exM exB).length = 1 := by decide

/-! ## C69: overrides of speed and altitude -/

/-- When one override was received, for the request, before its assignment, nothing since has taken it back, and the tasks
answer in turn, the waypoints of the first task of the vehicle have its speed and altitude in the plan, if it is for that
task or all tasks.  What is missing: the other tasks of the vehicle, see below. -/
theorem C69_first_partial (c : Config) (A0 A1 : List In) (o : Override) (m : Summary) (B : List In)
    (h : Session c (A0 ++ .overrides m.req [o] :: A1) m B)
    (hp : InTurn c (A0 ++ .overrides m.req [o] :: A1) m B)
    (h0 : ∀ i ∈ A0, ∀ k l, i ≠ .overrides k l)
    (h1 : ∀ i ∈ A1 ++ B, (∀ k l, i ≠ .overrides k l) ∧ i ≠ .impactResponse m.req)
    (h2 : plansOf m.req (sent (events (after c (A0 ++ [.overrides m.req [o]])) A1)) = [])
    (hub : (after c A0).ub = false)
    (p : Plan) (hm : p ∈ published c (A0 ++ .overrides m.req [o] :: A1) m B)
    (hl : c.loiter = false) (htn : c.turn = none)
    (μ : Mission) (hμ : μ ∈ p.missions) (hv : μ.vehicle = o.vehicle)
    (x : Response) (rest : List Response)
    (hx : givenFor μ.vehicle (answers c (A0 ++ .overrides m.req [o] :: A1) m B) = x :: rest)
    (ht : o.task = x.task ∨ o.task = 0) (j : Nat) (w : Wp) (hw : μ.wps[j]? = some w) (hj : j < x.wps.length) :
    w.alt = o.alt ∧ w.speed = o.speed ∧ w.altType = o.altType := by
  have hbase : (after c (A0 ++ [.overrides m.req [o]])).overrides = [(m.req, [o])] := by
    have e : (after c A0).overrides = [] := run_overrides_nil A0 (start c) rfl h0
    rw [after, runM_snoc]
    show (step (after c A0) (.overrides m.req [o])).1.overrides = _
    rw [step, if_neg (by rw [hub]; simp)]
    simp [e, Map.put, Map.del, Map.get]
  have hopen : ∀ B', B' <+: B → published c (A0 ++ .overrides m.req [o] :: A1) m B' = [] →
      (after c ((A0 ++ .overrides m.req [o] :: A1) ++ .summary m :: B')).overrides = [(m.req, [o])] := by
    intro B' hB hpb
    rw [show (A0 ++ In.overrides m.req [o] :: A1) ++ .summary m :: B' =
      (A0 ++ [.overrides m.req [o]]) ++ (A1 ++ .summary m :: B') by simp, ← runM_after]
    refine run_overrides _ _ hbase ?_ ?_
    · intro i hi
      rcases List.mem_append.mp hi with hi | hi
      · exact h1 i (List.mem_append_left _ hi)
      · rcases List.mem_cons.mp hi with rfl | hi
        · simp
        · exact h1 i (List.mem_append_right _ (hB.subset hi))
    · rw [events_append, sent_append, plansOf_append, h2, List.nil_append, runM_after]
      rw [published, during] at hpb
      simpa using hpb
  obtain ⟨r, hr, hs⟩ := strong h hp
    (opens := fun r m0 => m0.vehicle = r.vehicle ∧
      m0.wps = r.wps.map fun w => ([o].filter fun o => o.vehicle == r.vehicle && (o.task == r.task || o.task == 0)).foldl
        (fun w o => o.apply w) w)
    (by
      intro B' hB hpb y
      refine ⟨rfl, ?_⟩
      simp only [St.newMission, St.overridesFor, hopen B' hB hpb]
      rfl)
    (by
      rintro r m0 ⟨_, e⟩ hne
      rw [e]; simpa using hne)
  rcases hs.state with hd | hd | hd
  · rw [hd.none] at hm; simp at hm
  · obtain ⟨p', ms, B', g1, g2, g3, _, g4, _⟩ := hd.plan
    rw [g1] at hm
    simp only [List.mem_singleton] at hm
    subst hm
    rw [g4.plain hl htn] at hμ
    obtain ⟨x', rest', m0, k1, ⟨k2, k3⟩, k4⟩ := g3.content μ hμ
    rw [hx] at k1
    simp only [List.cons.injEq] at k1
    obtain ⟨rfl, rfl⟩ := k1
    have hveh : x.vehicle = o.vehicle := by
      rw [← hv]
      have : x ∈ givenFor μ.vehicle (answers c (A0 ++ .overrides m.req [o] :: A1) m B) := by rw [hx]; simp
      simp only [givenFor, List.mem_filter, Bool.and_eq_true, beq_iff_eq] at this
      exact this.2.1
    have hf : ([o].filter fun o => o.vehicle == x.vehicle && (o.task == x.task || o.task == 0)) = [o] := by
      rw [List.filter_cons]
      have : (o.vehicle == x.vehicle && (o.task == x.task || o.task == 0)) = true := by
        rcases ht with ht | ht <;> simp [hveh, ht]
      rw [if_pos this]; rfl
    rw [hf] at k3
    have hm0 : m0.wps = x.wps.map o.apply := by rw [k3]; rfl
    have hkey : ∀ (rest : List (List Wp)) (i : Nat) (w : Wp), (joined (x.wps.map o.apply :: rest))[i]? = some w →
        i < x.wps.length → ∃ y n, w = { o.apply y with next := n } := by
      intro rest i w hw hi
      have key : ∀ l : List Wp, l.length = x.wps.length → (∀ z ∈ l, ∃ y n, z = { o.apply y with next := n }) →
          ∀ t, (l ++ t)[i]? = some w → ∃ y n, w = { o.apply y with next := n } := by
        intro l hlen hall t hh
        rw [List.getElem?_append_left (by omega)] at hh
        exact hall w (List.mem_of_getElem? hh)
      cases rest with
      | nil =>
        rw [joined] at hw
        refine key (x.wps.map o.apply) (by simp) ?_ [] (by simpa using hw)
        intro z hz
        obtain ⟨y, _, rfl⟩ := List.mem_map.mp hz
        exact ⟨y, _, rfl⟩
      | cons ws rest =>
        rw [joined, ← setLast_eq] at hw
        refine key _ ?_ ?_ _ hw
        · have := congrArg List.length (setLast_numbers (Option.getD (Option.map (fun x => x.number) ws.head?) 0) (x.wps.map o.apply))
          simpa using this
        · intro z hz
          rw [setLast_eq] at hz
          rcases List.mem_append.mp hz with hz | hz
          · obtain ⟨y, _, rfl⟩ := List.mem_map.mp ((List.dropLast_sublist _).subset hz)
            exact ⟨y, _, rfl⟩
          · cases hg : (x.wps.map o.apply).getLast? with
            | none => rw [hg] at hz; simp at hz
            | some y' =>
              rw [hg] at hz
              simp only [Option.map_some, Option.toList_some, List.mem_singleton] at hz
              obtain ⟨y, _, rfl⟩ := List.mem_map.mp (List.mem_of_getLast? hg)
              exact ⟨y, _, hz⟩
    rw [k4] at hw
    simp only [hm0] at hw
    obtain ⟨y, n, rfl⟩ := hkey _ j w hw hj
    exact ⟨rfl, rfl, rfl⟩
  · rw [hd.none] at hm; simp at hm

/-- Not in the code: an example. -/
def exO : Override := { vehicle := 1, task := 0, alt := 500, altType := 1, speed := 20 }

example : (published {} (exA ++ .overrides exM.req [exO] :: []) exM exB).map (fun p =>
      p.missions.map fun μ => μ.wps.map fun w => [w.number, w.next, w.alt, w.speed]) =
    [[[[1, 2, 500, 20], [2, 3, 500, 20], [3, 4, 0, 0], [4, 0, 0, 0]], [[1, 0, 0, 0]]]] ∧
    plansOf exM.req (sent (events (after {} (exA ++ [.overrides exM.req [exO]])) [])) = [] ∧
    Session {} (exA ++ .overrides exM.req [exO] :: []) exM exB ∧
    InTurn {} (exA ++ .overrides exM.req [exO] :: []) exM exB :=
  ⟨by decide, by decide, ⟨by decide, by decide⟩, inTurn_of (by decide)⟩

theorem foldl_apply_nil {os : List Override} (h : os = []) (w : Wp) : os.foldl (fun w o => o.apply w) w = w := by
  rw [h]; rfl

/-- When the tasks answer in turn, the waypoints of a vehicle for which no override is standing during the planning are those
of the answers: an override is no longer applied after the plan for its request. -/
theorem C69_cleared_partial (c : Config) (A : List In) (m : Summary) (B : List In) (h : Session c A m B)
    (hp : InTurn c A m B) (hl : c.loiter = false) (htn : c.turn = none) (v : Int)
    (hno : ∀ B', B' <+: B → ∀ k o, Standing c k o (A ++ .summary m :: B') → o.vehicle ≠ v)
    (p : Plan) (hm : p ∈ published c A m B) (μ : Mission) (hμ : μ ∈ p.missions) (hv : μ.vehicle = v) :
    μ.wps = joined ((givenFor v (answers c A m B)).map (·.wps)) := by
  obtain ⟨r, hr, hs⟩ := strong h hp
    (opens := fun r m0 => m0.vehicle = r.vehicle ∧ (r.wps ≠ [] → m0.wps ≠ []) ∧ (r.vehicle = v → m0.wps = r.wps))
    (by
      intro B' hB hpb y
      refine ⟨rfl, fun hne => by simpa [St.newMission] using hne, fun hy => ?_⟩
      have hnil : (after c (A ++ .summary m :: B')).overridesFor y.vehicle y.task = [] := by
        simp only [St.overridesFor, List.filter_eq_nil_iff, List.mem_flatMap]
        rintro o ⟨⟨k, os⟩, h1, h2⟩ h3
        have := standing c _ (no_ub hl _) k os h1 o h2
        refine hno B' hB k o this ?_
        simp only [Bool.and_eq_true, beq_iff_eq] at h3
        rw [h3.1, hy]
      simp only [St.newMission, hnil, List.foldl_nil, List.map_id'])
    (by
      rintro r m0 ⟨_, e, _⟩ hne
      exact e hne)
  rcases hs.state with hd | hd | hd
  · rw [hd.none] at hm; simp at hm
  · obtain ⟨p', ms, B', g1, g2, g3, _, g4, _⟩ := hd.plan
    rw [g1] at hm
    simp only [List.mem_singleton] at hm
    subst hm
    rw [g4.plain hl htn] at hμ
    obtain ⟨x', rest', m0, k1, ⟨k2, _, k3⟩, k4⟩ := g3.content μ hμ
    have hx : x'.vehicle = v := by
      have : x' ∈ givenFor μ.vehicle (answers c A m B) := by rw [k1]; simp
      simp only [givenFor, List.mem_filter, Bool.and_eq_true, beq_iff_eq] at this
      rw [this.2.1, hv]
    rw [← hv, k1, k4]
    simp only [k3 hx, List.map_cons]
  · rw [hd.none] at hm; simp at hm

example : ∀ B', B' <+: exB → ∀ k o, Standing {} k o ((exA ++ [.overrides 7 [exO]]) ++ .summary exM :: B') → o.vehicle ≠ 2 := by
  rintro B' hB k o ⟨h1, os, h2, e, ho, _, _⟩
  have hm : In.overrides k os ∈ (exA ++ [.overrides 7 [exO]]) ++ .summary exM :: B' := by rw [e]; simp
  have hm : In.overrides k os ∈ (exA ++ [.overrides 7 [exO]]) ++ .summary exM :: exB := by
    rcases List.mem_append.mp hm with h | h
    · exact List.mem_append_left _ h
    · rcases List.mem_cons.mp h with h | h
      · rw [h]; simp
      · exact List.mem_append_right _ (List.mem_cons_of_mem _ (hB.subset h))
  simp [exA, exB] at hm
  obtain ⟨_, rfl⟩ := hm
  simp only [List.mem_singleton] at ho
  subst ho
  decide

example : published {} (exA ++ .overrides 7 [exO] :: .summary exM :: exB ++
    [.request { id := 8, vehicles := [1, 2] }]) { exM with req := 8 }
    [.response { ex1 with id := 4 }, .response { ex2 with id := 5 }, .response { ex3 with id := 6 }] ≠ [] := by decide

/-- An override for all tasks of a vehicle does not change the waypoints of its second task. -/
theorem C69_second_violated : ∃ (c : Config) (A : List In) (o : Override) (m : Summary) (B : List In) (p : Plan) (μ : Mission)
    (w : Wp), Session c (A ++ [.overrides m.req [o]]) m B ∧ InTurn c (A ++ [.overrides m.req [o]]) m B ∧
    o.task = 0 ∧ p ∈ published c (A ++ [.overrides m.req [o]]) m B ∧ μ ∈ p.missions ∧ μ.vehicle = o.vehicle ∧
    w ∈ μ.wps ∧ w.alt ≠ o.alt := by
  refine ⟨{}, exA, exO, exM, exB,
    ((published {} (exA ++ [.overrides exM.req [exO]]) exM exB).head?).getD ⟨0, [], []⟩,
    (((((published {} (exA ++ [.overrides exM.req [exO]]) exM exB).head?).getD ⟨0, [], []⟩).missions).head?).getD ⟨0, 0, 0, [], []⟩,
    ⟨4, 0, 14, 0, 0, 0, 0, []⟩, ⟨by decide, by decide⟩, inTurn_of (by decide), rfl, by decide, by decide, by decide,
    by decide, by decide⟩

/-- An override for one request changes the plan of another. -/
theorem C69_other_violated : ∃ (c : Config) (A : List In) (k : Int) (o : Override) (m : Summary) (B : List In) (p : Plan)
    (μ : Mission) (w : Wp), Session c (A ++ [.overrides k [o]]) m B ∧ InTurn c (A ++ [.overrides k [o]]) m B ∧
    k ≠ m.req ∧ p ∈ published c (A ++ [.overrides k [o]]) m B ∧ μ ∈ p.missions ∧
    w ∈ μ.wps ∧ w.alt = 500 ∧ ∀ x ∈ answers c (A ++ [.overrides k [o]]) m B, ∀ w ∈ x.wps, w.alt = 0 := by
  refine ⟨{}, exA, 99, exO, exM, exB,
    ((published {} (exA ++ [.overrides 99 [exO]]) exM exB).head?).getD ⟨0, [], []⟩,
    (((((published {} (exA ++ [.overrides 99 [exO]]) exM exB).head?).getD ⟨0, [], []⟩).missions).head?).getD ⟨0, 0, 0, [], []⟩,
    ⟨1, 2, 11, 500, 1, 20, 0, []⟩, ⟨by decide, by decide⟩, inTurn_of (by decide), by decide, by decide, by decide,
    by decide, by decide, by decide⟩

/-! ## C70: loiters and turn types -/

/-- With the option for turn types, every waypoint of every plan has that turn type. -/
theorem C70_turn (c : Config) (t : Int) (ht : c.turn = some t) (h : List In) (p : Plan) (hp : .plan p ∈ sentIn c h)
    (μ : Mission) (hμ : μ ∈ p.missions) (w : Wp) (hw : w ∈ μ.wps) : w.turn = t := by
  have key : ∀ (ms : List Mission), μ ∈ turned c ms → w.turn = t := by
    intro ms hm
    simp only [turned, ht, List.mem_map] at hm
    obtain ⟨m, _, rfl⟩ := hm
    simp only [List.mem_map] at hw
    obtain ⟨w', _, rfl⟩ := hw
    rfl
  have hsend : ∀ (s : St) q, ¬ Out.plan p ∈ (s.sendNext q).2 := fun s q => by
    rcases sendNext_cases s q with e | ⟨_, _, _, _, _, _, _, e⟩ <;> rw [e] <;> simp
  have hchk : ∀ (s : St) q ms, s.cfg = c → Out.plan p ∈ (s.checkNext q ms).2 → w.turn = t := by
    intro s q ms hc hin
    rcases checkNext_cases s q ms with ⟨e, _⟩ | ⟨e, _⟩ | ⟨e, _⟩ | ⟨ms', _, _, e⟩ <;> rw [e] at hin
    · simp at hin
    · exact absurd hin (hsend s q)
    · simp at hin
    · simp only [List.mem_cons, List.not_mem_nil, or_false, reduceCtorEq, Out.plan.injEq] at hin
      subst hin
      rw [hc] at hμ
      exact key _ hμ
  induction h using snocRec with
  | nil => simp [sentIn, events] at hp
  | append_singleton h i ih =>
    rw [sentIn_append, List.mem_append] at hp
    rcases hp with hp | hp
    · exact ih hp
    · have hst : Out.plan p ∈ (step (after c h) i).2 := by simpa [events, runM, sent] using hp
      by_cases hub : (after c h).ub = true
      · rw [step_ub hub] at hst; simp at hst
      · have hnu : ∀ x : St × List Out, (if (after c h).ub = true then (after c h, []) else x) = x := fun x => if_neg hub
        cases i with
        | state v => rw [step, hnu] at hst; simp at hst
        | overrides k os => rw [step, hnu] at hst; simp at hst
        | impactResponse k => rw [step, hnu] at hst; simp at hst
        | request r => rw [step, hnu] at hst; simp at hst
        | summary m =>
          rw [step, hnu] at hst
          rcases summary_cases (after c h) m with ⟨e, he⟩ | ⟨r, _, _, _, he⟩ <;> rw [he] at hst
          · simp at hst
          · exact absurd hst (hsend _ _)
        | response r =>
          rw [step, hnu] at hst
          rcases response_cases (after c h) r with ⟨e, _⟩ | ⟨k, ms, g1, g2, e⟩ <;> rw [e] at hst
          · simp at hst
          · rcases List.mem_append.mp hst with hst | hst
            · simp only [complaint] at hst; split at hst <;> simp at hst
            · refine hchk _ _ _ ?_ hst
              obtain ⟨_, _, _, _, _, _, e7, _⟩ := taken_get (after c h) k r ms g2
              rw [e7, (seen c h).cfg]

example : (published { turn := some 2 } exA exM exB).map (fun p => p.missions.map fun μ => μ.wps.map (·.turn)) =
    [[[2, 2, 2, 2], [2]]] := by decide

/-- There is a loiter among the actions. -/
def Wp.loiters (w : Wp) : Bool := w.actions.any fun | .loiter .. => true | .other _ => false

/-- With the option for loiters, when the tasks answer in turn, all for one vehicle of which a state is known, and none
asks for a loiter, the plan is one mission whose last waypoint has a loiter there added, and which is otherwise as
without the option.  What is missing: with several vehicles there is no loiter, and without a mission undefined behaviour, see
below and `C39_empty_violated`. -/
theorem C70_loiter_partial (c : Config) (hc : c.loiter = true) (ht : c.turn = none) (A : List In) (m : Summary) (B : List In)
    (h : Session c A m B) (hp : InTurn c A m B) (p : Plan) (hm : p ∈ published c A m B) :
    ∃ ms, IsPlan (Opening (overridesIn (A ++ .summary m :: B))) (answers c A m B) ms ∧
      ((∃ μ ∈ ms, ∃ w ∈ μ.wps, w.loiters = true) → p.missions = ms) ∧
      (∀ μ x, (∀ w ∈ μ.wps, w.loiters = false) → ms = [μ] → lastState μ.vehicle A = some x →
        ∃ init w surface, μ.wps = init ++ [w] ∧
          p.missions = [{ μ with wps := init ++ [{ w with actions := w.actions ++ [.loiter surface w.alt w.speed] }] }]) ∧
      (∀ μ μ' rest, ms = μ :: μ' :: rest → p.missions = ms) := by
  obtain ⟨r, hr, hs⟩ := strong_opening h hp
  have hlo : (fun w : Wp => w.actions.any Action.isLoiter) = Wp.loiters := by
    funext w
    rw [Wp.loiters]
    congr 1
  rcases hs.state with hl | hl | hl
  · rw [hl.none] at hm; simp at hm
  · obtain ⟨p', ms, B', h1, h2, h3, hB, ⟨s, ms', hcfg, hstate, hadd, hpm⟩, _⟩ := hl.plan
    rw [h1] at hm
    simp only [List.mem_singleton] at hm
    subst hm
    rw [hc, if_pos rfl] at hadd
    simp only [turned, ht] at hpm
    rw [hpm]
    refine ⟨ms, h3, ?_, ?_, ?_⟩
    · rintro ⟨μ, hμ, w, hw, hwl⟩
      rw [St.addLoiters.eq_def, hlo, if_pos] at hadd
      · simp only [Option.some.injEq] at hadd; exact hadd.symm
      · simp only [List.any_eq_true]
        exact ⟨μ, hμ, w, hw, hwl⟩
    · rintro μ x hnl rfl hx
      rw [St.addLoiters.eq_def, hlo, if_neg] at hadd
      · obtain ⟨x1, rest1, m0, k1, k2, k3⟩ := h3.content μ (by simp)
        have hne : μ.wps ≠ [] := by
          rw [k3]
          refine joined_ne_nil (by simp) ?_
          intro ws hws
          have hg : ∀ y ∈ x1 :: rest1, y.wps ≠ [] := by rw [← k1]; exact fun y hy => givenFor_ne hy
          rcases List.mem_cons.mp hws with rfl | hws
          · obtain ⟨os', _, e⟩ := k2.wps
            rw [e]
            simpa using hg x1 (by simp)
          · obtain ⟨y, hy, rfl⟩ := List.mem_map.mp hws
            exact hg y (List.mem_cons_of_mem _ hy)
        have hget : ∃ y, s.states.get μ.vehicle = some y := by
          rw [hstate]
          have : ∀ (C : List In), ∃ y, lastState μ.vehicle (A ++ C) = some y := by
            intro C
            induction C using snocRec with
            | nil => exact ⟨x, by simpa using hx⟩
            | append_singleton C i ih =>
              obtain ⟨y, hy⟩ := ih
              rw [← List.append_assoc, lastState_snoc]
              cases i with
              | state z =>
                by_cases hz : z.id = μ.vehicle
                · exact ⟨z, by simp [hz]⟩
                · exact ⟨y, by simp [hz, hy]⟩
              | _ => exact ⟨y, hy⟩
          exact this _
        obtain ⟨y, hy⟩ := hget
        simp only [List.all_cons, beq_self_eq_true, List.all_nil, Bool.and_self, if_true, hy, Option.some.injEq] at hadd
        rw [← hadd]
        have hml : ∀ (f : Wp → Wp) (init : List Wp) (w : Wp), modifyLast f (init ++ [w]) = init ++ [f w] := by
          intro f init w
          induction init with
          | nil => rfl
          | cons a init ih =>
            cases init with
            | nil => rfl
            | cons b init => simp only [List.cons_append, modifyLast] at ih ⊢; rw [ih]
        obtain ⟨init, w, hiw⟩ : ∃ init w, μ.wps = init ++ [w] := by
          rcases List.eq_nil_or_concat μ.wps with e | ⟨init, w, e⟩
          · exact absurd e hne
          · exact ⟨init, w, by simpa using e⟩
        refine ⟨init, w, y.surface, hiw, ?_⟩
        simp only [modifyLast]
        rw [hiw, hml]
      · simp only [List.any_cons, List.any_nil, Bool.or_false, List.any_eq_true]
        rintro ⟨w, hw, hwl⟩
        rw [hnl w hw] at hwl
        simp at hwl
    · rintro μ μ' rest rfl
      rw [St.addLoiters.eq_def] at hadd
      split at hadd
      · simp only [Option.some.injEq] at hadd; exact hadd.symm
      · have hone := h3.one
        simp only [List.map_cons, List.nodup_cons, List.mem_cons, not_or] at hone
        have : ((μ :: μ' :: rest).all fun m' => m'.vehicle == μ.vehicle) = false := by
          simp only [List.all_cons, beq_self_eq_true, Bool.true_and, Bool.and_eq_false_iff]
          left
          simpa using fun e => hone.1.1 e.symm
        simp only [this, Bool.false_eq_true, if_false, Option.some.injEq] at hadd
        exact hadd.symm
  · rw [hl.none] at hm; simp at hm

example : (published { loiter := true } exA { req := 7, tasks := [⟨1, 100, 0, 0⟩] } [.response ex1]).map
      (fun p => p.missions.map fun μ => μ.wps.map (·.actions)) = [[[[], [.loiter false 0 0]]]] ∧
    Session { loiter := true } exA { req := 7, tasks := [⟨1, 100, 0, 0⟩] } [.response ex1] ∧
    InTurn { loiter := true } exA { req := 7, tasks := [⟨1, 100, 0, 0⟩] } [.response ex1] :=
  ⟨by decide, ⟨by decide, by decide⟩, inTurn_of (by decide)⟩

/-- With the option for loiters, a plan for two vehicles, in which no task asked for a loiter, has none. -/
theorem C70_several_violated : ∃ (c : Config) (A : List In) (m : Summary) (B : List In) (p : Plan), c.loiter = true ∧
    Session c A m B ∧ InTurn c A m B ∧ p ∈ published c A m B ∧ p.missions ≠ [] ∧
    ∀ μ ∈ p.missions, ∀ w ∈ μ.wps, w.loiters = false := by
  refine ⟨{ loiter := true }, exA, exM, exB,
    ((published { loiter := true } exA exM exB).head?).getD ⟨0, [], []⟩, rfl, ⟨by decide, by decide⟩, inTurn_of (by decide),
    by decide, by decide, by decide⟩

/-! ## C72: what cannot be planned is reported -/

/-- The first vehicle of the request of which no state is known. -/
def missing (A : List In) (r : Request) : Option Int := r.vehicles.find? fun v => (lastState v A).isNone

/-- An assignment for a request that is not known, or without tasks, or for a request with a vehicle of which no state is
known, changes nothing and is answered by the error that says so. -/
theorem C72_assignment (c : Config) (A : List In) (m : Summary) (hub : (after c A).ub = false) :
    (lastRequest m.req A = none → step (after c A) (.summary m) = (after c A, [.error (.noRequest m.req)])) ∧
    (∀ r, lastRequest m.req A = some r →
      (m.tasks = [] → step (after c A) (.summary m) = (after c A, [.error (.noTasks m.req)])) ∧
      (m.tasks ≠ [] → ∀ v, missing A r = some v →
        step (after c A) (.summary m) = (after c A, [.error (.noState v)])) ∧
      (m.tasks ≠ [] → missing A r = none → ∀ e, .error e ∉ (step (after c A) (.summary m)).2)) := by
  have hst : step (after c A) (.summary m) = (after c A).summary m := by
    rw [step, if_neg (by rw [hub]; simp)]
  have hmis : ∀ r : Request, r.vehicles.find? (fun v => ((after c A).states.get v).isNone) = missing A r := by
    intro r
    rw [missing]
    congr 1
    funext v
    rw [(seen c A).states hub]
  rw [hst, St.summary, (seen c A).requests hub]
  constructor
  · intro h; rw [h]
  · intro r hr
    simp only [hr, hmis]
    refine ⟨fun h => if_pos h, fun h v hv => ?_, fun h hv e => ?_⟩
    · rw [if_neg h, hv]
    · rw [if_neg h, hv]
      simp only
      generalize hs : St.mk _ _ _ _ _ _ _ _ _ _ _ = s
      rcases sendNext_cases s m.req with e' | ⟨_, _, _, _, _, _, _, e'⟩ <;> rw [e'] <;> simp

example : (after {} exA).ub = false ∧ lastRequest 8 exA = none ∧
    missing exA { id := 7, vehicles := [1, 3] } = some 3 := by decide

/-- While a task is awaited, a response without waypoints is reported, whichever it is. -/
theorem C72_empty (c : Config) (A : List In) (m : Summary) (B : List In) (h : Session c A m B)
    (hub : (after c (A ++ .summary m :: B)).ub = false) (hp : published c A m B = [])
    (r : Response) (hr : ∃ a ∈ asked c A m B, a.id = r.id) :
    .error (.noWaypoints r.task r.option r.vehicle) ∈ (step (after c (A ++ .summary m :: B)) (.response r)).2 ↔ r.wps = [] := by
  have hw := weak h
  rw [runM_after] at hw
  obtain ⟨a, ha, hid⟩ := hr
  have hask : a ∈ asksOf m.req (sentIn c (A ++ .summary m :: B)) := by
    rw [sentIn_append, asksOf_append]
    exact List.mem_append_right _ ha
  have hexp : (after c (A ++ .summary m :: B)).expected.get r.id = some m.req := by
    rw [(glob c _).exp]
    exact List.mem_map.mpr ⟨a, hask, hid⟩
  have hst : step (after c (A ++ .summary m :: B)) (.response r) = (after c (A ++ .summary m :: B)).response r := by
    rw [step, if_neg (by rw [hub]; simp)]
  obtain ⟨ms, hms⟩ : ∃ ms, (after c (A ++ .summary m :: B)).progress.get m.req = some (some ms) := by
    rcases hw.state with ⟨_, h1⟩ | ⟨⟨p, h1⟩, _⟩
    · exact h1
    · rw [hp] at h1; simp at h1
  rw [hst]
  have hchk : ∀ (s : St) q ms e, ¬ Out.error e ∈ (s.checkNext q ms).2 := by
    intro s q ms e hin
    rcases checkNext_cases s q ms with ⟨e', _⟩ | ⟨e', _⟩ | ⟨e', _⟩ | ⟨ms', _, _, e'⟩ <;> rw [e'] at hin
    · simp at hin
    · rcases sendNext_cases s q with e2 | ⟨_, _, _, _, _, _, _, e2⟩ <;> rw [e2] at hin <;> simp at hin
    · simp at hin
    · simp at hin
  simp only [St.response, hexp, hms]
  by_cases hr : r.wps = []
  · rw [if_pos hr]; simp [hr]
  · rw [if_neg hr]
    simp only [hr, iff_false]
    exact hchk _ _ _ _

example : (asked {} exA exM []).map (·.id) = [1] ∧ published {} exA exM [] = [] ∧
    (step (after {} (exA ++ .summary exM :: [])) (.response { id := 1, vehicle := 1, task := 100, wps := [] })).2.length = 2 := by
  decide

/-! ## C71: ids of mission commands -/

/-- No two mission commands in the plans sent have the same id. -/
theorem C71_commands (c : Config) (h : List In) :
    (((sentIn c h).flatMap fun | .plan p => p.missions | _ => []).map (·.command)).Nodup := by
  have := (commands c h).sent
  have e : missionsIn (sentIn c h) = ((sentIn c h).flatMap fun | .plan p => p.missions | _ => []) := by
    rw [missionsIn]
    rfl
  rwa [e] at this

example : ((sentIn {} (exA ++ .summary exM :: exB)).flatMap fun | .plan p => p.missions | _ => []).map (·.command) = [1, 2] := by
  decide

end Verif.PlanBuilder
