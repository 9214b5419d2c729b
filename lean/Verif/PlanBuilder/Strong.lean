import Verif.PlanBuilder.Sessions

/-! Invariants of the work on one assignment when the tasks answer in turn. -/

namespace Verif.PlanBuilder

open Verif

/-! ### What is known from the history -/

/-- The overrides kept were received; the states and requests are the last received, and the configuration that of the
start. -/
structure Seen (c : Config) (h : List In) (s : St) : Prop where
  overrides : ∀ p ∈ s.overrides, ∀ o ∈ p.2, o ∈ overridesIn h
  states : s.ub = false → ∀ v, s.states.get v = lastState v h
  requests : s.ub = false → ∀ q, s.requests.get q = lastRequest q h
  cfg : s.cfg = c

theorem overridesIn_append (a b : List In) : overridesIn (a ++ b) = overridesIn a ++ overridesIn b := by
  simp [overridesIn]

theorem lastState_snoc (v : Int) (h : List In) (i : In) : lastState v (h ++ [i]) =
    match i with
    | .state x => if x.id = v then some x else lastState v h
    | _ => lastState v h := by
  cases i with
  | state x => by_cases e : x.id = v <;> simp [lastState, List.filterMap_append, e]
  | _ => simp [lastState, List.filterMap_append]

theorem lastRequest_snoc (q : Int) (h : List In) (i : In) : lastRequest q (h ++ [i]) =
    match i with
    | .request x => if x.id = q then some x else lastRequest q h
    | _ => lastRequest q h := by
  cases i with
  | request x => by_cases e : x.id = q <;> simp [lastRequest, List.filterMap_append, e]
  | _ => simp [lastRequest, List.filterMap_append]

/-- What sending and checking leave alone. -/
structure Same (s s' : St) : Prop where
  states : s'.states = s.states
  requests : s'.requests = s.requests
  cfg : s'.cfg = s.cfg
  overrides : ∀ p ∈ s'.overrides, p ∈ s.overrides
  ub : s'.ub = false → s.ub = false

theorem sendNext_same (s : St) (q : Int) : Same s (s.sendNext q).1 := by
  rcases sendNext_cases s q with e | ⟨_, _, _, _, _, _, _, e⟩ <;> rw [e] <;>
    exact ⟨rfl, rfl, rfl, fun _ h => h, fun h => h⟩

theorem checkNext_same (s : St) (q : Int) (ms : List Mission) : Same s (s.checkNext q ms).1 := by
  rcases checkNext_cases s q ms with ⟨e, _⟩ | ⟨e, _⟩ | ⟨e, _⟩ | ⟨ms', _, hm, e⟩ <;> rw [e]
  · exact ⟨rfl, rfl, rfl, fun _ h => h, fun h => h⟩
  · exact sendNext_same s q
  · exact ⟨rfl, rfl, rfl, fun _ h => h, fun h => by simp at h⟩
  · exact ⟨rfl, rfl, rfl, fun _ h => (List.mem_filter.mp h).1, fun h => h⟩

theorem Seen.same {c : Config} {h : List In} {s s' : St} (hs : Seen c h s) (e : Same s s') : Seen c h s' :=
  ⟨fun p hp => hs.overrides p (e.overrides p hp), fun hu v => by rw [e.states]; exact hs.states (e.ub hu) v,
    fun hu q => by rw [e.requests]; exact hs.requests (e.ub hu) q, e.cfg.trans hs.cfg⟩

theorem Seen.quiet {c : Config} {h : List In} {s : St} (hs : Seen c h s) {i : In} (h1 : ∀ x, i ≠ .state x)
    (h2 : ∀ x, i ≠ .request x) : Seen c (h ++ [i]) s := by
  refine ⟨fun p hp o ho => ?_, fun hu v => ?_, fun hu q => ?_, hs.cfg⟩
  · rw [overridesIn_append]; exact List.mem_append_left _ (hs.overrides p hp o ho)
  · rw [lastState_snoc, hs.states hu]
    cases i with
    | state x => exact absurd rfl (h1 x)
    | _ => rfl
  · rw [lastRequest_snoc, hs.requests hu]
    cases i with
    | request x => exact absurd rfl (h2 x)
    | _ => rfl

theorem Seen.step {c : Config} {h : List In} {s : St} (hs : Seen c h s) (i : In) :
    Seen c (h ++ [i]) (step s i).1 := by
  have hov : ∀ p ∈ s.overrides, ∀ o ∈ p.2, o ∈ overridesIn (h ++ [i]) := fun p hp o ho => by
    rw [overridesIn_append]; exact List.mem_append_left _ (hs.overrides p hp o ho)
  by_cases hub : s.ub = true
  · rw [step_ub hub]
    exact ⟨hov, fun h => by rw [hub] at h; simp at h, fun h => by rw [hub] at h; simp at h, hs.cfg⟩
  · have hst : ∀ x : St × List Out, (if s.ub = true then (s, []) else x) = x := fun x => if_neg hub
    cases i with
    | state v =>
      rw [PlanBuilder.step, hst]
      refine ⟨hov, fun hu w => ?_, fun hu q => ?_, hs.cfg⟩
      · rw [lastState_snoc]
        show (s.states.put v.id v).get w = _
        rw [Map.get_put, hs.states hu]
        by_cases e : w = v.id
        · simp [e]
        · have : ¬ v.id = w := fun h => e h.symm
          simp [e, this]
      · rw [lastRequest_snoc]; exact hs.requests hu q
    | overrides k os =>
      rw [PlanBuilder.step, hst]
      dsimp only
      by_cases ho : os = []
      · rw [if_pos ho]; exact hs.quiet (by simp) (by simp)
      · rw [if_neg ho]
        refine ⟨?_, fun hu v => ?_, fun hu q => ?_, hs.cfg⟩
        · intro p hp o hoo
          rcases List.mem_cons.mp hp with rfl | hp
          · rcases List.mem_append.mp hoo with hoo | hoo
            · cases hg : s.overrides.get k with
              | none => rw [hg] at hoo; simp at hoo
              | some l =>
                rw [hg] at hoo
                have : ∃ p ∈ s.overrides, p.2 = l := by
                  simp only [Map.get, Option.map_eq_some_iff] at hg
                  obtain ⟨p, hp, rfl⟩ := hg
                  exact ⟨p, List.mem_of_find?_eq_some hp, rfl⟩
                obtain ⟨p, hp, rfl⟩ := this
                exact hov p hp o hoo
            · rw [overridesIn_append]
              exact List.mem_append_right _ (by simpa [overridesIn] using hoo)
          · exact hov p ((List.mem_filter.mp hp).1) o hoo
        · rw [lastState_snoc]; exact hs.states hu v
        · rw [lastRequest_snoc]; exact hs.requests hu q
    | impactResponse k =>
      rw [PlanBuilder.step, hst]
      refine ⟨fun p hp => hov p ((List.mem_filter.mp hp).1), fun hu v => ?_, fun hu q => ?_, hs.cfg⟩
      · rw [lastState_snoc]; exact hs.states hu v
      · rw [lastRequest_snoc]; exact hs.requests hu q
    | request r =>
      rw [PlanBuilder.step, hst]
      refine ⟨hov, fun hu w => ?_, fun hu q => ?_, hs.cfg⟩
      · rw [lastState_snoc]; exact hs.states hu w
      · rw [lastRequest_snoc]
        show (s.requests.put r.id r).get q = _
        rw [Map.get_put, hs.requests hu]
        by_cases e : q = r.id
        · simp [e]
        · have : ¬ r.id = q := fun h => e h.symm
          simp [e, this]
    | summary m =>
      rw [PlanBuilder.step, hst]
      rcases summary_cases s m with ⟨e, he⟩ | ⟨r, _, _, _, he⟩ <;> rw [he]
      · exact hs.quiet (by simp) (by simp)
      · have : Seen c (h ++ [.summary m]) (s.begun m r) := by
          have := hs.quiet (i := .summary m) (by simp) (by simp)
          exact ⟨this.overrides, this.states, this.requests, this.cfg⟩
        exact this.same (sendNext_same _ _)
    | response r =>
      rw [PlanBuilder.step, hst]
      rcases response_cases s r with ⟨e, _⟩ | ⟨k, ms, h1, h2, e⟩ <;> rw [e]
      · exact hs.quiet (by simp) (by simp)
      · obtain ⟨_, _, _, e1, _, _, e2, e3, e4, e5⟩ := taken_get s k r ms h2
        have := hs.quiet (i := .response r) (by simp) (by simp)
        have : Seen c (h ++ [.response r]) (s.taken k r ms) :=
          this.same ⟨e3, e1, e2, by rw [e5]; exact fun _ h => h, by rw [e4]; exact fun h => h⟩
        exact this.same (checkNext_same _ _ _)

theorem seen (c : Config) (h : List In) : Seen c h (after c h) := by
  have := runM_induction (step := step) (s0 := start c)
    (P := fun (h : List In) (s : St) (_ : List (List Out)) => Seen c h s)
    (by constructor <;> simp [start, Map.get, lastState, lastRequest])
    (fun is i ih => ih.step i)
  exact this h

/-! ### The answers in turn -/

/-- The projected states after the answers. -/
def projAfter (ps : List Proj) (rs : List Response) : List Proj := rs.foldl (fun ps r => absorb r ps) ps

/-- The implementation request follows from the projected states. -/
structure AskOk (q : Int) (r : Request) (ps : List Proj) (a : Ask) : Prop where
  req : a.req = q
  region : a.region = r.region
  from_ : ∃ p, ps.find? (·.planning.vehicle == a.vehicle) = some p ∧ a.start = p.last + 1 ∧
    a.place = p.planning.place ∧ a.heading = p.planning.heading ∧ a.time = p.time
  neighbours : a.neighbours = (ps.filter (·.planning.vehicle != a.vehicle)).map (·.planning)

/-- The plan `p` is what is made of the missions `ms` when the history was `h`. -/
def Finished (c : Config) (h : List In) (ms : List Mission) (p : Plan) : Prop :=
  ∃ (s : St) (ms' : List Mission), s.cfg = c ∧ (∀ v, s.states.get v = lastState v h) ∧
    (if c.loiter then s.addLoiters ms else some ms) = some ms' ∧ p.missions = turned c ms'

/-- The assignment is being worked on. -/
structure Live (q : Int) (opens : Response → Mission → Prop) (hs : List Response) (init : List Proj) (asks : List Ask)
    (plans : List Plan) (s : St) : Prop where
  none : plans = []
  plan : ∃ ms, s.progress.get q = some (some ms) ∧ IsPlan opens hs ms
  proj : s.projected.get q = some (projAfter init hs)
  waits : (∃ i, asks.map (·.id) = hs.map (·.id) ++ [i]) ∨
    asks.map (·.id) = hs.map (·.id) ∧ ∃ t ts, s.remaining.get q = some (t :: ts) ∧
      t.vehicle ∉ init.map (·.planning.vehicle)

/-- The plan was sent. -/
structure Done (c : Config) (A : List In) (m : Summary) (B : List In) (q : Int) (tasks : List Assign)
    (opens : Response → Mission → Prop)
    (hs : List Response) (init : List Proj) (asks : List Ask) (plans : List Plan) (s : St) : Prop where
  progress : s.progress.get q = .none
  ids : asks.map (·.id) = hs.map (·.id)
  all : asks.map Ask.key = tasks
  plan : ∃ p ms B', plans = [p] ∧ p.req = q ∧ IsPlan opens hs ms ∧ B' <+: B ∧ Finished c (A ++ .summary m :: B') ms p ∧
    p.finals = (projAfter init hs).map (·.planning)

/-- Undefined behaviour happened. -/
structure Crashed (plans : List Plan) (s : St) : Prop where
  ub : s.ub = true
  none : plans = []

/-- Not in the code: what holds in the middle of a session. -/
structure Strong (opens : Response → Mission → Prop) (c : Config) (A : List In) (m : Summary) (B : List In) (r : Request)
    (init : List Proj) (hs : List Response) (asks : List Ask) (plans : List Plan) (s : St) : Prop where
  request : s.requests.get m.req = some r
  asksOk : ∀ k a, asks[k]? = some a → AskOk m.req r (projAfter init (hs.take k)) a
  len : asks.length ≤ hs.length + 1
  state : Live m.req opens hs init asks plans s ∨
    Done c A m B m.req m.tasks opens hs init asks plans s ∨ Crashed plans s

theorem project_vehicles (r : Response) : ∀ ps : List Proj,
    (project r ps).map (·.planning.vehicle) = ps.map (·.planning.vehicle)
  | [] => rfl
  | p :: ps => by
    rw [project]
    by_cases h : p.planning.vehicle = r.vehicle
    · simp [h]
    · simp [h, project_vehicles r ps]

theorem projAfter_vehicles (init : List Proj) (rs : List Response) :
    (projAfter init rs).map (·.planning.vehicle) = init.map (·.planning.vehicle) := by
  induction rs using snocRec with
  | nil => rfl
  | append_singleton rs r ih =>
    rw [projAfter, List.foldl_append]
    show (absorb r (projAfter init rs)).map _ = _
    rw [absorb]
    split
    · exact ih
    · rw [project_vehicles, ih]

theorem projAfter_snoc (init : List Proj) (rs : List Response) (r : Response) :
    projAfter init (rs ++ [r]) = absorb r (projAfter init rs) := by
  simp [projAfter]

theorem Live.frame {q : Int} {opens : Response → Mission → Prop} {hs : List Response} {init : List Proj} {asks : List Ask}
    {plans : List Plan} {s s' : St} {o : List Out} (h : Live q opens hs init asks plans s) (f : Frame q s s' o) : Live q opens hs init (asks ++ asksOf q o) (plans ++ plansOf q o) s' := by
  rw [f.asks, f.plans, List.append_nil, List.append_nil]
  refine ⟨h.none, ?_, by rw [f.projected]; exact h.proj, by rw [f.remaining]; exact h.waits⟩
  obtain ⟨ms, h1, h2⟩ := h.plan
  exact ⟨ms, by rw [f.progress]; exact h1, h2⟩

theorem Done.frame {c : Config} {A : List In} {m : Summary} {B : List In} {q : Int} {tasks : List Assign}
    {opens : Response → Mission → Prop} {hs : List Response} {init : List Proj} {asks : List Ask}
    {plans : List Plan} {s s' : St} {o : List Out} (h : Done c A m B q tasks opens hs init asks plans s) (f : Frame q s s' o)
    (i : In) :
    Done c A m (B ++ [i]) q tasks opens hs init (asks ++ asksOf q o) (plans ++ plansOf q o) s' := by
  rw [f.asks, f.plans, List.append_nil, List.append_nil]
  refine ⟨by rw [f.progress]; exact h.progress, h.ids, h.all, ?_⟩
  obtain ⟨p, ms, B', h1, h2, h3, h4, h5⟩ := h.plan
  exact ⟨p, ms, B', h1, h2, h3, h4.trans (List.prefix_append _ _), h5⟩

theorem find_eq_none {ps : List Proj} {v : Int} (h : ps.find? (·.planning.vehicle == v) = none) :
    v ∉ ps.map (·.planning.vehicle) := by
  simp only [List.find?_eq_none, beq_iff_eq] at h
  simpa using h

theorem sendNext_some {s : St} {q : Int} {r : Request} {t : Assign} {ts : List Assign} {ps : List Proj} {p : Proj}
    (h1 : s.requests.get q = some r) (h2 : s.remaining.get q = some (t :: ts)) (h3 : s.projected.get q = some ps)
    (h4 : ps.find? (·.planning.vehicle == t.vehicle) = some p) : s.sendNext q =
        ({ s with expected := s.expected.put s.askId q, askId := s.askId + 1, remaining := s.remaining.put q ts },
         [.ask { id := s.askId, req := q, start := p.last + 1, vehicle := t.vehicle, task := t.task,
                 option := t.option, region := r.region, threshold := t.threshold,
                 place := p.planning.place, heading := p.planning.heading, time := p.time,
                 neighbours := (ps.filter (·.planning.vehicle != p.planning.vehicle)).map (·.planning) }]) := by
  simp only [St.sendNext, h1, h2, h3, Option.getD_some, h4]

theorem sendNext_none {s : St} {q : Int} {t : Assign} {ts : List Assign} {ps : List Proj}
    (h2 : s.remaining.get q = some (t :: ts)) (h3 : s.projected.get q = some ps)
    (h4 : ps.find? (·.planning.vehicle == t.vehicle) = none) : s.sendNext q = (s, []) := by
  simp only [St.sendNext, h2, h3, Option.getD_some, h4]
  split <;> rfl

/-- One more message. -/
theorem Strong.step {opens : Response → Mission → Prop} {c : Config} {A : List In} {m : Summary} {B : List In} {r : Request} {init : List Proj}
    {hs : List Response} {asks : List Ask} {plans : List Plan} {s : St} (h : Strong opens c A m B r init hs asks plans s)
    (hopen : plans = [] → ∀ x, opens x (s.newMission x)) (hne0 : ∀ r m, opens r m → r.wps ≠ [] → m.wps ≠ [])
    (hw : Weak m.req m.tasks asks plans s) (hseen : Seen c (A ++ .summary m :: B) s) (hne : asks ≠ [])
    {ids : List Int} (hexp : ∀ j, s.expected.get j = some m.req ↔ j ∈ ids ++ asks.map (·.id))
    {i : In} (hi : restarts m.req i = false)
    (hp : ∀ x, i = .response x → x.id ∈ ids ++ asks.map (·.id) →
      (ids ++ asks.map (·.id)).getLast? = some x.id ∧ x.id ∉ hs.map (·.id)) :
    Strong opens c A m (B ++ [i]) r init
      (hs ++ responseTo (ids ++ asks.map (·.id)) i)
      (asks ++ asksOf m.req (step s i).2) (plans ++ plansOf m.req (step s i).2) (PlanBuilder.step s i).1 := by
  by_cases hh : ∃ x, i = .response x ∧ x.id ∈ ids ++ asks.map (·.id)
  · obtain ⟨x, rfl, hx⟩ := hh
    obtain ⟨hlast, hnew⟩ := hp x rfl hx
    have hlast' : (asks.map (·.id)).getLast? = some x.id := by
      rw [List.getLast?_append] at hlast
      cases hl : (asks.map (·.id)).getLast? with
      | none => simp at hl; exact absurd hl hne
      | some y => rw [hl] at hlast; simpa using hlast
    have hnot : asks.map (·.id) ≠ hs.map (·.id) := by
      intro e
      rw [e] at hlast'
      exact hnew (List.mem_of_getLast? hlast')
    simp only [responseTo, if_pos hx]
    have htake : ∀ k a, asks[k]? = some a → AskOk m.req r (projAfter init ((hs ++ [x]).take k)) a := by
      intro k a ha
      have hk : k < asks.length := by
        rw [List.getElem?_eq_some_iff] at ha
        exact ha.1
      have := h.len
      rw [List.take_append_of_le_length (by omega)]
      exact h.asksOk k a ha
    by_cases hub : s.ub = true
    · rw [step_ub hub, asksOf_nil, plansOf_nil, List.append_nil, List.append_nil]
      refine ⟨h.request, htake, by simp; have := h.len; omega, .inr (.inr ?_)⟩
      rcases h.state with h | h | h
      · exact ⟨hub, h.none⟩
      · exact absurd h.ids hnot
      · exact h
    · have hub : s.ub = false := by simpa using hub
      rcases h.state with hl | hl | hl
      · obtain ⟨ms, hms, hplan⟩ := hl.plan
        rcases hl.waits with ⟨j, hj⟩ | ⟨hj, _⟩
        · have hjx : j = x.id := by rw [hj] at hlast'; simpa using hlast'
          subst hjx
          have hlen : asks.length = hs.length + 1 := by
            have := congrArg List.length hj; simpa using this
          rw [step_response hub ((hexp _).mpr hx) hms, asksOf_append, asksOf_complaint, plansOf_append,
            plansOf_complaint, List.nil_append, List.nil_append, hl.none, List.nil_append]
          obtain ⟨e1, e2, e3, e4, e5, e6, e7, e8, e9, e10⟩ := taken_get s m.req x ms hms
          have hplan' : IsPlan opens (hs ++ [x]) (s.absorbed x ms) := hplan.absorbed s x (fun _ => hopen hl.none x) hne0
          have hproj : (s.taken m.req x ms).projected.get m.req = some (projAfter init (hs ++ [x])) := by
            rw [e3, hl.proj, projAfter_snoc]; rfl
          have hreq : (s.taken m.req x ms).requests.get m.req = some r := by rw [e4]; exact h.request
          rcases checkNext_cases (s.taken m.req x ms) m.req (s.absorbed x ms) with
            ⟨e, hr⟩ | ⟨e, t, ts, hr⟩ | ⟨e, hr, _⟩ | ⟨ms', hfin, hr, e⟩
          · obtain ⟨rest, hrest, _⟩ := hw.order
            rw [e2, hrest] at hr
            simp at hr
          · rw [e]
            cases hf : (projAfter init (hs ++ [x])).find? (·.planning.vehicle == t.vehicle) with
            | none =>
              rw [sendNext_none hr hproj hf, asksOf_nil, plansOf_nil, List.append_nil]
              refine ⟨hreq, htake, by simp; omega, .inl ⟨rfl, ⟨_, e1, hplan'⟩, hproj, .inr ⟨by simpa using hj, t, ts, hr, ?_⟩⟩⟩
              have := find_eq_none hf
              rwa [projAfter_vehicles] at this
            | some p =>
              rw [sendNext_some hreq hr hproj hf, asksOf_ask, if_pos rfl, plansOf_ask]
              have hpv : p.planning.vehicle = t.vehicle := by
                have := List.find?_some hf; simpa using this
              refine ⟨hreq, ?_, by simp; omega, .inl ⟨rfl, ⟨_, e1, hplan'⟩, hproj, .inl ⟨(s.taken m.req x ms).askId, ?_⟩⟩⟩
              · intro k a ha
                by_cases hk : k < asks.length
                · rw [List.getElem?_append_left hk] at ha
                  exact htake k a ha
                · rw [List.getElem?_append_right (by omega)] at ha
                  have hk0 : k = asks.length := by
                    rw [List.getElem?_eq_some_iff] at ha
                    obtain ⟨ha, _⟩ := ha
                    simp only [List.length_singleton] at ha
                    omega
                  subst hk0
                  simp only [Nat.sub_self, List.getElem?_cons_zero, Option.some.injEq] at ha
                  subst ha
                  rw [List.take_of_length_le (by simp; omega)]
                  exact ⟨rfl, rfl, ⟨p, hf, rfl, rfl, rfl, rfl⟩, by rw [hpv]⟩
              · rw [List.map_append, hj]
                simp
          · rw [e, asksOf_nil, plansOf_nil, List.append_nil]
            exact ⟨hreq, htake, by simp; omega, .inr (.inr ⟨rfl, rfl⟩)⟩
          · rw [e, asksOf_cons, asksOf_plan, asksOf_done, plansOf_cons, plansOf_plan, if_pos rfl, plansOf_done,
              List.append_nil, List.append_nil, List.append_nil]
            refine ⟨hreq, htake, by simp; omega, .inr (.inl ⟨by simp [Map.get_del], by simpa using hj, ?_, ?_⟩)⟩
            · obtain ⟨rest, hrest, ho⟩ := hw.order
              rw [e2, hrest] at hr
              simp only [Option.some.injEq] at hr
              subst hr
              simpa using ho
            · refine ⟨_, _, B, rfl, rfl, hplan', List.prefix_append _ _, ⟨s.taken m.req x ms, ms', ?_, ?_, ?_, ?_⟩, ?_⟩
              · rw [e7]; exact hseen.cfg
              · intro v; rw [e8]; exact hseen.states hub v
              · rw [e7, hseen.cfg] at hfin; exact hfin
              · rw [e7, hseen.cfg]
              · rw [hproj]; rfl
        · exact absurd hj hnot
      · exact absurd hl.ids hnot
      · exact absurd hl.ub (by rw [hub]; simp)
  · have hnil : responseTo (ids ++ asks.map (·.id)) i = [] := by
      cases i with
      | response x => rw [responseTo, if_neg fun hx => hh ⟨x, rfl, hx⟩]
      | _ => rfl
    rw [hnil, List.append_nil]
    have f : Frame m.req s (PlanBuilder.step s i).1 (PlanBuilder.step s i).2 :=
      step_frame hi fun x ms e he _ => hh ⟨x, e, (hexp _).mp he⟩
    refine ⟨by rw [f.requests]; exact h.request, by rw [f.asks, List.append_nil]; exact h.asksOk,
      by rw [f.asks, List.append_nil]; exact h.len, ?_⟩
    rcases h.state with hl | hl | hl
    · exact .inl (hl.frame f)
    · exact .inr (.inl (hl.frame f i))
    · refine .inr (.inr ?_)
      rw [step_ub hl.ub, plansOf_nil, List.append_nil]
      exact hl

theorem Prompt.left {q : Int} {b : List Out} {E F : List Ev} (h : Prompt q b (E ++ F)) : Prompt q b E := by
  intro P r o S e
  exact h P r o (S ++ F) (by rw [e]; simp)

theorem runM_after (c : Config) (A B : List In) : (runM step (after c A) B).1 = after c (A ++ B) := by
  simp [after, runM_append]

theorem sentIn_append (c : Config) (A B : List In) :
    sentIn c (A ++ B) = sentIn c A ++ sent (events (after c A) B) := by
  simp [sentIn, events_append, sent_append, after]

/-- The projected states at the beginning. -/
def initOf (c : Config) (A : List In) (r : Request) : List Proj :=
  (((after c A).participants r).filterMap (after c A).states.get).map ((after c A).initial r)

theorem strong {c : Config} {A : List In} {m : Summary} {B : List In} (h : Session c A m B) (hp : InTurn c A m B)
    {opens : Response → Mission → Prop}
    (hopen : ∀ B', B' <+: B → published c A m B' = [] → ∀ x, opens x ((after c (A ++ .summary m :: B')).newMission x))
    (hne0 : ∀ r m, opens r m → r.wps ≠ [] → m.wps ≠ []) :
    ∃ r, (after c A).requests.get m.req = some r ∧
    Strong opens c A m B r (initOf c A r) (answers c A m B) (asked c A m B) (published c A m B)
      (runM step (after c A) (.summary m :: B)).1 := by
  obtain ⟨hub, r, t, ts, p, hr, hv, hm, hf, e⟩ := begun_cases h.begun
  refine ⟨r, hr, ?_⟩
  induction B using snocRec with
  | nil =>
    have ha : answers c A m [] = [] := by simp [answers, during, events_cons, heard, responseTo]
    have hk : asked c A m [] = asksOf m.req (step (after c A) (.summary m)).2 := by
      simp [asked, during, events_cons]
    have hpb : published c A m [] = plansOf m.req (step (after c A) (.summary m)).2 := by
      simp [published, during, events_cons]
    rw [ha, hk, hpb, runM_cons, runM_nil, e, asksOf_ask, if_pos rfl, plansOf_ask]
    have hpv : p.planning.vehicle = t.vehicle := by
      have := List.find?_some hf; simpa using this
    refine ⟨hr, ?_, by simp, .inl ⟨rfl, ⟨[], ?_, IsPlan.nil _⟩, ?_, .inl ⟨_, rfl⟩⟩⟩
    · intro k a ha
      cases k with
      | zero =>
        simp only [List.getElem?_cons_zero, Option.some.injEq] at ha
        subst ha
        exact ⟨rfl, rfl, ⟨p, hf, rfl, rfl, rfl, rfl⟩, by rw [hpv]; rfl⟩
      | succ k => simp at ha
    · simp [St.begun, Map.get_put]
    · simp only [St.begun, Map.get_put, if_true]; rfl
  | append_singleton B i ih =>
    have hs : Session c A m B := ⟨h.begun, fun x hx => h.on x (List.mem_append_left _ hx)⟩
    have hd : during c A m (B ++ [i]) =
        during c A m B ++ [(i, (step (runM step (after c A) (.summary m :: B)).1 i).2)] := by
      rw [during, ← List.cons_append, events_snoc]; rfl
    have hpl : InTurn c A m B := by rw [InTurn, hd] at hp; exact hp.left
    have ih := ih hs hpl (fun B' hB => hopen B' (hB.trans (List.prefix_append _ _)))
    have hw := weak hs
    have hseen := seen c (A ++ .summary m :: B)
    have hg := glob c (A ++ .summary m :: B)
    rw [sentIn_append] at hg
    rw [← runM_after] at hseen hg
    have hid : (asksOf m.req (sentIn c A ++ sent (during c A m B))).map (·.id) =
        (asksOf m.req (sentIn c A)).map (·.id) ++ (asked c A m B).map (·.id) := by
      rw [asksOf_append, List.map_append]; rfl
    have hne : asked c A m B ≠ [] := by
      simp only [asked, during, events_cons]
      intro e
      refine h.begun ?_
      rw [show ((In.summary m, (step (after c A) (.summary m)).2) :: events (step (after c A) (.summary m)).1 B)
        = [(In.summary m, (step (after c A) (.summary m)).2)] ++ events (step (after c A) (.summary m)).1 B from rfl,
        sent_append, asksOf_append, sent_single] at e
      exact (List.append_eq_nil_iff.mp e).1
    have hop := hopen B (List.prefix_append _ _)
    rw [← runM_after] at hop
    have := ih.step hop hne0 hw hseen hne (ids := (asksOf m.req (sentIn c A)).map (·.id))
      (fun j => by rw [← hid]; exact hg.exp j m.req) (h.on i (by simp))
      (by
        rintro x rfl hx
        rw [← hid] at hx ⊢
        exact hp (during c A m B) x _ [] hd hx)
    rw [answers, asked, published, hd, sent_append, sent_single, asksOf_append, plansOf_append, heard_append,
      ← List.cons_append, runM_snoc]
    rw [← hid] at this
    simp only [heard, List.append_nil]
    exact this

end Verif.PlanBuilder
