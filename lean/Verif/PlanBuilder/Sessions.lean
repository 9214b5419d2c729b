import Verif.PlanBuilder.Plans

/-! Invariants of the work on one assignment. -/

namespace Verif.PlanBuilder

open Verif

/-! ### What holds however the tasks answer -/

/-- Not in the code: what holds in the middle of a session, without a condition on the answers. -/
structure Weak (q : Int) (tasks : List Assign) (asks : List Ask) (plans : List Plan) (s : St) : Prop where
  known : (s.requests.get q).isSome = true
  order : ∃ rest, s.remaining.get q = some rest ∧ asks.map Ask.key ++ rest = tasks
  state : (plans = [] ∧ ∃ ms, s.progress.get q = some (some ms)) ∨
    (∃ p, plans = [p]) ∧ s.progress.get q = none ∧ asks.map Ask.key = tasks

variable {q : Int} {tasks : List Assign} {asks : List Ask} {plans : List Plan} {s : St}

theorem Weak.frame (h : Weak q tasks asks plans s) {s' : St} {o : List Out} (f : Frame q s s' o) :
    Weak q tasks (asks ++ asksOf q o) (plans ++ plansOf q o) s' := by
  rw [f.asks, f.plans, List.append_nil, List.append_nil]
  exact ⟨by rw [f.requests]; exact h.known, by rw [f.remaining]; exact h.order, by rw [f.progress]; exact h.state⟩

theorem Weak.sendNext (h : Weak q tasks asks plans s) (hp : plans = []) :
    Weak q tasks (asks ++ asksOf q (s.sendNext q).2) (plans ++ plansOf q (s.sendNext q).2) (s.sendNext q).1 := by
  rcases sendNext_cases s q with e | ⟨r, t, ts, p, hr, hm, hf, e⟩ <;> rw [e]
  · simpa using h
  · rw [asksOf_ask, if_pos rfl, plansOf_ask, List.append_nil]
    refine ⟨h.known, ⟨ts, by simp [Map.get_put], ?_⟩, ?_⟩
    · obtain ⟨rest, h1, h2⟩ := h.order
      rw [hm] at h1
      simp only [Option.some.injEq] at h1
      rw [← h2, ← h1]
      simp [Ask.key]
    · rcases h.state with ⟨h1, h2⟩ | ⟨⟨p', h1⟩, _⟩
      · exact .inl ⟨h1, h2⟩
      · rw [hp] at h1; simp at h1

theorem Weak.checkNext (h : Weak q tasks asks plans s) (hp : plans = []) (ms : List Mission) :
    Weak q tasks (asks ++ asksOf q (s.checkNext q ms).2) (plans ++ plansOf q (s.checkNext q ms).2)
      (s.checkNext q ms).1 := by
  rcases checkNext_cases s q ms with ⟨e, _⟩ | ⟨e, _⟩ | ⟨e, _⟩ | ⟨ms', _, hm, e⟩ <;> rw [e]
  · simpa using h
  · exact h.sendNext hp
  · simpa using ⟨h.known, h.order, h.state⟩
  · rw [asksOf_cons, asksOf_plan, asksOf_done, plansOf_cons, plansOf_plan, if_pos rfl, plansOf_done, hp]
    obtain ⟨rest, h1, h2⟩ := h.order
    rw [hm] at h1
    simp only [Option.some.injEq] at h1
    subst h1
    simp only [List.append_nil, List.nil_append] at h2 ⊢
    exact ⟨h.known, ⟨[], hm, by simpa using h2⟩, .inr ⟨⟨_, rfl⟩, by simp [Map.get_del], h2⟩⟩

theorem Weak.taken (h : Weak q tasks asks plans s) (r : Response) {ms : List Mission}
    (hp : s.progress.get q = some (some ms)) : Weak q tasks asks plans (s.taken q r ms) := by
  obtain ⟨e1, e2, e3, e4, _⟩ := taken_get s q r ms hp
  refine ⟨by rw [e4]; exact h.known, by rw [e2]; exact h.order, ?_⟩
  rcases h.state with ⟨h1, h2⟩ | ⟨_, h2, _⟩
  · exact .inl ⟨h1, _, e1⟩
  · rw [hp] at h2; simp at h2

theorem Weak.none (h : Weak q tasks asks plans s) {ms : List Mission}
    (hp : s.progress.get q = some (some ms)) : plans = [] := by
  rcases h.state with ⟨h1, _⟩ | ⟨_, h2, _⟩
  · exact h1
  · rw [hp] at h2; simp at h2

/-- A response for `q` while its plan is in progress. -/
theorem step_response {s : St} {r : Response} {ms : List Mission} (hub : s.ub = false)
    (he : s.expected.get r.id = some q) (hp : s.progress.get q = some (some ms)) :
    step s (.response r) = (((s.taken q r ms).checkNext q (s.absorbed r ms)).1,
        complaint r ++ ((s.taken q r ms).checkNext q (s.absorbed r ms)).2) := by
  rw [step, if_neg (by rw [hub]; simp)]
  rcases response_cases s r with ⟨_, e⟩ | ⟨q', ms', h1, h2, e⟩
  · exact absurd hp (e q he ms)
  · rw [he] at h1
    simp only [Option.some.injEq] at h1
    subst h1
    rw [hp] at h2
    simp only [Option.some.injEq] at h2
    subst h2
    exact e

theorem step_ub {s : St} (hub : s.ub = true) (i : In) : step s i = (s, []) := by
  simp only [step, hub, if_true]

theorem Weak.step (h : Weak q tasks asks plans s) {i : In} (hi : restarts q i = false) :
    Weak q tasks (asks ++ asksOf q (step s i).2) (plans ++ plansOf q (step s i).2) (PlanBuilder.step s i).1 := by
  by_cases hub : s.ub = true
  · rw [step_ub hub]; simpa using h
  · by_cases hr : ∃ r ms, i = .response r ∧ s.expected.get r.id = some q ∧ s.progress.get q = some (some ms)
    · obtain ⟨r, ms, rfl, he, hp⟩ := hr
      rw [step_response (by simpa using hub) he hp, asksOf_append, asksOf_complaint, plansOf_append, plansOf_complaint]
      exact (h.taken r hp).checkNext (h.none hp) _
    · exact h.frame (step_frame hi fun r ms e1 e2 e3 => hr ⟨r, ms, e1, e2, e3⟩)

/-- How the work on an assignment begins. -/
theorem begun_cases {s : St} {m : Summary} (h : asksOf m.req (step s (.summary m)).2 ≠ []) :
    s.ub = false ∧
    ∃ (r : Request) (t : Assign) (ts : List Assign) (p : Proj), s.requests.get m.req = some r ∧
      (∀ v ∈ r.vehicles, (s.states.get v).isSome = true) ∧ m.tasks = t :: ts ∧
      (((s.participants r).filterMap s.states.get).map (s.initial r)).find? (·.planning.vehicle == t.vehicle) = some p ∧
      PlanBuilder.step s (.summary m) =
        ({ s.begun m r with
           expected := s.expected.put s.askId m.req
           askId := s.askId + 1
           remaining := (s.begun m r).remaining.put m.req ts },
         [.ask { id := s.askId, req := m.req, start := p.last + 1, vehicle := t.vehicle, task := t.task,
                 option := t.option, region := r.region, threshold := t.threshold,
                 place := p.planning.place, heading := p.planning.heading, time := p.time,
                 neighbours := ((((s.participants r).filterMap s.states.get).map (s.initial r)).filter
                   (·.planning.vehicle != p.planning.vehicle)).map (·.planning) }]) := by
  have hub : s.ub = false := by
    cases hu : s.ub
    · rfl
    · rw [step_ub hu] at h; simp at h
  refine ⟨hub, ?_⟩
  have hst : PlanBuilder.step s (.summary m) = s.summary m := by rw [PlanBuilder.step, if_neg (by rw [hub]; simp)]
  rw [hst] at h ⊢
  rcases summary_cases s m with ⟨e, he⟩ | ⟨r, hr, ht, hv, he⟩ <;> rw [he] at h ⊢
  · simp at h
  · rcases sendNext_cases (s.begun m r) m.req with e | ⟨r', t, ts, p, hr', hm, hf, e⟩ <;> rw [e] at h ⊢
    · simp at h
    · have hr'' : s.requests.get m.req = some r' := hr'
      rw [hr] at hr''
      simp only [Option.some.injEq] at hr''
      subst hr''
      have e1 : (s.begun m r).remaining.get m.req = some m.tasks := by simp [St.begun, Map.get_put]
      have e2 : (s.begun m r).projected.get m.req =
          some (((s.participants r).filterMap s.states.get).map (s.initial r)) := by
        simp [St.begun, Map.get_put]
      rw [e1] at hm
      simp only [Option.some.injEq] at hm
      rw [e2, Option.getD_some] at hf
      refine ⟨r, t, ts, p, hr, hv, hm, hf, ?_⟩
      rw [e2, Option.getD_some]
      rfl

theorem weak_begun {s : St} {m : Summary} (h : asksOf m.req (step s (.summary m)).2 ≠ []) :
    Weak m.req m.tasks (asksOf m.req (step s (.summary m)).2) (plansOf m.req (step s (.summary m)).2)
      (PlanBuilder.step s (.summary m)).1 := by
  obtain ⟨_, r, t, ts, p, hr, hv, hm, hf, e⟩ := begun_cases h
  rw [e, asksOf_ask, if_pos rfl, plansOf_ask]
  refine ⟨by simp [St.begun, hr], ⟨ts, by simp [Map.get_put], by simp [Ask.key, hm]⟩, .inl ⟨rfl, [], ?_⟩⟩
  simp [St.begun, Map.get_put]

theorem weak {c : Config} {A : List In} {m : Summary} {B : List In} (h : Session c A m B) :
    Weak m.req m.tasks (asked c A m B) (published c A m B) (runM step (after c A) (.summary m :: B)).1 := by
  induction B using snocRec with
  | nil =>
    simp only [asked, published, during, events_cons, events_nil, sent_single, runM_cons, runM_nil]
    exact weak_begun h.begun
  | append_singleton B i ih =>
    have := (ih ⟨h.begun, fun x hx => h.on x (List.mem_append_left _ hx)⟩).step (h.on i (by simp))
    simp only [asked, published, during] at this ⊢
    rw [← List.cons_append, events_snoc, sent_append, sent_single, asksOf_append, plansOf_append, runM_snoc]
    exact this

end Verif.PlanBuilder
