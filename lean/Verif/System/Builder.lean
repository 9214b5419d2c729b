import Verif.PlanBuilder.Derived

/-!
Every plan of the plan builder comes from an assignment: from a plan sent back to the assignment, whatever was received.
-/

namespace Verif.PlanBuilder

open Verif

variable {c : Config} {q : Int} {h A B : List In} {m : Summary} {r : Request}

/-- Not in the code: the vehicles with a projected state, in the attributes of `PlanBuilderService.h` 143-154. -/
def St.placed (s : St) (q : Int) : List Int := ((s.projected.get q).getD []).map (·.planning.vehicle)

theorem absorb_vehicles (x : Response) (ps : List Proj) : (absorb x ps).map (·.planning.vehicle) = ps.map (·.planning.vehicle) := by
  unfold absorb
  split
  · rfl
  · exact project_vehicles x ps

theorem taken_placed {s : St} {x : Response} {ms : List Mission} (hp : s.progress.get q = some (some ms)) :
    (s.taken q x ms).placed q = s.placed q := by
  obtain ⟨_, _, e3, _⟩ := taken_get s q x ms hp
  unfold St.placed
  rw [e3]
  cases s.projected.get q with
  | none => rfl
  | some ps => simp [absorb_vehicles]

/-- The next request is sent exactly when the vehicle of the next task has a projected state. -/
theorem sendNext_placed {s : St} {t : Assign} {ts : List Assign} (hr : s.requests.get q = some r)
    (hm : s.remaining.get q = some (t :: ts)) :
    (t.vehicle ∉ s.placed q ∧ s.sendNext q = (s, [])) ∨
    (t.vehicle ∈ s.placed q ∧ ∃ a : Ask, a.req = q ∧ a.key = t ∧ a.region = r.region ∧ (s.sendNext q).2 = [.ask a] ∧
      (s.sendNext q).1.remaining.get q = some ts ∧ (s.sendNext q).1.requests = s.requests ∧
      (s.sendNext q).1.progress = s.progress ∧ (s.sendNext q).1.placed q = s.placed q ∧ (s.sendNext q).1.ub = s.ub) := by
  unfold St.sendNext
  rw [hr, hm]
  dsimp only
  cases hf : ((s.projected.get q).getD []).find? (·.planning.vehicle == t.vehicle) with
  | none =>
    left
    refine ⟨?_, rfl⟩
    rw [List.find?_eq_none] at hf
    intro hv
    obtain ⟨p, hp, e⟩ := List.mem_map.1 hv
    exact hf p hp (by simp [e])
  | some p =>
    right
    have h1 := List.mem_of_find?_eq_some hf
    have h2 := List.find?_some hf
    refine ⟨List.mem_map.2 ⟨p, h1, by simpa using h2⟩, _, rfl, rfl, rfl, rfl, ?_, rfl, rfl, rfl, rfl⟩
    simp [Map.get_put]

/-- What connects an assignment with the history: it came after `A`, `r` was the last request with its id then, the tasks were asked in its order, in the
region and with vehicles of the request, and every later start for the same request has been refused. -/
structure Traced (c : Config) (q : Int) (A : List In) (m : Summary) (B : List In) (r : Request) : Prop where
  req : m.req = q
  known : lastRequest q A = some r
  asks : ∀ a ∈ asked c A m B, a.region = r.region ∧ (r.vehicles ≠ [] → a.vehicle ∈ r.vehicles)
  refused : ∀ B₁ i B₂, B = B₁ ++ i :: B₂ → restarts q i = true → ∃ e, (step (after c (A ++ .summary m :: B₁)) i).2 = [.error e]

/-- Work on an assignment that is not finished. -/
structure Work (c : Config) (q : Int) (h A : List In) (m : Summary) (B : List In) (r : Request) : Prop where
  split : h = A ++ .summary m :: B
  traced : Traced c q A m B r
  known : (after c h).requests.get q = some r
  placed : r.vehicles ≠ [] → ∀ v ∈ (after c h).placed q, v ∈ r.vehicles
  none : published c A m B = []
  progress : ∃ ms, (after c h).progress.get q = some (some ms)
  order : ∃ rest, (after c h).remaining.get q = some rest ∧ (asked c A m B).map Ask.key ++ rest = m.tasks ∧
    (asksOf q (step (after c A) (.summary m)).2 ≠ [] ∨
      asked c A m B = [] ∧ ∃ t ts, rest = t :: ts ∧ t.vehicle ∉ (after c h).placed q)

theorem after_snoc (c : Config) (h : List In) (i : In) : after c (h ++ [i]) = (step (after c h) i).1 := by
  unfold after; rw [runM_snoc]

theorem after_split (c : Config) (A : List In) (m : Summary) (B : List In) :
    after c (A ++ .summary m :: B) = (runM step (after c A) (.summary m :: B)).1 := by
  unfold after; rw [runM_append]

theorem asked_snoc (c : Config) (A : List In) (m : Summary) (B : List In) (i : In) :
    asked c A m (B ++ [i]) = asked c A m B ++ asksOf m.req (step (after c (A ++ .summary m :: B)) i).2 := by
  unfold asked during
  rw [← List.cons_append, events_snoc, sent_append, sent_single, asksOf_append, after_split]

theorem published_snoc (c : Config) (A : List In) (m : Summary) (B : List In) (i : In) :
    published c A m (B ++ [i]) = published c A m B ++ plansOf m.req (step (after c (A ++ .summary m :: B)) i).2 := by
  unfold published during
  rw [← List.cons_append, events_snoc, sent_append, sent_single, plansOf_append, after_split]

/-- The condition on starts, for one more message. -/
theorem refused_snoc {i : In}
    (hb : ∀ B₁ j B₂, B = B₁ ++ j :: B₂ → restarts q j = true → ∃ e, (step (after c (A ++ .summary m :: B₁)) j).2 = [.error e])
    (hi : restarts q i = true → ∃ e, (step (after c (A ++ .summary m :: B)) i).2 = [.error e]) :
    ∀ B₁ j B₂, B ++ [i] = B₁ ++ j :: B₂ → restarts q j = true → ∃ e, (step (after c (A ++ .summary m :: B₁)) j).2 = [.error e] := by
  intro B₁ j B₂ e hj
  rcases List.eq_nil_or_concat B₂ with rfl | ⟨B₃, k, hk⟩
  · obtain ⟨rfl, h2⟩ := List.append_inj' e rfl
    simp only [List.cons.injEq, and_true] at h2
    subst h2
    exact hi hj
  · rw [hk, List.concat_eq_append, ← List.cons_append, ← List.append_assoc] at e
    obtain ⟨h1, -⟩ := List.append_inj' e rfl
    exact hb B₁ j B₃ h1 hj

/-- A message that does not matter for the request. -/
theorem Work.frame (w : Work c q h A m B r) {i : In} (f : Frame q (after c h) (step (after c h) i).1 (step (after c h) i).2)
    (hi : restarts q i = true → ∃ e, (step (after c h) i).2 = [.error e]) : Work c q (h ++ [i]) A m (B ++ [i]) r := by
  have hs := w.split
  have ha : asked c A m (B ++ [i]) = asked c A m B := by
    rw [asked_snoc, ← hs, w.traced.req, f.asks, List.append_nil]
  have hpl : (after c (h ++ [i])).placed q = (after c h).placed q := by
    unfold St.placed; rw [after_snoc, f.projected]
  refine ⟨by rw [hs]; simp, ⟨w.traced.req, w.traced.known, by rw [ha]; exact w.traced.asks,
    refused_snoc w.traced.refused (by rw [← hs]; exact hi)⟩, ?_, ?_, ?_, ?_, ?_⟩
  · rw [after_snoc, f.requests]; exact w.known
  · rw [hpl]; exact w.placed
  · rw [published_snoc, ← hs, w.traced.req, f.plans, w.none]; rfl
  · rw [after_snoc, f.progress]; exact w.progress
  · rw [after_snoc, f.remaining, ha, ← after_snoc, hpl]; exact w.order

/-- A plan with its assignment. -/
structure Built (c : Config) (h : List In) (p : Plan) (A : List In) (m : Summary) (B : List In) (r : Request) : Prop where
  split : h = A ++ .summary m :: B
  traced : Traced c p.req A m B r
  begun : asksOf p.req (step (after c A) (.summary m)).2 ≠ []
  all : (asked c A m B).map Ask.key = m.tasks
  plan : published c A m B = [p]

/-- What holds at any time. -/
def Standing' (c : Config) (q : Int) (h : List In) : Prop :=
  (after c h).ub = true ∨ (∀ ms, (after c h).progress.get q ≠ some (some ms)) ∨ ∃ A m B r, Work c q h A m B r

theorem standing_step (hw : Standing' c q h) (i : In) : Standing' c q (h ++ [i]) ∧
    ∀ p ∈ plansOf q (step (after c h) i).2, ∃ A m B r, Built c (h ++ [i]) p A m B r := by
  by_cases hub : (after c h).ub = true
  · have e := step_ub hub i
    exact ⟨.inl (by rw [after_snoc, e]; exact hub), by rw [e]; simp⟩
  have hub' : (after c h).ub = false := by simpa using hub
  have hst : ∀ x : St × List Out, (if (after c h).ub = true then (after c h, []) else x) = x := fun x => if_neg hub
  have hw := hw.resolve_left hub
  -- a message after which nothing has changed for the request
  have same : Frame q (after c h) (step (after c h) i).1 (step (after c h) i).2 →
      (restarts q i = true → ∃ e, (step (after c h) i).2 = [.error e]) → Standing' c q (h ++ [i]) ∧
      ∀ p ∈ plansOf q (step (after c h) i).2, ∃ A m B r, Built c (h ++ [i]) p A m B r := by
    intro f hi
    refine ⟨?_, by rw [f.plans]; simp⟩
    rcases hw with hw | ⟨A, m, B, r, w⟩
    · exact .inr (.inl (by rw [after_snoc, f.progress]; exact hw))
    · exact .inr (.inr ⟨A, m, B ++ [i], r, w.frame f hi⟩)
  by_cases hi : restarts q i = true
  · cases i with
    | state v => simp [restarts] at hi
    | overrides k os => simp [restarts] at hi
    | impactResponse k => simp [restarts] at hi
    | response x => simp [restarts] at hi
    | request r =>
      have e : r.id = q := by simpa [restarts] using hi
      rw [step, hst]
      refine ⟨.inr (.inl ?_), by simp⟩
      intro ms
      rw [after_snoc, step, hst]
      simp [Map.get_put, e]
    | summary m =>
      have e : m.req = q := by simpa [restarts] using hi
      have hstep : step (after c h) (.summary m) = (after c h).summary m := by rw [step, hst]
      rcases summary_cases (after c h) m with ⟨er, he⟩ | ⟨r, hr, ht, hv, he⟩
      · rw [← hstep] at he
        exact same (by rw [he]; exact ⟨rfl, rfl, rfl, rfl, rfl, rfl⟩) fun _ => ⟨er, by rw [he]⟩
      · rw [← hstep] at he
        subst e
        obtain ⟨t, ts, htt⟩ : ∃ t ts, m.tasks = t :: ts := by
          cases hm : m.tasks with
          | nil => exact absurd hm ht
          | cons t ts => exact ⟨t, ts, rfl⟩
        have k1 : ((after c h).begun m r).requests.get m.req = some r := hr
        have k2 : ((after c h).begun m r).remaining.get m.req = some (t :: ts) := by simp [St.begun, Map.get_put, htt]
        have k3 : r.vehicles ≠ [] → ∀ v ∈ ((after c h).begun m r).placed m.req, v ∈ r.vehicles := by
          intro hne v hv'
          unfold St.placed St.begun at hv'
          simp only [Map.get_put, if_true, Option.getD_some, List.map_map] at hv'
          obtain ⟨x, hx, rfl⟩ := List.mem_map.1 hv'
          obtain ⟨u, hu, hxu⟩ := List.mem_filterMap.1 hx
          unfold St.participants at hu
          rw [if_neg hne] at hu
          rw [(seen c h).states hub'] at hxu
          have : ((after c h).initial r x).planning.vehicle = x.id := by rw [initial_planning, startOf_vehicle]
          simp only [Function.comp_apply, this, lastState_id hxu]
          exact hu
        have k4 : ((after c h).begun m r).progress.get m.req = some (some []) := by simp [St.begun, Map.get_put]
        have hkn : lastRequest m.req h = some r := by rw [← (seen c h).requests hub']; exact hr
        have ha0 : asked c h m [] = asksOf m.req (step (after c h) (.summary m)).2 := by
          simp [asked, during, events_cons, sent_single]
        have hp0 : published c h m [] = plansOf m.req (step (after c h) (.summary m)).2 := by
          simp [published, during, events_cons, sent_single]
        rcases sendNext_placed k1 k2 with ⟨hno, hs⟩ | ⟨hyes, a, a1, a2, a3, a4, a5, a6, a7, a8, -⟩
        · rw [hs] at he
          refine ⟨.inr (.inr ⟨h, m, [], r, ⟨rfl, ⟨rfl, hkn, by rw [ha0, he]; simp, by simp⟩, ?_, ?_, ?_, ?_, ?_⟩⟩), by rw [he]; simp⟩
          · rw [after_snoc, he]; exact k1
          · rw [after_snoc, he]; exact k3
          · rw [hp0, he]; rfl
          · rw [after_snoc, he]; exact ⟨_, k4⟩
          · refine ⟨t :: ts, by rw [after_snoc, he]; exact k2, by rw [ha0, he]; simp [htt], .inr ⟨by rw [ha0, he]; rfl, t, ts, rfl, ?_⟩⟩
            rw [after_snoc, he]; exact hno
        · have hplans : plansOf m.req (step (after c h) (.summary m)).2 = [] := by rw [he, a4]; rfl
          have hasks : asksOf m.req (step (after c h) (.summary m)).2 = [a] := by rw [he, a4, asksOf_ask, if_pos a1]
          refine ⟨.inr (.inr ⟨h, m, [], r, ⟨rfl, ⟨rfl, hkn, ?_, by simp⟩, ?_, ?_, ?_, ?_, ?_⟩⟩), by rw [hplans]; simp⟩
          · rw [ha0, hasks]
            intro x hx
            simp only [List.mem_singleton] at hx
            subst hx
            refine ⟨a3, fun hne => ?_⟩
            have : x.vehicle = t.vehicle := by rw [← a2]; rfl
            rw [this]
            exact k3 hne _ hyes
          · rw [after_snoc, he, a6]; exact k1
          · rw [after_snoc, he, a8]; exact k3
          · rw [hp0, hplans]
          · rw [after_snoc, he, a7]; exact ⟨_, k4⟩
          · refine ⟨ts, by rw [after_snoc, he]; exact a5, by rw [ha0, hasks]; simp [htt, a2], .inl (by rw [hasks]; simp)⟩
  · have hi' : restarts q i = false := by simpa using hi
    by_cases hx : ∃ x ms, i = .response x ∧ (after c h).expected.get x.id = some q ∧ (after c h).progress.get q = some (some ms)
    · obtain ⟨x, ms, rfl, he, hp⟩ := hx
      rcases hw with hw | ⟨A, m, B, r, w⟩
      · exact absurd hp (hw ms)
      have hstep := step_response hub' he hp
      obtain ⟨e1, e2, e3, e4, -, -, -, -, e9, -⟩ := taken_get (after c h) q x ms hp
      have hpl := taken_placed (x := x) hp
      obtain ⟨rest, o1, o2, o3⟩ := w.order
      have hs := w.split
      have hreq := w.traced.req
      have href := refused_snoc (i := .response x) w.traced.refused (fun h => by simp [restarts] at h)
      have hasked := asked_snoc c A m B (.response x)
      have hpub := published_snoc c A m B (.response x)
      rw [← hs, hreq, hstep] at hasked hpub
      simp only [asksOf_append, asksOf_complaint, List.nil_append] at hasked
      simp only [plansOf_append, plansOf_complaint, List.nil_append, w.none] at hpub
      have hsp : h ++ [.response x] = A ++ .summary m :: (B ++ [.response x]) := by rw [hs]; simp
      have hreq1 : ((after c h).taken q x ms).requests.get q = some r := by rw [e4]; exact w.known
      rcases checkNext_cases ((after c h).taken q x ms) q ((after c h).absorbed x ms) with
        ⟨e, hn⟩ | ⟨e, t, ts, hn⟩ | ⟨e, -⟩ | ⟨ms', -, hn, e⟩
      · rw [e2, o1] at hn; simp at hn
      · have hn' := hn
        rw [e2, o1] at hn'
        simp only [Option.some.injEq] at hn'
        subst hn'
        rw [e] at hasked hpub hstep
        rcases sendNext_placed hreq1 hn with ⟨hno, hs'⟩ | ⟨hyes, a, a1, a2, a3, a4, a5, a6, a7, a8, -⟩
        · rw [hs'] at hasked hpub hstep
          simp only [asksOf_nil, plansOf_nil, List.append_nil] at hasked hpub
          refine ⟨.inr (.inr ⟨A, m, B ++ [.response x], r, ⟨hsp, ⟨hreq, w.traced.known, by rw [hasked]; exact w.traced.asks, href⟩, ?_, ?_, ?_, ?_, ?_⟩⟩), ?_⟩
          · rw [after_snoc, hstep]; exact hreq1
          · rw [after_snoc, hstep]; dsimp only; rw [hpl]; exact w.placed
          · exact hpub
          · rw [after_snoc, hstep]; exact ⟨_, e1⟩
          · refine ⟨t :: ts, by rw [after_snoc, hstep]; exact hn, by rw [hasked]; exact o2, ?_⟩
            rcases o3 with o3 | ⟨o3, -⟩
            · exact .inl o3
            · refine .inr ⟨by rw [hasked]; exact o3, t, ts, rfl, ?_⟩
              rw [after_snoc, hstep]; exact hno
          · rw [hstep]; simp [plansOf_complaint]
        · rw [a4, asksOf_ask, if_pos a1] at hasked
          rw [a4, plansOf_ask] at hpub
          refine ⟨.inr (.inr ⟨A, m, B ++ [.response x], r, ⟨hsp, ⟨hreq, w.traced.known, ?_, href⟩, ?_, ?_, ?_, ?_, ?_⟩⟩), ?_⟩
          · rw [hasked]
            intro y hy
            rcases List.mem_append.1 hy with hy | hy
            · exact w.traced.asks y hy
            · simp only [List.mem_singleton] at hy
              subst hy
              refine ⟨a3, fun hne => ?_⟩
              have : y.vehicle = t.vehicle := by rw [← a2]; rfl
              rw [this]
              rw [hpl] at hyes
              exact w.placed hne _ hyes
          · rw [after_snoc, hstep]; dsimp only; rw [a6]; exact hreq1
          · rw [after_snoc, hstep]; dsimp only; rw [a8, hpl]; exact w.placed
          · exact hpub
          · rw [after_snoc, hstep]; dsimp only; rw [a7]; exact ⟨_, e1⟩
          · refine ⟨ts, by rw [after_snoc, hstep]; exact a5, by rw [hasked, ← o2]; simp [a2], ?_⟩
            rcases o3 with o3 | ⟨-, t', ts', o4, o5⟩
            · exact .inl o3
            · simp only [List.cons.injEq] at o4
              obtain ⟨rfl, rfl⟩ := o4
              rw [hpl] at hyes
              exact absurd hyes o5
          · rw [hstep, a4]; simp [plansOf_append, plansOf_complaint]
      · rw [e] at hstep
        exact ⟨.inl (by rw [after_snoc, hstep]), by rw [hstep]; simp [plansOf_complaint]⟩
      · rw [e] at hstep hasked hpub
        rw [e2, o1] at hn
        simp only [Option.some.injEq] at hn
        subst hn
        rw [asksOf_cons, asksOf_plan, asksOf_done] at hasked
        rw [plansOf_cons, plansOf_plan, if_pos rfl, plansOf_done] at hpub
        simp only [List.append_nil] at hasked hpub o2
        refine ⟨.inr (.inl ?_), ?_⟩
        · intro ms2
          rw [after_snoc, hstep]
          simp [Map.get_del]
        · rw [hstep]
          intro p hpp
          simp only [plansOf_append, plansOf_complaint, List.nil_append] at hpp
          rw [plansOf_cons, plansOf_plan, if_pos rfl, plansOf_done, List.append_nil, List.mem_singleton] at hpp
          have hq : p.req = q := by rw [hpp]
          refine ⟨A, m, B ++ [.response x], r, ⟨hsp, ⟨by rw [hq]; exact hreq, by rw [hq]; exact w.traced.known,
            by rw [hasked]; exact w.traced.asks, by rw [hq]; exact href⟩, ?_, by rw [hasked]; exact o2, by rw [hpub, hpp]⟩⟩
          rw [hq]
          rcases o3 with o3 | ⟨-, t', ts', o4, -⟩
          · exact o3
          · simp at o4
    · exact same (step_frame hi' fun x ms a b d => hx ⟨x, ms, a, b, d⟩) fun h => absurd h hi

/-- Every plan that the plan builder sends was built for an assignment. -/
theorem built (c : Config) (h : List In) (p : Plan) (hp : .plan p ∈ sentIn c h) :
    ∃ h₁ h₂ A m B r, h = h₁ ++ h₂ ∧ Built c h₁ p A m B r := by
  suffices key : Standing' c p.req h ∧ (.plan p ∈ sentIn c h → ∃ h₁ h₂ A m B r, h = h₁ ++ h₂ ∧ Built c h₁ p A m B r) from key.2 hp
  clear hp
  induction h using snocRec with
  | nil => exact ⟨.inr (.inl (by intro ms; simp [after, start, Map.get])), by simp [sentIn]⟩
  | append_singleton h i ih =>
    obtain ⟨s1, s2⟩ := standing_step ih.1 i
    refine ⟨s1, fun hp => ?_⟩
    unfold sentIn at hp
    rw [events_snoc, sent_append, sent_single, List.mem_append] at hp
    rcases hp with hp | hp
    · obtain ⟨h₁, h₂, A, m, B, r, e, hb⟩ := ih.2 hp
      exact ⟨h₁, h₂ ++ [i], A, m, B, r, by rw [e]; simp, hb⟩
    · obtain ⟨A, m, B, r, hb⟩ := s2 p (by
        unfold plansOf
        exact List.mem_filterMap.2 ⟨_, hp, by simp⟩)
      exact ⟨h ++ [i], [], A, m, B, r, by simp, hb⟩

end Verif.PlanBuilder
