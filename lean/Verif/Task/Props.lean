import Verif.Task.Timing
import Verif.Task.Resume

/-! The claims about the task services. -/

namespace Verif.Task

open Verif

/-! ### An execution for the examples

Task 7 with the option 1 of two routes, for vehicle 4. -/

/-- Not in the code: an example. -/
def exOpt : Opt := { id := 1, eligible := [4] }

/-- Not in the code: an example. -/
def exAsk : Ask := { option := 1, vehicle := 4, routes := [{ id := 10, start := 1, stop := 2 }, { id := 11, start := 2, stop := 3 }] }

/-- Not in the code: an example. -/
def exReq : Request := { id := 100, tasks := [7], entities := [4] }

/-- Not in the code: an example. -/
def exConf : In := .config { id := 4, alt := 50, altType := 1, speed := 20 }

/-- The answer with the costs of the routes. -/
def exCosts : In := .route { id := 1, task := 7, vehicle := 4, plans := [{ id := 11, cost := 5 }, { id := 10, cost := 6 }] }

/-- Not in the code: an example. -/
def exImpl : ImplReq := { id := 200, req := 100, task := 7, option := 1, vehicle := 4, start := 30, place := 0, time := 1000 }

/-- The answer with the routes of the implementation. -/
def exRoutes : RouteResp :=
  { id := 2, task := 7, vehicle := 4, plans := [
    { id := 2, cost := 6, wps := [{ place := 1 }, { place := 2 }] },
    { id := 1, cost := 9, wps := [{ place := 0 }, { place := 1 }] },
    { id := 3, cost := 5, wps := [{ place := 2 }, { place := 3 }] }] }

/-- Not in the code: an example. -/
def exConfig : Config := { task := 7 }

/-- Not in the code: an example. -/
def exOpened : List In := opened [exConf] exReq [(exOpt, exAsk)] [(exOpt, exAsk)]

/-- Not in the code: an example. -/
def exAsked : List In := exOpened ++ [exCosts, .implement exImpl]

/-- The missions of a plan: vehicle 4 does task 7. -/
def exGo : List In := [.response 100 [(4, [[], [7]])]]

instance (c : Config) (h : List In) : Decidable (Fine c h) := inferInstanceAs (Decidable (_ = _))

/-! ### C41: the numbers of the waypoints -/

/-- The waypoints of an implementation are numbered consecutively from the number asked for, and each leads to the next. -/
theorem C41_chain {c : Config} (hfin : ∀ n ws ws', Chain n ws → c.finish ws = some ws' → Chain n ws') {h : List In}
    (hf : Fine c h) {i : In} {r : ImplResp} (hr : .implemented r ∈ sends c h i) :
    r.wps = [] ∨ ∃ q, .implement q ∈ h ∧ q.task = c.task ∧ q.id = r.id ∧ Chain q.start r.wps := by
  have hs := sound stable_true h hf (fun _ _ _ _ => trivial)
  obtain ⟨f⟩ := from_step stable_true hs (fun _ _ => trivial) hr
  rcases conclude_mem f.mem with ⟨_, e⟩ | ⟨vc, ws, _, hw, _, e⟩
  · exact Or.inl (by rw [e])
  · refine Or.inr ⟨f.q, f.hq.1, f.hq.2, (congrArg ImplResp.id e).symm, ?_⟩
    have ew := congrArg ImplResp.wps e
    rw [ew]
    rw [f.sound.cfg] at hw
    exact chain_terminal _ (hfin _ _ _ (Counts.assemble _ _ _ _ _) hw)

/-- What that says of the list. -/
theorem C41_numbers {n : Int} {ws : List Wp} (h : Chain n ws) :
    (∀ k (hk : k < ws.length), ws[k].number = n + k) ∧
    ∀ k (hk : k + 1 < ws.length), (ws[k]'(by omega)).next = n + k + 1 := by
  refine ⟨h.number, ?_⟩
  induction ws generalizing n with
  | nil => intro k hk; simp at hk
  | cons w ws ih =>
    cases ws with
    | nil => intro k hk; simp at hk
    | cons w' ws =>
      intro k hk
      cases k with
      | zero =>
        have h0 : w'.number = n + 1 := by
          have := h.2.2.number 0 (by simp)
          simpa using this
        have := h.2.1
        simp only [List.getElem_cons_zero]
        rw [this, h0]; omega
      | succ k =>
        have := ih h.2.2 k (by simpa using hk)
        simp only [List.getElem_cons_succ]
        rw [this]; omega

/-- If every route ends in two waypoints apart from each other, the last of which leads nowhere, the list ends in a waypoint
that leads to itself, and every waypoint leads to one of the list. -/
theorem C41_ends_partial {c : Config} (hfin : c.finish = some) {h : List In} (hf : Fine c h) {i : In}
    (hp : ∀ j ∈ h ++ [i], ∀ p ∈ j.plans, EndsWell c.near p.wps) {r : ImplResp} (hr : .implemented r ∈ sends c h i) :
    r.wps = [] ∨ (∃ pre y, r.wps = pre ++ [y] ∧ pre ≠ [] ∧ y.next = y.number ∧ y.tasks = []) ∧
      ∀ w ∈ r.wps, ∃ u ∈ r.wps, w.next = u.number := by
  have hs := sound (stable_endsWell c.near) h hf (fun j hj => hp j (List.mem_append_left _ hj))
  obtain ⟨f⟩ := from_step (stable_endsWell c.near) hs (hp i (List.mem_append_right _ (List.mem_singleton.mpr rfl))) hr
  rcases conclude_mem f.mem with ⟨_, e⟩ | ⟨vc, ws, _, hw, hne, e⟩
  · exact Or.inl (by rw [e])
  · refine Or.inr ?_
    rw [e]
    rw [f.sound.cfg, hfin] at hw
    cases hw
    have hopen : Open (f.s.assemble f.sb vc f.q f.x).1 := by
      rw [St.assemble, f.sound.cfg]
      exact open_plans vc f.sb _ _ f.hx.2 f.hx.1 (Or.inl rfl)
    rcases hopen with h0 | ⟨w, bs, h0, hz⟩
    · rw [h0] at hne; exact absurd rfl hne
    · have hch := chain_terminal f.s.cfg.task (Counts.assemble f.s f.sb vc f.q f.x)
      rw [h0, List.reverse_cons] at hch ⊢
      obtain ⟨x, y, e, he, ht, _⟩ := terminal_ends f.s.cfg.task bs.reverse hz
      have e' : terminal f.s.cfg.task (bs.reverse ++ [w]) = (bs.reverse ++ [x]) ++ [y] := by rw [e]; simp
      dsimp only
      rw [e'] at hch ⊢
      exact ⟨⟨_, y, rfl, by simp, he, ht⟩, hch.next_mem he⟩

example : Fine exConfig exAsked := by decide +kernel

example : (sends exConfig exAsked (.route exRoutes)).map (fun o => match o with
    | .implemented r => r.wps.map (fun w => [w.number, w.next, w.place, w.tasks.length])
    | _ => []) = [[[30, 31, 0, 0], [31, 32, 1, 1], [32, 33, 2, 1], [33, 34, 3, 1], [34, 34, 3, 0]]] := by decide +kernel

example : ∀ j ∈ exAsked ++ [In.route exRoutes], ∀ p ∈ j.plans, EndsWell exConfig.near p.wps := by
  intro j hj p hp
  have : p ∈ (exAsked ++ [In.route exRoutes]).flatMap In.plans := List.mem_flatMap.mpr ⟨j, hj, hp⟩
  have h : (exAsked ++ [In.route exRoutes]).flatMap In.plans =
      [{ id := 11, cost := 5 }, { id := 10, cost := 6 },
       { id := 2, cost := 6, wps := [{ place := 1 }, { place := 2 }] },
       { id := 1, cost := 9, wps := [{ place := 0 }, { place := 1 }] },
       { id := 3, cost := 5, wps := [{ place := 2 }, { place := 3 }] }] := by decide +kernel
  rw [h] at this
  simp only [List.mem_cons, List.not_mem_nil, or_false] at this
  rcases this with rfl | rfl | rfl | rfl | rfl
  · exact Or.inl rfl
  · exact Or.inl rfl
  · exact Or.inr ⟨[], _, _, rfl, rfl, rfl⟩
  · exact Or.inr ⟨[], _, _, rfl, rfl, rfl⟩
  · exact Or.inr ⟨[], _, _, rfl, rfl, rfl⟩

/-- The last two waypoints of the last route are at the same place: the last waypoint leads to a number that no waypoint has,
and no waypoint leads to itself. -/
def exTwice : RouteResp :=
  { id := 2, task := 7, vehicle := 4, plans := [
    { id := 2, cost := 6, wps := [{ place := 1 }, { place := 2 }] },
    { id := 1, cost := 9, wps := [{ place := 0 }, { place := 1 }] },
    { id := 3, cost := 5, wps := [{ place := 2 }, { place := 3 }, { place := 3 }] }] }

theorem C41_violated : Fine exConfig exAsked ∧ ∃ r, .implemented r ∈ sends exConfig exAsked (.route exTwice) ∧
    (∃ w ∈ r.wps, ∀ u ∈ r.wps, w.next ≠ u.number) ∧ ∀ w ∈ r.wps, w.next ≠ w.number := by
  refine ⟨by decide +kernel, ?_⟩
  have e : sends exConfig exAsked (.route exTwice) = [.implemented
    { id := 200, req := 100, task := 7, option := 1, vehicle := 4, place := 3, time := 1020, wps := [
      { number := 30, next := 31, place := 0, alt := 50, altType := 1, speed := 20 },
      { number := 31, next := 32, place := 1, alt := 50, altType := 1, speed := 20, tasks := [7] },
      { number := 32, next := 33, place := 2, alt := 50, altType := 1, speed := 20, tasks := [7] },
      { number := 33, next := 34, place := 3, alt := 50, altType := 1, speed := 20, tasks := [7] }] }] := by decide +kernel
  rw [e]
  exact ⟨_, List.mem_singleton.mpr rfl, by decide, by decide⟩

/-! ### C50: reports of activity and completion -/

/-- A vehicle is reported as active exactly if it is assigned to the task and its state says that it is on the task, which its
last state since its latest mission did not. -/
theorem C50_active {c : Config} {h : List In} (hf : Fine c h) (i : In) (w : Int) :
    .active w ∈ sends c h i ↔ ∃ v, i = .state v ∧ v.id = w ∧ Assigned c.task h w ∧ c.task ∈ v.tasks ∧ ¬ OnTask c.task h w := by
  constructor
  · intro ha
    by_cases hs : ∃ v, i = .state v
    · obtain ⟨v, rfl⟩ := hs
      rcases sends_state hf v with ⟨h1, h2, h3, h4⟩ | ⟨_, _, _, h4⟩ | ⟨_, h4⟩
      · rw [h4] at ha
        have := List.mem_singleton.mp ha
        cases this
        exact ⟨v, rfl, rfl, h1, h2, h3⟩
      · rw [h4] at ha
        have := List.mem_singleton.mp ha
        cases this
      · rw [h4] at ha; cases ha
    · have := silent_step (s := after c h) (fun v e => hs ⟨v, e⟩) _ ha
      cases this
  · rintro ⟨v, rfl, rfl, h1, h2, h3⟩
    rcases sends_state hf v with ⟨_, _, _, h4⟩ | ⟨_, h, _⟩ | ⟨h, _⟩
    · rw [h4]; exact List.mem_singleton.mpr rfl
    · exact absurd h2 h
    · exact absurd ⟨h1, ⟨fun _ => h3, fun _ => h2⟩⟩ h

/-- The completion is reported exactly if an assigned vehicle that was on the task leaves it, and the report names all vehicles
assigned. -/
theorem C50_complete {c : Config} {h : List In} (hf : Fine c h) (i : In) :
    ((∃ l, .complete l ∈ sends c h i) ↔
      ∃ v, i = .state v ∧ Assigned c.task h v.id ∧ c.task ∉ v.tasks ∧ OnTask c.task h v.id) ∧
    ∀ l, .complete l ∈ sends c h i → ∀ w, w ∈ l ↔ Assigned c.task h w := by
  constructor
  · constructor
    · rintro ⟨l, ha⟩
      by_cases hs : ∃ v, i = .state v
      · obtain ⟨v, rfl⟩ := hs
        rcases sends_state hf v with ⟨_, _, _, h4⟩ | ⟨h1, h2, h3, h4⟩ | ⟨_, h4⟩
        · rw [h4] at ha
          have := List.mem_singleton.mp ha
          cases this
        · exact ⟨v, rfl, h1, h2, h3⟩
        · rw [h4] at ha; cases ha
      · have := silent_step (s := after c h) (fun v e => hs ⟨v, e⟩) _ ha
        cases this
    · rintro ⟨v, rfl, h1, h2, h3⟩
      rcases sends_state hf v with ⟨_, h, _⟩ | ⟨_, _, _, h4⟩ | ⟨h, _⟩
      · exact absurd h h2
      · exact ⟨_, by rw [h4]; exact List.mem_singleton.mpr rfl⟩
      · exact absurd ⟨h1, ⟨fun h => absurd h h2, fun h => absurd h3 h⟩⟩ h
  · intro l ha w
    by_cases hs : ∃ v, i = .state v
    · obtain ⟨v, rfl⟩ := hs
      rcases sends_state hf v with ⟨_, _, _, h4⟩ | ⟨_, _, _, h4⟩ | ⟨_, h4⟩
      · rw [h4] at ha
        have := List.mem_singleton.mp ha
        cases this
      · rw [h4] at ha
        have := List.mem_singleton.mp ha
        cases this
        have := (knows c h hf).assigned w
        rw [← List.contains_iff_mem]
        exact this
      · rw [h4] at ha; cases ha
    · have := silent_step (s := after c h) (fun v e => hs ⟨v, e⟩) _ ha
      cases this

/-- Before the completion is reported the vehicle was reported as active, and since then it was not given another mission and no
completion was reported for it. -/
theorem C50_began {c : Config} {h : List In} (hf : Fine c h) {v : VState} {l : List Int}
    (hl : .complete l ∈ sends c h (.state v)) :
    ∃ h₁ u h₂, h = h₁ ++ .state u :: h₂ ∧ u.id = v.id ∧ sends c h₁ (.state u) = [.active v.id] ∧
      (∀ g j k, h₂ = g ++ j :: k → ¬ Commands (h₁ ++ .state u :: g) j v.id) ∧
      ∀ g u' k, h₂ = g ++ .state u' :: k → u'.id = v.id → sends c (h₁ ++ .state u :: g) (.state u') = [] := by
  obtain ⟨v', e, h1, _, h3⟩ := ((C50_complete hf (.state v)).1.mp ⟨l, hl⟩)
  cases e
  exact began hf h1 h3

/-- Between two reports that a vehicle is active its completion is reported, unless it is given another mission. -/
theorem C50_alternates_partial {c : Config} {h : List In} {v u : VState} {g : List In}
    (hf : Fine c (h ++ .state v :: g)) (h1 : .active v.id ∈ sends c h (.state v))
    (h2 : .active v.id ∈ sends c (h ++ .state v :: g) (.state u))
    (hq : ∀ a j k, g = a ++ j :: k → ¬ Commands (h ++ .state v :: a) j v.id) :
    ∃ a w k l, g = a ++ .state w :: k ∧ w.id = v.id ∧ sends c (h ++ .state v :: a) (.state w) = [.complete l] := by
  obtain ⟨v', e, _, ha, ht, _⟩ := (C50_active hf.prefix (.state v) v.id).mp h1
  cases e
  obtain ⟨u', e, hu', _, _, hn⟩ := (C50_active hf (.state u) v.id).mp h2
  rcases ended ha ht g hf hq with h | h
  · exact absurd h.2 hn
  · exact h

/-- Not in the code: an example. -/
def exRun : List In := exAsked ++ [.route exRoutes] ++ exGo

example : Fine exConfig exRun ∧
    ((sent exConfig (exRun ++ [.state { id := 4, waypoint := 31, tasks := [7] }, .state { id := 4, waypoint := 34, tasks := [] },
      .state { id := 4, waypoint := 32, tasks := [7] }])).drop exRun.length) =
      [[.active 4], [.complete [4]], [.active 4]] := by decide +kernel

/-- A vehicle on the task is given a new mission with the task: it is reported as active twice, and no completion between. -/
theorem C50_violated : ∃ h g : List In, ∃ v : VState, Fine exConfig (h ++ .state v :: g) ∧
    .active v.id ∈ sends exConfig h (.state v) ∧ .active v.id ∈ sends exConfig (h ++ .state v :: g) (.state v) ∧
    ∀ l, .complete l ∉ (sent exConfig (h ++ .state v :: g)).flatten := by
  refine ⟨exRun, [.request { exReq with id := 101 } {}, .response 101 [(4, [[7]])]],
    { id := 4, waypoint := 31, tasks := [7] }, by decide +kernel, by decide +kernel, by decide +kernel, ?_⟩
  intro l hl
  have h : (sent exConfig (exRun ++ .state { id := 4, waypoint := 31, tasks := [7] } ::
      [.request { exReq with id := 101 } {}, .response 101 [(4, [[7]])]])).flatten.all
      (fun o => match o with | .complete _ => false | _ => true) = true := by decide +kernel
  have := List.all_eq_true.mp h _ hl
  cases this

/-! ### C51: the options are sent when all routes are there -/

theorem arrivals_nodup (t : Int) (T : List Entry) (g : List In) : ((arrivals t T g).map (·.1.rid)).Nodup := by
  induction g using snocRec with
  | nil => exact List.nodup_nil
  | append_singleton g i ih =>
    rw [arrivals_snoc]
    split
    · rename_i rr
      split
      · split
        · rename_i e he
          split
          · exact ih
          · rename_i hany
            rw [List.map_append, List.nodup_append]
            refine ⟨ih, by simp, ?_⟩
            intro a ha b hb
            obtain ⟨y, hy, rfl⟩ := List.mem_map.mp ha
            have hb' : b = e.rid := by simpa using hb
            subst hb'
            intro e'
            refine hany (List.any_eq_true.mpr ⟨y, hy, ?_⟩)
            have := List.find?_some he
            rw [e']; exact this
        · exact ih
      · exact ih
    · exact ih

theorem arrivals_perm {t : Int} {T : List Entry} (hT : Table T) {g : List In} (h : AllDone T (arrivals t T g)) :
    ((arrivals t T g).map (·.1)).Perm T := by
  have hn := arrivals_nodup t T g
  have h1 : ((arrivals t T g).map (·.1)).Nodup := by
    have : ((arrivals t T g).map (·.1.rid)) = ((arrivals t T g).map (·.1)).map (·.rid) := by rw [List.map_map]; rfl
    rw [this] at hn
    exact List.Pairwise.of_map _ (fun a b h e => h (by rw [e])) hn
  have h2 : T.Nodup := List.Pairwise.of_map _ (fun a b h e => h (by rw [e])) hT.rids
  refine (List.perm_ext_iff_of_nodup h1 h2).mpr ?_
  intro e
  constructor
  · intro he
    obtain ⟨y, hy, rfl⟩ := List.mem_map.mp he
    exact (arrivals_mem t T g y hy).1
  · intro he
    obtain ⟨y, hy, rfl⟩ := h e he
    exact List.mem_map.mpr ⟨y, hy, rfl⟩

/-- The options for a request, each with routes to find its cost: whatever the order and the grouping of the answers, the
options are sent once, when the last of the answers has arrived, and not before.  Each option is there once, with the cost of
its routes (`C74`). -/
theorem C51_once_partial {c : Config} {h : List In} (hf : Fine c h) {r : Request} (ht : c.task ∈ r.tasks) (ha : Anew r h)
    {es es' : List (Opt × Ask)} (hr : Regular es) (hp : es'.Perm es) (hne : es ≠ []) :
    ∃ n, sends c (h ++ [.request r { drafts := draftsOf es }]) (.own { asks := es'.map Prod.snd }) =
        (number n es').map (fun e => .ask (e.request c.task)) ∧
      ∀ g, (∀ i ∈ g, Calm c.task (number n es') i) →
        (Answered c.task (number n es') g → ∃ done : List (Entry × RouteResp),
          (done.map (·.1)).Perm (number n es') ∧ (∀ x ∈ done, .route x.2 ∈ g ∧ x.2.id = x.1.rid ∧ x.2.task = c.task) ∧
          optionsOf (runM step (after c (opened h r es es')) g).2.flatten =
            [{ req := r.id, opts := done.map (fun x => x.1.priced x.2.plans) }]) ∧
        (¬ Answered c.task (number n es') g →
          optionsOf (runM step (after c (opened h r es es')) g).2.flatten = []) := by
  obtain ⟨n, h1, h2, _, _⟩ := phase_opened hf ht ha hr hp
  have hT := table_number n (hr.perm hp)
  have hne' : number n es' ≠ [] := by
    intro h0
    cases es' with
    | nil => exact hne (hp.nil_eq).symm
    | cons e es' => rw [number] at h0; cases h0
  refine ⟨n, h1, fun g hg => ?_⟩
  obtain ⟨_, h4, h5⟩ := phase_run hT hne' h2 g hg
  constructor
  · intro han
    have hall := (allDone_iff hT g).mpr han
    refine ⟨arrivals c.task (number n es') g, arrivals_perm hT hall, ?_, h4 hall⟩
    intro x hx
    have := arrivals_mem _ _ _ x hx
    exact ⟨this.2.2.2, this.2.1, this.2.2.1⟩
  · intro han
    exact h5 (fun hall => han ((allDone_iff hT g).mp hall))

example : Regular [(exOpt, exAsk), ({ id := 2 }, { option := 2, routes := [{ id := 10 }] })] ∧ Anew exReq [exConf] := by
  refine ⟨⟨by decide, by decide, by decide, by decide⟩, Or.inr ?_⟩
  intro v hv
  simp [exConf] at hv

example : (sent exConfig (exOpened ++ [exCosts])).drop 2 =
    [[.ask { id := 1, task := 7, costOnly := true, region := 0, vehicle := 4, routes := exAsk.routes }],
     [.options { req := 100, opts := [{ id := 1, cost := 11, eligible := [4], start := 1, stop := 3 }] }]] := by
  decide +kernel

/-- An answer with a route that was not asked for after those that were: the options are sent twice. -/
theorem C51_violated_twice : ∃ rr : RouteResp, Fine exConfig (exOpened ++ [.route rr]) ∧
    (optionsOf (sends exConfig exOpened (.route rr))).length = 2 := by
  exact ⟨{ id := 1, task := 7, vehicle := 4, plans := [{ id := 11, cost := 5 }, { id := 10, cost := 6 }, { id := 12 }] },
    by decide +kernel, by decide +kernel⟩

/-- Neither an answer without one of the routes nor an option with an empty list of routes leads to the options. -/
theorem C51_violated_never : (∃ rr : RouteResp, ∀ g, (∀ j ∈ g, j = .route rr) →
      optionsOf (runM step (after exConfig exOpened) (.route rr :: g)).2.flatten = []) := by
  refine ⟨{ id := 1, task := 7, vehicle := 4, plans := [{ id := 11, cost := 5 }] }, ?_⟩
  have base : ∀ g : List In, (∀ j ∈ g, j = .route { id := 1, task := 7, vehicle := 4, plans := [{ id := 11, cost := 5 }] }) →
      ∀ s : St, s.pendingOpt = [] → s.routeKind = [(1, .option)] → s.cfg.task = 7 → s.ub = false →
      optionsOf (runM step s g).2.flatten = [] := by
    intro g
    induction g with
    | nil => intros; rfl
    | cons j g ih =>
      intro hj s h1 h2 h3 h4
      have hj0 := hj j List.mem_cons_self
      subst hj0
      have e : step s (.route { id := 1, task := 7, vehicle := 4, plans := [{ id := 11, cost := 5 }] }) = (s, []) := by
        have hk : s.routeKind.get 1 = some .option := by rw [h2]; rfl
        rw [step, if_neg (by rw [h4]; exact Bool.false_ne_true)]
        dsimp only
        rw [if_neg (by rw [h3]; exact fun h => h rfl), hk]
        dsimp only
        rw [St.optionResponse, h1]
        rfl
      rw [runM_cons, e]
      have := ih (fun j hj' => hj j (List.mem_cons_of_mem _ hj')) s h1 h2 h3 h4
      simpa [optionsOf] using this
  intro g hg
  rw [runM_cons]
  have h0 : optionsOf (step (after exConfig exOpened)
      (.route { id := 1, task := 7, vehicle := 4, plans := [{ id := 11, cost := 5 }] })).2 = [] := by decide +kernel
  rw [List.flatten_cons, optionsOf_append, h0, List.nil_append]
  exact base g hg _ (by decide +kernel) (by decide +kernel) (by decide +kernel) (by decide +kernel)

/-! ### C74: the cost of an option -/

/-- The cost of an option is its own and the sum of those of its routes, if these are positive; if one is not, it is at least the
greatest cost. -/
theorem C74_cost (e : Entry) (ps : List RoutePlan) :
    ((∀ p ∈ ps, 0 < p.cost) → (e.priced ps).cost = e.opt.cost + (ps.map (·.cost)).sum) ∧
    ((∃ p ∈ ps, p.cost ≤ 0) → maxCost ≤ (e.priced ps).cost) := by
  have hc : (e.opt.prepared e.ask.routes).cost = e.opt.cost := by
    rw [Opt.prepared]; split <;> rfl
  constructor
  · intro h
    show total _ ps = _
    rw [total_pos h, hc]
  · intro h
    exact total_bad h

/-- What is sent: for each option one entry, with the cost of the answer for it. -/
theorem C74_sent {c : Config} {h : List In} (hf : Fine c h) {r : Request} (ht : c.task ∈ r.tasks) (ha : Anew r h)
    {es : List (Opt × Ask)} (hr : Regular es) (hne : es ≠ []) {g : List In} {rs : List RouteReq}
    (hrs : sends c (h ++ [.request r { drafts := draftsOf es }]) (.own { asks := es.map Prod.snd }) = rs.map .ask)
    (hg : ∀ i ∈ g, match i with
      | .request q _ => c.task ∉ q.tasks
      | .own _ => False
      | .implement q => q.task ≠ c.task
      | .route rr => rr.task = c.task → ∀ q ∈ rs, q.id = rr.id → (rr.plans.map (·.id)).Perm (q.routes.map (·.id))
      | _ => True) :
    ∀ x ∈ optionsOf (runM step (after c (opened h r es es)) g).2.flatten, ∀ o ∈ x.opts, ∃ e ∈ es, ∃ rr, .route rr ∈ g ∧
      o.id = e.1.id ∧ o.eligible = e.1.eligible ∧ (rr.plans.map (·.id)).Perm (e.2.routes.map (·.id)) ∧
      ((∀ p ∈ rr.plans, 0 < p.cost) → o.cost = e.1.cost + (rr.plans.map (·.cost)).sum) ∧
      ((∃ p ∈ rr.plans, p.cost ≤ 0) → maxCost ≤ o.cost) := by
  obtain ⟨n, h1, h2⟩ := C51_once_partial hf ht ha hr (List.Perm.refl es) hne
  rw [hrs] at h1
  have hmem : ∀ e ∈ number n es, e.request c.task ∈ rs := by
    intro e he
    have : Out.ask (e.request c.task) ∈ rs.map Out.ask := by rw [h1]; exact List.mem_map.mpr ⟨e, he, rfl⟩
    obtain ⟨q, hq, e'⟩ := List.mem_map.mp this
    cases e'; exact hq
  have hcalm : ∀ i ∈ g, Calm c.task (number n es) i := by
    intro i hi
    have := hg i hi
    cases i with
    | route rr =>
      intro htask e he hid
      exact this htask _ (hmem e he) hid
    | request q b => exact this
    | own b => exact this
    | implement q => exact this
    | state v => trivial
    | config v => trivial
    | response id ms => trivial
  obtain ⟨h3, h4⟩ := h2 g hcalm
  intro x hx o ho
  by_cases han : Answered c.task (number n es) g
  · obtain ⟨done, hp, hd, hopt⟩ := h3 han
    rw [hopt] at hx
    have hx' := List.mem_singleton.mp hx
    subst hx'
    obtain ⟨y, hy, rfl⟩ := List.mem_map.mp ho
    have hye : y.1 ∈ number n es := hp.mem_iff.mp (List.mem_map.mpr ⟨y, hy, rfl⟩)
    have hrid := hd y hy
    have hes := (number_rid_ge n es y.1 hye).2
    refine ⟨_, hes, y.2, hrid.1, ?_, ?_, ?_, (C74_cost y.1 y.2.plans).1, (C74_cost y.1 y.2.plans).2⟩
    · show (y.1.opt.prepared y.1.ask.routes).id = y.1.opt.id
      rw [Opt.prepared]; split <;> rfl
    · show (y.1.opt.prepared y.1.ask.routes).eligible = y.1.opt.eligible
      rw [Opt.prepared]; split <;> rfl
    · exact hcalm _ hrid.1 hrid.2.2 y.1 hye hrid.2.1.symm
  · rw [h4 han] at hx; cases hx

example : ∃ rs : List RouteReq, sends exConfig ([exConf] ++ [.request exReq { drafts := draftsOf [(exOpt, exAsk)] }])
    (.own { asks := [(exOpt, exAsk)].map Prod.snd }) = rs.map .ask ∧ rs.length = 1 :=
  ⟨[{ id := 1, task := 7, costOnly := true, region := 0, vehicle := 4, routes := exAsk.routes }], by decide +kernel, rfl⟩

/-! ### C73: the final time of an implementation -/

/-- The first implementation of an option: it is answered with the routes, and ends at the time asked for, the cost of the option
and that of the way to the task later. -/
theorem C73_time_partial {c : Config} {h : List In} (hf : Fine c h) {r : Request} (ht : c.task ∈ r.tasks) (ha : Anew r h)
    {es es' : List (Opt × Ask)} (hr : Regular es) (hp : es'.Perm es) (hne : es ≠ []) {n : Int}
    (hn : sends c (h ++ [.request r { drafts := draftsOf es }]) (.own { asks := es'.map Prod.snd }) =
      (number n es').map (fun e => .ask (e.request c.task)))
    {g : List In} (hg : ∀ i ∈ g, Calm c.task (number n es') i) (hk : ∀ i ∈ g, i.keeps = true)
    (han : Answered c.task (number n es') g) {q : ImplReq} (hq : q.task = c.task) {x : Options} {o : Opt}
    (hx : x ∈ optionsOf (runM step (after c (opened h r es es')) g).2.flatten) (ho : o ∈ x.opts) (hid : q.option = o.id) :
    ∃ m rs, sends c (opened h r es es' ++ g) (.implement q) = [.ask
        { id := m, task := c.task, costOnly := false, region := q.region, vehicle := q.vehicle, routes := rs }] ∧
      ∀ g', (∀ i ∈ g', i.vehicle = true) → ∀ rr : RouteResp, rr.id = m → rr.task = c.task →
        (rr.plans.map (·.id)).Perm (rs.map (·.id)) →
        (firstConfig c (opened h r es es' ++ g ++ [.implement q] ++ g') rr.vehicle).isSome = true →
        (∃ p ∈ rr.plans, p.wps ≠ []) → (∀ ws, ws ≠ [] → ∃ ws', c.finish ws = some ws' ∧ ws' ≠ []) →
        ∃ p ∈ rr.plans, (∃ t ∈ rs, t.id = p.id ∧ t.start = q.place ∧ t.startHeading = q.heading ∧ t.stop = o.start ∧
            t.stopHeading = o.startHeading) ∧
          ∃ ws, ws ≠ [] ∧ sends c (opened h r es es' ++ g ++ [.implement q] ++ g') (.route rr) = [.implemented
            { id := q.id, req := q.req, task := c.task, option := q.option, vehicle := rr.vehicle, place := o.stop,
              heading := o.stopHeading, time := q.time + (if 0 < p.cost then o.cost + p.cost else maxCost), wps := ws }] := by
  obtain ⟨n', h1, h2, h3, h4⟩ := phase_opened hf ht ha hr hp
  have hnn : n' = n := by
    rw [hn] at h1
    cases es' with
    | nil => exact absurd (hp.nil_eq).symm hne
    | cons e es' =>
      rw [number, number, List.map_cons, List.map_cons] at h1
      injection h1 with h1
      have h1' : (n : Int) = n' := by
        have := congrArg (fun o => match o with | Out.ask a => a.id | _ => 0) h1
        exact this
      exact h1'.symm
  subst hnn
  have hT := table_number n' (hr.perm hp)
  have hne' : number n' es' ≠ [] := by
    intro h0
    cases es' with
    | nil => exact hne (hp.nil_eq).symm
    | cons e es' => rw [number] at h0; cases h0
  obtain ⟨k1, k2, _⟩ := phase_run hT hne' h2 g hg
  have hall := (allDone_iff hT g).mpr han
  rw [k2 hall] at hx
  have hx' := List.mem_singleton.mp hx
  subst hx'
  obtain ⟨y, hy, rfl⟩ := List.mem_map.mp ho
  have hye := (arrivals_mem _ _ _ y hy).1
  have hrun : (runM step (after c (opened h r es es')) g).1 = after c (opened h r es es' ++ g) := by
    rw [after, after, runM_append]
  have hl := latest_run g hk (after c (opened h r es es'))
  rw [hrun] at k1 hl
  have hpid : (y.1.priced y.2.plans).id = y.1.opt.id := by
    show (y.1.opt.prepared y.1.ask.routes).id = y.1.opt.id
    rw [Opt.prepared]; split <;> rfl
  obtain ⟨m, j1, j2⟩ := implemented_once k1 (hl.1.trans h3) (by rw [hl.2]; exact h4) hye hy hq (hid.trans hpid)
  refine ⟨m, _, j1, ?_⟩
  intro g' hg' rr e1 e2 e3 e4 e5 e6
  obtain ⟨p, hp1, hp2, ws, hws, hs⟩ := j2 g' hg' rr e1 e2 e3 e4 e5 e6
  exact ⟨p, hp1, ⟨_, List.mem_append_right _ (List.mem_singleton.mpr rfl), hp2.symm, rfl, rfl, rfl, rfl⟩, ws, hws, hs⟩

example : sends exConfig exAsked (.route exRoutes) = [.implemented
    { id := 200, req := 100, task := 7, option := 1, vehicle := 4, place := 3, time := 1000 + 11 + 9, wps := [
      { number := 30, next := 31, place := 0, alt := 50, altType := 1, speed := 20 },
      { number := 31, next := 32, place := 1, alt := 50, altType := 1, speed := 20, tasks := [7] },
      { number := 32, next := 33, place := 2, alt := 50, altType := 1, speed := 20, tasks := [7] },
      { number := 33, next := 34, place := 3, alt := 50, altType := 1, speed := 20, tasks := [7] },
      { number := 34, next := 34, place := 3, alt := 50, altType := 1, speed := 20 }] }] := by decide +kernel

/-- The times of the implementations among the messages. -/
def timesOf (l : List Out) : List Int := (implsOf l).map (·.time)

/-- The same option implemented again: the cost of the way to the task is counted twice. -/
theorem C73_violated : Fine exConfig (exAsked ++ [.route exRoutes, .implement exImpl, .route { exRoutes with id := 3 }]) ∧
    timesOf (sends exConfig exAsked (.route exRoutes)) = [1000 + 11 + 9] ∧
    timesOf (sends exConfig (exAsked ++ [.route exRoutes, .implement exImpl]) (.route { exRoutes with id := 3 })) =
      [1000 + 11 + 9 + 9] := by
  decide +kernel

/-! ### C75: one answer for a request -/

/-- There are never more implementations with an id than requests with it. -/
theorem C75_once (c : Config) (h : List In) (k : Int) :
    ((implsOf (sent c h).flatten).map (·.id)).count k ≤ h.countP (fun i => match i with
      | .implement q => q.task == c.task && q.id == k
      | _ => false) := by
  have := made_le c h k
  have e : h.countP (In.asksFor c k) = h.countP (fun i => match i with
      | .implement q => q.task == c.task && q.id == k
      | _ => false) := by
    congr 1
  rw [e] at this
  exact Nat.le_trans (Nat.le_add_right _ _) this

example : ((implsOf (sent exConfig (exAsked ++ [.route exRoutes, .route exRoutes])).flatten).map (·.id)) = [200] := by
  decide +kernel

/-- The routes arrive after another request, not for this task, has come and has been answered: there is no answer. -/
theorem C75_violated : ∃ g : List In, Fine exConfig (exAsked ++ g ++ [.route exRoutes]) ∧
    (implsOf (sent exConfig (exAsked ++ g ++ [.route exRoutes])).flatten) = [] ∧
    (implsOf (sent exConfig (exAsked ++ [.route exRoutes])).flatten).length = 1 := by
  exact ⟨[.request { id := 101, tasks := [8] } {}, .response 101 []], by decide +kernel, by decide +kernel, by decide +kernel⟩

/-! ### C76: altitude and speed -/

/-- The waypoints have the altitude and the speed of the first configuration of the vehicle, and the answer has none exactly if
there is no configuration of an eligible vehicle. -/
theorem C76_nominal_partial {c : Config} (hfin : c.finish = some) {h : List In} (hf : Fine c h) {i : In} {r : ImplResp}
    (hr : .implemented r ∈ sends c h i) :
    (r.wps = [] ∧ firstConfig c h r.vehicle = none) ∨
    ∃ v, firstConfig c h r.vehicle = some v ∧ r.wps ≠ [] ∧
      ∀ w ∈ r.wps, w.alt = v.alt ∧ w.altType = v.altType ∧ w.speed = v.speed := by
  have hs := sound stable_true h hf (fun _ _ _ _ => trivial)
  obtain ⟨f⟩ := from_step stable_true hs (fun _ _ => trivial) hr
  rcases conclude_mem f.mem with ⟨hv, e⟩ | ⟨vc, ws, hv, hw, hne, e⟩
  · refine Or.inl ⟨by rw [e], ?_⟩
    rw [e, ← f.sound.conf]; exact hv
  · refine Or.inr ⟨vc, ?_, ?_, ?_⟩
    · rw [e, ← f.sound.conf]; exact hv
    · rw [e]; exact terminal_ne_nil _ hne
    · rw [e]
      rw [f.sound.cfg, hfin] at hw
      cases hw
      refine nominal_terminal _ (fun w hw => ?_)
      exact nominal_plans _ _ _ _ _ (fun _ h => (by cases h)) w (List.mem_reverse.mp hw)

example : firstConfig exConfig exAsked 4 = some { id := 4, alt := 50, altType := 1, speed := 20 } := by decide +kernel

/-- A vehicle changes its nominal speed: the waypoints still have the first one. -/
theorem C76_violated : ∃ v : VConfig, v.speed = 35 ∧ Fine exConfig (exAsked ++ [.config v]) ∧
    ∃ r, .implemented r ∈ sends exConfig (exAsked ++ [.config v]) (.route exRoutes) ∧ r.vehicle = v.id ∧ r.wps ≠ [] ∧
      ∀ w ∈ r.wps, w.speed = 20 := by
  refine ⟨{ id := 4, alt := 60, altType := 1, speed := 35 }, rfl, by decide +kernel, ?_⟩
  have e : sends exConfig (exAsked ++ [.config { id := 4, alt := 60, altType := 1, speed := 35 }]) (.route exRoutes) =
    [.implemented { id := 200, req := 100, task := 7, option := 1, vehicle := 4, place := 3, time := 1000 + 11 + 9, wps := [
      { number := 30, next := 31, place := 0, alt := 50, altType := 1, speed := 20 },
      { number := 31, next := 32, place := 1, alt := 50, altType := 1, speed := 20, tasks := [7] },
      { number := 32, next := 33, place := 2, alt := 50, altType := 1, speed := 20, tasks := [7] },
      { number := 33, next := 34, place := 3, alt := 50, altType := 1, speed := 20, tasks := [7] },
      { number := 34, next := 34, place := 3, alt := 50, altType := 1, speed := 20 }] }] := by decide +kernel
  rw [e]
  exact ⟨_, List.mem_singleton.mpr rfl, rfl, by decide, by decide⟩

/-! ### C77: the task of the waypoints -/

/-- If the planner gives the waypoints no tasks, every waypoint is for no task or just for this one, and at least one is. -/
theorem C77_only {c : Config} (hfin : c.finish = some) {h : List In} (hf : Fine c h) {i : In}
    (hp : ∀ j ∈ h ++ [i], ∀ p ∈ j.plans, ∀ w ∈ p.wps, w.tasks = []) {r : ImplResp} (hr : .implemented r ∈ sends c h i) :
    r.wps = [] ∨ (∀ w ∈ r.wps, w.tasks = [] ∨ w.tasks = [c.task]) ∧ ∃ w ∈ r.wps, w.tasks = [c.task] := by
  have hs := sound stable_untasked h hf (fun j hj => hp j (List.mem_append_left _ hj))
  obtain ⟨f⟩ := from_step stable_untasked hs (hp i (List.mem_append_right _ (List.mem_singleton.mpr rfl))) hr
  rcases conclude_mem f.mem with ⟨hv, e⟩ | ⟨vc, ws, hv, hw, hne, e⟩
  · exact Or.inl (by rw [e])
  · refine Or.inr ?_
    rw [e]
    rw [f.sound.cfg, hfin] at hw
    cases hw
    dsimp only
    rw [f.sound.cfg]
    refine onlyFor_terminal (fun w hw => ?_) hne
    rw [St.assemble, f.sound.cfg] at hw
    exact onlyFor_plans vc f.sb _ _ f.hx.2 f.hx.1 (fun _ h => (by cases h)) w (List.mem_reverse.mp hw)

example : ∀ j ∈ exAsked ++ [In.route exRoutes], ∀ p ∈ j.plans, ∀ w ∈ p.wps, w.tasks = [] := by
  have : ((exAsked ++ [In.route exRoutes]).all fun j => j.plans.all fun p => p.wps.all fun w => w.tasks.isEmpty) = true := by
    decide +kernel
  intro j hj p hp w hw
  have h1 := List.all_eq_true.mp this j hj
  have h2 := List.all_eq_true.mp h1 p hp
  exact List.isEmpty_iff.mp (List.all_eq_true.mp h2 w hw)

/-! ### C78: a task taken up again -/

/-- A request is answered at once only by a task that is taken up again: the answer has a single option, for the single vehicle
that is asked for, has been on the task, and has got an implementation of this option. -/
theorem C78_resume {c : Config} {h : List In} (r : Request) {x : Options} (hx : .options x ∈ sends c h (.request r {})) :
    c.task ∈ r.tasks ∧ r.redo = false ∧ x.req = r.id ∧ ∃ o v, x.opts = [o] ∧ o.eligible = [v] ∧ v ∈ r.entities ∧
      (∃ u, .state u ∈ h ∧ u.id = v ∧ c.task ∈ u.tasks) ∧
      ∃ a, .implemented a ∈ (sent c h).flatten ∧ a.vehicle = v ∧ a.option = o.id := by
  cases hu : (after c h).ub with
  | true => rw [sends, ub_step _ hu] at hx; cases hx
  | false =>
    have hst : ∀ x : St × List Out, (if (after c h).ub = true then (after c h, []) else x) = x := fun x =>
      if_neg (by rw [hu]; exact Bool.false_ne_true)
    rw [sends, step, hst, St.request] at hx
    dsimp only at hx
    split at hx
    · rename_i htask
      rw [cfg_after] at htask
      split at hx
      · rename_i v n o y hre
        obtain ⟨h1, h2, h3, h4, h5, _⟩ := restart_some hre
        have hfl := filed c h
        split at hx
        · have := List.mem_singleton.mp hx
          injection this with this
          subst this
          refine ⟨List.contains_iff_mem.mp htask, h1, rfl, _, v, rfl, rfl, h3, ?_, ?_⟩
          · obtain ⟨u, hu1, hu2, _, hu3⟩ := lastWp_mem c h (v, n) h2
            exact ⟨u, hu1, hu2, hu3⟩
          · obtain ⟨a, ha1, ha2, ha3⟩ := hfl.asg v o h4
            exact ⟨a, ha1, ha2, ha3.trans (hfl.ids o y h5).symm⟩
        · cases hx
      · simp [St.build, St.askAll] at hx
    · cases hx

/-- Vehicle 4 is on the task when a plan is asked for. -/
def exOn : List In := exRun ++ [.state { id := 4, waypoint := 32, tasks := [7] }]

example : Fine exConfig exOn ∧ sends exConfig exOn (.request { exReq with id := 101 } {}) =
    [.options { req := 101, opts := [{ id := 1, cost := 0, eligible := [4], start := 1, stop := 2 }] }] := by decide +kernel

/-- The waypoint last seen is not in the part that is kept, here that of the second route: there is never an answer to the
request, as no options are sent and none are made. -/
theorem C78_violated : Fine exConfig (exRun ++ [.state { id := 4, waypoint := 33, tasks := [7] }]) ∧
    (step (after exConfig (exRun ++ [.state { id := 4, waypoint := 33, tasks := [7] }]))
      (.request { exReq with id := 101 } { drafts := [{ opt := exOpt, direct := true }], send := true })).2 = [] := by
  decide +kernel

end Verif.Task
