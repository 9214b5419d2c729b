import Verif.Routes.History

/-! C25-C27 and C66: the route aggregator. -/

namespace Verif.Routes

open Verif

/-! ### C25 -/

theorem startOf_iff {d : Point → Point → Int} {h : List In} {s : St} (hs : ∀ v, s.states.get v = lastState h v)
    {r r0 : AutoReq} (hp : r.planning = r0.planning) (v : Int) (p : Point) :
    startOf s r v = some p ↔ StartsAt h r0 v p := by
  simp only [startOf, hp, StartsAt]
  cases hf : r0.planning.find? (·.1 == v) with
  | some x =>
    rw [List.find?_eq_some_iff_append] at hf
    obtain ⟨hx, A, B, e, hA⟩ := hf
    have hx : x.1 = v := by simpa using hx
    have hA : ∀ y ∈ A, y.1 ≠ v := fun y hy => by simpa using hA y hy
    constructor
    · intro hh
      simp only [Option.some.injEq] at hh
      exact .inl ⟨A, B, by rw [e, ← hx, ← hh], hA⟩
    · rintro (⟨A', B', e', hA'⟩ | ⟨hn, _⟩)
      · simp only [Option.some.injEq]
        have key : ∀ (A A' : List (Int × Point)) (B B' : List (Int × Point)), (∀ y ∈ A, y.1 ≠ v) → (∀ y ∈ A', y.1 ≠ v) →
            A ++ x :: B = A' ++ (v, p) :: B' → x.2 = p := by
          intro A
          induction A with
          | nil =>
            intro A' B B' _ hA' e
            cases A' with
            | nil => simp at e; rw [e.1]
            | cons y A' =>
              simp at e
              exact absurd (by rw [← e.1]; exact hx) (hA' y (by simp))
          | cons y A ih =>
            intro A' B B' hA hA' e
            cases A' with
            | nil =>
              simp at e
              exact absurd (by rw [e.1]) (hA y (by simp))
            | cons z A' =>
              simp only [List.cons_append, List.cons.injEq] at e
              exact ih A' B B' (fun w hw => hA w (by simp [hw])) (fun w hw => hA' w (by simp [hw])) e.2
        exact key A A' B B' hA hA' (by rw [← e, ← e'])
      · exact absurd hx (hn x (by rw [e]; simp))
  | none =>
    rw [List.find?_eq_none] at hf
    have hf : ∀ x ∈ r0.planning, x.1 ≠ v := fun x hx => by simpa using hf x hx
    constructor
    · intro hh
      exact .inr ⟨hf, by rw [← hs]; exact hh⟩
    · rintro (⟨A, B, e, _⟩ | ⟨_, hh⟩)
      · exact absurd rfl (hf (v, p) (by rw [e]; simp))
      · show s.states.get v = some p
        rw [hs]; exact hh

/-- Where the plan requests of a step come from. -/
theorem ask_origin (d : Point → Point → Int) (h : List In) (i : In) (k : Int) (reqs : List VReq)
    (hask : .ask k reqs ∈ reply (start d) h i) :
    ((∃ r, i = .request r) ∨ ∃ t os, i = .options t os) ∧
    ∃ (s' : St) (r r0 : AutoReq), (∀ v, s'.states.get v = lastState (h ++ [i]) v) ∧ (s'.states.map (·.1)).Nodup ∧
      (∀ t os, s'.options.get t = some os ↔ Known (start d) (h ++ [i]) t os) ∧ 1 ≤ k ∧
      (requestsOf (h ++ [i]))[(k - 1).toNat]? = some r0 ∧ Stored (sent (start d) h) k r r0 ∧
      .ask k reqs = (s'.build k r).2 ∧ (∀ t ∈ r.tasks, (s'.options.get t).isSome = true) ∧
      k ∉ matrixKeys (sent (start d) h) := by
  have ih := history d h
  have ih' := history d (h ++ [i])
  have hst' : (runM step (start d) (h ++ [i])).1 = (step (runM step (start d) h).1 i).1 := by rw [runM_snoc]
  rw [hst'] at ih'
  simp only [reply] at hask
  generalize (runM step (start d) h).1 = s at *
  have hub := ih.full.ub
  -- the last part is the same for a request and for options
  have key : ∀ s0 : St, Full (requestsOf (h ++ [i])) (responsesOf h) (routeRequestsOf h) (sent (start d) h) s0 →
      step s i = s0.checkAllOptions →
      ∃ (s' : St) (r r0 : AutoReq), (∀ v, s'.states.get v = lastState (h ++ [i]) v) ∧ (s'.states.map (·.1)).Nodup ∧
      (∀ t os, s'.options.get t = some os ↔ Known (start d) (h ++ [i]) t os) ∧ 1 ≤ k ∧
      (requestsOf (h ++ [i]))[(k - 1).toNat]? = some r0 ∧ Stored (sent (start d) h) k r r0 ∧
      .ask k reqs = (s'.build k r).2 ∧ (∀ t ∈ r.tasks, (s'.options.get t).isSome = true) ∧
      k ∉ matrixKeys (sent (start d) h) := by
    intro s0 hF e
    rw [e] at ih' hask
    obtain ⟨g1, g2, g3, g4, _⟩ := checkAll _ s0 _ (requests_nodup hF) hF
    obtain ⟨k', s', r, hk', e1, e2, e3, e4, e5⟩ := g4 _ hask
    obtain ⟨reqs', e6⟩ := build_ask s' k' r
    have hkk : k = k' := by
      rw [e6] at e4
      simp only [Out.ask.injEq] at e4
      exact e4.1
    subst hkk
    obtain ⟨f1, f2, r0, f3, f4⟩ := hF.b.reqR k r e3
    have q1 : s0.checkAllOptions.1.states = s'.states := by rw [e1]; exact g2
    have q2 : s0.checkAllOptions.1.options = s'.options := by rw [e2]; exact g3
    refine ⟨s', r, r0, ?_, ?_, ?_, f1, f3, f4, e4, by rw [e2]; exact e5, ?_⟩
    · intro v; rw [← q1]; exact ih'.states v
    · rw [← q1]; exact ih'.statesNd
    · intro t os; rw [← q2]; exact ih'.options t os
    · intro hh
      have := (hF.b.keysReq k hh).2.2
      rw [e3] at this
      simp at this
  cases i with
  | state id p g => simp [step, hub] at hask
  | config id g x => simp [step, hub] at hask
  | request r =>
    refine ⟨.inl ⟨r, rfl⟩, key { s with requests := s.requests.put s.autoId r, autoId := s.autoId + 1 } ?_ ?_⟩
    · rw [requestsOf_snoc]; exact ih.full.request r
    · simp only [step]; rw [if_neg (by rw [hub]; simp)]
  | options t0 os0 =>
    refine ⟨.inr ⟨t0, os0, rfl⟩, key { s with options := s.options.put t0 os0 } ?_ ?_⟩
    · rw [requestsOf_snoc]
      simp only [List.append_nil]
      exact ih.full.frame s.states s.ground (s.options.put t0 os0) s.speeds
    · simp only [step]; rw [if_neg (by rw [hub]; simp)]
  | routeRequest r =>
    exfalso
    have hst : step s (.routeRequest r) = s.routeRequest r := by simp only [step]; rw [if_neg (by rw [hub]; simp)]
    rw [hst] at hask
    obtain ⟨_, _, _, g4, _⟩ := ih.full.routeRequest r
    obtain ⟨_, _, _, _, _, e⟩ := g4 _ hask
    simp at e
  | response r =>
    exfalso
    have hst : step s (.response r) = (s.store r).checkPlans := by simp only [step]; rw [if_neg (by rw [hub]; simp)]
    rw [hst] at hask
    obtain ⟨_, g2, _⟩ := (ih.full.store r).checkPlans
    rcases g2 _ hask with ⟨_, _, e, _⟩ | ⟨_, _, _, _, _, _, _, _, e⟩ <;> simp at e

/-- C25: whenever plan requests for the matrix of an automation request are sent, in any history, options are known for all
tasks of that request; there is one plan request for each vehicle listed in the request that has a planning state or a known
position; and it asks exactly once for the route from there to every option the vehicle may use, exactly once for the route
from each such option to each other one, and for nothing else.  (Without fast planning; options have to be named properly.) -/
theorem C25_every_route_once (d : Point → Point → Int) (h : List In) (i : In) (k : Int) (reqs : List VReq)
    (hask : .ask k reqs ∈ reply (start d) h i) :
    ∃ r, 1 ≤ k ∧ (requestsOf (h ++ [i]))[(k - 1).toNat]? = some r ∧ k ∉ matrixKeys (sent (start d) h) ∧
      (∀ t ∈ r.tasks, ∃ os, Known (start d) (h ++ [i]) t os) ∧
      (r.vehicles ≠ [] → ∀ v, (reqs.map (·.vehicle)).count v ≤ r.vehicles.count v ∧
        ((∃ p, StartsAt (h ++ [i]) r v p) → (reqs.map (·.vehicle)).count v = r.vehicles.count v)) ∧
      (r.vehicles = [] → lastAsk (sent (start d) h) k = none → (reqs.map (·.vehicle)).Nodup ∧
        ∀ v, v ∈ reqs.map (·.vehicle) ↔ ∃ p, lastState (h ++ [i]) v = some p) ∧
      (WellNamed (Known (start d) (h ++ [i])) r → ∀ q ∈ reqs, ∃ p, StartsAt (h ++ [i]) r q.vehicle p ∧
        Complete (Known (start d) (h ++ [i])) r q.vehicle p q.routes) := by
  obtain ⟨_, s', r, r0, hstates, hnd, hopts, hk1, hR, hst, hb, hall, hkk⟩ := ask_origin d h i k reqs hask
  have hfun : (fun t os => s'.options.get t = some os) = Known (start d) (h ++ [i]) := by
    funext t os; exact propext (hopts t os)
  have hstart := fun v p => startOf_iff (d := d) hstates hst.planning v p
  have hvs : reqs.map (·.vehicle) = ((if r.vehicles = [] then s'.states.map (·.1) else r.vehicles).filter fun v =>
      (startOf s' r v).isSome) := by
    generalize hr' : (if r.vehicles.isEmpty then { r with vehicles := s'.states.map (·.1) } else r) = r'
    have ep : r'.planning = r.planning := by rw [← hr']; split <;> rfl
    have es : ∀ v, startOf s' r' v = startOf s' r v := by intro v; simp only [startOf, ep]
    have ev : r'.vehicles = if r.vehicles = [] then s'.states.map (·.1) else r.vehicles := by
      rw [← hr']
      by_cases h : r.vehicles = [] <;> simp [h]
    have eb : (s'.build k r).2 = .ask k (vehicleReqs s' r' r'.vehicles s'.routeId) := by simp only [St.build, hr']
    rw [eb] at hb
    simp only [Out.ask.injEq, true_and] at hb
    rw [hb, vehicleReqs_vehicles, ev]
    simp only [es]
  refine ⟨r0, hk1, hR, hkk, ?_, ?_, ?_, ?_⟩
  · intro t ht
    obtain ⟨os, hos⟩ := Option.isSome_iff_exists.mp (hall t (by rw [hst.tasks]; exact ht))
    exact ⟨os, (hopts t os).mp hos⟩
  · intro hv v
    rw [hvs, hst.vehicles (.inl hv), if_neg hv]
    refine ⟨List.filter_sublist.count_le v, ?_⟩
    rintro ⟨p, hp⟩
    exact List.count_filter (by rw [(hstart v p).mpr hp]; rfl)
  · intro hv hl
    rw [hvs, hst.vehicles (.inr hl), if_pos hv]
    refine ⟨hnd.sublist List.filter_sublist, ?_⟩
    intro v
    rw [List.mem_filter, ← Map.get_isSome_iff, hstates, Option.isSome_iff_exists]
    constructor
    · exact fun hh => hh.1
    · rintro ⟨p, hp⟩
      refine ⟨⟨p, hp⟩, ?_⟩
      simp only [startOf]
      cases r.planning.find? (·.1 == v) with
      | some x => rfl
      | none =>
        show (s'.states.get v).isSome = true
        rw [hstates, hp]; rfl
  · intro hw q hq
    have hw' : WellNamed (fun t os => s'.options.get t = some os) r := by
      rw [hfun]
      exact ⟨by rw [hst.tasks]; exact hw.tasks, by rw [hst.tasks]; exact hw.zero, by rw [hst.tasks]; exact hw.task,
        by rw [hst.tasks]; exact hw.option⟩
    obtain ⟨reqs', e1, _, _, _, hc⟩ := build_complete s' k r hw'
    rw [e1] at hb
    simp only [Out.ask.injEq, true_and] at hb
    subst hb
    obtain ⟨p, hp, hcomp⟩ := hc q hq
    rw [hfun] at hcomp
    have hu : Usable (Known (start d) (h ++ [i])) r = Usable (Known (start d) (h ++ [i])) r0 := by
      funext v o
      simp only [Usable, hst.tasks]
    refine ⟨p, (hstart _ p).mp hp, ?_⟩
    obtain ⟨c1, c2, c3⟩ := hcomp
    rw [hu] at c1 c2 c3
    exact ⟨c1, c2, c3⟩

/-- C25: no id is used for two routes of matrices, in any history. -/
theorem C25_ids_distinct (d : Point → Point → Int) (h : List In) :
    (askedIds (sent (start d) h)).Nodup ∧ ∀ id ∈ askedIds (sent (start d) h), 1000000 ≤ id :=
  ⟨(history d h).full.b.asked.1, fun id hid => ((history d h).full.b.asked.2 id hid).1⟩

/-- C25: when a request or options arrive, the routes of every unanswered request are asked for whose tasks all have
options (`Known`: received since the last matrix was sent). -/
theorem C25_asked_partial (d : Point → Point → Int) (h : List In) (i : In)
    (hi : (∃ r, i = .request r) ∨ ∃ t os, i = .options t os) (k : Int) (r : AutoReq) (hk : 1 ≤ k)
    (hr : (requestsOf (h ++ [i]))[(k - 1).toNat]? = some r) (hn : k ∉ matrixKeys (sent (start d) (h ++ [i])))
    (hall : ∀ t ∈ r.tasks, ∃ os, Known (start d) (h ++ [i]) t os) :
    ∃ reqs, .ask k reqs ∈ reply (start d) h i := by
  have ih := history d h
  have ih' := history d (h ++ [i])
  have hst' : (runM step (start d) (h ++ [i])).1 = (step (runM step (start d) h).1 i).1 := by rw [runM_snoc]
  rw [hst'] at ih'
  rw [sent_snoc, matrixKeys_append] at hn
  simp only [reply] at hn ⊢
  generalize (runM step (start d) h).1 = s at *
  have hub := ih.full.ub
  have key : ∀ s0 : St, Full (requestsOf (h ++ [i])) (responsesOf h) (routeRequestsOf h) (sent (start d) h) s0 →
      step s i = s0.checkAllOptions → ∃ reqs, .ask k reqs ∈ (step s i).2 := by
    intro s0 hF e
    rw [e] at ih' ⊢
    obtain ⟨g1, g2, g3, g4, g5⟩ := checkAll _ s0 _ (requests_nodup hF) hF
    have hlt : k < s0.autoId := by
      have := hF.b.auto
      have := (List.getElem?_eq_some_iff.mp hr).1
      omega
    rcases hF.b.all k hk hlt with hs | hs
    · obtain ⟨r', hr'⟩ := Option.isSome_iff_exists.mp hs
      obtain ⟨_, _, r0, hR, hst⟩ := hF.b.reqR k r' hr'
      rw [hr] at hR
      simp only [Option.some.injEq] at hR
      subst hR
      refine g5 k (Map.get_isSome_iff.mp hs) r' hr' ?_
      intro t ht
      obtain ⟨os, hos⟩ := hall t (by rw [← hst.tasks]; exact ht)
      have := (ih'.options t os).mpr hos
      have q2 : s0.checkAllOptions.1.options = s0.options := g3
      rw [q2] at this
      rw [this]; rfl
    · exact absurd (List.mem_append_left _ hs) hn
  rcases hi with ⟨r', rfl⟩ | ⟨t0, os0, rfl⟩
  · refine key { s with requests := s.requests.put s.autoId r', autoId := s.autoId + 1 } ?_ ?_
    · rw [requestsOf_snoc]; exact ih.full.request r'
    · simp only [step]; rw [if_neg (by rw [hub]; simp)]
  · refine key { s with options := s.options.put t0 os0 } ?_ ?_
    · rw [requestsOf_snoc]
      simp only [List.append_nil]
      exact ih.full.frame s.states s.ground (s.options.put t0 os0) s.speeds
    · simp only [step]; rw [if_neg (by rw [hub]; simp)]

/-- Non-vacuity: two vehicles, two tasks, three options, one of them for a single vehicle. -/
def exRequest : AutoReq := { id := 5, tasks := [1, 2], vehicles := [7, 8], planning := [(7, 99)], region := 0 }

/-- Not in the code: an example. -/
def exOpts1 : List Opt := [⟨1, 1, [], 10, 11⟩, ⟨1, 2, [7], 12, 13⟩]
/-- Not in the code: an example. -/
def exOpts2 : List Opt := [⟨2, 1, [7, 8], 14, 15⟩]

/-- Not in the code: an example. -/
def exHistory : List In := [.state 8 50 false, .request exRequest, .options 1 exOpts1]

example : (reply (start fun _ _ => 0) exHistory (.options 2 exOpts2)).map
    (fun | .ask k reqs => (k, reqs.map fun q => (q.vehicle, q.routes.length)) | _ => (0, [])) = [(1, [(7, 9), (8, 4)])] := by
  decide +kernel

/-- C25 does not hold as stated: every request or options message asks again for the routes of all requests that are ready,
with new ids; the plans already received are not used. -/
theorem C25_repeated_violated :
    ((sent (start fun _ _ => 0) (exHistory ++ [.options 2 exOpts2, .request { exRequest with id := 6, tasks := [3] }])).map
      (fun | .ask k reqs => (k, (routesOf reqs).length, (routesOf reqs).head?.map (·.route)) | _ => (0, 0, none))) =
    [(1, 13, some ⟨1000000, 99, 10⟩), (1, 13, some ⟨1000013, 99, 10⟩)] := by decide +kernel

/-! ### C26 -/

/-- What is sent on a step, apart from plan requests for matrices. -/
theorem reply_cases (d : Point → Point → Int) (h : List In) (i : In) (o : Out) (ho : o ∈ reply (start d) h i) :
    (∃ k reqs, o = .ask k reqs) ∨ (∃ r j v g, i = .routeRequest r ∧ o = .askRoute r.id j v g r.routes) ∨
    ∃ r, i = .response r ∧ (GoodAnswer (responsesOf (h ++ [i])) (sent (start d) h) o ∨
      ∃ k, GoodMatrix (requestsOf h) (responsesOf (h ++ [i])) (sent (start d) h) k o) := by
  have ih := history d h
  simp only [reply] at ho
  generalize (runM step (start d) h).1 = s at *
  have hub := ih.full.ub
  cases i with
  | state id p g => simp [step, hub] at ho
  | config id g x => simp [step, hub] at ho
  | request r =>
    have hst : step s (.request r) = ({ s with requests := s.requests.put s.autoId r, autoId := s.autoId + 1 } : St).checkAllOptions := by
      simp only [step]; rw [if_neg (by rw [hub]; simp)]
    rw [hst] at ho
    have hF := ih.full.request r
    obtain ⟨k, s', r', _, _, _, _, e, _⟩ := (checkAll _ _ _ (requests_nodup hF) hF).2.2.2.1 o ho
    obtain ⟨reqs, e'⟩ := build_ask s' k r'
    exact .inl ⟨k, reqs, by rw [e, e']⟩
  | options t0 os0 =>
    have hst : step s (.options t0 os0) = ({ s with options := s.options.put t0 os0 } : St).checkAllOptions := by
      simp only [step]; rw [if_neg (by rw [hub]; simp)]
    rw [hst] at ho
    have hF := ih.full.frame s.states s.ground (s.options.put t0 os0) s.speeds
    obtain ⟨k, s', r', _, _, _, _, e, _⟩ := (checkAll _ _ _ (requests_nodup hF) hF).2.2.2.1 o ho
    obtain ⟨reqs, e'⟩ := build_ask s' k r'
    exact .inl ⟨k, reqs, by rw [e, e']⟩
  | routeRequest r =>
    have hst : step s (.routeRequest r) = s.routeRequest r := by simp only [step]; rw [if_neg (by rw [hub]; simp)]
    rw [hst] at ho
    obtain ⟨_, _, _, _, _, g⟩ := ih.full.routeRequest r
    obtain ⟨n, hn, rfl⟩ := List.mem_iff_getElem.mp ho
    obtain ⟨v, _, e⟩ := g n hn
    exact .inr (.inl ⟨r, _, v, _, rfl, e⟩)
  | response r =>
    have hst : step s (.response r) = (s.store r).checkPlans := by simp only [step]; rw [if_neg (by rw [hub]; simp)]
    rw [hst] at ho
    obtain ⟨_, g2, _⟩ := (ih.full.store r).checkPlans
    rw [responsesOf_snoc]
    exact .inr (.inr ⟨r, rfl, g2 o ho⟩)

/-- C26: a matrix is only sent when a plan response arrives, for a request that was received and not answered before, with
its id, region and tasks; plans for all the routes last asked for were received by then; and it contains exactly one entry
per route, for the vehicle, options and tasks the route was asked for, with the cost reported last.  (Without fast
planning.) -/
theorem C26_matrix_partial (d : Point → Point → Int) (h : List In) (i : In) (k n g : Int) (ts : List Int) (es : List Entry)
    (hm : .matrix k n g ts es ∈ reply (start d) h i) :
    ∃ q r reqs, i = .response q ∧ 1 ≤ k ∧ (requestsOf h)[(k - 1).toNat]? = some r ∧ n = r.id ∧ g = r.region ∧ ts = r.tasks ∧
      k ∉ matrixKeys (sent (start d) h) ∧ lastAsk (sent (start d) h) k = some reqs ∧
      (∀ m ∈ routesOf reqs, ∃ id, lastReport (responsesOf (h ++ [i])) m.route.id = some id) ∧
      es.length = (routesOf reqs).length ∧
      ∀ j (hj : j < es.length) (hj' : j < (routesOf reqs).length), es[j].pair = (routesOf reqs)[j].pair ∧
        ∃ x, lastReport (responsesOf (h ++ [i])) (routesOf reqs)[j].route.id = some (x, es[j].cost) := by
  rcases reply_cases d h i _ hm with ⟨_, _, e⟩ | ⟨_, _, _, _, _, e⟩ | ⟨q, hq, ⟨_, _, e, _⟩ | ⟨k', r, reqs, h1, h2, h3, h4, h5, h6⟩⟩
  · simp at e
  · simp at e
  · simp at e
  · simp only [Out.matrix.injEq] at h6
    obtain ⟨rfl, rfl, rfl, rfl, rfl⟩ := h6
    refine ⟨q, r, reqs, hq, h1, h2, rfl, rfl, rfl, h3, h4, ?_, by simp, ?_⟩
    · intro m hm
      exact Option.isSome_iff_exists.mp (h5 m hm)
    · intro j hj hj'
      obtain ⟨x, hx⟩ := Option.isSome_iff_exists.mp (h5 _ (List.getElem_mem hj'))
      simp only [List.getElem_map, hx]
      exact ⟨trivial, x.1, rfl⟩

/-- C26: at most one matrix is sent for each request; so there are never more matrices with some request id than requests
with that id. -/
theorem C26_once_partial (d : Point → Point → Int) (h : List In) :
    (matrixKeys (sent (start d) h)).Nodup ∧
    ∀ n, (matrixIds (sent (start d) h)).count n ≤ ((requestsOf h).filter fun r => r.id = n).length := by
  have hb := (history d h).full.b
  refine ⟨hb.keys, fun n => ?_⟩
  have := hb.cnt n
  omega

theorem matrixKeys_mono (d : Point → Point → Int) (a b : List In) (k : Int) (hk : k ∈ matrixKeys (sent (start d) a)) :
    k ∈ matrixKeys (sent (start d) (a ++ b)) := by
  obtain ⟨x, hx⟩ := sent_append (start d) a b
  rw [hx, matrixKeys_append]
  exact List.mem_append_left _ hk

/-- C26: a matrix is not delayed: after a plan response, a request that was asked for and is not answered lacks the plan for
one of the routes last asked for.  (Without fast planning, and if no response for a route request contains a route id that
the aggregator may use.) -/
theorem C26_no_delay_partial (d : Point → Point → Int) (h : List In) (q : Resp)
    (hc : NoClash (responsesOf (h ++ [.response q]))) (k : Int) (reqs : List VReq)
    (hl : lastAsk (sent (start d) (h ++ [.response q])) k = some reqs)
    (hn : k ∉ matrixKeys (sent (start d) (h ++ [.response q]))) :
    ∃ m ∈ routesOf reqs, lastReport (responsesOf (h ++ [.response q])) m.route.id = none := by
  have ih := history d h
  have ih' := history d (h ++ [.response q])
  have hst' : (runM step (start d) (h ++ [.response q])).1 = (step (runM step (start d) h).1 (.response q)).1 := by
    rw [runM_snoc]
  rw [hst'] at ih'
  generalize (runM step (start d) h).1 = s at *
  have hst : step s (.response q) = (s.store q).checkPlans := by
    simp only [step]; rw [if_neg (by rw [ih.full.ub]; simp)]
  rw [hst] at ih'
  obtain ⟨_, _, _, g4, _⟩ := (ih.full.store q).checkPlans
  generalize (s.store q).checkPlans.1 = s' at *
  have hb := ih'.full.b
  obtain ⟨h1, h2, h3⟩ := hb.askPa k reqs hl
  have hs := (hb.all k h1 h2).resolve_right hn
  have hp := h3 hs
  obtain ⟨id, hid, hnone⟩ := g4 k _ hp
  obtain ⟨m, hm, rfl⟩ := List.mem_map.mp hid
  refine ⟨m, hm, ?_⟩
  rw [← ih'.full.compB hc m.route.id ?_ (.inr ⟨k, _, hp, hid⟩)]
  · exact hnone
  · exact (hb.asked.2 _ ((hb.paIds k _ hp).2 _ hid)).1

/-- A small request: one vehicle, one task. -/
def small (id task vehicle : Int) : AutoReq := { id := id, tasks := [task], vehicles := [vehicle], planning := [], region := 3 }

/-- Not in the code: two options, for the examples. -/
def smallOpts (task : Int) : List Opt := [⟨task, 1, [], 10, 11⟩, ⟨task, 2, [], 12, 13⟩]

/-- Non-vacuity: two requests in progress at once, answered in the other order. -/
def exTwo : List In :=
  [.state 7 50 false, .request (small 5 1 7), .request (small 6 2 7), .options 1 (smallOpts 1), .options 2 (smallOpts 2),
   .response ⟨0, [(1000008, 80), (1000009, 90), (1000010, 100), (1000011, 110)]⟩]

example : reply (start fun _ _ => 0) exTwo (.response ⟨0, [(1000004, 40), (1000005, 50), (1000006, 60), (1000007, 70)]⟩) =
    [.matrix 1 5 3 [1] [⟨⟨7, 0, 0, 1, 1⟩, 40⟩, ⟨⟨7, 0, 0, 1, 2⟩, 50⟩, ⟨⟨7, 1, 1, 1, 2⟩, 60⟩, ⟨⟨7, 1, 2, 1, 1⟩, 70⟩]] ∧
    matrixIds (sent (start fun _ _ => 0) exTwo) = [6] := by decide +kernel

/-- C26 does not hold for requests in progress at the same time: when the matrix of one request is sent, the options received
for the others are dropped.  Here both options messages for the second request were received, yet its routes are never
asked for. -/
def exLost : List In :=
  [.state 7 50 false, .request (small 5 1 7), .request { small 6 2 7 with tasks := [2, 3] }, .options 1 (smallOpts 1),
   .options 2 (smallOpts 2),
   .response ⟨0, [(1000004, 40), (1000005, 50), (1000006, 60), (1000007, 70)]⟩, .options 3 (smallOpts 3)]

theorem C26_options_lost_violated :
    (∀ t ∈ [2, 3], ∃ os, In.options t os ∈ exLost) ∧ matrixIds (sent (start fun _ _ => 0) exLost) = [5] ∧
    ∀ reqs, .ask 2 reqs ∉ sent (start fun _ _ => 0) exLost := by
  refine ⟨?_, by decide +kernel, ?_⟩
  · intro t ht
    simp only [List.mem_cons, List.not_mem_nil, or_false] at ht
    rcases ht with rfl | rfl
    · exact ⟨smallOpts 2, by simp [exLost]⟩
    · exact ⟨smallOpts 3, by simp [exLost]⟩
  · intro reqs hh
    have : lastAsk (sent (start fun _ _ => 0) exLost) 2 = none := by decide +kernel
    simp only [lastAsk, List.getLast?_eq_none_iff, List.filterMap_eq_nil_iff] at this
    have := this _ hh
    simp [askOf] at this

/-- C26 does not hold for a request without routes, for example because no position of the vehicle is known: its matrix is
never sent as long as no plan response for something else arrives. -/
def exNoRoutes : List In := [.request (small 5 1 7), .options 1 (smallOpts 1)]

theorem C26_no_routes_violated :
    sent (start fun _ _ => 0) exNoRoutes = [.ask 1 []] ∧
    ∀ h, (∀ r, In.response r ∉ h) → matrixKeys (sent (start fun _ _ => 0) (exNoRoutes ++ h)) = [] := by
  refine ⟨by decide +kernel, ?_⟩
  intro h hr
  have key : ∀ h : List In, (∀ r, In.response r ∉ h) → matrixKeys (sent (start fun _ _ => 0) h) = [] := by
    intro h
    refine runM_induction (step := step) (s0 := start fun _ _ => 0)
      (P := fun (h : List In) (_ : St) (_ : List (List Out)) =>
        (∀ r, In.response r ∉ h) → matrixKeys (sent (start fun _ _ => 0) h) = []) ?_ ?_ h
    · intro _; rfl
    · intro h i ih hr
      rw [sent_snoc, matrixKeys_append, ih (fun r hh => hr r (by simp [hh])), List.nil_append]
      refine keys_of_asks fun o ho k n g ts es e => ?_
      subst e
      obtain ⟨q, _, _, rfl, _⟩ := C26_matrix_partial _ h i k n g ts es ho
      exact hr q (by simp)
  refine key _ fun r hh => ?_
  rw [List.mem_append] at hh
  rcases hh with hh | hh
  · simp [exNoRoutes] at hh
  · exact hr r hh

/-- C26: options are not tied to requests.  The second request is for the same task; its routes are asked for at once with
the options the task gave for the first request. -/
theorem C26_stale_options_violated :
    (reply (start fun _ _ => 0) [.state 7 50 false, .request (small 5 1 7), .options 1 (smallOpts 1)]
      (.request (small 6 1 7))).map (fun | .ask k reqs => (k, (routesOf reqs).length) | _ => (0, 0)) = [(2, 4), (1, 4)] := by
  decide +kernel

/-- C26: a route id used in a route request may be one the aggregator uses for a matrix (a task with option 10 or more uses
ids from 1000000 on).  The response for the route request then counts as the plan for the matrix: all four entries of the
matrix come from responses 8 and 0, the first of which is not about this request. -/
theorem C26_clash_violated :
    matrixIds (sent (start fun _ _ => 0)
      [.state 7 50 false, .request (small 5 1 7), .options 1 (smallOpts 1), .response ⟨8, [(1000000, 1)]⟩,
       .response ⟨0, [(1000001, 50), (1000002, 60), (1000003, 70)]⟩]) = [5] := by decide +kernel

/-- C26: with fast planning, a request whose routes are all for ground vehicles is answered, and erased, while the loop over
the requests holds an iterator to it: undefined behaviour. -/
theorem C26_fast_violated :
    (runM step { start (fun _ _ => 0) with fast := true }
      [.state 7 50 true, .request (small 5 1 7), .options 1 (smallOpts 1)]).1.ub = true := by decide +kernel

/-! ### C27 -/

/-- C27: a route request is only answered when a plan response arrives, and with exactly the last response to each plan
request sent for it since it was answered last, all of which have been answered.  (Without fast planning.) -/
theorem C27_answer_partial (d : Point → Point → Int) (h : List In) (i : In) (q : Int) (rs : List Resp)
    (ha : .answer q rs ∈ reply (start d) h i) :
    (∃ r, i = .response r) ∧ since (sent (start d) h) q ≠ [] ∧ rs.map (·.id) = since (sent (start d) h) q ∧
    ∀ r ∈ rs, lastResp (responsesOf (h ++ [i])) r.id = some r := by
  rcases reply_cases d h i _ ha with ⟨_, _, e⟩ | ⟨_, _, _, _, _, e⟩ | ⟨r, hr, ⟨q', rs', e, h1, h2⟩ | ⟨_, _, _, _, _, _, _, _, e⟩⟩
  · simp at e
  · simp at e
  · simp only [Out.answer.injEq] at e
    obtain ⟨rfl, rfl⟩ := e
    have key : ∀ (rs : List Resp) (js : List Int), rs.map some = js.map (lastResp (responsesOf (h ++ [i]))) →
        rs.map (·.id) = js ∧ ∀ r ∈ rs, lastResp (responsesOf (h ++ [i])) r.id = some r := by
      intro rs
      induction rs with
      | nil => intro js hjs; cases js <;> simp at hjs ⊢
      | cons r rs ih =>
        intro js hjs
        cases js with
        | nil => simp at hjs
        | cons j js =>
          simp only [List.map_cons, List.cons.injEq] at hjs
          obtain ⟨g1, g2⟩ := ih js hjs.2
          have hid := (lastResp_id hjs.1.symm).2
          refine ⟨by simp [hid, g1], ?_⟩
          intro r' hr'
          simp only [List.mem_cons] at hr'
          rcases hr' with rfl | hr'
          · rw [hid]; exact hjs.1.symm
          · exact g2 r' hr'
    exact ⟨⟨r, hr⟩, h1, key rs _ h2⟩
  · simp at e

/-- C27: a route request makes the aggregator send one plan request per vehicle listed (per known vehicle if none is),
carrying its routes, with ids not used before. -/
theorem C27_asks (d : Point → Point → Int) (h : List In) (r : RouteReq) :
    ∃ vs n, (r.vehicles ≠ [] → vs = r.vehicles) ∧
      (r.vehicles = [] → vs.Nodup ∧ ∀ v, v ∈ vs ↔ ∃ p, lastState h v = some p) ∧
      1 ≤ n ∧ (∀ q, ∀ j ∈ since (sent (start d) h) q, j < n) ∧
      (reply (start d) h (.routeRequest r)).length = vs.length ∧
      ∀ k (hk : k < (reply (start d) h (.routeRequest r)).length), ∃ v g, vs[k]? = some v ∧
        (reply (start d) h (.routeRequest r))[k] = .askRoute r.id (n + k) v g r.routes := by
  have ih := history d h
  have e : reply (start d) h (.routeRequest r) = (step (runM step (start d) h).1 (.routeRequest r)).2 := rfl
  rw [e]
  generalize (runM step (start d) h).1 = s at *
  have hst : step s (.routeRequest r) = s.routeRequest r := by
    simp only [step]; rw [if_neg (by rw [ih.full.ub]; simp)]
  rw [hst]
  obtain ⟨_, _, _, _, g5, g6⟩ := ih.full.routeRequest r
  refine ⟨_, s.routeReqId, ?_, ?_, ih.full.a.pos, fun q j hj => (ih.full.a.bound q j hj).2, g5, ?_⟩
  · intro hv; rw [if_neg hv]
  · intro hv
    rw [if_pos hv]
    refine ⟨ih.statesNd, fun v => ?_⟩
    rw [← Map.get_isSome_iff, ih.states, Option.isSome_iff_exists]
  · intro k hk
    obtain ⟨v, a, b⟩ := g6 k hk
    exact ⟨v, _, a, b⟩

theorem since_asks (q n : Int) (rs : List Route) : ∀ (os outs : List Out),
    (∀ k (hk : k < os.length), ∃ v g, os[k] = .askRoute q (n + k) v g rs) →
    since (outs ++ os) q = since outs q ++ (List.range os.length).map (fun (k : Nat) => n + (k : Int)) := by
  intro os
  induction os using snocRec with
  | nil => intro outs _; simp
  | append_singleton os o ih =>
    intro outs ho
    have h1 : ∀ k (hk : k < os.length), ∃ v g, os[k] = .askRoute q (n + k) v g rs := by
      intro k hk
      obtain ⟨v, g, e⟩ := ho k (by simp; omega)
      exact ⟨v, g, by rw [← e, List.getElem_append_left hk]⟩
    obtain ⟨v, g, e⟩ := ho os.length (by simp)
    simp only [List.getElem_concat_length] at e
    rw [← List.append_assoc, e, since_ask, if_pos rfl, ih outs h1]
    simp [List.range_succ]

/-- C27: a route request whose id is not used by another one is answered with exactly one response per vehicle, in order.
`vs` are its vehicles, as in `C27_asks`. -/
theorem C27_exact_partial (d : Point → Point → Int) (A B : List In) (r : RouteReq)
    (hA : ∀ r' ∈ routeRequestsOf A, r'.id ≠ r.id) (hB : ∀ r' ∈ routeRequestsOf B, r'.id ≠ r.id) (i : In) (rs : List Resp)
    (ha : .answer r.id rs ∈ reply (start d) (A ++ .routeRequest r :: B) i) :
    ∃ vs n, (r.vehicles ≠ [] → vs = r.vehicles) ∧
      (r.vehicles = [] → vs.Nodup ∧ ∀ v, v ∈ vs ↔ ∃ p, lastState A v = some p) ∧
      rs.map (·.id) = (List.range vs.length).map (fun (k : Nat) => n + (k : Int)) ∧
      ∀ (k : Nat) v, vs[k]? = some v → ∃ g, .askRoute r.id (n + (k : Int)) v g r.routes ∈ reply (start d) A (.routeRequest r) := by
  obtain ⟨vs, n, h1, h2, _, _, h5, h6⟩ := C27_asks d A r
  obtain ⟨_, a1, a2, _⟩ := C27_answer_partial d _ i _ _ ha
  refine ⟨vs, n, h1, h2, ?_, ?_⟩
  · rw [a2]
    have e0 : since (sent (start d) A) r.id = [] := by
      have := (history d A).full.a.count r.id
      have hz : ((routeRequestsOf A).filter fun x => x.id = r.id).length = 0 := by
        rw [List.length_eq_zero_iff, List.filter_eq_nil_iff]
        intro x hx
        simpa using hA x hx
      rw [hz] at this
      by_cases hn : since (sent (start d) A) r.id = []
      · exact hn
      · rw [if_neg hn] at this; omega
    have e1 : since (sent (start d) (A ++ [.routeRequest r])) r.id =
        (List.range vs.length).map (fun (k : Nat) => n + (k : Int)) := by
      rw [sent_snoc, since_asks r.id n r.routes _ _ (fun k hk => by
        obtain ⟨v, g, _, e⟩ := h6 k hk
        exact ⟨v, g, e⟩), e0, h5, List.nil_append]
    have e2 : ∀ B : List In, (∀ r' ∈ routeRequestsOf B, r'.id ≠ r.id) →
        since (sent (start d) ((A ++ [.routeRequest r]) ++ B)) r.id ≠ [] →
        since (sent (start d) ((A ++ [.routeRequest r]) ++ B)) r.id =
          since (sent (start d) (A ++ [.routeRequest r])) r.id := by
      intro B
      induction B using snocRec with
      | nil => intro _ _; rw [List.append_nil]
      | append_singleton B b ih =>
        intro hB hn
        rw [← List.append_assoc, sent_snoc] at hn ⊢
        have hno : ∀ o ∈ reply (start d) (A ++ [.routeRequest r] ++ B) b, ∀ j v g rr, o ≠ .askRoute r.id j v g rr := by
          intro o ho j v g rr e
          subst e
          rcases reply_cases d _ b _ ho with ⟨_, _, e⟩ | ⟨r', _, _, _, rfl, e⟩ | ⟨_, _, ⟨_, _, e, _⟩ | ⟨_, _, _, _, _, _, _, _, e⟩⟩
          · simp at e
          · simp only [Out.askRoute.injEq] at e
            refine hB r' ?_ e.1.symm
            rw [routeRequestsOf_snoc]
            simp
          · simp at e
          · simp at e
        have := since_of_ne_nil _ _ r.id hno hn
        rw [this] at hn ⊢
        refine ih (fun r' hr' => hB r' ?_) hn
        rw [routeRequestsOf_snoc]
        exact List.mem_append_left _ hr'
    have e3 : A ++ In.routeRequest r :: B = (A ++ [.routeRequest r]) ++ B := by simp
    rw [e3] at a1 ⊢
    rw [e2 B hB a1, e1]
  · intro k v hv
    have hk : k < (reply (start d) A (.routeRequest r)).length := by
      rw [h5]; exact (List.getElem?_eq_some_iff.mp hv).1
    obtain ⟨v', g, e1, e2⟩ := h6 k hk
    rw [hv] at e1
    simp only [Option.some.injEq] at e1
    subst e1
    exact ⟨g, by rw [← e2]; exact List.getElem_mem hk⟩

/-- C27: there are never more answers than requests with some id. -/
theorem C27_once_partial (d : Point → Point → Int) (h : List In) (q : Int) :
    (answers (sent (start d) h)).count q ≤ ((routeRequestsOf h).filter fun r => r.id = q).length := by
  have := (history d h).full.a.count q
  omega

/-- C27: an answer is not delayed: after a plan response, for each route request with plan requests that were not passed on in
an answer, one of these has not been answered.  (Without fast planning, and if no response for a route request contains a
route id that the aggregator may use.) -/
theorem C27_no_delay_partial (d : Point → Point → Int) (h : List In) (r : Resp)
    (hc : NoClash (responsesOf (h ++ [.response r]))) (q : Int)
    (hp : since (sent (start d) (h ++ [.response r])) q ≠ []) :
    ∃ j ∈ since (sent (start d) (h ++ [.response r])) q, ∀ x ∈ responsesOf (h ++ [.response r]), x.id ≠ j := by
  have ih := history d h
  have ih' := history d (h ++ [.response r])
  have hst' : (runM step (start d) (h ++ [.response r])).1 = (step (runM step (start d) h).1 (.response r)).1 := by
    rw [runM_snoc]
  rw [hst'] at ih'
  generalize (runM step (start d) h).1 = s at *
  have hst : step s (.response r) = (s.store r).checkPlans := by
    simp only [step]; rw [if_neg (by rw [ih.full.ub]; simp)]
  rw [hst] at ih'
  obtain ⟨_, _, g3, _⟩ := (ih.full.store r).checkPlans
  generalize (s.store r).checkPlans.1 = s' at *
  have hpr := ih'.full.a.pend q
  rw [if_neg hp] at hpr
  obtain ⟨j, hj, hn⟩ := g3 q _ hpr
  refine ⟨j, hj, ?_⟩
  rw [ih'.full.compA hc j (ih'.full.a.bound q j hj).1 (.inr ⟨q, hj⟩)] at hn
  simp only [lastResp, List.getLast?_eq_none_iff, List.filter_eq_nil_iff] at hn
  intro x hx e
  exact hn x hx (by simp [e])

/-- Non-vacuity: a route request for two vehicles; the responses arrive in the other order. -/
def exRoutes : List In :=
  [.state 7 50 false, .state 8 51 false, .routeRequest ⟨40, [], [⟨3, 1, 2⟩]⟩, .routeRequest ⟨41, [8], [⟨3, 1, 2⟩]⟩,
   .response ⟨2, [(3, 20)]⟩]

example : reply (start fun _ _ => 0) exRoutes (.response ⟨1, [(3, 10)]⟩) =
    [.answer 40 [⟨1, [(3, 10)]⟩, ⟨2, [(3, 20)]⟩]] ∧ since (sent (start fun _ _ => 0) exRoutes) 41 = [3] := by
  decide +kernel

/-- C27 does not hold when a second route request with the same id arrives before the first is answered: there is one answer
for both, with the plans of both. -/
theorem C27_same_id_violated :
    ((sent (start fun _ _ => 0) [.routeRequest ⟨40, [7], []⟩, .routeRequest ⟨40, [8], []⟩, .response ⟨1, []⟩, .response ⟨2, []⟩]).filter
      fun | .answer _ _ => true | _ => false) = [.answer 40 [⟨1, []⟩, ⟨2, []⟩]] := by decide +kernel

/-- C27 does not hold for a route request that lists no vehicle while no vehicle is known: it is never answered, whatever
happens afterwards, unless another request has the same id. -/
theorem C27_no_vehicles_violated (d : Point → Point → Int) (q : Int) (rs : List Route) (h : List In)
    (hh : ∀ r' ∈ routeRequestsOf h, r'.id ≠ q) : q ∉ answers (sent (start d) (.routeRequest ⟨q, [], rs⟩ :: h)) := by
  have hs : since (sent (start d) [.routeRequest ⟨q, [], rs⟩]) q = [] := by rfl
  have ha : q ∉ answers (sent (start d) [.routeRequest ⟨q, [], rs⟩]) := by
    have : answers (sent (start d) [.routeRequest ⟨q, [], rs⟩]) = [] := by rfl
    rw [this]; simp
  have key : ∀ h : List In, (∀ r' ∈ routeRequestsOf h, r'.id ≠ q) →
      since (sent (start d) ([.routeRequest ⟨q, [], rs⟩] ++ h)) q = [] ∧
      q ∉ answers (sent (start d) ([.routeRequest ⟨q, [], rs⟩] ++ h)) := by
    intro h
    induction h using snocRec with
    | nil => intro _; rw [List.append_nil]; exact ⟨hs, ha⟩
    | append_singleton h b ih =>
      intro hh
      obtain ⟨i1, i2⟩ := ih fun r' hr' => hh r' (by rw [routeRequestsOf_snoc]; exact List.mem_append_left _ hr')
      rw [← List.append_assoc, sent_snoc]
      have hno : ∀ o ∈ reply (start d) ([.routeRequest ⟨q, [], rs⟩] ++ h) b,
          (∀ j v g rr, o ≠ .askRoute q j v g rr) ∧ ∀ rs, o ≠ .answer q rs := by
        intro o ho
        refine ⟨?_, ?_⟩
        · rintro j v g rr rfl
          rcases reply_cases d _ b _ ho with ⟨_, _, e⟩ | ⟨r', _, _, _, rfl, e⟩ | ⟨_, _, ⟨_, _, e, _⟩ | ⟨_, _, _, _, _, _, _, _, e⟩⟩
          · simp at e
          · simp only [Out.askRoute.injEq] at e
            refine hh r' ?_ e.1.symm
            rw [routeRequestsOf_snoc]
            simp
          · simp at e
          · simp at e
        · rintro rs' rfl
          exact (C27_answer_partial d _ b q rs' ho).2.1 i1
      refine ⟨by rw [since_append _ _ q hno]; exact i1, ?_⟩
      rw [answers_append, List.mem_append]
      rintro (hh | hh)
      · exact i2 hh
      · simp only [answers, List.mem_filterMap] at hh
        obtain ⟨o, ho, e⟩ := hh
        cases o with
        | answer q' rs' =>
          simp only [Option.some.injEq] at e
          exact (hno _ ho).2 rs' (by rw [e])
        | _ => simp at e
  exact (key h hh).2

/-- C27: with fast planning, the answer for a ground vehicle contains no route at all. -/
theorem C27_fast_violated :
    reply { start (fun _ _ => 5) with fast := true } [.state 7 50 true] (.routeRequest ⟨40, [7], [⟨3, 1, 2⟩]⟩) =
      [.askRoute 40 1 7 true [⟨3, 1, 2⟩], .answer 40 [⟨1, []⟩]] := by decide +kernel

/-! ### C66 -/

/-- C66 does not hold: the cost of a straight-line plan does not depend on the nominal speed; whatever the speeds, it is the
distance times 1000. -/
theorem C66_speed_ignored_violated (s : St) (v q : Int) (rs : List Route) (hnd : (rs.map (·.id)).Nodup) (r : Route)
    (hr : r ∈ rs) : (s.euclid v q rs).plans.get r.id = some (q, s.dist r.start r.stop * 1000) := by
  have key : ∀ (rs : List Route) (m : Map (Int × Int)), (rs.map (·.id)).Nodup →
      (∀ r ∈ rs, (rs.foldl (fun m r => m.put r.id (q, s.dist r.start r.stop * 1000 / s.speed v)) m).get r.id =
        some (q, s.dist r.start r.stop * 1000)) ∧
      ∀ id, id ∉ rs.map (·.id) →
        (rs.foldl (fun m r => m.put r.id (q, s.dist r.start r.stop * 1000 / s.speed v)) m).get id = m.get id := by
    intro rs
    induction rs with
    | nil => intro m _; simp
    | cons r rs ih =>
      intro m hnd
      simp only [List.map_cons, List.nodup_cons] at hnd
      obtain ⟨h1, h2⟩ := ih (m.put r.id (q, s.dist r.start r.stop * 1000 / s.speed v)) hnd.2
      simp only [List.foldl_cons, List.mem_cons, List.map_cons]
      refine ⟨?_, ?_⟩
      · rintro x (rfl | hx)
        · rw [h2 _ hnd.1, Map.get_put, if_pos rfl]
          simp [St.speed]
        · exact h1 x hx
      · intro id hid
        rw [h2 id (fun hh => hid (.inr hh)), Map.get_put, if_neg (fun hh => hid (.inl hh))]
  exact (key rs s.plans hnd).1 r hr

/-- C66 in the one case in which it holds: no usable nominal speed is known, or it is 1. -/
theorem C66_cost_partial (s : St) (v q : Int) (rs : List Route) (hnd : (rs.map (·.id)).Nodup) (r : Route)
    (hr : r ∈ rs) (hv : ∀ x, s.speeds.get v = some x → x ≤ 1) :
    (s.euclid v q rs).plans.get r.id = some (q, s.dist r.start r.stop * 1000 / s.nominal v) := by
  rw [C66_speed_ignored_violated s v q rs hnd r hr]
  have : s.nominal v = 1 := by
    simp only [St.nominal]
    cases hg : s.speeds.get v with
    | none => rfl
    | some x =>
      have := hv x hg
      simp only
      split <;> omega
  rw [this]; simp

/-- The ferry takes 40 s for 400 m at 10 m/s; the plan says 400 s. -/
example : ((runM step { start (fun _ _ => 400) with fast := true }
    [.state 7 50 true, .config 7 true 10, .request (small 5 1 7), .options 1 (smallOpts 1)]).2.flatten.filterMap
      fun | .matrix _ _ _ _ es => es.head? | _ => none) = [⟨⟨7, 0, 0, 1, 1⟩, 400000⟩] := by decide +kernel

end Verif.Routes
