import Verif.PlanBuilder.Spec

/-! What single steps do, and the bookkeeping of the ids of implementation requests. -/

namespace Verif.PlanBuilder

open Verif

/-! ### Events -/

@[simp] theorem events_nil (s : St) : events s [] = [] := rfl

theorem events_cons (s : St) (i : In) (h : List In) :
    events s (i :: h) = (i, (step s i).2) :: events (step s i).1 h := rfl

theorem events_append (s : St) (h h' : List In) :
    events s (h ++ h') = events s h ++ events (runM step s h).1 h' := by
  simp only [events, runM_append]
  exact List.zip_append (runM_length step h s).symm

theorem events_snoc (s : St) (h : List In) (i : In) :
    events s (h ++ [i]) = events s h ++ [(i, (step (runM step s h).1 i).2)] := by
  rw [events_append]; rfl

theorem sent_append (a b : List Ev) : sent (a ++ b) = sent a ++ sent b := by simp [sent]

@[simp] theorem sent_nil : sent [] = [] := rfl

@[simp] theorem sent_single (i : In) (o : List Out) : sent [(i, o)] = o := by simp [sent]

theorem asksOf_append (q : Int) (a b : List Out) : asksOf q (a ++ b) = asksOf q a ++ asksOf q b := by simp [asksOf]

theorem plansOf_append (q : Int) (a b : List Out) : plansOf q (a ++ b) = plansOf q a ++ plansOf q b := by
  simp [plansOf]

theorem heard_append (q : Int) : ∀ (E F : List Ev) (b : List Out),
    heard q b (E ++ F) = heard q b E ++ heard q (b ++ sent E) F
  | [], F, b => by simp [heard]
  | (i, o) :: E, F, b => by
    simp only [List.cons_append, heard, heard_append q E F (b ++ o), List.append_assoc]
    simp [sent]

/-! ### Ids -/

/-- The ids of implementation requests are distinct, and those expected are those sent. -/
structure Glob (os : List Out) (ex : Map Int) (n : Int) : Prop where
  exp : ∀ i q, ex.get i = some q ↔ i ∈ (asksOf q os).map (·.id)
  lt : ∀ q, ∀ i ∈ (asksOf q os).map (·.id), i < n
  nodup : ∀ q, ((asksOf q os).map (·.id)).Nodup

/-- Not in the code: `Glob` of the parts of a state. -/
abbrev St.Glob (os : List Out) (s : St) : Prop := PlanBuilder.Glob os s.expected s.askId

theorem Glob.quiet {os o : List Out} {ex : Map Int} {n : Int} (h : Glob os ex n) (ho : ∀ q, asksOf q o = []) :
    Glob (os ++ o) ex n := by
  constructor <;> simp only [asksOf_append, ho, List.append_nil] <;> first | exact h.exp | exact h.lt | exact h.nodup

theorem Glob.ask {os : List Out} {ex : Map Int} {n : Int} (h : Glob os ex n) (a : Ask) (ha : a.id = n) :
    Glob (os ++ [.ask a]) (ex.put n a.req) (n + 1) := by
  have e : ∀ q, asksOf q (os ++ [.ask a]) = asksOf q os ++ if a.req = q then [a] else [] := by
    intro q
    rw [asksOf_append]
    congr 1
    by_cases hq : a.req = q <;> simp [asksOf, hq]
  constructor
  · intro i q
    rw [Map.get_put, e, List.map_append, List.mem_append]
    by_cases hi : i = n
    · subst hi
      have : i ∉ (asksOf q os).map (·.id) := fun hm => absurd (h.lt q i hm) (by omega)
      by_cases hq : a.req = q <;> simp [hq, ha, this]
    · rw [if_neg hi, h.exp]
      by_cases hq : a.req = q
      · simp only [hq, if_true, List.map_cons, List.map_nil, List.mem_singleton, ha, hi, or_false]
      · simp [hq]
  · intro q i
    rw [e, List.map_append, List.mem_append]
    rintro (hm | hm)
    · have := h.lt q i hm; omega
    · by_cases hq : a.req = q
      · simp only [hq, if_true, List.map_cons, List.map_nil, List.mem_singleton, ha] at hm; omega
      · simp [hq] at hm
  · intro q
    rw [e, List.map_append]
    by_cases hq : a.req = q
    · simp only [hq, if_true, List.map_cons, List.map_nil, ha]
      refine List.nodup_append.mpr ⟨h.nodup q, by simp, ?_⟩
      intro x hx y hy
      simp only [List.mem_singleton] at hy
      have := h.lt q x hx
      omega
    · simpa [hq] using h.nodup q

/-! ### Single steps -/

/-- What `sendNext` does. -/
theorem sendNext_cases (s : St) (q : Int) :
    s.sendNext q = (s, []) ∨
    ∃ (r : Request) (t : Assign) (ts : List Assign) (p : Proj), s.requests.get q = some r ∧
      s.remaining.get q = some (t :: ts) ∧
      ((s.projected.get q).getD []).find? (·.planning.vehicle == t.vehicle) = some p ∧
      s.sendNext q =
        ({ s with expected := s.expected.put s.askId q, askId := s.askId + 1, remaining := s.remaining.put q ts },
         [.ask { id := s.askId, req := q, start := p.last + 1, vehicle := t.vehicle, task := t.task,
                 option := t.option, region := r.region, threshold := t.threshold,
                 place := p.planning.place, heading := p.planning.heading, time := p.time,
                 neighbours := (((s.projected.get q).getD []).filter
                   (·.planning.vehicle != p.planning.vehicle)).map (·.planning) }]) := by
  simp only [St.sendNext]
  cases hr : s.requests.get q with
  | none => exact .inl rfl
  | some r =>
    rcases hm : s.remaining.get q with _ | (_ | ⟨t, ts⟩)
    · exact .inl rfl
    · exact .inl rfl
    · dsimp only
      cases hp : ((s.projected.get q).getD []).find? (·.planning.vehicle == t.vehicle) with
      | none => exact .inl rfl
      | some p => exact .inr ⟨r, t, ts, p, rfl, rfl, hp, rfl⟩

/-- What the service keeps about the automation request `q` is the same, and nothing was sent for it. -/
structure Frame (q : Int) (s s' : St) (o : List Out) : Prop where
  progress : s'.progress.get q = s.progress.get q
  remaining : s'.remaining.get q = s.remaining.get q
  projected : s'.projected.get q = s.projected.get q
  requests : s'.requests.get q = s.requests.get q
  asks : asksOf q o = []
  plans : plansOf q o = []

theorem Frame.refl (q : Int) (s : St) : Frame q s s [] := ⟨rfl, rfl, rfl, rfl, rfl, rfl⟩

theorem asksOf_cons (q : Int) (x : Out) (o : List Out) : asksOf q (x :: o) = asksOf q [x] ++ asksOf q o :=
  asksOf_append q [x] o

theorem plansOf_cons (q : Int) (x : Out) (o : List Out) : plansOf q (x :: o) = plansOf q [x] ++ plansOf q o :=
  plansOf_append q [x] o

@[simp] theorem asksOf_nil (q : Int) : asksOf q [] = [] := rfl
@[simp] theorem plansOf_nil (q : Int) : plansOf q [] = [] := rfl
@[simp] theorem asksOf_error (q : Int) (e : Err) : asksOf q [.error e] = [] := rfl
@[simp] theorem plansOf_error (q : Int) (e : Err) : plansOf q [.error e] = [] := rfl
@[simp] theorem asksOf_done (q k : Int) : asksOf q [.done k] = [] := rfl
@[simp] theorem plansOf_done (q k : Int) : plansOf q [.done k] = [] := rfl
@[simp] theorem asksOf_plan (q : Int) (p : Plan) : asksOf q [.plan p] = [] := rfl
@[simp] theorem plansOf_ask (q : Int) (a : Ask) : plansOf q [.ask a] = [] := rfl
theorem asksOf_ask (q : Int) (a : Ask) : asksOf q [.ask a] = if a.req = q then [a] else [] := by
  by_cases h : a.req = q <;> simp [asksOf, h]
theorem plansOf_plan (q : Int) (p : Plan) : plansOf q [.plan p] = if p.req = q then [p] else [] := by
  by_cases h : p.req = q <;> simp [plansOf, h]

theorem sendNext_frame {q k : Int} (h : k ≠ q) (s : St) : Frame q s (s.sendNext k).1 (s.sendNext k).2 := by
  rcases sendNext_cases s k with e | ⟨r, t, ts, p, _, _, _, e⟩ <;> rw [e]
  · exact Frame.refl q s
  · refine ⟨rfl, ?_, rfl, rfl, ?_, rfl⟩
    · simp only [Map.get_put, if_neg (Ne.symm h)]
    · rw [asksOf_ask, if_neg h]

/-- What `checkNext` does. -/
theorem checkNext_cases (s : St) (q : Int) (ms : List Mission) :
    s.checkNext q ms = (s, []) ∧ s.remaining.get q = none ∨
    s.checkNext q ms = s.sendNext q ∧ (∃ t ts, s.remaining.get q = some (t :: ts)) ∨
    s.checkNext q ms = ({ s with ub := true }, []) ∧ s.remaining.get q = some [] ∧ s.cfg.loiter = true ∧
      s.addLoiters ms = none ∨
    ∃ ms', (if s.cfg.loiter then s.addLoiters ms else some ms) = some ms' ∧ s.remaining.get q = some [] ∧
      s.checkNext q ms = ({ s with progress := s.progress.del q, overrides := s.overrides.del q },
        [.plan { req := q, missions := turned s.cfg ms', finals := ((s.projected.get q).getD []).map (·.planning) },
         .done q]) := by
  simp only [St.checkNext]
  rcases hm : s.remaining.get q with _ | (_ | ⟨t, ts⟩)
  · exact .inl ⟨rfl, rfl⟩
  · cases hl : (if s.cfg.loiter then s.addLoiters ms else some ms) with
    | none =>
      refine .inr (.inr (.inl ⟨rfl, rfl, ?_⟩))
      by_cases hc : s.cfg.loiter = true
      · exact ⟨hc, by simpa [hc] using hl⟩
      · simp [hc] at hl
    | some ms' => exact .inr (.inr (.inr ⟨ms', rfl, rfl, rfl⟩))
  · exact .inr (.inl ⟨rfl, t, ts, rfl⟩)

theorem checkNext_frame {q k : Int} (h : k ≠ q) (s : St) (ms : List Mission) :
    Frame q s (s.checkNext k ms).1 (s.checkNext k ms).2 := by
  rcases checkNext_cases s k ms with ⟨e, _⟩ | ⟨e, _⟩ | ⟨e, _⟩ | ⟨ms', _, _, e⟩ <;> rw [e]
  · exact Frame.refl q s
  · exact sendNext_frame h s
  · exact ⟨rfl, rfl, rfl, rfl, rfl, rfl⟩
  · refine ⟨?_, rfl, rfl, rfl, ?_, ?_⟩
    · simp only [Map.get_del, if_neg (Ne.symm h)]
    · rfl
    · rw [plansOf_cons, plansOf_plan, if_neg h]; rfl

/-- The projected states after an answer. -/
def absorb (r : Response) (ps : List Proj) : List Proj := if r.wps = [] then ps else project r ps

/-- The missions after an answer. -/
def St.absorbed (s : St) (r : Response) (ms : List Mission) : List Mission :=
  if r.wps = [] then ms
  else if ms.any (·.vehicle == r.vehicle) then extend r.vehicle r.wps ms else ms ++ [s.newMission r]

/-- The state when an answer has been taken in, before it is checked what is to be done next. -/
def St.taken (s : St) (q : Int) (r : Response) (ms : List Mission) : St :=
  if r.wps = [] then s else
  { s with
    progress := s.progress.put q (some (s.absorbed r ms))
    commandId := if ms.any (·.vehicle == r.vehicle) then s.commandId else s.commandId + 1
    projected := match s.projected.get q with
      | none => s.projected
      | some ps => s.projected.put q (project r ps) }

/-- What is sent for the answer itself. -/
def complaint (r : Response) : List Out :=
  if r.wps = [] then [.error (.noWaypoints r.task r.option r.vehicle)] else []

/-- What `response` does. -/
theorem response_cases (s : St) (r : Response) :
    s.response r = (s, []) ∧
      (∀ q, s.expected.get r.id = some q → ∀ ms, s.progress.get q ≠ some (some ms)) ∨
    ∃ q ms, s.expected.get r.id = some q ∧ s.progress.get q = some (some ms) ∧
      s.response r = (((s.taken q r ms).checkNext q (s.absorbed r ms)).1,
        complaint r ++ ((s.taken q r ms).checkNext q (s.absorbed r ms)).2) := by
  simp only [St.response]
  cases he : s.expected.get r.id with
  | none => exact .inl ⟨rfl, by simp⟩
  | some q =>
    rcases hp : s.progress.get q with _ | (_ | ms)
    · exact .inl ⟨by simp only [hp], by simp [hp]⟩
    · exact .inl ⟨by simp only [hp], by simp [hp]⟩
    · refine .inr ⟨q, ms, rfl, hp, ?_⟩
      by_cases hw : r.wps = []
      · simp [hp, hw, St.taken, St.absorbed, complaint]
      · simp only [hp, hw, if_false, St.taken, St.absorbed, complaint, List.nil_append]
        rfl

theorem taken_frame {q k : Int} (h : k ≠ q) (s : St) (r : Response) (ms : List Mission) :
    Frame q s (s.taken k r ms) [] := by
  by_cases hw : r.wps = []
  · rw [St.taken, if_pos hw]; exact Frame.refl q s
  · rw [St.taken, if_neg hw]
    refine ⟨?_, rfl, ?_, rfl, rfl, rfl⟩
    · simp only [Map.get_put, if_neg (Ne.symm h)]
    · dsimp only
      cases s.projected.get k with
      | none => rfl
      | some ps => simp only [Map.get_put, if_neg (Ne.symm h)]

theorem asksOf_complaint (q : Int) (r : Response) : asksOf q (complaint r) = [] := by
  simp only [complaint]; split <;> rfl

theorem plansOf_complaint (q : Int) (r : Response) : plansOf q (complaint r) = [] := by
  simp only [complaint]; split <;> rfl

/-- What taking an answer in changes for its request. -/
theorem taken_get (s : St) (q : Int) (r : Response) (ms : List Mission) (hp : s.progress.get q = some (some ms)) :
    (s.taken q r ms).progress.get q = some (some (s.absorbed r ms)) ∧
    (s.taken q r ms).remaining = s.remaining ∧
    (s.taken q r ms).projected.get q = (s.projected.get q).map (absorb r) ∧
    (s.taken q r ms).requests = s.requests ∧
    (s.taken q r ms).expected = s.expected ∧
    (s.taken q r ms).askId = s.askId ∧
    (s.taken q r ms).cfg = s.cfg ∧ (s.taken q r ms).states = s.states ∧ (s.taken q r ms).ub = s.ub ∧
    (s.taken q r ms).overrides = s.overrides := by
  by_cases hw : r.wps = []
  · have e : absorb r = (fun x => x) := by funext x; simp [absorb, hw]
    simp only [St.taken, St.absorbed, if_pos hw, e, Option.map_id']
    exact ⟨hp, trivial, trivial, trivial, trivial, trivial, trivial, trivial, trivial, trivial⟩
  · have e : absorb r = project r := by funext x; simp [absorb, hw]
    simp only [St.taken, if_neg hw, e]
    refine ⟨by simp [Map.get_put], trivial, ?_, trivial, trivial, trivial, trivial, trivial, trivial, trivial⟩
    cases hpp : s.projected.get q with
    | none => simpa using hpp
    | some ps => simp [Map.get_put]

/-- The vehicles that take part. -/
def St.participants (s : St) (r : Request) : List Int := if r.vehicles = [] then s.states.map Prod.fst else r.vehicles

/-- The state when an assignment has been taken in. -/
def St.begun (s : St) (m : Summary) (r : Request) : St :=
  { s with
    progress := s.progress.put m.req (some [])
    projected := s.projected.put m.req (((s.participants r).filterMap s.states.get).map (s.initial r))
    remaining := s.remaining.put m.req m.tasks }

/-- What `summary` does. -/
theorem summary_cases (s : St) (m : Summary) :
    (∃ e, s.summary m = (s, [.error e])) ∨
    ∃ (r : Request), s.requests.get m.req = some r ∧ m.tasks ≠ [] ∧ (∀ v ∈ r.vehicles, (s.states.get v).isSome = true) ∧
      s.summary m = (s.begun m r).sendNext m.req := by
  simp only [St.summary]
  cases hr : s.requests.get m.req with
  | none => exact .inl ⟨_, rfl⟩
  | some r =>
    by_cases ht : m.tasks = []
    · simp only [ht, if_true]; exact .inl ⟨_, rfl⟩
    · simp only [if_neg ht]
      cases hv : r.vehicles.find? (fun v => (s.states.get v).isNone) with
      | some v => exact .inl ⟨_, rfl⟩
      | none =>
        refine .inr ⟨r, rfl, ht, ?_, rfl⟩
        intro v hv'
        have := List.find?_eq_none.mp hv v hv'
        cases h : s.states.get v <;> simp_all

/-- A step that does not start the work on `q` afresh leaves what is kept about `q` as it is, unless it is an answer for
`q`. -/
theorem step_frame {q : Int} {s : St} {i : In} (hi : restarts q i = false)
    (hn : ∀ r ms, i = .response r → s.expected.get r.id = some q → s.progress.get q ≠ some (some ms)) :
    Frame q s (step s i).1 (step s i).2 := by
  by_cases hub : s.ub = true
  · simp only [step, hub, if_true]; exact Frame.refl q s
  · have hst : ∀ x : St × List Out, (if s.ub = true then (s, []) else x) = x := fun x => if_neg hub
    cases i with
    | state v => rw [step, hst]; exact ⟨rfl, rfl, rfl, rfl, rfl, rfl⟩
    | overrides k os =>
      rw [step, hst]
      dsimp only
      by_cases ho : os = []
      · rw [if_pos ho]; exact Frame.refl q s
      · rw [if_neg ho]; exact ⟨rfl, rfl, rfl, rfl, rfl, rfl⟩
    | impactResponse k => rw [step, hst]; exact ⟨rfl, rfl, rfl, rfl, rfl, rfl⟩
    | request r =>
      rw [step, hst]
      have hne : q ≠ r.id := fun h => by simp [restarts, h] at hi
      refine ⟨?_, ?_, ?_, ?_, rfl, rfl⟩ <;> simp only [Map.get_put, if_neg hne]
    | summary m =>
      rw [step, hst]
      have hne : m.req ≠ q := fun h => by simp [restarts, h] at hi
      rcases summary_cases s m with ⟨e, he⟩ | ⟨r, _, _, _, he⟩ <;> rw [he]
      · exact ⟨rfl, rfl, rfl, rfl, rfl, rfl⟩
      · have := sendNext_frame hne (s.begun m r)
        refine ⟨this.progress.trans ?_, this.remaining.trans ?_, this.projected.trans ?_, this.requests, this.asks,
          this.plans⟩ <;> simp only [St.begun, Map.get_put, if_neg (Ne.symm hne)]
    | response r =>
      rw [step, hst]
      rcases response_cases s r with ⟨e, _⟩ | ⟨k, ms, h1, h2, e⟩ <;> rw [e]
      · exact Frame.refl q s
      · have hne : k ≠ q := by rintro rfl; exact hn r ms rfl h1 h2
        have f1 := taken_frame hne s r ms
        have f2 := checkNext_frame hne (s.taken k r ms) (s.absorbed r ms)
        exact ⟨f2.progress.trans f1.progress, f2.remaining.trans f1.remaining, f2.projected.trans f1.projected,
          f2.requests.trans f1.requests, by rw [asksOf_append, asksOf_complaint, f2.asks]; rfl,
          by rw [plansOf_append, plansOf_complaint, f2.plans]; rfl⟩

/-! ### Ids, for all histories -/

theorem sendNext_glob {os : List Out} {s : St} (h : s.Glob os) (q : Int) :
    (s.sendNext q).1.Glob (os ++ (s.sendNext q).2) := by
  rcases sendNext_cases s q with e | ⟨r, t, ts, p, _, _, _, e⟩ <;> rw [e]
  · simpa using h
  · exact h.ask _ rfl

theorem checkNext_glob {os : List Out} {s : St} (h : s.Glob os) (q : Int) (ms : List Mission) :
    (s.checkNext q ms).1.Glob (os ++ (s.checkNext q ms).2) := by
  rcases checkNext_cases s q ms with ⟨e, _⟩ | ⟨e, _⟩ | ⟨e, _⟩ | ⟨ms', _, _, e⟩ <;> rw [e]
  · simpa using h
  · exact sendNext_glob h q
  · simpa using h
  · exact h.quiet (fun q => rfl)

theorem step_glob {os : List Out} {s : St} (h : s.Glob os) (i : In) :
    (step s i).1.Glob (os ++ (step s i).2) := by
  by_cases hub : s.ub = true
  · simp only [step, hub, if_true]; simpa using h
  · have hst : ∀ x : St × List Out, (if s.ub = true then (s, []) else x) = x := fun x => if_neg hub
    cases i with
    | state v => rw [step, hst]; simpa using h
    | overrides k os =>
      rw [step, hst]
      dsimp only
      by_cases ho : os = []
      · rw [if_pos ho]; simpa using h
      · rw [if_neg ho]; simpa using h
    | impactResponse k => rw [step, hst]; simpa using h
    | request r => rw [step, hst]; simpa using h
    | summary m =>
      rw [step, hst]
      rcases summary_cases s m with ⟨e, he⟩ | ⟨r, _, _, _, he⟩ <;> rw [he]
      · exact h.quiet (fun q => rfl)
      · exact sendNext_glob (s := s.begun m r) h m.req
    | response r =>
      rw [step, hst]
      rcases response_cases s r with ⟨e, _⟩ | ⟨k, ms, h1, h2, e⟩ <;> rw [e]
      · simpa using h
      · obtain ⟨_, _, _, _, e1, e2, _⟩ := taken_get s k r ms h2
        have : (s.taken k r ms).Glob (os ++ complaint r) := by
          show PlanBuilder.Glob _ _ _
          rw [e1, e2]
          exact h.quiet (fun q => asksOf_complaint q r)
        have := checkNext_glob this k (s.absorbed r ms)
        rwa [List.append_assoc] at this

theorem glob (c : Config) (h : List In) : (after c h).Glob (sentIn c h) := by
  have := runM_induction (step := step) (s0 := start c)
    (P := fun (h : List In) (s : St) (_ : List (List Out)) => s.Glob (sentIn c h))
    (by constructor <;> simp [sentIn, events, sent, start, Map.get, asksOf])
    (by
      intro is i ih
      have := step_glob ih i
      rw [sentIn, events_snoc, sent_append]
      simpa [sentIn] using this)
  exact this h

end Verif.PlanBuilder
