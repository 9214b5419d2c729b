import Verif.Common
import Verif.Trace
import Verif.AMap

/-!
# The service that reports completed tasks

`src/cpp/Tasks/TaskTrackerService.cpp` 77-321.  `m_states` and `m_tasks` are written and never read; they are left out.  A
pointer to nothing in a list of a message is not modelled.
-/

namespace Verif.Tracker

open Verif

/-- mdms/CMASI.xml 1173-1215: what is read of a `Waypoint`. -/
structure Wp where
  number : Int
  next : Int
  tasks : List Int := []
deriving DecidableEq, Repr

/-- mdms/CMASI.xml 1227-1237: what is read of a `MissionCommand`. -/
structure Mission where
  vehicle : Int
  wps : List Wp
deriving DecidableEq, Repr

/-- The kinds of tasks that TaskTrackerService.cpp 102-116 and 121-148 tell apart. -/
inductive Kind where
  /-- `LoiterTask`, with the duration of its action if it has one -/
  | loiter (duration : Option Int)
  /-- `ImpactPointSearchTask`, with the duration of its action if it has one -/
  | point (duration : Option Int)
  /-- `WatchTask`, `BlockadeTask`, `CordonTask`, `MultiVehicleWatchTask`, `EscortTask` -/
  | endless
  /-- the others of the list -/
  | other
  /-- a task that is not in the list -/
  | unknown
deriving DecidableEq, Repr

/-- TaskTrackerService.cpp 77-151: what the service receives. -/
inductive In where
  | task (id : Int) (k : Kind)
  /-- the missions of an `AutomationResponse`, or one `MissionCommand` -/
  | missions (ms : List Mission)
  /-- an `EntityState`; `order` is the order in which the unordered set of tasks is gone through -/
  | state (v : Int) (wp : Int) (order : List Int)
deriving DecidableEq, Repr

/-- mdms/UXTASK.xml 439-446: a `TaskComplete` with one entity. -/
structure Out where
  vehicle : Int
  task : Int
deriving DecidableEq, Repr

/-- TaskTrackerService.h 147-160: the members of the service. -/
structure St where
  /-- `isTaskEligible` -/
  eligible : List Int := []
  /-- `m_missions` -/
  missions : Map (List Wp) := []
  /-- `m_tasksInProgress` -/
  progress : Map (List Int) := []
  /-- `m_taskEmit` -/
  emit : Map Int := []
  /-- `m_taskWp` -/
  counter : Map (Map Int) := []
  /-- `m_override` -/
  override : Map (Int × Int) := []
  /-- undefined behaviour has happened -/
  ub : Bool := false
deriving DecidableEq, Repr

/-- TaskTrackerService.cpp 128, 210, 221: `std::unordered_set::insert`. -/
def insert (l : List Int) (x : Int) : List Int := if x ∈ l then l else l ++ [x]

/-- TaskTrackerService.cpp 226: the elements of a set in the order given by a list; those
that the list lacks come last. -/
def arrange (order set : List Int) : List Int :=
  ((order.foldl insert []).filter fun x => x ∈ set) ++ set.filter fun x => x ∉ order

/-- The state of the loop, TaskTrackerService.cpp 226-279. -/
structure Loop where
  emit : Map Int
  /-- `m_taskWp[v]` -/
  wp : Map Int
  keep : List Int
  out : List Out
deriving DecidableEq, Repr

/-- TaskTrackerService.cpp 230-250: the task is done.  A task that is in the number of the waypoint is done when the rest of the number has
become smaller, any other when the waypoint does not name it. -/
def isDone (w : Wp) (wp : Map Int) (id : Int) : Bool :=
  if id = w.number.tdiv 10000 then w.number.tmod 10000 < (wp.get id).getD 0 else id ∉ w.tasks

/-- TaskTrackerService.cpp 249. -/
def count (w : Wp) (wp : Map Int) (id : Int) : Map Int :=
  if id = w.number.tdiv 10000 then wp.put id (w.number.tmod 10000) else wp

/-- One round of the loop, TaskTrackerService.cpp 226-279. -/
def visit (eligible : List Int) (v : Int) (w : Wp) (s : Loop) (id : Int) : Loop :=
  if isDone w s.wp id then
    { emit := s.emit.del id, wp := [], keep := s.keep,
      out := s.out ++ if (s.emit.get id).getD id ∈ eligible then [⟨v, (s.emit.get id).getD id⟩] else [] }
  else { s with wp := count w s.wp id, keep := s.keep ++ [id] }

/-- TaskTrackerService.cpp 204-280: the vehicle is on the waypoint. -/
def St.onWaypoint (s : St) (v : Int) (w : Wp) (order : List Int) : St × List Out :=
  let k := w.number.tdiv 10000
  let p₀ := (s.progress.get v).getD []
  let p₁ := if 0 < k then insert p₀ k else p₀
  let emit := if 0 < k then match w.tasks with
    | [] => s.emit
    | t :: _ => s.emit.put k t
    else s.emit
  let p₂ := w.tasks.foldl insert p₁
  let l := (arrange order p₂).foldl (visit s.eligible v w) ⟨emit, (s.counter.get v).getD [], [], []⟩
  ({ s with progress := s.progress.put v l.keep, emit := l.emit, counter := s.counter.put v l.wp }, l.out)

/-- TaskTrackerService.cpp 182-281: the report is looked up in the mission. -/
def St.follow (s : St) (v wp : Int) (order : List Int) : St × List Out :=
  match s.missions.get v with
  | none => (s, [])
  | some m =>
    match m.find? fun w => w.number == wp with
    | none => ({ s with progress := s.progress.put v ((s.progress.get v).getD []) }, [])
    | some w => s.onWaypoint v w order

/-- `HandleVehicleState`, TaskTrackerService.cpp 153-281. -/
def St.state (s : St) (v wp : Int) (order : List Int) : St × List Out :=
  match s.override.get v with
  | some (t, n) =>
    if wp = n then
      ({ s with
          progress := match s.progress.get v with
            | some p => s.progress.put v (p.filter (· != t))
            | none => s.progress
          override := s.override.del v }, if t ∈ s.eligible then [⟨v, t⟩] else [])
    else s.follow v wp order
  | none => s.follow v wp order

/-- The search from the last waypoint, TaskTrackerService.cpp 298-314. -/
def search : List Wp → Int
  | [] => 0
  | w :: ws =>
    match w.tasks with
    | [] => if 10000 ≤ w.number then w.number.tdiv 10000 else search ws
    | t :: _ => t

/-- The override of a mission, TaskTrackerService.cpp 293-320. -/
def ending (wps : List Wp) : Option (Int × Int) :=
  match wps.getLast? with
  | none => none
  | some w =>
    if w.number = w.next then
      if 0 < search wps.reverse then some (search wps.reverse, w.number) else none
    else none

/-- `HandleMissionCommand`, TaskTrackerService.cpp 283-321. -/
def St.mission (s : St) (m : Mission) : St :=
  { s with
    progress := s.progress.put m.vehicle []
    missions := s.missions.put m.vehicle m.wps
    override := match ending m.wps with
      | some o => s.override.put m.vehicle o
      | none => s.override.del m.vehicle }

/-- TaskTrackerService.cpp 102-149: a task. -/
def St.task (s : St) (id : Int) : Kind → St
  | .loiter none => { s with ub := true }
  | .loiter (some d) => if 0 < d then { s with eligible := insert s.eligible id } else s
  | .point none => s
  | .point (some d) => if 0 < d then { s with eligible := insert s.eligible id } else s
  | .endless => s
  | .other => { s with eligible := insert s.eligible id }
  | .unknown => s

/-- `processReceivedLmcpMessage`, TaskTrackerService.cpp 77-151. -/
def step (s : St) (i : In) : St × List Out :=
  if s.ub then (s, []) else
  match i with
  | .task id k => (s.task id k, [])
  | .missions ms => (ms.foldl St.mission s, [])
  | .state v wp order => s.state v wp order

/-! ## What is said -/

/-- Not in the code: the state after a history. -/
abbrev after (h : List In) : St := (runM step {} h).1

/-- Not in the code: what is sent for an input after a history. -/
abbrev sends (h : List In) (i : In) : List Out := (step (after h) i).2

/-- Specification: nothing undefined has happened: no loiter task came without an action.
-/
def Fine (h : List In) : Prop := ∀ id, .task id (.loiter none) ∉ h

/-- Specification: the kinds of tasks whose end can be reported: those that do not last
for ever. -/
def Kind.finite : Kind → Bool
  | .loiter (some d) => 0 < d
  | .point (some d) => 0 < d
  | .other => true
  | _ => false

/-- Specification: the task was received with a kind that has an end. -/
def Eligible (h : List In) (t : Int) : Prop := ∃ k, .task t k ∈ h ∧ k.finite = true

/-- Specification: the missions of a message. -/
def In.ms : In → List Mission
  | .missions ms => ms
  | _ => []

/-- Specification: the last of the missions that is for the vehicle. -/
def missionFor (v : Int) (ms : List Mission) : Option (List Wp) :=
  (ms.reverse.find? fun m => m.vehicle == v).map Mission.wps

/-- Specification: the waypoint that the vehicle reports. -/
def In.report (v : Int) : In → Option Int
  | .state u n _ => if u = v then some n else none
  | _ => none

/-- Specification: the waypoints reported by the vehicle, the latest first. -/
def reports (v : Int) (h : List In) : List Int := (h.filterMap (In.report v)).reverse

/-- Specification: the inputs after the latest command to the vehicle, and that command's
waypoints. -/
def Since (h : List In) (v : Int) (m : List Wp) (g : List In) : Prop :=
  ∃ h₁ ms, h = h₁ ++ .missions ms :: g ∧ missionFor v ms = some m ∧ ∀ i ∈ g, missionFor v i.ms = none

/-- Specification: the first waypoint with the number. -/
def wpOf (m : List Wp) (n : Int) : Option Wp := m.find? fun w => w.number == n

/-- Specification: the task of a waypoint: the first one it names, or else the one in its
number. -/
def taskOf (w : Wp) : Option Int :=
  match w.tasks.head? with
  | some t => some t
  | none => if 10000 ≤ w.number then some (w.number / 10000) else none

/-- Specification: the task that ends with the waypoint: the last waypoint of the mission
has the number and leads to itself, and the task is that of the last waypoint that has
one. -/
def endTask (m : List Wp) (n : Int) : Option Int :=
  match m.getLast? with
  | some w => if w.number = n ∧ w.next = n then (m.reverse.findSome? taskOf).filter fun t => 0 < t else none
  | none => none

/-- Specification: every waypoint of every mission has a number below 10000, and every
task has a positive id. -/
def Plain (h : List In) : Prop :=
  ∀ i ∈ h, ∀ m ∈ i.ms, ∀ w ∈ m.wps, w.number < 10000 ∧ ∀ t ∈ w.tasks, 0 < t

/-- Specification: the tasks the vehicle is working on after its reports (the latest
first): those of the waypoint it last reported. The first report of the end of the mission
only takes away the last task. -/
def work (m : List Wp) : List Int → List Int
  | [] => []
  | n :: older =>
    if (endTask m n).isSome = true ∧ n ∉ older then (work m older).filter fun t => some t ≠ endTask m n
    else match wpOf m n with
      | none => work m older
      | some w => w.tasks

/-! ## Proofs -/

theorem mem_insert (l : List Int) (x y : Int) : y ∈ insert l x ↔ y ∈ l ∨ y = x := by
  rw [insert]; split <;> grind

theorem nodup_insert {l : List Int} (h : l.Nodup) (x : Int) : (insert l x).Nodup := by
  rw [insert]; split
  · exact h
  · rw [List.nodup_append]; grind

theorem mem_inserts (l : List Int) (y : Int) : ∀ p, y ∈ l.foldl insert p ↔ y ∈ p ∨ y ∈ l := by
  induction l with
  | nil => simp
  | cons x l ih => intro p; rw [List.foldl_cons, ih, mem_insert]; simp [or_assoc]

theorem nodup_inserts (l : List Int) : ∀ p : List Int, p.Nodup → (l.foldl insert p).Nodup := by
  induction l with
  | nil => intro p h; exact h
  | cons x l ih => intro p h; exact ih _ (nodup_insert h x)

theorem mem_arrange (o p : List Int) (x : Int) : x ∈ arrange o p ↔ x ∈ p := by
  simp only [arrange, List.mem_append, List.mem_filter, mem_inserts, decide_eq_true_eq, List.not_mem_nil, false_or]
  grind

theorem nodup_arrange (o : List Int) {p : List Int} (h : p.Nodup) : (arrange o p).Nodup := by
  rw [arrange, List.nodup_append]
  refine ⟨(nodup_inserts o [] List.nodup_nil).filter _, h.filter _, ?_⟩
  intro a ha b hb e
  simp only [List.mem_filter, mem_inserts, decide_eq_true_eq, List.not_mem_nil, false_or] at ha hb
  grind

theorem after_snoc (h : List In) (i : In) : after (h ++ [i]) = (step (after h) i).1 := by
  rw [after, runM_snoc]

theorem missionFor_snoc (v : Int) (ms : List Mission) (x : Mission) :
    missionFor v (ms ++ [x]) = if x.vehicle = v then some x.wps else missionFor v ms := by
  simp only [missionFor, List.reverse_append, List.reverse_cons, List.reverse_nil, List.nil_append, List.cons_append,
    List.find?_cons]
  by_cases h : x.vehicle = v
  · simp [h]
  · simp [h, beq_eq_false_iff_ne.mpr h]

theorem missionFor_none (v : Int) (ms : List Mission) : missionFor v ms = none ↔ ∀ m ∈ ms, m.vehicle ≠ v := by
  simp [missionFor]

theorem missionFor_some {v : Int} {ms : List Mission} {m : List Wp} (h : missionFor v ms = some m) :
    ∃ x ∈ ms, x.wps = m := by
  simp only [missionFor, Option.map_eq_some_iff] at h
  obtain ⟨x, hx, e⟩ := h
  exact ⟨x, List.mem_reverse.mp (List.mem_of_find?_eq_some hx), e⟩

/-- What a list of missions does. -/
theorem missions_fold (s : St) (ms : List Mission) : let s' := ms.foldl St.mission s
    (∀ v, s'.missions.get v = (missionFor v ms).or (s.missions.get v)) ∧
    (∀ v, s'.progress.get v = match missionFor v ms with
      | some _ => some []
      | none => s.progress.get v) ∧
    (∀ v, s'.override.get v = match missionFor v ms with
      | some m => ending m
      | none => s.override.get v) ∧
    s'.emit = s.emit ∧ s'.eligible = s.eligible ∧ s'.ub = s.ub := by
  induction ms using snocRec with
  | nil => simp [missionFor]
  | append_singleton ms x ih =>
    obtain ⟨h₁, h₂, h₃, h₄, h₅, h₆⟩ := ih
    rw [List.foldl_append, List.foldl_cons, List.foldl_nil]
    refine ⟨?_, ?_, ?_, h₄, h₅, h₆⟩
    · intro v
      rw [missionFor_snoc, St.mission, Map.get_put, h₁]
      by_cases e : x.vehicle = v
      · simp [e]
      · rw [if_neg e, if_neg fun hh : v = x.vehicle => e hh.symm]
    · intro v
      rw [missionFor_snoc, St.mission, Map.get_put, h₂]
      by_cases e : x.vehicle = v
      · simp [e]
      · rw [if_neg e, if_neg fun hh : v = x.vehicle => e hh.symm]
    · intro v
      rw [missionFor_snoc, St.mission]
      by_cases e : x.vehicle = v
      · subst e
        simp only [if_true]
        cases ending x.wps <;> simp [Map.get_put, Map.get_del]
      · have e' : v ≠ x.vehicle := fun hh => e hh.symm
        simp only [e, if_false]
        rw [← h₃]
        cases ending x.wps <;> simp [Map.get_put, Map.get_del, e']

theorem visit_own (el : List Int) (v : Int) (w : Wp) (s : Loop) (id : Int) :
    ∃ l, (visit el v w s id).out = s.out ++ l ∧ ∀ x ∈ l, x.vehicle = v ∧ x.task ∈ el := by
  rw [visit]
  split
  · refine ⟨_, rfl, ?_⟩
    intro x hx
    split at hx
    · simp only [List.mem_singleton] at hx; subst hx; exact ⟨rfl, by assumption⟩
    · cases hx
  · exact ⟨[], by simp, by simp⟩

theorem visits_own (el : List Int) (v : Int) (w : Wp) (l : List Int) : ∀ s : Loop,
    ∃ o, (l.foldl (visit el v w) s).out = s.out ++ o ∧ ∀ x ∈ o, x.vehicle = v ∧ x.task ∈ el := by
  induction l with
  | nil => intro s; exact ⟨[], by simp, by simp⟩
  | cons id l ih =>
    intro s
    obtain ⟨o₁, e₁, h₁⟩ := visit_own el v w s id
    obtain ⟨o₂, e₂, h₂⟩ := ih (visit el v w s id)
    refine ⟨o₁ ++ o₂, by rw [List.foldl_cons, e₂, e₁, List.append_assoc], ?_⟩
    intro x hx
    rcases List.mem_append.mp hx with hx | hx
    · exact h₁ x hx
    · exact h₂ x hx

/-- What does not depend on the numbers of the waypoints. -/
theorem state_frame (s : St) (v n : Int) (o : List Int) : let r := s.state v n o
    r.1.missions = s.missions ∧ r.1.eligible = s.eligible ∧ r.1.ub = s.ub ∧
    (∀ u, r.1.override.get u = if u = v ∧ (s.override.get v).map Prod.snd = some n then none else s.override.get u) ∧
    (∀ u, u ≠ v → r.1.progress.get u = s.progress.get u) ∧
    (∀ x ∈ r.2, x.vehicle = v ∧ x.task ∈ s.eligible) ∧
    (s.override.get v = none → s.missions.get v = none → r.2 = []) := by
  have hgo : let r := s.follow v n o
      r.1.missions = s.missions ∧ r.1.eligible = s.eligible ∧ r.1.ub = s.ub ∧
        r.1.override = s.override ∧ (∀ u, u ≠ v → r.1.progress.get u = s.progress.get u) ∧
        (∀ x ∈ r.2, x.vehicle = v ∧ x.task ∈ s.eligible) ∧ (s.missions.get v = none → r.2 = []) := by
    rw [St.follow]
    cases hm : s.missions.get v with
    | none => simp
    | some m =>
      simp only []
      cases hw : m.find? fun w => w.number == n with
      | none =>
        refine ⟨rfl, rfl, rfl, rfl, ?_, by simp, by simp⟩
        intro u hu
        simp [Map.get_put, hu]
      | some w =>
        simp only [St.onWaypoint]
        refine ⟨trivial, trivial, trivial, trivial, ?_, ?_, by simp⟩
        · intro u hu
          simp [Map.get_put, hu]
        · intro x hx
          obtain ⟨l, e, h⟩ := visits_own s.eligible v w _ _
          rw [e] at hx
          exact h x (by simpa using hx)
  simp only [St.state]
  cases ho : s.override.get v with
  | none =>
    simp only [Option.map_none]
    obtain ⟨h₁, h₂, h₃, h₄, h₅, h₆, h₇⟩ := hgo
    refine ⟨h₁, h₂, h₃, ?_, h₅, h₆, fun _ => h₇⟩
    intro u; rw [h₄]; simp
  | some x =>
    obtain ⟨t, e⟩ := x
    simp only [Option.map_some]
    by_cases hn : n = e
    · simp only [hn, if_true]
      refine ⟨trivial, trivial, trivial, ?_, ?_, ?_, by simp⟩
      · intro u
        rw [Map.get_del]
        by_cases hu : u = v <;> simp [hu]
      · intro u hu
        cases hp : s.progress.get v with
        | none => simp
        | some p => simp [Map.get_put, hu]
      · intro x hx
        split at hx
        · simp only [List.mem_singleton] at hx; subst hx; exact ⟨rfl, by assumption⟩
        · cases hx
    · simp only [hn, if_false]
      obtain ⟨h₁, h₂, h₃, h₄, h₅, h₆, h₇⟩ := hgo
      refine ⟨h₁, h₂, h₃, ?_, h₅, h₆, by simp⟩
      intro u; rw [h₄]; simp [Ne.symm hn]

theorem since_snoc {h : List In} {i : In} {v : Int} {m : List Wp} {g : List In} :
    Since (h ++ [i]) v m g ↔ (missionFor v i.ms = some m ∧ g = []) ∨
      (missionFor v i.ms = none ∧ ∃ g', g = g' ++ [i] ∧ Since h v m g') := by
  constructor
  · rintro ⟨h₁, ms, e, hm, hg⟩
    rcases List.eq_nil_or_concat g with rfl | ⟨g', j, rfl⟩
    · obtain ⟨_, e⟩ := List.append_inj' e rfl
      simp only [List.cons.injEq, and_true] at e
      subst e
      exact .inl ⟨hm, rfl⟩
    · rw [List.concat_eq_append] at e hg
      rw [← List.cons_append, ← List.append_assoc] at e
      obtain ⟨e₁, e₂⟩ := List.append_inj' e rfl
      simp only [List.cons.injEq, and_true] at e₂
      subst e₂
      refine .inr ⟨hg i (by simp), g', by simp, h₁, ms, e₁, hm, fun j hj => hg j (by simp [hj])⟩
  · rintro (⟨hm, rfl⟩ | ⟨hn, g', rfl, h₁, ms, rfl, hm, hg⟩)
    · cases i with
      | missions ms => exact ⟨h, ms, rfl, hm, by simp⟩
      | task _ _ => simp [In.ms, missionFor] at hm
      | state _ _ _ => simp [In.ms, missionFor] at hm
    · refine ⟨h₁, ms, by simp, hm, ?_⟩
      intro j hj
      rcases List.mem_append.mp hj with hj | hj
      · exact hg j hj
      · simp only [List.mem_singleton] at hj; subst hj; exact hn

theorem exists_since (h : List In) (v : Int) (hex : ¬ ∀ i ∈ h, missionFor v i.ms = none) : ∃ m g, Since h v m g := by
  induction h using snocRec with
  | nil => exact absurd (by simp) hex
  | append_singleton h i ih =>
    cases hm : missionFor v i.ms with
    | some m => exact ⟨m, [], since_snoc.mpr (.inl ⟨hm, rfl⟩)⟩
    | none =>
      obtain ⟨m, g, hs⟩ := ih fun hall => hex fun j hj => by
        rcases List.mem_append.mp hj with hj | hj
        · exact hall j hj
        · simp only [List.mem_singleton] at hj; subst hj; exact hm
      exact ⟨m, g ++ [i], since_snoc.mpr (.inr ⟨hm, g, rfl, hs⟩)⟩

theorem reports_snoc (v : Int) (g : List In) (i : In) : reports v (g ++ [i]) = (i.report v).toList ++ reports v g := by
  cases h : i.report v <;> simp [reports, h]

theorem search_eq (l : List Wp) : (0 < search l ↔ ∃ t, (l.findSome? taskOf).filter (fun t => 0 < t) = some t) ∧
    ∀ t, (l.findSome? taskOf).filter (fun t => 0 < t) = some t → search l = t := by
  induction l with
  | nil => simp [search]
  | cons w l ih =>
    rw [search, List.findSome?_cons]
    cases ht : w.tasks with
    | nil =>
      simp only [taskOf, ht, List.head?_nil]
      by_cases hn : 10000 ≤ w.number
      · have : w.number.tdiv 10000 = w.number / 10000 := Int.tdiv_eq_ediv_of_nonneg (by omega)
        have h0 : 0 < w.number / 10000 := by omega
        simp [hn, this, h0]
      · simpa [hn] using ih
    | cons t ts =>
      simp only [taskOf, ht, List.head?_cons, Option.filter_some]
      by_cases h0 : 0 < t <;> simp [h0]

theorem ending_eq (m : List Wp) (t n : Int) : ending m = some (t, n) ↔ endTask m n = some t := by
  simp only [ending, endTask]
  obtain ⟨h₁, h₂⟩ := search_eq m.reverse
  cases m.getLast? with
  | none => simp
  | some w =>
    simp only []
    by_cases e : w.number = w.next
    · simp only [e, if_true, and_self]
      by_cases h0 : 0 < search m.reverse
      · obtain ⟨t', ht'⟩ := h₁.mp h0
        have := h₂ t' ht'
        rw [if_pos h0, this, ht']
        by_cases hw : w.next = n <;> simp [hw]
      · rw [if_neg h0]
        have : (m.reverse.findSome? taskOf).filter (fun t => 0 < t) = none := by
          cases hx : (m.reverse.findSome? taskOf).filter (fun t => 0 < t) with
          | none => rfl
          | some t' => exact absurd (h₁.mpr ⟨t', hx⟩) h0
        rw [this]; simp
    · rw [if_neg e, if_neg (by omega)]; simp

theorem ending_none (m : List Wp) : ending m = none ↔ ∀ n, endTask m n = none := by
  constructor
  · intro h n
    cases hx : endTask m n with
    | none => rfl
    | some t => rw [(ending_eq m t n).mpr hx] at h; cases h
  · intro h
    cases hx : ending m with
    | none => rfl
    | some p =>
      obtain ⟨t, n⟩ := p
      have := (ending_eq m t n).mp hx
      rw [h n] at this; cases this

/-- For the proofs: what holds after every history. -/
structure Inv (h : List In) (s : St) : Prop where
  ub : s.ub = false
  eligible : ∀ t, t ∈ s.eligible ↔ Eligible h t
  without : ∀ v, (∀ i ∈ h, missionFor v i.ms = none) → s.missions.get v = none ∧ s.override.get v = none
  mission : ∀ v m g, Since h v m g → s.missions.get v = some m
  override : ∀ v m g, Since h v m g → s.override.get v =
    (ending m).filter fun x => x.2 ∉ reports v g

theorem eligible_snoc (h : List In) (i : In) (t : Int) :
    Eligible (h ++ [i]) t ↔ Eligible h t ∨ ∃ k, i = .task t k ∧ k.finite = true := by
  simp only [Eligible, List.mem_append, List.mem_singleton]
  constructor
  · rintro ⟨k, h | h, hk⟩
    · exact .inl ⟨k, h, hk⟩
    · exact .inr ⟨k, h.symm, hk⟩
  · rintro (⟨k, h, hk⟩ | ⟨k, h, hk⟩)
    · exact ⟨k, .inl h, hk⟩
    · exact ⟨k, .inr h.symm, hk⟩

theorem task_frame (s : St) (id : Int) (k : Kind) (hk : k ≠ .loiter none) : let s' := s.task id k
    s'.missions = s.missions ∧ s'.override = s.override ∧ s'.progress = s.progress ∧ s'.emit = s.emit ∧ s'.ub = s.ub ∧
    ∀ t, t ∈ s'.eligible ↔ t ∈ s.eligible ∨ (t = id ∧ k.finite = true) := by
  cases k with
  | loiter d =>
    cases d with
    | none => exact absurd rfl hk
    | some d =>
      simp only [St.task, Kind.finite]
      by_cases h0 : 0 < d
      · simp [h0, mem_insert]
      · simp [h0]
  | point d =>
    cases d with
    | none => simp [St.task, Kind.finite]
    | some d =>
      simp only [St.task, Kind.finite]
      by_cases h0 : 0 < d
      · simp [h0, mem_insert]
      · simp [h0]
  | endless => simp [St.task, Kind.finite]
  | other => simp [St.task, Kind.finite, mem_insert]
  | unknown => simp [St.task, Kind.finite]

theorem inv (h : List In) (hf : Fine h) : Inv h (after h) := by
  induction h using snocRec with
  | nil =>
    refine ⟨rfl, ?_, ?_, ?_, ?_⟩
    · intro t; simp [after, Eligible]
    · intro v _; exact ⟨rfl, rfl⟩
    · rintro v m g ⟨h₁, ms, e, _⟩; simp at e
    · rintro v m g ⟨h₁, ms, e, _⟩; simp at e
  | append_singleton h i ih =>
    have ih := ih fun id hid => hf id (by simp [hid])
    rw [after_snoc]
    generalize after h = s at ih
    have hst : ∀ x : St × List Out, (if s.ub = true then (s, []) else x) = x := fun x => by rw [ih.ub]; rfl
    rw [step.eq_def, hst]
    cases i with
    | task id k =>
      have hk : k ≠ .loiter none := by rintro rfl; exact hf id (by simp)
      obtain ⟨e₁, e₂, -, -, e₅, e₆⟩ := task_frame s id k hk
      refine ⟨by rw [e₅, ih.ub], ?_, ?_, ?_, ?_⟩
      · intro t
        rw [e₆, ih.eligible, eligible_snoc]
        simp only [In.task.injEq]
        grind
      · intro v hv
        rw [e₁, e₂]
        exact ih.without v fun i hi => hv i (by simp [hi])
      · intro v m g hs
        rw [e₁]
        rcases since_snoc.mp hs with ⟨hm, -⟩ | ⟨-, g', -, hs⟩
        · simp [In.ms, missionFor] at hm
        · exact ih.mission v m g' hs
      · intro v m g hs
        rw [e₂]
        rcases since_snoc.mp hs with ⟨hm, -⟩ | ⟨-, g', rfl, hs'⟩
        · simp [In.ms, missionFor] at hm
        · rw [reports_snoc]; exact ih.override v m g' hs'
    | missions ms =>
      obtain ⟨e₁, -, e₃, -, e₅, e₆⟩ := missions_fold s ms
      refine ⟨by rw [e₆, ih.ub], ?_, ?_, ?_, ?_⟩
      · intro t
        rw [e₅, ih.eligible, eligible_snoc]
        simp
      · intro v hv
        have hn : missionFor v ms = none := hv (.missions ms) (by simp)
        rw [e₁, e₃, hn]
        exact ih.without v fun i hi => hv i (by simp [hi])
      · intro v m g hs
        rw [e₁]
        rcases since_snoc.mp hs with ⟨hm, -⟩ | ⟨hn, g', -, hs⟩
        · rw [show missionFor v ms = some m from hm]; rfl
        · rw [show missionFor v ms = none from hn]; exact ih.mission v m g' hs
      · intro v m g hs
        rw [e₃]
        rcases since_snoc.mp hs with ⟨hm, rfl⟩ | ⟨hn, g', rfl, hs'⟩
        · rw [show missionFor v ms = some m from hm]
          cases hend : ending m <;> simp [reports, Option.filter, hend]
        · rw [show missionFor v ms = none from hn, reports_snoc]; exact ih.override v m g' hs'
    | state u n o =>
      obtain ⟨e₁, e₂, e₃, e₄, -, -, -⟩ := state_frame s u n o
      refine ⟨by rw [e₃, ih.ub], ?_, ?_, ?_, ?_⟩
      · intro t
        rw [e₂, ih.eligible, eligible_snoc]
        simp
      · intro v hv
        obtain ⟨h₁, h₂⟩ := ih.without v fun i hi => hv i (by simp [hi])
        rw [e₁, e₄, h₁, h₂]
        simp
      · intro v m g hs
        rw [e₁]
        rcases since_snoc.mp hs with ⟨hm, -⟩ | ⟨hn, g', -, hs⟩
        · simp [In.ms, missionFor] at hm
        · exact ih.mission v m g' hs
      · intro v m g hs
        rw [e₄]
        rcases since_snoc.mp hs with ⟨hm, -⟩ | ⟨-, g', rfl, hs'⟩
        · simp [In.ms, missionFor] at hm
        · have := ih.override v m g' hs'
          rw [reports_snoc]
          by_cases hu : u = v
          · subst hu
            simp only [In.report, if_true, Option.toList_some, List.singleton_append, true_and]
            rw [this]
            cases hend : ending m with
            | none => simp
            | some x =>
              obtain ⟨t, e⟩ := x
              by_cases hr : e ∈ reports u g'
              · simp [hr, Option.filter]
              · by_cases hne : e = n
                · subst hne; simp [hr, Option.filter]
                · simp [hr, hne, Option.filter]
          · have hu' : v ≠ u := fun e => hu e.symm
            simp only [In.report, hu, hu', if_false, false_and, Option.toList_none, List.nil_append]
            exact this

theorem plain_visits (el : List Int) (v : Int) (w : Wp) (ids : List Int) (hid : ∀ x ∈ ids, x ≠ w.number.tdiv 10000) :
    ∀ s : Loop, s.emit = [] → let s' := ids.foldl (visit el v w) s
      s'.emit = [] ∧ s'.keep = s.keep ++ ids.filter (fun t => t ∈ w.tasks) ∧
      s'.out = s.out ++ (ids.filter fun t => t ∉ w.tasks ∧ t ∈ el).map (Out.mk v) := by
  induction ids with
  | nil => intro s h; simp [h]
  | cons x ids ih =>
    intro s he
    have hx : x ≠ w.number.tdiv 10000 := hid x (by simp)
    have hnone : s.emit.get x = none := by rw [he]; rfl
    obtain ⟨h₁, h₂, h₃⟩ := ih (fun y hy => hid y (by simp [hy])) (visit el v w s x) (by
      rw [visit]; split
      · simp [he, Map.del]
      · exact he)
    rw [List.foldl_cons]
    refine ⟨h₁, ?_, ?_⟩
    · rw [h₂, visit, isDone, if_neg hx]
      by_cases ht : x ∈ w.tasks <;> simp [ht]
    · rw [h₃, visit, isDone, if_neg hx, hnone]
      by_cases ht : x ∈ w.tasks
      · simp [ht]
      · by_cases hel : x ∈ el <;> simp [ht, hel]

/-- A report of a vehicle with a mission. -/
theorem state_plain {s : St} {v : Int} {m : List Wp} {rs p : List Int} {n : Int} {o : List Int}
    (hm : s.missions.get v = some m)
    (ho : s.override.get v = (ending m).filter fun x => x.2 ∉ rs) (hp : s.progress.get v = some p) (hn : p.Nodup)
    (hw : ∀ t, t ∈ p ↔ t ∈ work m rs) (he : s.emit = []) (hpos : ∀ t ∈ work m rs, 0 < t)
    (hpl : ∀ w ∈ m, w.number < 10000 ∧ ∀ t ∈ w.tasks, 0 < t) : let r := s.state v n o
    r.1.emit = [] ∧ (∃ p', r.1.progress.get v = some p' ∧ p'.Nodup ∧ ∀ t, t ∈ p' ↔ t ∈ work m (n :: rs)) ∧
    (∀ t, endTask m n = some t → n ∉ rs → r.2 = if t ∈ s.eligible then [⟨v, t⟩] else []) ∧
    (¬ ((endTask m n).isSome = true ∧ n ∉ rs) →
      (wpOf m n = none → r.2 = []) ∧
      ∀ w, wpOf m n = some w → ∃ l : List Int, l.Nodup ∧ r.2 = l.map (Out.mk v) ∧
        ∀ t, t ∈ l ↔ t ∈ work m rs ∧ t ∉ w.tasks ∧ t ∈ s.eligible) := by
  by_cases hend : (endTask m n).isSome = true ∧ n ∉ rs
  · obtain ⟨t, ht⟩ := Option.isSome_iff_exists.mp hend.1
    have he' := (ending_eq m t n).mpr ht
    have ho' : s.override.get v = some (t, n) := by rw [ho, he']; simp [Option.filter, hend.2]
    have hst : s.state v n o = ({ s with
          progress := s.progress.put v (p.filter (· != t))
          override := s.override.del v }, if t ∈ s.eligible then [⟨v, t⟩] else []) := by
      rw [St.state, ho']; simp only [if_true, hp]
    rw [hst]
    refine ⟨he, ⟨p.filter (· != t), by simp [Map.get_put], hn.filter _, ?_⟩, ?_, fun hc => absurd hend hc⟩
    · intro x
      rw [work, if_pos hend, ht]
      simp [hw]
    · intro t' ht' _
      rw [ht] at ht'; cases ht'; rfl
  · have hst : s.state v n o = s.follow v n o := by
      rw [St.state, ho]
      cases hx : ending m with
      | none => rfl
      | some x =>
        obtain ⟨t, e⟩ := x
        have hte := (ending_eq m t e).mp hx
        by_cases hr : e ∈ rs
        · simp [Option.filter, hr]
        · have hne : n ≠ e := by rintro rfl; exact hend ⟨by rw [hte]; rfl, hr⟩
          simp [Option.filter, hr, hne]
    rw [hst, St.follow, hm]
    simp only []
    have hw' : work m (n :: rs) = match wpOf m n with
      | none => work m rs
      | some w => w.tasks := by rw [work, if_neg hend]
    rw [hw']
    change _ ∧ _ ∧ _ ∧ (_ → (wpOf m n = none → _) ∧ _)
    rw [show (m.find? fun w => w.number == n) = wpOf m n from rfl]
    cases hwp : wpOf m n with
    | none =>
      refine ⟨he, ⟨p, by simp [Map.get_put, hp], hn, hw⟩, ?_, fun _ => ⟨fun _ => rfl, ?_⟩⟩
      · intro t ht hr
        exact absurd ⟨by rw [ht]; rfl, hr⟩ hend
      · intro w hh; cases hh
    | some w =>
      have hmem : w ∈ m := List.mem_of_find?_eq_some hwp
      obtain ⟨hlt, htp⟩ := hpl w hmem
      have hk : ¬ 0 < w.number.tdiv 10000 := by
        have : w.number.tdiv 10000 ≤ 0 := by
          by_cases h0 : 0 ≤ w.number
          · rw [Int.tdiv_eq_ediv_of_nonneg h0]; omega
          · have := Int.neg_tdiv (a := - w.number) (b := 10000)
            rw [Int.neg_neg, Int.tdiv_eq_ediv_of_nonneg (a := - w.number) (by omega)] at this
            omega
        omega
      simp only [St.onWaypoint, hk, if_false, hp, Option.getD_some, he]
      have hids : ∀ x ∈ arrange o (w.tasks.foldl insert p), x ≠ w.number.tdiv 10000 := by
        intro x hx
        rw [mem_arrange, mem_inserts, hw] at hx
        have : 0 < x := by
          rcases hx with hx | hx
          · exact hpos x hx
          · exact htp x hx
        omega
      obtain ⟨h₁, h₂, h₃⟩ := plain_visits s.eligible v w _ hids ⟨[], (s.counter.get v).getD [], [], []⟩ rfl
      have hnd : (arrange o (w.tasks.foldl insert p)).Nodup := nodup_arrange o (nodup_inserts _ _ hn)
      refine ⟨h₁, ⟨_, by rw [Map.get_put, if_pos rfl], ?_, ?_⟩, ?_, fun _ => ⟨(by intro hh; cases hh), ?_⟩⟩
      · rw [h₂, List.nil_append]; exact hnd.filter _
      · intro t
        rw [h₂]
        simp only [List.nil_append, List.mem_filter, mem_arrange, mem_inserts, decide_eq_true_eq]
        grind
      · intro t ht hr
        exact absurd ⟨by rw [ht]; rfl, hr⟩ hend
      · intro w' hw'
        cases hw'
        refine ⟨_, hnd.filter _, by rw [h₃]; rfl, ?_⟩
        intro t
        simp only [List.mem_filter, mem_arrange, mem_inserts, decide_eq_true_eq, hw]
        grind

theorem work_mem (m : List Wp) (rs : List Int) : ∀ t ∈ work m rs, ∃ w ∈ m, t ∈ w.tasks := by
  induction rs with
  | nil => simp [work]
  | cons n rs ih =>
    intro t ht
    rw [work] at ht
    split at ht
    · exact ih t (List.mem_filter.mp ht).1
    · cases hw : wpOf m n with
      | none => rw [hw] at ht; exact ih t ht
      | some w => rw [hw] at ht; exact ⟨w, List.mem_of_find?_eq_some hw, ht⟩

theorem plain_since {h g : List In} {v : Int} {m : List Wp} (hp : Plain h) (hs : Since h v m g) :
    ∀ w ∈ m, w.number < 10000 ∧ ∀ t ∈ w.tasks, 0 < t := by
  obtain ⟨h₁, ms, rfl, hm, -⟩ := hs
  obtain ⟨x, hx, rfl⟩ := missionFor_some hm
  exact fun w hw => hp (.missions ms) (by simp) x hx w hw

theorem plain_work {h g : List In} {v : Int} {m : List Wp} (hp : Plain h) (hs : Since h v m g) (rs : List Int) :
    ∀ t ∈ work m rs, 0 < t := by
  intro t ht
  obtain ⟨w, hw, hw'⟩ := work_mem m rs t ht
  exact (plain_since hp hs w hw).2 t hw'

/-- For the proofs: what holds after histories with plain waypoint numbers. -/
structure PInv (h : List In) (s : St) : Prop where
  emit : s.emit = []
  progress : ∀ v m g, Since h v m g → ∃ p, s.progress.get v = some p ∧ p.Nodup ∧
    ∀ t, t ∈ p ↔ t ∈ work m (reports v g)

theorem pinv (h : List In) (hf : Fine h) (hp : Plain h) : PInv h (after h) := by
  induction h using snocRec with
  | nil =>
    refine ⟨rfl, ?_⟩
    rintro v m g ⟨h₁, ms, e, _⟩; simp at e
  | append_singleton h i ih =>
    have hf' : Fine h := fun id hid => hf id (by simp [hid])
    have hp' : Plain h := fun i hi => hp i (by simp [hi])
    have ih := ih hf' hp'
    have hi := inv h hf'
    rw [after_snoc]
    generalize after h = s at ih hi
    have hst : ∀ x : St × List Out, (if s.ub = true then (s, []) else x) = x := fun x => by rw [hi.ub]; rfl
    rw [step.eq_def, hst]
    cases i with
    | task id k =>
      have hk : k ≠ .loiter none := by rintro rfl; exact hf id (by simp)
      obtain ⟨-, -, e₃, e₄, -, -⟩ := task_frame s id k hk
      refine ⟨by rw [e₄, ih.emit], ?_⟩
      intro v m g hs
      rw [e₃]
      rcases since_snoc.mp hs with ⟨hm, -⟩ | ⟨-, g', rfl, hs'⟩
      · simp [In.ms, missionFor] at hm
      · rw [reports_snoc]; exact ih.progress v m g' hs'
    | missions ms =>
      obtain ⟨-, e₂, -, e₄, -, -⟩ := missions_fold s ms
      refine ⟨by rw [e₄, ih.emit], ?_⟩
      intro v m g hs
      rw [e₂]
      rcases since_snoc.mp hs with ⟨hm, rfl⟩ | ⟨hn, g', rfl, hs'⟩
      · rw [show missionFor v ms = some m from hm]
        exact ⟨[], rfl, List.nodup_nil, by simp [reports, work]⟩
      · rw [show missionFor v ms = none from hn, reports_snoc]; exact ih.progress v m g' hs'
    | state u n o =>
      obtain ⟨-, -, -, -, e₅, -, -⟩ := state_frame s u n o
      have key : (∀ m g, Since h u m g → (s.state u n o).1.emit = [] ∧ ∃ p', (s.state u n o).1.progress.get u = some p' ∧
          p'.Nodup ∧ ∀ t, t ∈ p' ↔ t ∈ work m (n :: reports u g)) := by
        intro m g hs
        obtain ⟨p, hp₁, hp₂, hp₃⟩ := ih.progress u m g hs
        obtain ⟨h₁, h₂, -⟩ := state_plain (n := n) (o := o) (hi.mission u m g hs) (hi.override u m g hs) hp₁ hp₂ hp₃ ih.emit
          (plain_work hp' hs _) (plain_since hp' hs)
        exact ⟨h₁, h₂⟩
      refine ⟨?_, ?_⟩
      · by_cases hex : ∀ i ∈ h, missionFor u i.ms = none
        · obtain ⟨h₁, h₂⟩ := hi.without u hex
          change (s.state u n o).1.emit = []
          rw [St.state, h₂]
          simp only []
          rw [St.follow, h₁]
          exact ih.emit
        · obtain ⟨m, g, hs⟩ := exists_since h u hex
          exact (key m g hs).1
      · intro v m g hs
        rcases since_snoc.mp hs with ⟨hm, -⟩ | ⟨-, g', rfl, hs'⟩
        · simp [In.ms, missionFor] at hm
        · rw [reports_snoc]
          by_cases hu : u = v
          · subst hu
            obtain ⟨-, h₂⟩ := key m g' hs'
            simpa [In.report] using h₂
          · obtain ⟨p, hp₁⟩ := ih.progress v m g' hs'
            change ∃ p, (s.state u n o).1.progress.get v = some p ∧ _
            rw [e₅ v fun e => hu e.symm]
            simpa [In.report, hu] using ⟨p, hp₁⟩

theorem work_reported (m : List Wp) (rs : List Int) :
    ∀ t ∈ work m rs, ∃ a ∈ rs, ∃ w, wpOf m a = some w ∧ t ∈ w.tasks := by
  induction rs with
  | nil => simp [work]
  | cons n rs ih =>
    intro t ht
    rw [work] at ht
    split at ht
    · obtain ⟨a, ha, hw⟩ := ih t (List.mem_filter.mp ht).1
      exact ⟨a, by simp [ha], hw⟩
    · cases hw : wpOf m n with
      | none =>
        rw [hw] at ht
        obtain ⟨a, ha, hw⟩ := ih t ht
        exact ⟨a, by simp [ha], hw⟩
      | some w => rw [hw] at ht; exact ⟨n, by simp, w, hw, ht⟩

theorem sends_eq {h : List In} (hf : Fine h) (v n : Int) (o : List Int) :
    sends h (.state v n o) = ((after h).state v n o).2 := by
  have hub := (inv h hf).ub
  have hst : ∀ x : St × List Out, (if (after h).ub = true then (after h, []) else x) = x := fun x => by rw [hub]; rfl
  rw [sends, step.eq_def, hst]

/-! ## The claims -/

/-- Specification: the report is the first one, since the command, of the end of a mission
whose last waypoint leads to itself. -/
def FirstEnd (m : List Wp) (rs : List Int) (n : Int) : Prop := (endTask m n).isSome = true ∧ n ∉ rs

instance : Decidable (FirstEnd m rs n) := inferInstanceAs (Decidable (_ ∧ _))

/-- What is sent for a report, when the waypoints have plain numbers: the tasks that the vehicle was working on and that
the reported waypoint does not name, each once. -/
theorem C79_exact_partial {h g : List In} {v n : Int} {m : List Wp} {w : Wp} {o : List Int} (hf : Fine h) (hp : Plain h)
    (hs : Since h v m g) (hn : ¬ FirstEnd m (reports v g) n) (hw : wpOf m n = some w) :
    (sends h (.state v n o)).Nodup ∧ ∀ u t, ⟨u, t⟩ ∈ sends h (.state v n o) ↔
      u = v ∧ t ∈ work m (reports v g) ∧ t ∉ w.tasks ∧ Eligible h t := by
  have hi := inv h hf
  have hpi := pinv h hf hp
  obtain ⟨p, hp₁, hp₂, hp₃⟩ := hpi.progress v m g hs
  obtain ⟨-, -, -, h₄⟩ := state_plain (n := n) (o := o) (hi.mission v m g hs) (hi.override v m g hs) hp₁ hp₂ hp₃ hpi.emit
    (plain_work hp hs _) (plain_since hp hs)
  obtain ⟨l, hl₁, hl₂, hl₃⟩ := (h₄ hn).2 w hw
  rw [sends_eq hf, hl₂]
  refine ⟨?_, ?_⟩
  · rw [List.nodup_iff_pairwise_ne, List.pairwise_map]
    exact hl₁.imp (by intro a b hab e; exact hab (by cases e; rfl))
  · intro u t
    simp only [List.mem_map, Out.mk.injEq, hl₃, ← hi.eligible]
    constructor
    · rintro ⟨a, ha, rfl, rfl⟩; exact ⟨rfl, ha⟩
    · rintro ⟨rfl, ha⟩; exact ⟨t, ha, rfl, rfl⟩

/-- A vehicle that goes from a waypoint of a task to one that is not of it has ended the task, and this is reported once.
Missing: numbers from 10000 on, see the violations below. -/
theorem C79_left_partial {h g₁ g₂ : List In} {v a n t : Int} {m : List Wp} {wa w : Wp} {o o' : List Int} (hf : Fine h)
    (hp : Plain h) (hs : Since h v m (g₁ ++ .state v a o' :: g₂)) (hg : ∀ i ∈ g₂, i.report v = none)
    (ha : wpOf m a = some wa) (hta : t ∈ wa.tasks) (hae : ¬ FirstEnd m (reports v g₁) a)
    (hw : wpOf m n = some w) (htn : t ∉ w.tasks) (hne : ¬ FirstEnd m (a :: reports v g₁) n) (he : Eligible h t) :
    (sends h (.state v n o)).count ⟨v, t⟩ = 1 := by
  have hr : reports v (g₁ ++ .state v a o' :: g₂) = a :: reports v g₁ := by
    have : g₂.filterMap (In.report v) = [] := List.filterMap_eq_nil_iff.mpr hg
    simp [reports, this, In.report]
  obtain ⟨h₁, h₂⟩ := C79_exact_partial (n := n) (o := o) hf hp hs (by rw [hr]; exact hne) hw
  have hmem : (⟨v, t⟩ : Out) ∈ sends h (.state v n o) := by
    refine (h₂ v t).mpr ⟨rfl, ?_, htn, he⟩
    rw [FirstEnd] at hae
    rw [hr, work, if_neg hae, ha]
    exact hta
  rw [h₁.count, if_pos hmem]

/-- A task is reported for a vehicle only if, since its latest command, it has been on a waypoint of the task and is now on
one that is not of it, or if it has come to the end of the mission for the first time and the task is the last one; and no
report brings the same message twice.  Missing: numbers from 10000 on. -/
theorem C80_only_partial {h : List In} {i : In} {v t : Int} (hf : Fine h) (hp : Plain h) (hx : ⟨v, t⟩ ∈ sends h i) :
    (sends h i).Nodup ∧ ∃ n o m g, i = .state v n o ∧ Since h v m g ∧ Eligible h t ∧
      ((endTask m n = some t ∧ n ∉ reports v g) ∨
        ∃ w, wpOf m n = some w ∧ t ∉ w.tasks ∧ ∃ a ∈ reports v g, ∃ wa, wpOf m a = some wa ∧ t ∈ wa.tasks) := by
  have hi := inv h hf
  have hst : ∀ x : St × List Out, (if (after h).ub = true then (after h, []) else x) = x := fun x => by rw [hi.ub]; rfl
  cases i with
  | task _ _ => rw [sends, step.eq_def, hst] at hx; cases hx
  | missions _ => rw [sends, step.eq_def, hst] at hx; cases hx
  | state u n o =>
    obtain ⟨-, -, -, -, -, f₆, f₇⟩ := state_frame (after h) u n o
    have hx' := hx
    rw [sends_eq hf] at hx'
    obtain ⟨rfl, hel⟩ := f₆ _ hx'
    have hel := (hi.eligible t).mp hel
    by_cases hex : ∀ i ∈ h, missionFor v i.ms = none
    · obtain ⟨h₁, h₂⟩ := hi.without v hex
      rw [f₇ h₂ h₁] at hx'
      cases hx'
    · obtain ⟨m, g, hs⟩ := exists_since h v hex
      have hpi := pinv h hf hp
      obtain ⟨p, hp₁, hp₂, hp₃⟩ := hpi.progress v m g hs
      obtain ⟨-, -, h₃, h₄⟩ := state_plain (n := n) (o := o) (hi.mission v m g hs) (hi.override v m g hs) hp₁ hp₂ hp₃
        hpi.emit (plain_work hp hs _) (plain_since hp hs)
      by_cases hend : FirstEnd m (reports v g) n
      · obtain ⟨t', ht'⟩ := Option.isSome_iff_exists.mp hend.1
        have := h₃ t' ht' hend.2
        have hnd : (sends h (.state v n o)).Nodup := by
          rw [sends_eq hf, this]; split <;> simp
        refine ⟨hnd, n, o, m, g, rfl, hs, hel, .inl ⟨?_, hend.2⟩⟩
        rw [this] at hx'
        split at hx'
        · simp only [List.mem_singleton, Out.mk.injEq, true_and] at hx'; rw [hx', ht']
        · cases hx'
      · cases hw : wpOf m n with
        | none => rw [(h₄ hend).1 hw] at hx'; cases hx'
        | some w =>
          obtain ⟨e₁, e₂⟩ := C79_exact_partial (o := o) hf hp hs hend hw
          obtain ⟨-, k₁, k₂, -⟩ := (e₂ v t).mp hx
          exact ⟨e₁, n, o, m, g, rfl, hs, hel, (.inr ⟨w, hw, k₂, work_reported m _ t k₁⟩)⟩

/-- The first report of the end of a mission whose last waypoint leads to itself ends the last task of the mission, whatever
the numbers of the waypoints. -/
theorem C81_end {h g : List In} {v n t : Int} {m : List Wp} {o : List Int} (hf : Fine h) (hs : Since h v m g)
    (he : endTask m n = some t) (hn : n ∉ reports v g) :
    (Eligible h t → sends h (.state v n o) = [⟨v, t⟩]) ∧ (¬ Eligible h t → sends h (.state v n o) = []) := by
  have hi := inv h hf
  have ho := hi.override v m g hs
  rw [(ending_eq m t n).mpr he] at ho
  have ho : (after h).override.get v = some (t, n) := by rw [ho]; simp [Option.filter, hn]
  rw [sends_eq hf, St.state, ho]
  simp only [if_true]
  constructor
  · intro h; rw [if_pos ((hi.eligible t).mpr h)]
  · intro h; rw [if_neg fun hh => h ((hi.eligible t).mp hh)]

/-- While the vehicle stays at the end, the last task is not reported again.  Missing: numbers from 10000 on. -/
theorem C81_stays_partial {h g₁ g₂ : List In} {v n t : Int} {m : List Wp} {o o' : List Int} (hf : Fine h) (hp : Plain h)
    (hs : Since h v m (g₁ ++ .state v n o' :: g₂)) (he : endTask m n = some t) (hg : ∀ k ∈ reports v g₂, k = n) :
    ⟨v, t⟩ ∉ sends h (.state v n o) := by
  have hr : reports v (g₁ ++ .state v n o' :: g₂) = reports v g₂ ++ n :: reports v g₁ := by
    simp [reports, In.report]
  have hw : ∃ w, wpOf m n = some w := by
    rw [endTask] at he
    cases hl : m.getLast? with
    | none => rw [hl] at he; cases he
    | some w =>
      rw [hl] at he
      simp only [] at he
      split at he
      · next hc =>
        have hmem : w ∈ m := List.mem_of_getLast? hl
        have : (wpOf m n).isSome = true := List.find?_isSome.mpr ⟨w, hmem, by simp [hc.1]⟩
        exact Option.isSome_iff_exists.mp this
      · cases he
  obtain ⟨w, hw⟩ := hw
  have hend : ¬ FirstEnd m (reports v (g₁ ++ .state v n o' :: g₂)) n := by
    rw [hr]; exact fun hc => hc.2 (by simp)
  intro hx
  obtain ⟨-, h₂, h₃, -⟩ := (C79_exact_partial hf hp hs hend hw).2 v t |>.mp hx
  rw [hr] at h₂
  have aux : ∀ l : List Int, (∀ k ∈ l, k = n) → t ∈ work m (l ++ n :: reports v g₁) → t ∈ w.tasks := by
    intro l hl ht
    cases l with
    | nil =>
      rw [List.nil_append, work] at ht
      split at ht
      · rw [he] at ht; simp at ht
      · rw [hw] at ht; exact ht
    | cons k l =>
      have : k = n := hl k (by simp)
      subst this
      rw [List.cons_append, work, if_neg (fun hc => hc.2 (by simp)), hw] at ht
      exact ht
  exact h₃ (aux _ hg h₂)

/-- Only tasks that were received with an end are reported, only for the vehicle whose state comes in, and only once it has
a mission, whatever the numbers of the waypoints. -/
theorem C82_eligible {h : List In} {i : In} {v t : Int} (hf : Fine h) (hx : ⟨v, t⟩ ∈ sends h i) :
    Eligible h t ∧ (∃ n o, i = .state v n o) ∧ ∃ m g, Since h v m g := by
  have hi := inv h hf
  have hst : ∀ x : St × List Out, (if (after h).ub = true then (after h, []) else x) = x := fun x => by rw [hi.ub]; rfl
  cases i with
  | task _ _ => rw [sends, step.eq_def, hst] at hx; cases hx
  | missions _ => rw [sends, step.eq_def, hst] at hx; cases hx
  | state u n o =>
    obtain ⟨-, -, -, -, -, f₆, f₇⟩ := state_frame (after h) u n o
    rw [sends_eq hf] at hx
    obtain ⟨rfl, hel⟩ := f₆ _ hx
    refine ⟨(hi.eligible t).mp hel, ⟨n, o, rfl⟩, ?_⟩
    by_cases hex : ∀ i ∈ h, missionFor v i.ms = none
    · obtain ⟨h₁, h₂⟩ := hi.without v hex
      rw [f₇ h₂ h₁] at hx
      cases hx
    · exact exists_since h v hex

/-! ## Cases -/

/-- For the examples: task 5 on waypoints 1 and 2, task 6 on waypoint 3, which is the end.
-/
def m₁ : List Wp := [⟨1, 2, [5]⟩, ⟨2, 3, [5]⟩, ⟨3, 3, [6]⟩]

/-- For the examples: the tasks and the mission are received. -/
def h₁ : List In := [.task 5 .other, .task 6 (.loiter (some 100)), .missions [⟨1, m₁⟩]]

example : Fine h₁ ∧ Plain h₁ := by
  refine ⟨by intro id; simp [h₁], ?_⟩
  intro i hi
  simp only [h₁, List.mem_cons, List.not_mem_nil, or_false] at hi
  rcases hi with rfl | rfl | rfl <;> simp [In.ms, m₁]

example : Since h₁ 1 m₁ [] := ⟨[.task 5 .other, .task 6 (.loiter (some 100))], [⟨1, m₁⟩], rfl, rfl, by simp⟩

example : endTask m₁ 3 = some 6 ∧ endTask m₁ 2 = none := by decide
example : Eligible h₁ 5 ∧ Eligible h₁ 6 := ⟨⟨.other, by simp [h₁], rfl⟩, ⟨.loiter (some 100), by simp [h₁], rfl⟩⟩

/-- For the examples: a mission with a waypoint of no task after the end of task 5, and no
loop. -/
def m₂ : List Wp := [⟨1, 2, [5]⟩, ⟨2, 3, []⟩]

example : sends [.task 5 .other, .missions [⟨1, m₂⟩], .state 1 1 []] (.state 1 2 []) = [⟨1, 5⟩] := by decide
example : sends (h₁ ++ [.state 1 1 [], .state 1 2 []]) (.state 1 3 []) = [⟨1, 6⟩] := by decide
example : sends (h₁ ++ [.state 1 1 [], .state 1 2 [], .state 1 3 []]) (.state 1 3 []) = [⟨1, 5⟩] := by decide

/-- A waypoint whose number names another task than its list: the end of the task is reported twice. -/
theorem C79_violated_twice : ∃ h v n t, Fine h ∧ (sends h (.state v n [])).count ⟨v, t⟩ = 2 :=
  ⟨[.task 5 .other, .missions [⟨1, [⟨10001, 20001, [5]⟩, ⟨20001, 20002, [6]⟩]⟩], .state 1 10001 []], 1, 20001, 5,
    by intro id; simp, by decide⟩

/-- The vehicle leaves task 5; another task is reported, because of a waypoint in the mission of another vehicle. -/
theorem C79_violated_lost : ∃ h, Fine h ∧ Eligible h 5 ∧
    sends h (.state 1 2 []) = [⟨1, 7⟩] ∧ Since h 1 m₂ [.state 1 1 [], .state 2 50001 []] :=
  ⟨[.task 5 .other, .task 7 .other, .missions [⟨2, [⟨50001, 50002, [7]⟩, ⟨50002, 50003, []⟩]⟩], .missions [⟨1, m₂⟩],
      .state 1 1 [], .state 2 50001 []],
    by intro id; simp, ⟨.other, by simp, rfl⟩, by decide,
    [.task 5 .other, .task 7 .other, .missions [⟨2, [⟨50001, 50002, [7]⟩, ⟨50002, 50003, []⟩]⟩]], [⟨1, m₂⟩], rfl, rfl, by
      simp [In.ms, missionFor]⟩

/-- A task is reported for a vehicle whose mission does not have it. -/
theorem C80_violated_other : ∃ h m g, Fine h ∧ Since h 1 m g ∧ (∀ w ∈ m, 7 ∉ w.tasks ∧ w.number / 10000 ≠ 7) ∧
    ⟨1, 7⟩ ∈ sends h (.state 1 2 []) := by
  obtain ⟨h, h₁, -, h₂, h₃⟩ := C79_violated_lost
  exact ⟨h, m₂, _, h₁, h₃, by decide, by rw [h₂]; simp⟩

/-- The counter of the waypoints of a task outlives the mission: the vehicle is given the task anew, and its first report,
at the first waypoint of the task, ends the task. -/
theorem C80_violated_stale : ∃ h m, Fine h ∧ Since h 1 m [] ∧ Eligible h 1 ∧ (∀ w ∈ m, w.tasks = [1] ∧ w.number / 10000 = 1) ∧
    sends h (.state 1 10001 []) = [⟨1, 1⟩] :=
  ⟨[.task 1 .other, .missions [⟨1, [⟨10001, 10002, [1]⟩, ⟨10002, 10003, [1]⟩]⟩], .state 1 10002 [],
      .missions [⟨1, [⟨10001, 10002, [1]⟩, ⟨10002, 10003, [1]⟩]⟩]], [⟨10001, 10002, [1]⟩, ⟨10002, 10003, [1]⟩],
    by intro id; simp,
    ⟨[.task 1 .other, .missions [⟨1, [⟨10001, 10002, [1]⟩, ⟨10002, 10003, [1]⟩]⟩], .state 1 10002 []], _, rfl, rfl, by simp⟩,
    ⟨.other, by simp, rfl⟩, by decide, by decide⟩

/-- For the same reason the last task is reported again while the vehicle stays at the end. -/
theorem C81_violated_repeat : ∃ h m, Fine h ∧ Since h 1 m [.state 1 10001 []] ∧ endTask m 10001 = some 1 ∧
    sends h (.state 1 10001 []) = [⟨1, 1⟩] :=
  ⟨[.task 1 .other, .missions [⟨1, [⟨10001, 10002, [1]⟩, ⟨10002, 10003, [1]⟩]⟩], .state 1 10002 [],
      .missions [⟨1, [⟨10001, 10001, [1]⟩]⟩], .state 1 10001 []], [⟨10001, 10001, [1]⟩],
    by intro id; simp,
    ⟨[.task 1 .other, .missions [⟨1, [⟨10001, 10002, [1]⟩, ⟨10002, 10003, [1]⟩]⟩], .state 1 10002 []], _, rfl, rfl, by
      simp [In.ms, missionFor]⟩, by decide, by decide⟩

end Verif.Tracker
