import Verif.Stare.Commands
import Verif.Blockade.Model

/-!
# Watching with several vehicles (C164)

`MultiVehicleWatchTaskService`, src/cpp/Tasks/MultiVehicleWatchTaskService.cpp.
-/

namespace Verif.Stare

open Verif.Blockade (Kind)

/-- A `Location3D`. -/
structure Loc where
  lat : ℝ
  lon : ℝ
  alt : ℝ
  altType : ℤ

/-- What counts of an `EntityConfiguration`. -/
structure VConfig where
  kind : Kind
  /-- `getNominalSpeed()`. -/
  speed : ℝ
  payloads : List Payload

/-- What counts of an `EntityState`. -/
structure VState where
  id : ℤ
  at_ : Loc
  heading : ℝ
  groundspeed : ℝ

/-- The actions of a `VehicleActionCommand`. -/
inductive Act where
  /-- A `LoiterAction`, counter-clockwise and without end. -/
  | loiter (at_ : Loc) (speed radius : ℝ) (hover : Bool) (tasks : List ℤ)
  /-- A `GimbalStareAction` without end. -/
  | stare (payload : ℤ) (at_ : Loc) (tasks : List ℤ)

/-- A `TaskOption`; its start and its end are the same. -/
structure Choice where
  option : ℤ
  eligible : List ℤ
  task : ℤ
  at_ : Loc
  heading : ℝ

/-- What is sent. -/
inductive Out where
  | options (choices : List Choice) (composition : String)
  | command (vehicle : ℤ) (acts : List Act)

/-- The members that count. -/
structure Watch where
  /-- `getTaskID()`. -/
  task : ℤ
  /-- `getWatchedEntityID()`. -/
  watched : ℤ
  /-- `getNumberVehicles()`. -/
  number : ℕ
  /-- `getEligibleEntities()`. -/
  eligible : List ℤ
  /-- `m_entityConfigurations`. -/
  configs : Map VConfig
  /-- `m_watchedEntityStateLast`. -/
  last : Option VState

/-- What happens to the task. -/
inductive Happening where
  /-- An `EntityConfiguration`. -/
  | config (id : ℤ) (c : VConfig)
  /-- An `EntityState`.  `atWork`: the entity is assigned to the task and its state says that it does it
  (TaskServiceBase.cpp 258-264). -/
  | state (s : VState) (atWork : Bool)
  /-- Options are asked for; the vehicles asked for, by speed and altitude (`m_speedAltitudeVsEligibleEntityIdsRequested`). -/
  | asked (groups : List (List ℤ))

/-- MultiVehicleWatchTaskService.cpp 231-269: the radius, and whether to hover.  The radius from the speed (258-264) is
overwritten (267). -/
noncomputable def watchRadius : Option VConfig → ℝ × Bool
  | none => (300, false)
  | some c =>
      match c.kind with
      | .ground => (0, true)
      | .surface => (0, true)
      | .air => (300, false)
      | .other => (300, false)

/-- MultiVehicleWatchTaskService.cpp 227-297, `CalculateGimbalActions`, with the call at 215. -/
noncomputable def gimbalActs (task : ℤ) (c : Option VConfig) (s w : VState) : List Act :=
  .loiter { lat := w.at_.lat, lon := w.at_.lon, alt := s.at_.alt, altType := s.at_.altType }
    ((c.map (·.speed)).getD s.groundspeed) (watchRadius c).1 (watchRadius c).2 [task] ::
  (((c.map (·.payloads)).getD []).filterMap Payload.gimbalId?).map fun g => .stare g w.at_ [task]

/-- MultiVehicleWatchTaskService.cpp 203-225, `activeEntityState`. -/
noncomputable def Watch.active (k : Watch) (s : VState) : List Out :=
  match k.last with
  | some w => [.command s.id (gimbalActs k.task (k.configs.get s.id) s w)]
  | none => []

/-- MultiVehicleWatchTaskService.cpp 153-163: the composition. -/
def composition (ids : List ℤ) : String := ".(" ++ String.join (ids.map fun i => "p" ++ toString i ++ " ") ++ ")"

/-- MultiVehicleWatchTaskService.cpp 124-201, `buildTaskPlanOptions` and `isCalculateOption`; the list of options is new
(TaskServiceBase.cpp 528; a task that is taken up again, 382-492, is left out).  The number of vehicles is computed (145-149) and not used. -/
def Watch.choices (k : Watch) (groups : List (List ℤ)) : List Out :=
  match k.last with
  | some w =>
      [.options (groups.flatten.map fun i =>
          { option := i, eligible := [i], task := k.task, at_ := w.at_, heading := w.heading }) (composition groups.flatten)]
  | none => if groups.flatten = [] then [.options [] (composition [])] else []

/-- One message: TaskServiceBase.cpp 248-655 and MultiVehicleWatchTaskService.cpp 109-122, which comes last. -/
noncomputable def Watch.step (k : Watch) : Happening → Watch × List Out
  | .config id c =>
      ({ k with configs := if (k.eligible = [] ∨ id ∈ k.eligible) ∧ k.configs.get id = none then k.configs.put id c else k.configs },
        [])
  | .state s atWork =>
      ({ k with last := if s.id = k.watched then some s else k.last }, if atWork then k.active s else [])
  | .asked groups => (k, k.choices groups)

/-- Messages in turn. -/
noncomputable def Watch.after (k : Watch) : List Happening → Watch
  | [] => k
  | h :: hs => (k.step h).1.after hs

/-! ### What is known -/

/-- The last state of an entity among some messages. -/
def lastState (id : ℤ) : Option VState → List Happening → Option VState
  | l, [] => l
  | l, .state s _ :: hs => lastState id (if s.id = id then some s else l) hs
  | l, _ :: hs => lastState id l hs

/-- The first configuration of an entity among some messages. -/
def firstConfig (id : ℤ) : Option VConfig → List Happening → Option VConfig
  | some c, _ => some c
  | none, [] => none
  | none, .config i c :: hs => if i = id then some c else firstConfig id none hs
  | none, _ :: hs => firstConfig id none hs

theorem firstConfig_some (id : ℤ) (c : VConfig) (hs : List Happening) : firstConfig id (some c) hs = some c := by cases hs <;> rfl

theorem after_fixed (k : Watch) (hs : List Happening) :
    (k.after hs).task = k.task ∧ (k.after hs).watched = k.watched ∧ (k.after hs).eligible = k.eligible := by
  induction hs generalizing k with
  | nil => exact ⟨rfl, rfl, rfl⟩
  | cons h hs ih =>
      obtain ⟨h1, h2, h3⟩ := ih (k.step h).1
      rw [Watch.after, h1, h2, h3]
      cases h <;> exact ⟨rfl, rfl, rfl⟩

theorem after_last (k : Watch) (hs : List Happening) : (k.after hs).last = lastState k.watched k.last hs := by
  induction hs generalizing k with
  | nil => rfl
  | cons h hs ih =>
      rw [Watch.after, ih]
      cases h <;> rfl

theorem after_config (k : Watch) {id : ℤ} (hid : k.eligible = [] ∨ id ∈ k.eligible) (hs : List Happening) :
    (k.after hs).configs.get id = firstConfig id (k.configs.get id) hs := by
  induction hs generalizing k with
  | nil => rw [Watch.after]; cases k.configs.get id <;> rfl
  | cons h hs ih =>
      cases h with
      | config i c =>
          rw [Watch.after, Watch.step, ih]
          · by_cases hi : i = id
            · subst hi
              cases hc : k.configs.get i with
              | some d => simp only [reduceCtorEq, and_false, if_false]; rw [hc, firstConfig_some, firstConfig_some]
              | none =>
                  simp only
                  rw [if_pos ⟨hid, trivial⟩, Map.get_put, if_pos rfl, firstConfig_some, firstConfig, if_pos rfl]
            · have e : (if (k.eligible = [] ∨ i ∈ k.eligible) ∧ k.configs.get i = none then k.configs.put i c else k.configs).get id
                  = k.configs.get id := by
                split
                · rw [Map.get_put, if_neg (Ne.symm hi)]
                · rfl
              simp only
              rw [e]
              cases k.configs.get id with
              | some d => rw [firstConfig_some, firstConfig_some]
              | none => rw [firstConfig, if_neg hi]
          · exact hid
      | state s a =>
          rw [Watch.after, Watch.step]
          refine (ih { k with last := if s.id = k.watched then some s else k.last } hid).trans ?_
          simp only
          cases k.configs.get id with
          | some d => rw [firstConfig_some, firstConfig_some]
          | none => rfl
      | asked g =>
          rw [Watch.after, Watch.step]
          refine (ih _ hid).trans ?_
          cases k.configs.get id with
          | some d => rw [firstConfig_some, firstConfig_some]
          | none => rfl

/-! ### The claims -/

/-- **C164.**  After any messages, the state of a vehicle that may do the task and does it: nothing is sent before there was a
state of the watched entity; afterwards one command is, to this vehicle.  It is to circle the last known place of the watched
entity at its own altitude, and to point every one of its gimbals there, in order and in the name of the task. -/
theorem C164_command (k : Watch) (hs : List Happening) (s : VState) (hv : k.eligible = [] ∨ s.id ∈ k.eligible) :
    (lastState k.watched k.last hs = none ∧ ((k.after hs).step (.state s true)).2 = []) ∨
    ∃ w, lastState k.watched k.last hs = some w ∧ ∃ acts speed radius hover,
      ((k.after hs).step (.state s true)).2 = [.command s.id (.loiter ⟨w.at_.lat, w.at_.lon, s.at_.alt, s.at_.altType⟩ speed radius
        hover [k.task] :: acts)] ∧
      (match firstConfig s.id (k.configs.get s.id) hs with
        | none => acts = [] ∧ speed = s.groundspeed ∧ radius = 300 ∧ hover = false
        | some c => acts = (c.payloads.filterMap Payload.gimbalId?).map (fun g => .stare g w.at_ [k.task]) ∧ speed = c.speed ∧
            ((c.kind = .ground ∨ c.kind = .surface) → radius = 0 ∧ hover = true) ∧
            (c.kind = .air → radius = 300 ∧ hover = false)) := by
  have hl := after_last k hs
  have hc := after_config k hv hs
  obtain ⟨ht, -, -⟩ := after_fixed k hs
  cases hw : lastState k.watched k.last hs with
  | none =>
      left
      rw [hw] at hl
      simp [Watch.step, Watch.active, hl]
  | some w =>
      right
      rw [hw] at hl
      refine ⟨w, rfl, ?_⟩
      simp only [Watch.step, if_true, Watch.active, hl]
      rw [hc, ht]
      cases firstConfig s.id (k.configs.get s.id) hs with
      | none => exact ⟨[], s.groundspeed, 300, false, rfl, rfl, rfl, rfl, rfl⟩
      | some c =>
          refine ⟨(c.payloads.filterMap Payload.gimbalId?).map (fun g => .stare g w.at_ [k.task]), c.speed, (watchRadius (some c)).1,
            (watchRadius (some c)).2, rfl, rfl, rfl, ?_, ?_⟩
          · rintro (h | h) <;> (rw [watchRadius, h]; exact ⟨rfl, rfl⟩)
          · intro h; rw [watchRadius, h]; exact ⟨rfl, rfl⟩

/-- **C164.**  Other messages bring no commands. -/
theorem C164_silent (k : Watch) (h : Happening) (hh : ∀ s, h ≠ .state s true) (v : ℤ) (acts : List Act) :
    .command v acts ∉ (k.step h).2 := by
  cases h with
  | config i c => simp [Watch.step]
  | state s a =>
      cases a with
      | true => exact absurd rfl (hh s)
      | false => simp [Watch.step]
  | asked g =>
      simp only [Watch.step, Watch.choices]
      split
      · simp
      · split <;> simp

/-- **C164.**  Options for some vehicles are offered once a state of the watched entity is known, and then one for each vehicle: its
number is the id of the vehicle, it alone may take it, and it begins and ends where the watched entity is, with its heading. -/
theorem C164_options (k : Watch) (hs : List Happening) (groups : List (List ℤ)) (hg : groups.flatten ≠ []) :
    (lastState k.watched k.last hs = none ∧ ((k.after hs).step (.asked groups)).2 = []) ∨
    ∃ w cs str, lastState k.watched k.last hs = some w ∧ ((k.after hs).step (.asked groups)).2 = [.options cs str] ∧
      cs.map (·.option) = groups.flatten ∧
      ∀ c ∈ cs, c.eligible = [c.option] ∧ c.task = k.task ∧ c.at_ = w.at_ ∧ c.heading = w.heading := by
  have hl := after_last k hs
  obtain ⟨ht, -, -⟩ := after_fixed k hs
  cases hw : lastState k.watched k.last hs with
  | none =>
      left
      rw [hw] at hl
      refine ⟨rfl, ?_⟩
      simp only [Watch.step, Watch.choices, hl]
      rw [if_neg hg]
  | some w =>
      right
      rw [hw] at hl
      simp only [Watch.step, Watch.choices, hl, ht]
      refine ⟨w, _, _, rfl, rfl, by rw [List.map_map]; exact List.map_id _, ?_⟩
      intro c hc
      simp only [List.mem_map] at hc
      obtain ⟨i, -, rfl⟩ := hc
      exact ⟨rfl, rfl, rfl, rfl⟩

/-- **C164.**  A task for any number of vehicles offers the same as one for any other number: what is composed is all of them. -/
theorem C164_number_violated (k : Watch) (n : ℕ) (hs : List Happening) (h : Happening) :
    (({ k with number := n } : Watch).after hs |>.step h).2 = ((k.after hs).step h).2 ∧
    ∀ w groups, k.last = some w → ∃ cs, (k.step (.asked groups)).2 = [.options cs (composition groups.flatten)] := by
  have e : ∀ (hs : List Happening) (k : Watch), ({ k with number := n } : Watch).after hs = { k.after hs with number := n } := by
    intro hs
    induction hs with
    | nil => intro k; rfl
    | cons h hs ih =>
        intro k
        rw [Watch.after, Watch.after, ← ih]
        cases h <;> rfl
  refine ⟨?_, ?_⟩
  · rw [e]
    cases h <;> rfl
  · intro w groups hw
    simp only [Watch.step, Watch.choices, hw]
    exact ⟨_, rfl⟩

end Verif.Stare
