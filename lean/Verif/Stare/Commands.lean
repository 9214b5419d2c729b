import Verif.AMap
import Verif.Trace
import Verif.Stare.Segments

/-!
# What searching vehicles are told (C163)

`activeEntityState` of `PatternSearchTaskService` (src/cpp/Tasks/PatternSearchTaskService.cpp 735-893), of
`CmasiPointSearchTaskService` (267-293) and of `CmasiAreaSearchTaskService` (640-692), for the states that
`TaskServiceBase` passes on: those of vehicles assigned to the task that report it (TaskServiceBase.cpp 256-265).

Simplified: positions are points of the plane; the reference latitude and longitude 0, which is where a location points
that was never filled in, is `none`.
-/

namespace Verif.Stare

open Complex

/-- A payload configuration: its id and what it is. -/
inductive Payload where
  | gimbal (id : ℤ)
  | camera (id : ℤ) (band : ℤ)
  | other (id : ℤ)
deriving DecidableEq

/-- The id of a gimbal. -/
def Payload.gimbalId? : Payload → Option ℤ
  | .gimbal i => some i
  | _ => none

/-- PatternSearchTaskService.cpp 793-805 and 853-865, CmasiAreaSearchTaskService.cpp 648-660: the first gimbal, 0 when there is
none or the configuration is not known. -/
def firstGimbal (cfg : Option (List Payload)) : ℤ := ((cfg.getD []).findSome? Payload.gimbalId?).getD 0

/-- CmasiPointSearchTaskService.cpp 270-277: the last gimbal. -/
def lastGimbal (cfg : Option (List Payload)) : ℤ :=
  (cfg.getD []).foldl (fun g p => (p.gimbalId?).getD g) 0

/-- What is sent. -/
inductive Sent where
  /-- A `VehicleActionCommand` with one `GimbalStareAction`: where to; `none` is latitude 0, longitude 0. -/
  | stare (vehicle payload : ℤ) (tasks : List ℤ) (point : Option ℂ) (alt : ℝ)
  /-- A `VehicleActionCommand` with one `GimbalAngleAction`. -/
  | angle (vehicle payload : ℤ) (tasks : List ℤ) (azimuth elevation : ℝ)
  /-- A `VideoStreamAction`. -/
  | stream (camera : ℤ)
  /-- A `VideoRecord`. -/
  | record

/-- Where the location points that `FindSensorStarePoint` was given: it is new, with everything 0 (line 743). -/
def Stare.point : Stare → Option ℂ × ℝ
  | .untouched => (none, 0)
  | .nowhere => (none, 0)
  | .onto z => (some z, 0)
  | .wholly p => (some p.at_, p.alt)

/-- The members of the task that count here. -/
structure Search where
  /-- `getTaskID()`. -/
  task : ℤ
  /-- `getEligibleEntities()`. -/
  eligible : List ℤ
  /-- `getDesiredWavelengthBands()`. -/
  bands : List ℤ
  /-- `m_entityConfigurations`. -/
  configs : Map (List Payload)
  /-- `m_optionIdVsSensorSteeringSegments`. -/
  planned : Map (List (ℤ × Steering))
  /-- `m_activeSensorSteeringSegments`. -/
  steering : Option (List (ℤ × Steering))
  /-- `m_optionWaypointIdVsFinalWaypointId`: the number in the option for that in the mission. -/
  numbers : Map ℤ
  /-- `m_isVideoStreamActionSent`. -/
  streamed : Bool

/-- What happens to a task. -/
inductive Event where
  /-- A configuration arrives: TaskServiceBase.cpp 308-321. -/
  | config (vehicle : ℤ) (payloads : List Payload)
  /-- A spiral is laid out for an option: PatternSearchTaskService.cpp 583. -/
  | planned (option : ℤ) (segs : List (ℤ × Steering))
  /-- An option is implemented: PatternSearchTaskService.cpp 723-733 and TaskServiceBase.cpp 891-944. -/
  | implemented (option : ℤ) (numbers : Map ℤ)
  /-- A state of a vehicle at work. -/
  | state (vehicle : ℤ) (pos : ℂ) (waypoint : ℤ)

/-- PatternSearchTaskService.cpp 749-785: the camera to show: the first of the first wavelength asked for. -/
def streamAction (s : Search) (vehicle : ℤ) : List Sent :=
  if s.streamed then []
  else
    match s.bands with
    | [] => []
    | band :: _ =>
        match ((s.configs.get vehicle).getD []).findSome? (fun p => match p with
            | .camera i b => if b = band then some i else none
            | _ => none) with
        | some i => [.stream i]
        | none => []

/-- PatternSearchTaskService.cpp 735-893, `activeEntityState`. -/
noncomputable def Search.active (s : Search) (vehicle : ℤ) (pos : ℂ) (waypoint : ℤ) : Outcome (Search × List Sent) :=
  match s.steering with
  | some m =>
      match s.numbers.get waypoint with
      | none => .ok (s, [])
      | some n =>
          (findIn m n pos).bind fun r =>
            .ok ({ s with streamed := true },
              streamAction s vehicle ++
                [.stare vehicle (firstGimbal (s.configs.get vehicle)) [s.task] r.point.1 r.point.2, .record])
  | none => .ok (s, [.angle vehicle (firstGimbal (s.configs.get vehicle)) [s.task] 0 (-80), .record])

/-- One event.  `insert` (TaskServiceBase.cpp 313 and PatternSearchTaskService.cpp 583) does not replace an entry that there is
already. -/
noncomputable def Search.step (s : Search) : Event → Outcome (Search × List Sent)
  | .config v ps =>
      .ok ({ s with
        configs := if (s.eligible = [] ∨ v ∈ s.eligible) ∧ s.configs.get v = none then s.configs.put v ps else s.configs }, [])
  | .planned o segs =>
      .ok ({ s with planned := match s.planned.get o with | some _ => s.planned | none => s.planned.put o segs }, [])
  | .implemented o numbers =>
      .ok ({ s with steering := (s.planned.get o).or s.steering, numbers := numbers }, [])
  | .state v pos w => s.active v pos w

/-- Events in turn, with all that is sent. -/
noncomputable def Search.run (s : Search) : List Event → Outcome (Search × List Sent)
  | [] => .ok (s, [])
  | e :: es => (s.step e).bind fun r => (r.1.run es).bind fun q => .ok (q.1, r.2 ++ q.2)

/-- CmasiPointSearchTaskService.cpp 267-293: `activeEntityState` of a point search. -/
def pointActive (configs : Map (List Payload)) (location : ℂ) (alt : ℝ) (vehicle : ℤ) : List Sent :=
  [.stare vehicle (lastGimbal (configs.get vehicle)) [] (some location) alt]

/-- CmasiAreaSearchTaskService.cpp 640-692: `activeEntityState` of an area search; the azimuth is that of a new action, 0. -/
def areaActive (task : ℤ) (configs : Map (List Payload)) (vehicle : ℤ) : List Sent :=
  [.angle vehicle (firstGimbal (configs.get vehicle)) [task] 0 (-90), .record]

/-! ### Gimbals -/

theorem findSome?_gimbal {ps : List Payload} {g : ℤ} (h : ps.findSome? Payload.gimbalId? = some g) :
    ∃ pre post, ps = pre ++ .gimbal g :: post ∧ ∀ p ∈ pre, ∀ i, p ≠ .gimbal i := by
  induction ps with
  | nil => simp at h
  | cons p ps ih =>
      rw [List.findSome?_cons] at h
      cases hp : p.gimbalId? with
      | some i =>
          rw [hp] at h
          cases p with
          | gimbal j =>
              simp only [Payload.gimbalId?, Option.some.injEq] at hp h
              subst hp; subst h
              exact ⟨[], ps, rfl, by simp⟩
          | camera _ _ => simp [Payload.gimbalId?] at hp
          | other _ => simp [Payload.gimbalId?] at hp
      | none =>
          rw [hp] at h
          obtain ⟨pre, post, h1, h2⟩ := ih h
          refine ⟨p :: pre, post, by rw [h1]; rfl, ?_⟩
          intro q hq i
          rcases List.mem_cons.1 hq with rfl | hq
          · rintro rfl; simp [Payload.gimbalId?] at hp
          · exact h2 q hq i

/-- **C163.**  The gimbal that area and pattern searches point: the first one of the vehicle. -/
theorem C163_first_gimbal (ps : List Payload) :
    (∃ pre g post, ps = pre ++ .gimbal g :: post ∧ (∀ p ∈ pre, ∀ i, p ≠ .gimbal i) ∧ firstGimbal (some ps) = g) ∨
    ((∀ p ∈ ps, ∀ i, p ≠ .gimbal i) ∧ firstGimbal (some ps) = 0) := by
  unfold firstGimbal
  simp only [Option.getD_some]
  cases h : ps.findSome? Payload.gimbalId? with
  | some g =>
      obtain ⟨pre, post, h1, h2⟩ := findSome?_gimbal h
      exact Or.inl ⟨pre, g, post, h1, h2, rfl⟩
  | none =>
      refine Or.inr ⟨?_, rfl⟩
      intro p hp i hi
      rw [List.findSome?_eq_none_iff] at h
      have := h p hp
      rw [hi] at this
      simp [Payload.gimbalId?] at this

theorem lastGimbal_fold (ps : List Payload) (g₀ : ℤ) :
    (∃ pre g post, ps = pre ++ .gimbal g :: post ∧ (∀ p ∈ post, ∀ i, p ≠ .gimbal i) ∧
      ps.foldl (fun g p => (p.gimbalId?).getD g) g₀ = g) ∨
    ((∀ p ∈ ps, ∀ i, p ≠ .gimbal i) ∧ ps.foldl (fun g p => (p.gimbalId?).getD g) g₀ = g₀) := by
  induction ps generalizing g₀ with
  | nil => exact Or.inr ⟨by simp, rfl⟩
  | cons p ps ih =>
      rw [List.foldl_cons]
      rcases ih ((p.gimbalId?).getD g₀) with ⟨pre, g, post, h1, h2, h3⟩ | ⟨h1, h2⟩
      · exact Or.inl ⟨p :: pre, g, post, by rw [h1]; rfl, h2, h3⟩
      · cases p with
        | gimbal i => exact Or.inl ⟨[], i, ps, rfl, h1, h2⟩
        | camera i b =>
            refine Or.inr ⟨?_, h2⟩
            intro q hq j
            rcases List.mem_cons.1 hq with rfl | hq
            · exact fun h => by cases h
            · exact h1 q hq j
        | other i =>
            refine Or.inr ⟨?_, h2⟩
            intro q hq j
            rcases List.mem_cons.1 hq with rfl | hq
            · exact fun h => by cases h
            · exact h1 q hq j

/-- **C163.**  The gimbal that a point search points at its location: the last one of the vehicle; the command is for
the vehicle alone. -/
theorem C163_point (configs : Map (List Payload)) (location : ℂ) (alt : ℝ) (vehicle : ℤ) {ps : List Payload}
    (h : configs.get vehicle = some ps) {pre post : List Payload} {g : ℤ} (hps : ps = pre ++ .gimbal g :: post)
    (hlast : ∀ p ∈ post, ∀ i, p ≠ .gimbal i) :
    pointActive configs location alt vehicle = [.stare vehicle g [] (some location) alt] := by
  unfold pointActive lastGimbal
  rw [h]
  simp only [Option.getD_some]
  have : ps.foldl (fun g p => (p.gimbalId?).getD g) 0 = g := by
    rw [hps, List.foldl_append, List.foldl_cons]
    rcases lastGimbal_fold post g with ⟨pre', g', post', h1, -, -⟩ | ⟨-, h2⟩
    · exact absurd rfl (hlast (.gimbal g') (by rw [h1]; simp) g')
    · exact h2
  rw [this]

/-! ### Pattern searches -/

/-- What a task knows of a vehicle that may do it, after some events: the payloads of the first configuration heard. -/
def known (vehicle : ℤ) : Option (List Payload) → List Event → Option (List Payload)
  | some ps, _ => some ps
  | none, [] => none
  | none, .config v ps :: es => if v = vehicle then some ps else known vehicle none es
  | none, _ :: es => known vehicle none es

theorem known_some (vehicle : ℤ) (ps : List Payload) (es : List Event) : known vehicle (some ps) es = some ps := by
  cases es <;> rfl

theorem run_cons {s : Search} {e : Event} {es : List Event} {t : Search} {out : List Sent} (h : s.run (e :: es) = .ok (t, out)) :
    ∃ s' o₁ o₂, s.step e = .ok (s', o₁) ∧ s'.run es = .ok (t, o₂) ∧ out = o₁ ++ o₂ := by
  rw [Search.run, Outcome.bind_eq_ok] at h
  obtain ⟨⟨s', o₁⟩, h1, h2⟩ := h
  rw [Outcome.bind_eq_ok] at h2
  obtain ⟨⟨t', o₂⟩, h3, h4⟩ := h2
  cases h4
  exact ⟨s', o₁, o₂, h1, h3, rfl⟩

theorem active_ok {s t : Search} {v w : ℤ} {pos : ℂ} {out : List Sent} (h : s.active v pos w = .ok (t, out)) :
    t.configs = s.configs ∧ t.task = s.task ∧ t.eligible = s.eligible ∧ t.numbers = s.numbers ∧ t.steering = s.steering ∧
    ((t = s ∧ out = []) ∨
     (t = s ∧ out = [.angle v (firstGimbal (s.configs.get v)) [s.task] 0 (-80), .record]) ∨
     (t.streamed = true ∧ ∃ m n r, s.steering = some m ∧ s.numbers.get w = some n ∧ findIn m n pos = .ok r ∧
        out = streamAction s v ++ [.stare v (firstGimbal (s.configs.get v)) [s.task] r.point.1 r.point.2, .record])) := by
  unfold Search.active at h
  cases hs : s.steering with
  | none =>
      rw [hs] at h
      simp only [Outcome.ok.injEq, Prod.mk.injEq] at h
      obtain ⟨rfl, rfl⟩ := h
      exact ⟨rfl, rfl, rfl, rfl, hs, Or.inr (Or.inl ⟨rfl, rfl⟩)⟩
  | some m =>
      rw [hs] at h
      simp only at h
      cases hn : s.numbers.get w with
      | none =>
          rw [hn] at h
          simp only [Outcome.ok.injEq, Prod.mk.injEq] at h
          obtain ⟨rfl, rfl⟩ := h
          exact ⟨rfl, rfl, rfl, rfl, hs, Or.inl ⟨rfl, rfl⟩⟩
      | some n =>
          rw [hn] at h
          simp only at h
          rw [Outcome.bind_eq_ok] at h
          obtain ⟨r, h1, h2⟩ := h
          simp only [Outcome.ok.injEq, Prod.mk.injEq] at h2
          obtain ⟨rfl, rfl⟩ := h2
          exact ⟨rfl, rfl, rfl, rfl, rfl, Or.inr (Or.inr ⟨rfl, m, n, r, rfl, rfl, h1, rfl⟩)⟩

theorem step_configs {s t : Search} {e : Event} {out : List Sent} (h : s.step e = .ok (t, out)) {v : ℤ}
    (hv : s.eligible = [] ∨ v ∈ s.eligible) (es : List Event) :
    known v (t.configs.get v) es = known v (s.configs.get v) (e :: es) ∧ t.task = s.task ∧ t.eligible = s.eligible := by
  have same : ∀ {m : Map (List Payload)}, m.get v = s.configs.get v → (∀ ps, e ≠ .config v ps) →
      known v (m.get v) es = known v (s.configs.get v) (e :: es) := by
    intro m hm he
    rw [hm]
    cases hc : s.configs.get v with
    | some ps => rw [known_some, known_some]
    | none =>
        cases e with
        | config u ps =>
            rw [known, if_neg]
            rintro rfl
            exact he ps rfl
        | planned o segs => rfl
        | implemented o numbers => rfl
        | state u pos w => rfl
  cases e with
  | config u ps =>
      simp only [Search.step, Outcome.ok.injEq, Prod.mk.injEq] at h
      obtain ⟨rfl, -⟩ := h
      refine ⟨?_, rfl, rfl⟩
      simp only
      by_cases hu : u = v
      · subst hu
        cases hc : s.configs.get u with
        | some qs =>
            rw [if_neg (by simp), hc, known_some, known_some]
        | none =>
            rw [if_pos ⟨hv, rfl⟩, Map.get_put, if_pos rfl, known_some, known, if_pos rfl]
      · apply same
        · by_cases hc : (s.eligible = [] ∨ u ∈ s.eligible) ∧ s.configs.get u = none
          · rw [if_pos hc, Map.get_put, if_neg (Ne.symm hu)]
          · rw [if_neg hc]
        · intro qs h
          cases h
          exact hu rfl
  | planned o segs =>
      simp only [Search.step, Outcome.ok.injEq, Prod.mk.injEq] at h
      obtain ⟨rfl, -⟩ := h
      exact ⟨same rfl (fun _ h => by cases h), rfl, rfl⟩
  | implemented o numbers =>
      simp only [Search.step, Outcome.ok.injEq, Prod.mk.injEq] at h
      obtain ⟨rfl, -⟩ := h
      exact ⟨same rfl (fun _ h => by cases h), rfl, rfl⟩
  | state u pos w =>
      obtain ⟨h1, h2, h3, -, -, -⟩ := active_ok (show s.active u pos w = .ok (t, out) from h)
      exact ⟨same (by rw [h1]) (fun _ h => by cases h), h2, h3⟩

theorem run_configs {s t : Search} {es : List Event} {out : List Sent} (h : s.run es = .ok (t, out)) {v : ℤ}
    (hv : s.eligible = [] ∨ v ∈ s.eligible) :
    t.configs.get v = known v (s.configs.get v) es ∧ t.task = s.task := by
  induction es generalizing s out with
  | nil =>
      simp only [Search.run, Outcome.ok.injEq, Prod.mk.injEq] at h
      obtain ⟨rfl, -⟩ := h
      refine ⟨?_, rfl⟩
      cases s.configs.get v <;> rfl
  | cons e es ih =>
      obtain ⟨s', o₁, o₂, h1, h2, -⟩ := run_cons h
      obtain ⟨k1, k2, k3⟩ := step_configs h1 hv es
      obtain ⟨g1, g2⟩ := ih h2 (by rw [k3]; exact hv)
      exact ⟨by rw [g1, k1], by rw [g2, k2]⟩

/-- The gimbal commands among what is sent: to whom, for which payload and which tasks. -/
def Sent.command? : Sent → Option (ℤ × ℤ × List ℤ)
  | .stare v p ts _ _ => some (v, p, ts)
  | .angle v p ts _ _ => some (v, p, ts)
  | _ => none

theorem streamAction_command (s : Search) (v : ℤ) : (streamAction s v).filterMap Sent.command? = [] := by
  unfold streamAction
  split
  · rfl
  · split
    · rfl
    · split
      · rfl
      · rfl

/-- **C163.**  After any events, a state of a vehicle brings one gimbal command at most: to this vehicle, for the first gimbal of
the configuration that was first heard of it, and in the name of the task.  None comes only when a path was flown and the
number of the waypoint is not one of its. -/
theorem C163_command {s t t' : Search} {es : List Event} {out out' : List Sent} {v w : ℤ} {pos : ℂ}
    (h : s.run es = .ok (t, out)) (hv : s.eligible = [] ∨ v ∈ s.eligible) (ha : t.step (.state v pos w) = .ok (t', out')) :
    (out' = [] ∧ t.steering.isSome = true ∧ t.numbers.get w = none) ∨
    out'.filterMap Sent.command? = [(v, firstGimbal (known v (s.configs.get v) es), [s.task])] := by
  obtain ⟨g1, g2⟩ := run_configs h hv
  have ha' : t.active v pos w = .ok (t', out') := ha
  obtain ⟨-, -, -, -, -, hc⟩ := active_ok ha'
  rcases hc with ⟨rfl, rfl⟩ | ⟨rfl, rfl⟩ | ⟨-, m, n, r, hm, hn, hr, rfl⟩
  · left
    unfold Search.active at ha'
    cases hs : t'.steering with
    | none => rw [hs] at ha'; simp at ha'
    | some m =>
        rw [hs] at ha'
        simp only at ha'
        cases hn : t'.numbers.get w with
        | none => exact ⟨rfl, rfl, rfl⟩
        | some n =>
            rw [hn] at ha'
            simp only at ha'
            rw [Outcome.bind_eq_ok] at ha'
            obtain ⟨r, -, h2⟩ := ha'
            simp at h2
  · right
    rw [← g1, ← g2]; rfl
  · right
    rw [List.filterMap_append, streamAction_command, ← g1, ← g2]; rfl

/-- The streams among what is sent. -/
def Sent.stream? : Sent → Option ℤ
  | .stream i => some i
  | _ => none

/-- **C163.**  Over any events, the camera to show is chosen at most once. -/
theorem C163_stream_once {s t : Search} {es : List Event} {out : List Sent} (h : s.run es = .ok (t, out)) :
    (out.filterMap Sent.stream?).length ≤ 1 ∧ (s.streamed = true → out.filterMap Sent.stream? = []) := by
  induction es generalizing s out with
  | nil =>
      simp only [Search.run, Outcome.ok.injEq, Prod.mk.injEq] at h
      obtain ⟨-, rfl⟩ := h
      simp
  | cons e es ih =>
      obtain ⟨s', o₁, o₂, h1, h2, rfl⟩ := run_cons h
      obtain ⟨g1, g2⟩ := ih h2
      have key : (o₁.filterMap Sent.stream? = [] ∧ (s.streamed = true → s'.streamed = true)) ∨
          ((o₁.filterMap Sent.stream?).length ≤ 1 ∧ s'.streamed = true ∧ s.streamed = false) := by
        cases e with
        | config u ps =>
            simp only [Search.step, Outcome.ok.injEq, Prod.mk.injEq] at h1
            obtain ⟨rfl, rfl⟩ := h1
            exact Or.inl ⟨rfl, fun h => h⟩
        | planned o segs =>
            simp only [Search.step, Outcome.ok.injEq, Prod.mk.injEq] at h1
            obtain ⟨rfl, rfl⟩ := h1
            exact Or.inl ⟨rfl, fun h => h⟩
        | implemented o numbers =>
            simp only [Search.step, Outcome.ok.injEq, Prod.mk.injEq] at h1
            obtain ⟨rfl, rfl⟩ := h1
            exact Or.inl ⟨rfl, fun h => h⟩
        | state u pos w =>
            obtain ⟨-, -, -, -, -, hc⟩ := active_ok (show s.active u pos w = .ok (s', o₁) from h1)
            rcases hc with ⟨rfl, rfl⟩ | ⟨rfl, rfl⟩ | ⟨hst, m, n, r, hm, hn, hr, rfl⟩
            · exact Or.inl ⟨rfl, fun h => h⟩
            · exact Or.inl ⟨rfl, fun h => h⟩
            · cases hss : s.streamed with
              | true =>
                  left
                  refine ⟨?_, fun _ => hst⟩
                  unfold streamAction
                  rw [if_pos hss]; rfl
              | false =>
                  right
                  refine ⟨?_, hst, rfl⟩
                  have e : ([Sent.stare u (firstGimbal (s.configs.get u)) [s.task] r.point.1 r.point.2, Sent.record]).filterMap
                      Sent.stream? = [] := rfl
                  rw [List.filterMap_append, e, List.append_nil]
                  unfold streamAction
                  rw [if_neg (by rw [hss]; simp)]
                  split
                  · simp
                  · split
                    · exact le_refl _
                    · simp
      rw [List.filterMap_append]
      rcases key with ⟨k1, k2⟩ | ⟨k1, k2, k3⟩
      · rw [k1, List.nil_append]
        exact ⟨g1, fun h => g2 (k2 h)⟩
      · rw [g2 k2, List.append_nil]
        exact ⟨k1, fun h => by rw [h] at k3; cases k3⟩

end Verif.Stare
