import Verif.Steering.Law

/-!
# C133 and C134: what commands carry

From the histories of messages to the commands: who commands, which leg, speed, distances and operating region.
-/

namespace Verif.Steering

open Real

/-! ## Specification -/

/-- The value the last message to give one gives. -/
def latest {β : Type} (f : Msg → Option β) (hist : List (ℤ × Msg)) : Option β := hist.reverse.findSome? fun i => f i.2

/-- A new mission ends the override of the speed; a `SpeedOverrideAction` for the vehicle starts it. -/
def speedGiven (vehicle : ℤ) (i : Msg) : Option (Option ℝ) :=
  match newMission vehicle i, i with
  | some _, _ => some none
  | none, .speedOverride id speed => if id = vehicle then some (some speed) else none
  | none, _ => none

/-- A new mission gives the heading to the service; a command with a `FlightDirectorAction` for the vehicle takes it. -/
noncomputable def headingTaken (vehicle : ℤ) (i : Msg) : Option Bool :=
  open Classical in
  match newMission vehicle i, i with
  | some _, _ => some false
  | none, .command id actions => if id = vehicle ∧ .flightDirector ∈ actions then some true else none
  | none, _ => none

/-- Nominal speed and bank angle of the vehicle. -/
def flight (vehicle : ℤ) : Msg → Option (ℝ × ℝ)
  | .config id speed bank => if id = vehicle then some (speed, bank) else none
  | _ => none

/-- What a message says about the region of the request `id`: its region, or that there is none (any more). -/
def regionSaid (id : ℤ) : Msg → Option (Option ℤ)
  | .request id' sandbox region => if id' = id then some (if sandbox then none else region) else none
  | .uniqueResponse id' (some _) => if id' = id then some none else none
  | _ => none

/-- The region of the request whose answer, the last with a mission for the vehicle, came after it; 0 if there was no such
answer, or if the request was a sandbox request or not seen.  The history is given backwards. -/
def regionOf (vehicle : ℤ) : List (ℤ × Msg) → ℤ
  | [] => 0
  | i :: earlier =>
    match i.2 with
    | .uniqueResponse id (some ms) =>
      if ∃ m ∈ ms, m.vehicle = vehicle then ((latest (regionSaid id) earlier.reverse).getD none).getD 0
      else regionOf vehicle earlier
    | _ => regionOf vehicle earlier

/-- Radius of a turn at a speed with a bank angle in degrees, at least one degree. -/
noncomputable def turnRadius (speed bank : ℝ) : ℝ := speed ^ 2 / (980665 / 100000 * tan (π / 180 * max 1 |bank|))

/-- The leg that leads to waypoint `v` starts at `q`, seen from the vehicle at `o`: at the waypoint that links to it (its own
place or that of its loiter), or, for a first waypoint to which nothing links, at the vehicle. -/
def LegFrom (m : Mission) (o : Loc) (q : Pt) (v : Wp) : Prop :=
  (∃ u ∈ m.wps, u.next = v.number ∧ (q = toNE o u.loc ∨ q = toNE o u.target)) ∨
  (q = (0, 0) ∧ v.number = m.first ∧ ∀ u ∈ m.wps, u.next ≠ m.first)

/-! ## Lemmas -/

theorem latest_snoc {β : Type} (f : Msg → Option β) (hist : List (ℤ × Msg)) (i : ℤ × Msg) :
    latest f (hist ++ [i]) = (f i.2).or (latest f hist) := by
  unfold latest
  rw [List.reverse_append, List.reverse_singleton, List.singleton_append, List.findSome?_cons]
  cases f i.2 <;> rfl

/-- A state of the vehicle changes only the place on the route. -/
theorem own_keeps {s : S} {i : ℤ × Msg} {st : AvState} (h : ownState s.cfg.vehicle i.2 = some st) :
    ∃ n, (step s i).1 = { s with nav := n } := by
  rw [(step_own h).1]
  cases hb : s.mission.bind (·.find s.nav.cur) with
  | none => rw [observe_none hb]; exact ⟨s.nav, rfl⟩
  | some w =>
    obtain ⟨m, hm, hw⟩ := Option.bind_eq_some_iff.mp hb
    obtain ⟨n, q, v, h1, _⟩ := observe_spec hm hw i.1 st
    rw [h1]; exact ⟨n, rfl⟩

theorem override_after (cfg : Config) (t0 : ℤ) (l0 : Bool) (hist : List (ℤ × Msg)) :
    (after cfg t0 l0 hist).override = (latest (speedGiven cfg.vehicle) hist).getD none := by
  induction hist using List.reverseRecOn with
  | nil => rfl
  | append_singleton hist i ih =>
    rw [(after_snoc cfg t0 l0 hist i).1, latest_snoc]
    have hc := after_cfg cfg t0 l0 hist
    generalize after cfg t0 l0 hist = s at *
    cases ho : ownState s.cfg.vehicle i.2 with
    | some st =>
      obtain ⟨n, hn⟩ := own_keeps ho
      obtain ⟨h1, _⟩ := ownState_some ho
      rw [hn, h1]
      exact ih
    | none =>
      rcases i with ⟨now, i⟩
      cases i with
      | config id speed bank => simp only [step]; split <;> exact ih
      | request id sandbox region => simp only [step]; split <;> [cases region; skip] <;> exact ih
      | uniqueResponse id ms => cases ms <;> exact ih
      | response ms =>
        simp only [step, speedGiven, newMission, hc]
        cases ms.find? (·.vehicle == cfg.vehicle) with
        | none => exact ih
        | some m => rfl
      | mission m =>
        simp only [step, speedGiven, newMission, hc]
        by_cases hm : m.vehicle = cfg.vehicle
        · simp only [if_pos hm]; rfl
        · simp only [if_neg hm]; exact ih
      | speedOverride id speed =>
        simp only [step, speedGiven, newMission, hc]
        by_cases hm : id = cfg.vehicle
        · simp only [if_pos hm]; rfl
        · simp only [if_neg hm]; exact ih
      | command id actions => simp only [step]; split <;> exact ih
      | state st =>
        have hid : st.id ≠ s.cfg.vehicle := by
          intro hid; simp [ownState, hid] at ho
        simp only [step, if_neg hid]; exact ih
      | other => exact ih

theorem any_director (actions : List Action) :
    (actions.any Action.isDirector) = true ↔ .flightDirector ∈ actions := by
  rw [List.any_eq_true]
  constructor
  · rintro ⟨a, ha, hb⟩
    cases a <;> simp [Action.isDirector] at hb
    exact ha
  · intro h
    exact ⟨_, h, rfl⟩

open Classical in
theorem byTask_after (cfg : Config) (t0 : ℤ) (l0 : Bool) (hist : List (ℤ × Msg)) :
    (after cfg t0 l0 hist).byTask = (latest (headingTaken cfg.vehicle) hist).getD false := by
  induction hist using List.reverseRecOn with
  | nil => rfl
  | append_singleton hist i ih =>
    rw [(after_snoc cfg t0 l0 hist i).1, latest_snoc]
    have hc := after_cfg cfg t0 l0 hist
    generalize after cfg t0 l0 hist = s at *
    cases ho : ownState s.cfg.vehicle i.2 with
    | some st =>
      obtain ⟨n, hn⟩ := own_keeps ho
      obtain ⟨h1, _⟩ := ownState_some ho
      rw [hn, h1]
      exact ih
    | none =>
      rcases i with ⟨now, i⟩
      cases i with
      | config id speed bank => simp only [step]; split <;> exact ih
      | request id sandbox region => simp only [step]; split <;> [cases region; skip] <;> exact ih
      | uniqueResponse id ms => cases ms <;> exact ih
      | response ms =>
        simp only [step, headingTaken, newMission, hc]
        cases ms.find? (·.vehicle == cfg.vehicle) with
        | none => exact ih
        | some m => rfl
      | mission m =>
        simp only [step, headingTaken, newMission, hc]
        by_cases hm : m.vehicle = cfg.vehicle
        · simp only [if_pos hm]; rfl
        · simp only [if_neg hm]; exact ih
      | speedOverride id speed => simp only [step]; split <;> exact ih
      | command id actions =>
        simp only [step, headingTaken, newMission, hc, any_director]
        by_cases hm : id = cfg.vehicle ∧ .flightDirector ∈ actions
        · simp only [if_pos hm]; rfl
        · simp only [if_neg hm]; exact ih
      | state st =>
        have hid : st.id ≠ s.cfg.vehicle := by
          intro hid; simp [ownState, hid] at ho
        simp only [step, if_neg hid]; exact ih
      | other => exact ih

theorem keeps_radius {s : S} {i : ℤ × Msg} (h : flight s.cfg.vehicle i.2 = none) :
    (step s i).1.radius = s.radius ∧ (step s i).1.lead = s.lead ∧ (step s i).1.acceptDist = s.acceptDist := by
  cases ho : ownState s.cfg.vehicle i.2 with
  | some st =>
    obtain ⟨n, hn⟩ := own_keeps ho
    rw [hn]; exact ⟨rfl, rfl, rfl⟩
  | none =>
    rcases i with ⟨now, i⟩
    cases i with
    | config id speed bank =>
      have hid : id ≠ s.cfg.vehicle := by
        intro hid; simp [flight, hid] at h
      simp only [step, if_neg hid]; exact ⟨trivial, trivial, trivial⟩
    | request id sandbox region => simp only [step]; split <;> [cases region; skip] <;> exact ⟨rfl, rfl, rfl⟩
    | uniqueResponse id ms => cases ms <;> exact ⟨rfl, rfl, rfl⟩
    | response ms => simp only [step]; split <;> exact ⟨rfl, rfl, rfl⟩
    | mission m => simp only [step]; split <;> exact ⟨rfl, rfl, rfl⟩
    | speedOverride id speed => simp only [step]; split <;> exact ⟨rfl, rfl, rfl⟩
    | command id actions => simp only [step]; split <;> exact ⟨rfl, rfl, rfl⟩
    | state st =>
      have hid : st.id ≠ s.cfg.vehicle := by
        intro hid; simp [ownState, hid] at ho
      simp only [step, if_neg hid]; exact ⟨trivial, trivial, trivial⟩
    | other => exact ⟨rfl, rfl, rfl⟩

theorem radius_after (cfg : Config) (t0 : ℤ) (l0 : Bool) (hist : List (ℤ × Msg)) :
    match latest (flight cfg.vehicle) hist with
    | none => (after cfg t0 l0 hist).radius = 250 ∧ (after cfg t0 l0 hist).lead = 1000 ∧ (after cfg t0 l0 hist).acceptDist = 0
    | some (speed, bank) => (after cfg t0 l0 hist).radius = 12 / 10 * turnRadius speed bank ∧
        (after cfg t0 l0 hist).lead = 36 / 10 * turnRadius speed bank ∧
        (after cfg t0 l0 hist).acceptDist = cfg.acceptTime / 1000 * speed := by
  induction hist using List.reverseRecOn with
  | nil => exact ⟨rfl, rfl, rfl⟩
  | append_singleton hist i ih =>
    rw [(after_snoc cfg t0 l0 hist i).1, latest_snoc]
    have hc := after_cfg cfg t0 l0 hist
    have hz : cfg.acceptTime = 0 → (after cfg t0 l0 hist).acceptDist = 0 := by
      intro h0
      cases hf : latest (flight cfg.vehicle) hist with
      | none => rw [hf] at ih; exact ih.2.2
      | some p => rw [hf] at ih; rw [ih.2.2, h0]; simp
    generalize after cfg t0 l0 hist = s at *
    cases hf : flight cfg.vehicle i.2 with
    | none =>
      obtain ⟨h1, h2, h3⟩ := keeps_radius (s := s) (i := i) (by rw [hc]; exact hf)
      rw [Option.none_or, h1, h2, h3]
      exact ih
    | some sb =>
      rcases i with ⟨now, i⟩
      cases i with
      | config id speed bank =>
        simp only [flight] at hf
        by_cases hm : id = cfg.vehicle
        · rw [if_pos hm] at hf
          cases hf
          simp only [step, hc, if_pos hm, Option.some_or, S.configured]
          have hb : (if |bank| < 1 then 1 else |bank|) = max 1 |bank| := by
            split
            · next h => rw [max_eq_left h.le]
            · next h => rw [max_eq_right (not_lt.mp h)]
          have e : speed * speed / (980665 / 100000) / tan (toRadians (max 1 |bank|)) = turnRadius speed bank := by
            unfold turnRadius toRadians
            rw [div_div, sq]
          rw [hb, e]
          refine ⟨rfl, by ring, ?_⟩
          by_cases h0 : cfg.acceptTime > 0
          · rw [if_pos h0]
          · have h0' : cfg.acceptTime = 0 := by omega
            rw [if_neg h0, hz h0', h0']; simp
        · rw [if_neg hm] at hf; cases hf
      | _ => cases hf

theorem regions_after (cfg : Config) (t0 : ℤ) (l0 : Bool) (hist : List (ℤ × Msg)) (id : ℤ) :
    (after cfg t0 l0 hist).regions.get id = (latest (regionSaid id) hist).getD none := by
  induction hist using List.reverseRecOn with
  | nil => rfl
  | append_singleton hist i ih =>
    rw [(after_snoc cfg t0 l0 hist i).1, latest_snoc]
    have hc := after_cfg cfg t0 l0 hist
    generalize after cfg t0 l0 hist = s at *
    cases ho : ownState s.cfg.vehicle i.2 with
    | some st =>
      obtain ⟨n, hn⟩ := own_keeps ho
      obtain ⟨h1, _⟩ := ownState_some ho
      rw [hn, h1]
      exact ih
    | none =>
      rcases i with ⟨now, i⟩
      cases i with
      | config id speed bank => simp only [step]; split <;> exact ih
      | request id' sandbox region =>
        simp only [step, regionSaid]
        by_cases hid : id' = id
        · subst hid
          cases sandbox with
          | true => simp [Map.get_del]
          | false => cases region <;> simp [Map.get_put, Map.get_del]
        · have hid' : id ≠ id' := fun h => hid h.symm
          cases sandbox with
          | true => simpa [Map.get_del, hid, hid'] using ih
          | false => cases region <;> simpa [Map.get_put, Map.get_del, hid, hid'] using ih
      | uniqueResponse id' ms =>
        cases ms with
        | none => exact ih
        | some ms =>
          simp only [step, S.answered, regionSaid, Map.get_del]
          by_cases hid : id' = id
          · subst hid; simp
          · have hid' : id ≠ id' := fun h => hid h.symm
            simpa [hid, hid'] using ih
      | response ms => simp only [step]; split <;> exact ih
      | mission m => simp only [step]; split <;> exact ih
      | speedOverride id speed => simp only [step]; split <;> exact ih
      | command id actions => simp only [step]; split <;> exact ih
      | state st =>
        have hid : st.id ≠ s.cfg.vehicle := by
          intro hid; simp [ownState, hid] at ho
        simp only [step, if_neg hid]; exact ih
      | other => exact ih

theorem regionOf_snoc (v : ℤ) (hist : List (ℤ × Msg)) (i : ℤ × Msg) : regionOf v (hist ++ [i]).reverse =
    match i.2 with
    | .uniqueResponse id (some ms) =>
      if ∃ m ∈ ms, m.vehicle = v then ((latest (regionSaid id) hist).getD none).getD 0 else regionOf v hist.reverse
    | _ => regionOf v hist.reverse := by
  rw [List.reverse_append, List.reverse_singleton, List.singleton_append]
  rcases i with ⟨now, i⟩
  cases i with
  | uniqueResponse id ms =>
    cases ms with
    | none => rfl
    | some ms =>
      simp only [regionOf, List.reverse_reverse]
  | _ => rfl

theorem region_after (cfg : Config) (t0 : ℤ) (l0 : Bool) (hist : List (ℤ × Msg)) :
    (after cfg t0 l0 hist).region = cfg.overrideRegion.getD (regionOf cfg.vehicle hist.reverse) := by
  induction hist using List.reverseRecOn with
  | nil => rfl
  | append_singleton hist i ih =>
    rw [(after_snoc cfg t0 l0 hist i).1, regionOf_snoc]
    have hc := after_cfg cfg t0 l0 hist
    have hr := regions_after cfg t0 l0 hist
    generalize after cfg t0 l0 hist = s at *
    cases ho : ownState s.cfg.vehicle i.2 with
    | some st =>
      obtain ⟨n, hn⟩ := own_keeps ho
      obtain ⟨h1, _⟩ := ownState_some ho
      rw [hn, h1]
      exact ih
    | none =>
      rcases i with ⟨now, i⟩
      cases i with
      | config id speed bank => simp only [step]; split <;> exact ih
      | request id' sandbox region => simp only [step]; split <;> [cases region; skip] <;> exact ih
      | uniqueResponse id' ms =>
        cases ms with
        | none => exact ih
        | some ms =>
          simp only [step, S.answered, hc]
          by_cases hp : ∃ m ∈ ms, m.vehicle = cfg.vehicle
          · have hb : (ms.any (·.vehicle == cfg.vehicle)) = true := by
              rw [List.any_eq_true]
              obtain ⟨m, h1, h2⟩ := hp
              exact ⟨m, h1, by simpa using h2⟩
            rw [if_pos hb, if_pos hp]
            cases ho : cfg.overrideRegion with
            | none => simp only [hr, Option.getD_none]
            | some r => rfl
          · have hb : ¬(ms.any (·.vehicle == cfg.vehicle)) = true := by
              rw [List.any_eq_true]
              rintro ⟨m, h1, h2⟩
              exact hp ⟨m, h1, by simpa using h2⟩
            rw [if_neg hb, if_neg hp]
            exact ih
      | response ms => simp only [step]; split <;> exact ih
      | mission m => simp only [step]; split <;> exact ih
      | speedOverride id speed => simp only [step]; split <;> exact ih
      | command id actions => simp only [step]; split <;> exact ih
      | state st =>
        have hid : st.id ≠ s.cfg.vehicle := by
          intro hid; simp [ownState, hid] at ho
        simp only [step, if_neg hid]; exact ih
      | other => exact ih

theorem observe_leg {s : S} {m : Mission} (hon : On m s) {w : Wp} (hw : m.find s.nav.cur = some w) (now : ℤ)
    (st : AvState) : ∃ n q v, s.observe now st = some ({ s with nav := n },
        s.direct st.id v (guidance s.cfg s.override n.isLast (0, 0) q (toNE st.loc v.target) v) ++
          [.report { st with current := v.number, tasks := v.tasks }]) ∧ m.find v.number = some v ∧
      (n.isLast = true ∨ LegFrom m st.loc q v) := by
  obtain ⟨n, q, v, h1, h2⟩ := observe_spec hon.mission hw now st
  have hnum := find_number hw
  have hpt : (env s m now st).pt v = toNE st.loc v.target := rfl
  rw [hpt] at h1
  rcases h2 with ⟨hl, rfl, _, rfl⟩ | ⟨hl, acc, t, q0, hwalk, hend⟩
  · rw [← hnum] at h1
    exact ⟨_, q, v, h1, hnum ▸ hw, .inl hl⟩
  · rw [hend.cur] at h1
    refine ⟨n, q, v, h1, hend.found, ?_⟩
    rcases hend.how with ⟨a, b, c, d⟩ | ⟨a, _⟩ | ⟨a, _⟩
    · right
      obtain ⟨_, _, k3, k4⟩ := hwalk.link (hnum ▸ hw)
      cases acc with
      | nil =>
        obtain ⟨rfl, rfl, rfl⟩ := k4 rfl
        rcases hon.prev hl with ⟨p1, p2, p3⟩ | ⟨u, p1, p2, p3⟩
        · exact .inr ⟨by rw [c, legStart, p1], by rw [hnum]; exact p2, p3⟩
        · exact .inl ⟨u, p1, by rw [hnum]; exact p2, .inl (by rw [c, legStart, p3])⟩
      | cons x xs =>
        obtain ⟨_, u, _, e2, e3, e4⟩ := k3 (by simp)
        exact .inl ⟨u, e2, e3, .inr (by rw [c, e4]; rfl)⟩
    · exact .inl a
    · exact .inl a

/-! ## C133, C134 -/

/-- **C133.**  For a vehicle on a mission every state is answered with one command before the report, unless the heading has
been taken since the mission came.  The command is for the reported waypoint: its altitude, its speed (the airspeed of its
loiter, if it has one) or the speed that overrides it since the mission came, and the heading of the law for the leg that
leads to it, or for the end of the route; a safe-heading command has the radius 1.2 times that of the turn, three
times that as distance ahead, and the operating region. -/
theorem C133_command {cfg : Config} {t0 : ℤ} {l0 : Bool} {hist later : List (ℤ × Msg)} {i : ℤ × Msg} {m : Mission}
    (hm : newMission cfg.vehicle i.2 = some m) (hq : Quiet cfg.vehicle later)
    (hcur : (m.find (after cfg t0 l0 (hist ++ i :: later)).nav.cur).isSome) (now : ℤ) {st : AvState}
    (hst : st.id = cfg.vehicle) :
    ∃ d st' v q l, sent cfg t0 l0 (hist ++ i :: later ++ [(now, .state st)]) =
        sent cfg t0 l0 (hist ++ i :: later) ++ [d ++ [.report st']] ∧
      st'.current = v.number ∧ m.find v.number = some v ∧ (l = true ∨ LegFrom m st.loc q v) ∧
      let o := (latest (speedGiven cfg.vehicle) (hist ++ i :: later)).getD none
      let heading := (guidance cfg o l (0, 0) q (toNE st.loc v.target) v).1
      let speed := o.getD (v.loiter.elim v.speed (·.airspeed))
      d = if (latest (headingTaken cfg.vehicle) (hist ++ i :: later)).getD false then []
        else if cfg.safe then
          let r := match latest (flight cfg.vehicle) (hist ++ i :: later) with
            | none => (250, 1000)
            | some (sp, bank) => (12 / 10 * turnRadius sp bank, 36 / 10 * turnRadius sp bank)
          [.safeHeading cfg.vehicle (cfg.overrideRegion.getD (regionOf cfg.vehicle (hist ++ i :: later).reverse)) r.2 r.1
            heading v.altitude v.altType speed]
        else [.command cfg.vehicle speed (v.loiter.elim v.speedType fun _ => .airspeed) heading v.altitude v.altType v.climb] := by
  have hon := (on_after (t0 := t0) (l0 := l0) (hist := hist) hm hq).1
  obtain ⟨w, hw⟩ := Option.isSome_iff_exists.mp hcur
  have ho : ownState (after cfg t0 l0 (hist ++ i :: later)).cfg.vehicle (Msg.state st) = some st := by
    rw [after_cfg]; simp [ownState, hst]
  obtain ⟨n, q, v, h1, h2, h3⟩ := observe_leg hon hw now st
  rw [(after_snoc cfg t0 l0 _ _).2, (step_own (i := (now, Msg.state st)) ho).1, h1]
  refine ⟨_, _, v, q, n.isLast, rfl, rfl, h2, h3, ?_⟩
  have hr := radius_after cfg t0 l0 (hist ++ i :: later)
  simp only [S.direct, byTask_after, after_cfg, override_after, region_after, hst]
  have hg : ∀ (o : Option ℝ) (l : Bool) (c : Pt), guidance cfg o l (0, 0) q c v =
      ((guidance cfg o l (0, 0) q c v).1, o.getD (v.loiter.elim v.speed (·.airspeed)),
        v.loiter.elim v.speedType fun _ => .airspeed) := by
    intro o l c
    unfold guidance
    cases v.loiter <;> rfl
  by_cases hb : (latest (headingTaken cfg.vehicle) (hist ++ i :: later)).getD false = true
  · rw [if_pos hb, if_pos hb]
  · rw [if_neg hb, if_neg hb, hg]
    by_cases hsafe : cfg.safe = true
    · rw [if_pos hsafe, if_pos hsafe]
      cases hf : latest (flight cfg.vehicle) (hist ++ i :: later) with
      | none => rw [hf] at hr; rw [hr.1, hr.2.1]
      | some p => rw [hf] at hr; rw [hr.1, hr.2.1]
    · rw [if_neg hsafe, if_neg hsafe]

theorem safe_region {s : S} {i : ℤ × Msg} {id reg : ℤ} {lead r hd alt : ℝ} {ty : ℕ} {speed : ℝ}
    (h : Out.safeHeading id reg lead r hd alt ty speed ∈ (step s i).2) : reg = s.region ∧ id = s.cfg.vehicle := by
  cases ho : ownState s.cfg.vehicle i.2 with
  | none => rw [(step_other ho).1] at h; simp at h
  | some st =>
    rw [(step_own ho).1] at h
    have hid := (ownState_some ho).2
    cases hb : s.mission.bind (·.find s.nav.cur) with
    | none => rw [observe_none hb] at h; simp at h
    | some w =>
      obtain ⟨m, hm, hw⟩ := Option.bind_eq_some_iff.mp hb
      obtain ⟨n, q, v, h1, _⟩ := observe_spec hm hw i.1 st
      rw [h1] at h
      simp only [Option.getD_some, List.mem_append, List.mem_singleton, reduceCtorEq, or_false] at h
      unfold S.direct at h
      split at h
      · simp at h
      · split at h
        · rw [List.mem_singleton] at h
          cases h
          exact ⟨rfl, hid⟩
        · simp at h

theorem latest_append_none {β : Type} (f : Msg → Option β) (hist later : List (ℤ × Msg)) (h : ∀ j ∈ later, f j.2 = none) :
    latest f (hist ++ later) = latest f hist := by
  induction later using List.reverseRecOn with
  | nil => simp
  | append_singleton later j ih =>
    rw [← List.append_assoc, latest_snoc, h j (by simp), ih fun k hk => h k (List.mem_append_left _ hk)]
    rfl

/-- A message that answers some request with a mission for the vehicle. -/
def Answers (vehicle : ℤ) (i : Msg) : Prop := ∃ id ms, i = .uniqueResponse id (some ms) ∧ ∃ m ∈ ms, m.vehicle = vehicle

theorem regionOf_append (v : ℤ) (hist later : List (ℤ × Msg)) (h : ∀ j ∈ later, ¬Answers v j.2) :
    regionOf v (hist ++ later).reverse = regionOf v hist.reverse := by
  induction later using List.reverseRecOn with
  | nil => simp
  | append_singleton later j ih =>
    have hj := h j (by simp)
    rw [← List.append_assoc, regionOf_snoc, ih fun k hk => h k (List.mem_append_left _ hk)]
    rcases j with ⟨now, j⟩
    cases j with
    | uniqueResponse id ms =>
      cases ms with
      | none => rfl
      | some ms =>
        simp only
        rw [if_neg fun hm => hj ⟨id, ms, rfl, hm⟩]
    | _ => rfl

/-- **C134.**  Every safe-heading command carries the configured region, if one is configured; otherwise the region of the
request whose answer was the last with a mission for the vehicle, 0 if that request was a sandbox request or not seen. -/
theorem C134_region_partial (cfg : Config) (t0 : ℤ) (l0 : Bool) (hist : List (ℤ × Msg)) (i : ℤ × Msg) :
    ∃ outs, sent cfg t0 l0 (hist ++ [i]) = sent cfg t0 l0 hist ++ [outs] ∧
      ∀ id reg lead r hd alt ty speed, Out.safeHeading id reg lead r hd alt ty speed ∈ outs →
        id = cfg.vehicle ∧ reg = cfg.overrideRegion.getD (regionOf cfg.vehicle hist.reverse) := by
  refine ⟨_, (after_snoc cfg t0 l0 hist i).2, fun id reg lead r hd alt ty speed h => ?_⟩
  obtain ⟨h1, h2⟩ := safe_region h
  rw [after_cfg] at h2
  exact ⟨h2, h1.trans (region_after cfg t0 l0 hist)⟩

/-- **C134.**  A request that is not a sandbox request and names a region is answered with a mission for the vehicle, and no
other answer for the vehicle comes after that: then safe-heading commands carry the region of the request, unless one is
configured. -/
theorem C134_request_partial {cfg : Config} (t0 : ℤ) (l0 : Bool) (hov : cfg.overrideRegion = none)
    (hist : List (ℤ × Msg)) (t1 id : ℤ) (reg : ℤ) {mid : List (ℤ × Msg)}
    (hmid : ∀ j ∈ mid, regionSaid id j.2 = none) (t2 : ℤ) {ms : List Mission} (hms : ∃ m ∈ ms, m.vehicle = cfg.vehicle)
    {later : List (ℤ × Msg)} (hlater : ∀ j ∈ later, ¬Answers cfg.vehicle j.2) (i : ℤ × Msg) :
    let all := hist ++ [(t1, .request id false (some reg))] ++ mid ++ [(t2, .uniqueResponse id (some ms))] ++ later
    ∃ outs, sent cfg t0 l0 (all ++ [i]) = sent cfg t0 l0 all ++ [outs] ∧
      ∀ id reg' lead r hd alt ty speed, Out.safeHeading id reg' lead r hd alt ty speed ∈ outs → reg' = reg := by
  intro all
  obtain ⟨outs, h1, h2⟩ := C134_region_partial cfg t0 l0 all i
  refine ⟨outs, h1, fun id' reg' lead r hd alt ty speed h => ?_⟩
  rw [(h2 id' reg' lead r hd alt ty speed h).2, hov, Option.getD_none]
  rw [regionOf_append _ _ _ hlater, regionOf_snoc]
  simp only
  rw [if_pos hms, latest_append_none _ _ _ hmid, latest_snoc]
  simp [regionSaid]

end Verif.Steering
