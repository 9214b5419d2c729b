import Verif.Dynamic.Model
import Verif.Assign.Model

/-!
# The plan options of these tasks, and the targets of the overwatch and the relay

`DynamicTaskServiceBase::buildTaskPlanOptions`, `OverwatchTaskService` and `CommRelayTaskService`.
-/

namespace Verif.Dynamic

open Complex Verif.Blockade

/-! ### Plan options -/

/-- The parts of a task option that are set. -/
structure Opt where
  id : ℤ
  task : ℤ
  entity : ℤ
  start : Loc
  stop : Loc

/-- DynamicTaskServiceBase.cpp 71-110: the loops over the eligible vehicles, here in one list.  `known` says whether there is a
state of the vehicle, `loc` is what `calculateTargetLocation` returns for it.  A null pointer is dereferenced in line 98, or in
`AttemptMoveOutsideKoz`. -/
noncomputable def options (p : Params) (config : ℤ → Option Config) (known : ℤ → Bool) (loc : ℤ → Option Loc) (s : St) (n : ℤ) :
    List ℤ → Outcome (List Opt)
  | [] => .ok []
  | e :: es =>
      match known e, config e with
      | true, some c =>
          match loc e with
          | none => .ub
          | some l =>
              let l := if c.kind = .air then attemptMove s l (loiterRadius c.nominalSpeed * 1.5) else l
              (options p config known loc s (n + 1) es).bind (fun os => .ok ({ id := n, task := p.task, entity := e, start := l, stop := l } :: os))
      | _, _ => options p config known loc s n es

/-- DynamicTaskServiceBase.cpp 112-119: the composition. -/
def composition (os : List Opt) : Str :=
  "+(".toList ++ os.flatMap (fun o => 'p' :: Assign.toStringInt o.id ++ [' ']) ++ [')']

/-! ### Overwatch -/

/-- The parts of the state of the watched entity that are used: the speed and the course that it reports are not, as
`m_estimateTargetMotion` is true (OverwatchTaskService.h 176, 153-159 of the source). -/
structure Track where
  time : ℤ
  loc : Loc

/-- The members of the overwatch that change: m_watchedEntityStateLast and m_watchedEntityWindow. -/
structure Watch where
  last : Option Track := none
  window : List Track := []

/-- OverwatchTaskService.cpp 91-130: a state of some entity.  `blank` stands for a position within 0.01 degrees of the point
with latitude and longitude 0. -/
def watch (watched : ℤ) (w : Watch) (id : ℤ) (t : Track) (blank : Bool) : Watch :=
  if id = watched ∧ blank = false then
    { last := some t, window := (w.window ++ [t]).drop ((w.window ++ [t]).length - 4) }
  else w

/-- The sums of OverwatchTaskService.cpp 164-196. -/
structure Sums where
  speed : ℝ := 0
  cosine : ℝ := 0
  sine : ℝ := 0
  n : ℕ := 0

/-- OverwatchTaskService.cpp 168-196: the loop over the window.  The plane of each pair has its origin at the first of the two,
as the conversion of line 180 is the first one of a new `FlatEarth` (line 179): `pnorth` and `peast` are 0. -/
noncomputable def sums : Track → List Track → Sums → Sums
  | _, [], a => a
  | prev, cur :: l, a =>
      let dt : ℝ := ((cur.time - prev.time : ℤ) : ℝ) / 1000
      if dt < 0.01 then sums prev l a
      else if 4 < dt then sums cur l a
      else
        let pnorth : ℝ := 0
        let cnorth : ℝ := (cur.loc.place - prev.loc.place).im
        let ceast : ℝ := (cur.loc.place - prev.loc.place).re
        let dnorth := cnorth - pnorth
        let deast := ceast - cnorth
        let heading := Real.pi / 2 - arg ⟨deast, dnorth⟩
        let speed := Real.sqrt (dnorth * dnorth + deast * deast) / dt
        sums cur l { speed := a.speed + speed, cosine := a.cosine + Real.cos heading, sine := a.sine + Real.sin heading, n := a.n + 1 }

/-- OverwatchTaskService.cpp 161-205: the speed in m/s and the course in degrees. -/
noncomputable def motion : List Track → ℝ × ℝ
  | [] => (0, 0)
  | f :: l =>
      let a := sums f l {}
      if 0 < a.n then (a.speed / a.n, arg ⟨a.cosine, a.sine⟩ * (180 / Real.pi)) else (0, 0)

/-- OverwatchTaskService.cpp 133-240: `calculateTargetLocation`, for a vehicle whose state has the time `now`. -/
noncomputable def overwatch (w : Watch) (now : ℤ) : Option Loc :=
  match w.last with
  | none => none
  | some t =>
      let dt := now - t.time
      if 15000 < dt then none
      else if 100 < dt then
        let m := motion w.window
        some { t.loc with place := t.loc.place +
          ⟨m.1 * (dt : ℝ) / 1000 * Real.sin (m.2 * (Real.pi / 180)), m.1 * (dt : ℝ) / 1000 * Real.cos (m.2 * (Real.pi / 180))⟩ }
      else some t.loc

/-! ### Relay -/

/-- CommRelayTaskService.cpp 168-212: `moveToHalfWayPoint`.  `towerState` and `towerConfig` are the places of the tower from its
state and from its configuration, if it is that of a radio tower. -/
noncomputable def halfWay (towerState towerConfig : Option ℂ) (supported : ℂ) (own : Loc) : Loc :=
  match (towerState.or towerConfig) with
  | none => own
  | some t => { own with place := ⟨(t.re + supported.re) / 2, (t.im + supported.im) / 2⟩ }

/-- CommRelayTaskService.cpp 148-166: `calculateTargetLocation` for a vehicle at `own` with the nominal altitude `nominal`, if
its configuration is known. -/
noncomputable def relay (towerState towerConfig supported : Option ℂ) (own : Loc) (nominal : Option ℝ) : Loc :=
  match supported with
  | none => own
  | some x => { halfWay towerState towerConfig x own with altitude := nominal.getD own.altitude }

/-- CommRelayTaskService.cpp 133-146: a state of some entity at a place. -/
def relayState (supportedId : ℤ) (supported : Option ℂ) (id : ℤ) (place : ℂ) : Option ℂ :=
  if id = supportedId then some place else supported

end Verif.Dynamic
