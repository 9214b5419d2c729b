import Verif.Escort.Segment

/-!
# How a vehicle is told to block another one

`BlockadeTaskService::activeEntityState` and what it calls, src/cpp/Tasks/BlockadeTaskService.cpp.
The plane and the simplifications are those of `Verif.Escort.Segment`: positions in metres, real
part east and imaginary part north, exact arithmetic.
-/

namespace Verif.Blockade

open Complex Verif.Escort

/-- DpssDataTypes.cpp 14-19. -/
noncomputable def rotate (z : ℂ) (th : ℝ) : ℂ :=
  ⟨Real.cos th * z.re - Real.sin th * z.im, Real.sin th * z.re + Real.cos th * z.im⟩

/-- BlockadeTaskService.cpp 420-450: where on the line of approach the vehicle meets the enemy: the line is the first axis, the
enemy at `e` and the vehicle at `veh`. -/
noncomputable def meet (e : ℝ) (veh : ℂ) : ℝ :=
  let delta := |angle (e : ℂ) veh|
  let beta := Real.pi - 2 * delta
  let xtra :=
    if |beta + Real.pi / 2| < 1e-4 then 0
    else if 1e-4 < |Real.tan beta| then |veh.im| / Real.tan beta
    else (e - veh.re) / 2
  let ell := xtra + veh.re
  if ell < 0 then 0 else ell

/-- BlockadeTaskService.cpp 360-469: `CalculateCenterBlockingPosition`: the place on the line of approach and the direction, in
degrees from the north, of the enemy as seen from the base.  `none` for the base stands for a task without a protected
location, `none` for the vehicle for a state without a location. -/
noncomputable def centre (veh : Option ℂ) (target : ℂ) (protect : Option ℂ) (standoff : ℝ) : ℂ × ℝ :=
  let base := match protect with
    | none => target - 100
    | some b => b
  let enemy := target - base
  let direction := (Real.pi / 2 - arg enemy) * (180 / Real.pi)
  match veh with
  | none => (0.75 * enemy + base, direction)
  | some v =>
      if standoff < ‖enemy‖ then
        let r := arg enemy
        let w := rotate (v - base) (-r)
        let enemy := rotate enemy (-r)
        let front : ℂ := ⟨enemy.re - standoff, enemy.im⟩
        let blockDist : ℝ :=
          if front.re < ‖w‖ then 0
          else if ‖w - front‖ < 10 then 1
          else meet front.re w / front.re
        ((blockDist : ℂ) * rotate front r + base, direction)
      else ((0 : ℂ) * enemy + base, direction)

/-- BlockadeTaskService.cpp 227-235: the rank of a vehicle in the wall. -/
def placement (active : List ℤ) (id : ℤ) : ℕ := (active.filter (fun n => id < n)).length

/-- BlockadeTaskService.cpp 237-246: the place of a vehicle in the wall. -/
noncomputable def wallPlace (active : List ℤ) (id : ℤ) (veh : Option ℂ) (target : ℂ) (protect : Option ℂ) (standoff : ℝ) : ℂ :=
  let c := centre veh target protect standoff
  let offset := standoff * (placement active id - (active.length : ℝ) / 2)
  let theta := Real.pi / 2 - (c.2 + 90) * (Real.pi / 180)
  ⟨c.1.re + Real.cos theta * offset, c.1.im + Real.sin theta * offset⟩

/-! ### The command -/

/-- The kinds of configurations that are told apart. -/
inductive Kind | air | ground | surface | other
  deriving DecidableEq

/-- The parts of an entity configuration that are used; payloads with whether they are gimbals. -/
structure Config where
  kind : Kind
  nominalSpeed : ℝ
  payloads : List (ℤ × Bool)

/-- The parts of a vehicle action that are used. -/
inductive Action
  | loiter (place : ℂ) (altitude speed radius : ℝ) (hover : Bool) (task : ℤ)
  | stare (payload : ℤ) (point : ℂ) (task : ℤ)

/-- The parts of a waypoint that are used. -/
structure Waypoint where
  number : ℤ
  next : ℤ
  place : ℂ
  altitude : ℝ
  speed : ℝ
  tasks : List ℤ
  actions : List Action

/-- The parts of a mission command that are used. -/
structure Mission where
  vehicle : ℤ
  first : ℤ
  waypoints : List Waypoint

/-- What the service knows and is told: the entities on the task, its id, the last position of the blocked entity, the
protected place and the standoff distance. -/
structure Known where
  task : ℤ
  active : List ℤ
  blocked : Option ℂ
  protect : Option ℂ
  standoff : ℝ

/-- The parts of the state of a vehicle that are used. -/
structure State where
  id : ℤ
  place : ℂ
  altitude : ℝ
  groundspeed : ℝ

/-- BlockadeTaskService.cpp 292-330: the radius of the circle, and whether to hover instead.  The radius that is first computed
for an air vehicle (323-325) is not used. -/
noncomputable def surveyRadius : Option Config → ℝ × Bool
  | none => (100, false)
  | some c => match c.kind with
    | .ground => (0, true)
    | .surface => (0, true)
    | .air => (300, false)
    | .other => (100, false)

/-- BlockadeTaskService.cpp 288-358: `CalculateGimbalActions`. -/
noncomputable def gimbalActions (k : Known) (c : Option Config) (s : State) (place blocked : ℂ) : List Action :=
  let speed : ℝ := match c with
    | none => s.groundspeed
    | some c => c.nominalSpeed
  let gimbals : List ℤ := match c with
    | none => []
    | some c => (c.payloads.filter (·.2)).map (·.1)
  Action.loiter place s.altitude speed (surveyRadius c).1 (surveyRadius c).2 k.task ::
    gimbals.map (fun g => Action.stare g blocked k.task)

/-- BlockadeTaskService.cpp 203-286: `activeEntityState`: the mission that is sent; none before the blocked entity was heard
of. -/
noncomputable def activeEntityState (k : Known) (c : Option Config) (s : State) : Option Mission :=
  match k.blocked with
  | none => none
  | some b =>
      let speed : ℝ := match c with
        | none => s.groundspeed
        | some c => c.nominalSpeed
      let place := wallPlace k.active s.id (some s.place) b k.protect k.standoff
      let wp : Waypoint := { number := 1, next := 2, place := place, altitude := s.altitude, speed := speed, tasks := [k.task], actions := [] }
      some { vehicle := s.id, first := 1,
             waypoints := [wp, { wp with number := 2, actions := wp.actions ++ gimbalActions k c s place b }] }

end Verif.Blockade
