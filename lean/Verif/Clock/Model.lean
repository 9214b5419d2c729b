import Verif.Common
import Mathlib.Tactic.Linarith
import Mathlib.Tactic.Ring

/-!
# The clock (C174-C176)

`src/cpp/Utilities/UxAS_Time.h` and `UxAS_Time.cpp`: `Time`, `DiscreteTime` and the calibration with a reference time, built without
`ICET_ARM`.

The clock of the machine is a parameter: a number of nanoseconds since the epoch, not negative.  `std::chrono::system_clock` counts
nanoseconds in 64 bits, as with the GNU library, so that a number of seconds whose nanoseconds do not fit is undefined behaviour.  The
mutex and the log are left out.  `getInstance` reads the clock six times for the six units of the start time; here it is read once.
-/

namespace Verif.Clock

/-- An `int`. -/
def IsInt (x : ℤ) : Prop := -2147483648 ≤ x ∧ x ≤ 2147483647

/-- Seconds whose nanoseconds fit into 64 bits (`from_time_t`, `seconds`; UxAS_Time.cpp 190 and 210). -/
def fits (s : ℤ) : Bool := -9223372036 ≤ s && s ≤ 9223372036

/-- The Gregorian calendar, for the library function `timegm` (UxAS_Time.cpp 185): leap years. -/
def leap (y : ℤ) : Bool := y % 4 == 0 && (y % 100 != 0 || y % 400 == 0)

/-- Days from the epoch to the first day of a year. -/
def daysTo (y : ℤ) : ℤ := 365 * (y - 1970) + ((y - 1) / 4 - 492) - ((y - 1) / 100 - 19) + ((y - 1) / 400 - 4)

/-- Days of the year before a month (1 to 12). -/
def daysToMonth (y m : ℤ) : ℤ :=
  [0, 31, 59, 90, 120, 151, 181, 212, 243, 273, 304, 334].getD (m - 1).toNat 0 + if leap y && 3 ≤ m then 1 else 0

/-- `timegm` (UxAS_Time.cpp 185): seconds from the epoch; days past the end of the month run on into the next. -/
def timegm (y m d h mi s : ℤ) : ℤ := 86400 * (daysTo y + daysToMonth y m + (d - 1)) + 3600 * h + 60 * mi + s

/-- What `Time` keeps (UxAS_Time.h 362-373 and 428): `m_timeExternalCalibrationDelta_ms`, `m_timeExternallyCalibrationCount`, the
nanoseconds at the start, for which there is a member per unit, and `m_discreteTime_ms`. -/
structure Clock where
  delta : ℤ := 0
  count : ℕ := 0
  start : ℤ := 0
  discrete : ℤ := 0
deriving DecidableEq

/-- UxAS_Time.cpp 208-252: the reference time in milliseconds is taken over unless its year, as `gmtime` tells it, is before 2016. -/
def accept (yearOf : ℤ → ℤ) (now ref : ℤ) (c : Clock) : Outcome (Bool × Clock) :=
  let s := ref.tdiv 1000
  if fits s then
    if yearOf (s / 86400) < 2016 then .ok (false, c)
    else .ok (true, { c with delta := ref - now / 1000000, count := if c.count < 2 ^ 64 - 1 then c.count + 1 else c.count })
  else .ub

/-- UxAS_Time.cpp 93-252: `calibrateWithReferenceUtcTimeImpl`.  `yearOf` is the year of a day, counted from the epoch, that `gmtime`
tells; `now` is the clock. -/
def impl (yearOf : ℤ → ℤ) (now : ℤ) (year month day weeks hour minutes seconds ms : ℤ) (c : Clock) : Outcome (Bool × Clock) :=
  if year - 1900 < -2147483648 then .ub
  else if ¬ (0 < month ∧ month < 13) then .ok (false, c)
  else if ¬ (0 < day ∧ day < 32) then .ok (false, c)
  else if weeks < 0 then
    if ¬ (-1 < hour ∧ hour < 24) then .ok (false, c)
    else if ¬ (-1 < minutes ∧ minutes < 60) then .ok (false, c)
    else if ¬ (-1 < seconds ∧ seconds < 61) then .ok (false, c)
    else
      let t := timegm year month day hour minutes seconds
      if fits t then accept yearOf now (t * 1000 + ms) c else .ub
  else
    let t := timegm year month day 0 0 0
    if fits t then accept yearOf now (t * 1000 + weeks * 7 * 24 * 3600 * 1000 + ms) c else .ub

/-- UxAS_Time.cpp 69-79: `calibrateWithReferenceUtcTime` with a time of day. -/
def calibrate (yearOf : ℤ → ℤ) (now : ℤ) (year month day hour minutes seconds ms : ℤ) (c : Clock) : Outcome (Bool × Clock) :=
  if year < 2016 then .ok (false, c) else impl yearOf now year month day (-1) hour minutes seconds ms c

/-- UxAS_Time.cpp 81-91: `calibrateWithReferenceUtcTime` with weeks. -/
def calibrateWeeks (yearOf : ℤ → ℤ) (now : ℤ) (year month day weeks ms : ℤ) (c : Clock) : Outcome (Bool × Clock) :=
  if weeks < 0 then .ok (false, c) else impl yearOf now year month day weeks 0 0 0 ms c

/-- `TimeMode` (UxAS_Time.h 29-33). -/
inductive Mode | real | discrete
deriving DecidableEq

/-- UxAS_Time.h 119-127 and 498-502: `getUtcTimeSinceEpoch_ms`. -/
def utcMs (m : Mode) (c : Clock) (now : ℤ) : ℤ :=
  match m with
  | .real => now / 1000000 + c.delta
  | .discrete => c.discrete + c.start / 1000000

/-- UxAS_Time.h 74-111 and 462-490: `getUtcTimeSinceEpoch_hr`, `_min` and `_s`, for a unit of `u` milliseconds. -/
def utcIn (u : ℤ) (m : Mode) (c : Clock) (now : ℤ) : ℤ :=
  match m with
  | .real => now / (u * 1000000) + c.delta.tdiv u
  | .discrete => c.discrete.tdiv u + c.start / (u * 1000000)

/-- UxAS_Time.h 273-279 and 563-567: `getDurationSinceStart_ms`. -/
def durationMs (m : Mode) (c : Clock) (now : ℤ) : ℤ :=
  match m with
  | .real => now / 1000000 - c.start / 1000000
  | .discrete => c.discrete

/-- UxAS_Time.h 237-267 and 533-557: `getDurationSinceStart_hr`, `_min` and `_s`. -/
def durationIn (u : ℤ) (m : Mode) (c : Clock) (now : ℤ) : ℤ :=
  match m with
  | .real => now / (u * 1000000) - c.start / (u * 1000000)
  | .discrete => c.discrete.tdiv u

/-- `getExternalCalibrationCount` (UxAS_Time.h 312-317): an unsigned number of 32 bits. -/
def calibrations (c : Clock) : ℕ := c.count % 2 ^ 32

/-- The one clock of the program (UxAS_Time.cpp 25-27). -/
structure World where
  instance_ : Option Clock := none
  current : Mode := .real
  desired : Mode := .real

/-- UxAS_Time.cpp 29-66: `getInstance`. -/
def World.get (w : World) (now : ℤ) : Clock × World :=
  match w.instance_ with
  | some c => if w.current = w.desired then (c, w) else
      let c' : Clock := { start := now }
      (c', { w with instance_ := some c', current := w.desired })
  | none =>
      let c' : Clock := { start := now }
      (c', { w with instance_ := some c', current := w.desired })

/-- UxAS_Time.h 383-386: `setTimeMode`. -/
def World.setMode (w : World) (m : Mode) : World := { w with desired := m }

/-- A change of the one clock. -/
def World.update (w : World) (now : ℤ) (f : Clock → Clock) : World :=
  let (c, w) := w.get now
  { w with instance_ := some (f c) }

/-- UxAS_Time.h 393-403: `resetDiscreteTime_ms`. -/
def Clock.reset (c : Clock) (t : ℤ) : Clock := { c with discrete := t, start := 0 }

/-- UxAS_Time.h 409-413: `setDiscreteTime_ms`. -/
def Clock.set (c : Clock) (t : ℤ) : Clock := { c with discrete := t }

/-- What other parts of the program do: read the clock, or calibrate it.  `Test_SimulationTime.cpp` 52-74: the service that sets the
time to that of every state of an entity. -/
inductive Event where
  /-- `initialize` -/
  | init (now : ℤ)
  /-- the state of an entity -/
  | state (now time : ℤ)
  /-- the time is asked for -/
  | read (now : ℤ)
  /-- a calibration with a time of day that has a defined result -/
  | calibrated (now : ℤ) (delta : ℤ) (count : ℕ)
  /-- `setTimeMode` -/
  | mode (m : Mode)

/-- One event. -/
def World.step (w : World) : Event → World
  | .init now => (w.setMode .discrete).update now (·.reset 0)
  | .state now t => w.update now (·.set t)
  | .read now => (w.get now).2
  | .calibrated now d n => w.update now fun c => { c with delta := d, count := n }
  | .mode m => w.setMode m

end Verif.Clock
