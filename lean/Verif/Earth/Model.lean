import Verif.Common
import Mathlib.Analysis.SpecialFunctions.Trigonometric.Basic
import Mathlib.Analysis.SpecialFunctions.Pow.Real

/-!
# Conversion between latitude/longitude and north/east

`FlatEarth` (`src/cpp/Utilities/FlatEarth.cpp` 30-185, `FlatEarth.h` 78-137) and `CUnitConversions`
(`src/cpp/Utilities/UnitConversions.cpp` 24-193, `UnitConversions.h` 80-125).  The two classes have the same code, statement
by statement.  They differ in where the origin lives: a `FlatEarth` object has its own, all `CUnitConversions` objects of a
process share one.  The state below is one such origin.

Simplification: numbers are real, so nothing is rounded.  `asserts` says whether the program was compiled with assertions
(`NDEBUG` not defined); a failing assertion stops the process and is the outcome `throws`.
-/

namespace Verif.Earth

open Real

/-- FlatEarth.h 124, UnitConversions.h 112. -/
def radiusEquatorial : ℝ := 6378135

/-- FlatEarth.h 126, UnitConversions.h 114. -/
noncomputable def ecc2 : ℝ := 6694379990096503 / 1000000000000000000

/-- src/cpp/Includes/Constants/Convert.h 99-102. -/
noncomputable def degToRad : ℝ := 1745329251994 / 100000000000000

/-- Convert.h 111-114. -/
noncomputable def radToDeg : ℝ := 5729577951308232 / 100000000000000

/-- Convert.h 81-84. -/
noncomputable def mToFt : ℝ := 3280839895 / 1000000000

/-- Convert.h 87-90. -/
noncomputable def ftToM : ℝ := 3048 / 10000

/-- FlatEarth.h 130-135, UnitConversions.cpp 24-29. -/
structure Earth where
  lat0 : ℝ := 0
  lon0 : ℝ := 0
  meridional : ℝ := 0
  transverse : ℝ := 0
  small : ℝ := 0
  init : Bool := false

/-- FlatEarth.cpp 39, 42: the number below the two powers. -/
noncomputable def flat (lat : ℝ) : ℝ := 1 - ecc2 * (sin lat) ^ (2 : ℝ)

/-- FlatEarth.cpp 41, 44, 121, 123: the guarded quotient. -/
noncomputable def quot (a d : ℝ) : ℝ := if d ≤ 0 then 0 else a / d

/-- FlatEarth.cpp 30-48, UnitConversions.cpp 31-49. -/
noncomputable def Earth.initialize (asserts : Bool) (e : Earth) (lat lon : ℝ) : Outcome Earth :=
  open Classical in
  if e.init then .ok e
  else
    let dm := flat lat ^ ((3 : ℝ) / 2)
    let dt := flat lat ^ ((1 : ℝ) / 2)
    if asserts = true ∧ (dm ≤ 0 ∨ dt ≤ 0) then .throws
    else
      let tr := quot radiusEquatorial dt
      .ok { lat0 := lat, lon0 := lon, meridional := quot (radiusEquatorial * (1 - ecc2)) dm, transverse := tr,
            small := tr * cos lat, init := true }

/-- Unit of the angles, part of the names of the functions (FlatEarth.h 93-120). -/
inductive Angle | rad | deg
deriving DecidableEq

/-- Unit of the lengths, part of the names of the functions (FlatEarth.h 93-120). -/
inductive Length | m | ft
deriving DecidableEq

/-- FlatEarth.cpp 82-83, 97-98. -/
noncomputable def Angle.toRad : Angle → ℝ → ℝ
  | .rad, x => x
  | .deg, x => x * degToRad

/-- FlatEarth.cpp 130, 132, 156, 160. -/
noncomputable def Angle.ofRad : Angle → ℝ → ℝ
  | .rad, x => x
  | .deg, x => x * radToDeg

/-- FlatEarth.cpp 64-65, 109-110. -/
noncomputable def Length.ofM : Length → ℝ → ℝ
  | .m, x => x
  | .ft, x => x * mToFt

/-- FlatEarth.cpp 137-138, 150-151. -/
noncomputable def Length.toM : Length → ℝ → ℝ
  | .m, x => x
  | .ft, x => x * ftToM

/-- FlatEarth.cpp 53-111, UnitConversions.cpp 61-119: `ConvertLatLong_<a>ToNorthEast_<l>`. -/
noncomputable def Earth.toNorthEast (asserts : Bool) (a : Angle) (l : Length) (e : Earth) (p : ℝ × ℝ) :
    Outcome (Earth × ℝ × ℝ) :=
  let lat := a.toRad p.1
  let lon := a.toRad p.2
  (e.initialize asserts lat lon).bind fun e =>
    .ok (e, l.ofM (e.meridional * (lat - e.lat0)), l.ofM (e.small * (lon - e.lon0)))

/-- FlatEarth.cpp 121, 123, 130, 132, 142, 145, 155-160: one coordinate.  For degrees and metres the fallback 0 is not
multiplied, for degrees and feet it is, with the same result. -/
noncomputable def back (a : Angle) (r x x0 : ℝ) : ℝ := if r ≤ 0 then 0 else a.ofRad (x / r + x0)

/-- FlatEarth.cpp 117-161, UnitConversions.cpp 125-169: `ConvertNorthEast_<l>ToLatLong_<a>`. -/
noncomputable def Earth.toLatLong (asserts : Bool) (l : Length) (a : Angle) (e : Earth) (q : ℝ × ℝ) : Outcome (ℝ × ℝ) :=
  open Classical in
  if asserts = true ∧ (e.meridional ≤ 0 ∨ e.small ≤ 0) then .throws
  else .ok (back a e.meridional (l.toM q.1) e.lat0, back a e.small (l.toM q.2) e.lon0)

/-- FlatEarth.cpp 163-185, UnitConversions.cpp 171-193: `dGetLinearDistance_m_Lat1Long1_<a>_To_Lat2Long2_<a>`. -/
noncomputable def Earth.distance (asserts : Bool) (a : Angle) (e : Earth) (p q : ℝ × ℝ) : Outcome (Earth × ℝ) :=
  (e.toNorthEast asserts a .m p).bind fun (e, n1, e1) =>
    (e.toNorthEast asserts a .m q).bind fun (e, n2, e2) =>
      .ok (e, ((n2 - n1) ^ (2 : ℝ) + (e2 - e1) ^ (2 : ℝ)) ^ ((1 : ℝ) / 2))

/-- A call of a method of the class (FlatEarth.h 88-120). -/
inductive Call
  /-- `Initialize`; latitude and longitude in radians -/
  | setOrigin (lat lon : ℝ)
  | toNorthEast (a : Angle) (l : Length) (p : ℝ × ℝ)
  | toLatLong (l : Length) (a : Angle) (q : ℝ × ℝ)
  | distance (a : Angle) (p q : ℝ × ℝ)

/-- The state a call leaves. -/
noncomputable def Earth.after (asserts : Bool) (e : Earth) : Call → Outcome Earth
  | .setOrigin lat lon => e.initialize asserts lat lon
  | .toNorthEast a l p => (e.toNorthEast asserts a l p).bind fun r => .ok r.1
  | .toLatLong l a q => (e.toLatLong asserts l a q).bind fun _ => .ok e
  | .distance a p q => (e.distance asserts a p q).bind fun r => .ok r.1

/-- The state a sequence of calls leaves; the origin of a new `FlatEarth` object, or of the process for
`CUnitConversions`, is first unset. -/
noncomputable def run (asserts : Bool) : List Call → Earth → Outcome Earth
  | [], e => .ok e
  | c :: cs, e => (e.after asserts c).bind (run asserts cs)

end Verif.Earth
