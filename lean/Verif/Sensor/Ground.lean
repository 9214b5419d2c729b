import Mathlib.Analysis.SpecialFunctions.Trigonometric.Basic

/-!
# Where a camera looks on the ground

`SensorManagerService::CalculateSensorFootprint`, `src/cpp/Services/SensorManagerService.cpp` 342-367.  Simplification:
numbers are real, so nothing is rounded; at a right angle the tangent is 0 here and very large there, and the distance 0 in
both.
-/

namespace Verif.Sensor

open Real

/-- SensorManagerService.cpp 362-366: the distances of a footprint. -/
structure Ground where
  leading : ℝ
  trailing : ℝ
  center : ℝ
  width : ℝ
  slant : ℝ

/-- src/cpp/Includes/Constants/Convert.h 181-203: `bCompareDouble(x, 0.0, enEqual)`. -/
def NearZero (x : ℝ) : Prop := -(1 / 1000000000) ≤ x ∧ x ≤ 1 / 1000000000

/-- SensorManagerService.cpp 350-357: `alt / d`, 0 for a denominator close to 0. -/
noncomputable def ratio (alt d : ℝ) : ℝ := open Classical in if NearZero d then 0 else alt / d

/-- SensorManagerService.cpp 346, 348: an angle is cut to the half turn below the horizon. -/
noncomputable def cut (a : ℝ) : ℝ := if 0 < a then 0 else if a < -π then -π else a

/-- SensorManagerService.cpp 342-367: `CalculateSensorFootprint`. -/
noncomputable def ground (hfov aspect el alt : ℝ) : Ground :=
  let vfov := hfov / aspect
  let hi := cut (el + vfov / 2)
  let lo := cut (el - vfov / 2)
  { leading := ratio alt (tan (-hi))
    trailing := ratio alt (tan (-lo))
    center := ratio alt (tan (-el))
    width := 2 * ratio alt (sin (-el)) * tan (1 / 2 * hfov)
    slant := ratio alt (sin (-el)) }

end Verif.Sensor
