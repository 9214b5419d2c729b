import Verif.Common
import Mathlib.Algebra.Order.Floor.Ring
import Mathlib.Data.Rat.Floor

/-!
# Normalising angles and rounding

`c_Convert`, `src/cpp/Includes/Constants/Convert.h` 117-158, 181-242, 244-260, 279-297.  Simplification: numbers are rational,
so sums and products are not rounded; `fmod` is exact in C++ too.  A failing assertion stops the process: the outcome
`throws` when `asserts`, the program going on when not.
-/

namespace Verif.Earth

/-- Convert.h 117-120: the constant for π. -/
def piConst : ℚ := 314159265359 / 100000000000

/-- Convert.h 153-156. -/
def twoPiConst : ℚ := 2 * piConst

/-- Convert.h 181: the default tolerance. -/
def epsilon : ℚ := 1 / 1000000000

/-- Convert.h 160 ff.: the relations. -/
inductive Rel | greater | greaterEqual | less | lessEqual | equal

/-- Convert.h 181-203: `bCompareDouble` with the default tolerance. -/
def compare (x y : ℚ) : Rel → Bool
  | .greater => decide (y < x)
  | .greaterEqual => decide (y < x) || decide (|x - y| ≤ epsilon)
  | .less => decide (x < y)
  | .lessEqual => decide (x < y) || decide (|x - y| ≤ epsilon)
  | .equal => decide (|x - y| ≤ epsilon)

/-- Conversion to an integer, towards zero. -/
def trunc (x : ℚ) : ℤ := if 0 ≤ x then ⌊x⌋ else ⌈x⌉

/-- `std::fmod` for a divisor that is not 0: what is left after taking the quotient, cut towards zero, times the divisor. -/
def fmod (x m : ℚ) : ℚ := x - m * trunc (x / m)

/-- Convert.h 229-242 and 244-260: `dNormalizeAngleRad` and `dNormalizeAngleDeg`; `full` is `dTwoPi()` and 360. -/
def normalize (asserts : Bool) (full x ref : ℚ) : Outcome ℚ :=
  if asserts = true ∧ ¬(ref ≤ 0 ∧ -full ≤ ref) then .throws
  else
    let m := fmod x full
    .ok (if compare m ref .less then m + full
      else if compare m (ref + full) .greaterEqual then m - full
      else m)

/-- Convert.h 229-242; the reference is `-dPi()` unless given. -/
def normalizeRad (asserts : Bool) (x : ℚ) (ref : ℚ := -piConst) : Outcome ℚ := normalize asserts twoPiConst x ref

/-- Convert.h 244-260; the reference is -180 unless given. -/
def normalizeDeg (asserts : Bool) (x : ℚ) (ref : ℚ := -180) : Outcome ℚ := normalize asserts 360 x ref

/-- Convert.h 279-283: `iRound`. -/
def iRound (x : ℚ) : ℤ := trunc (x + 1 / 2)

/-- Convert.h 284-290 and 291-297, `src/cpp/Plans/Trajectory.h` 62-67: `dRound`, `vRound`. -/
def dRound (x place : ℚ) : ℚ := ⌊x / place + 1 / 2⌋ * place

end Verif.Earth
