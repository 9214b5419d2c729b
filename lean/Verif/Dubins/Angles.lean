import Mathlib.Analysis.Real.Pi.Bounds
import Mathlib.Analysis.SpecialFunctions.Trigonometric.Bounds
import Verif.Dubins.Model

/-!
# Angles
-/

namespace Verif.Dubins

open Complex

theorem trunc_spec (x : ℝ) : (0 ≤ x → (trunc x : ℝ) ≤ x ∧ x < trunc x + 1) ∧ (x < 0 → x ≤ trunc x ∧ (trunc x : ℝ) - 1 < x) := by
  constructor
  · intro h
    unfold trunc
    rw [if_pos h]
    exact ⟨Int.floor_le x, Int.lt_floor_add_one x⟩
  · intro h
    unfold trunc
    rw [if_neg (not_le.2 h)]
    exact ⟨Int.le_ceil x, by linarith [Int.ceil_lt_add_one x]⟩

theorem exp_turns (x : ℝ) (k : ℤ) : exp (((x + 2 * Real.pi * k : ℝ) : ℂ) * I) = exp ((x : ℂ) * I) := by
  have : (((x + 2 * Real.pi * k : ℝ) : ℂ)) * I = (x : ℂ) * I + k * (2 * Real.pi * I) := by push_cast; ring
  rw [this, Complex.exp_add, Complex.exp_int_mul_two_pi_mul_I, mul_one]

theorem normal_cases (x : ℝ) : ∃ k : ℤ, normal x = x + 2 * Real.pi * k ∧ -1e-9 ≤ normal x ∧ normal x < 2 * Real.pi := by
  have hp := Real.pi_gt_three
  have hx : x = x / (2 * Real.pi) * (2 * Real.pi) := by field_simp
  have hs := trunc_spec (x / (2 * Real.pi))
  have hm : -(2 * Real.pi) < x - 2 * Real.pi * trunc (x / (2 * Real.pi)) ∧ x - 2 * Real.pi * trunc (x / (2 * Real.pi)) < 2 * Real.pi := by
    rcases le_or_gt 0 (x / (2 * Real.pi)) with h | h
    · obtain ⟨h1, h2⟩ := hs.1 h
      constructor <;> nlinarith
    · obtain ⟨h1, h2⟩ := hs.2 h
      constructor <;> nlinarith
  unfold normal
  simp only
  split
  · exact ⟨-trunc (x / (2 * Real.pi)) + 1, by push_cast; ring, by norm_num; linarith, by linarith⟩
  · split
    · exact ⟨-trunc (x / (2 * Real.pi)) - 1, by push_cast; ring, by linarith, by linarith⟩
    · exact ⟨-trunc (x / (2 * Real.pi)), by push_cast; ring, by norm_num; linarith, by linarith⟩

theorem normal_exp (x : ℝ) : exp ((normal x : ℂ) * I) = exp ((x : ℂ) * I) := by
  obtain ⟨k, hk, _⟩ := normal_cases x
  rw [hk, exp_turns]

theorem normal_range (x : ℝ) : -1e-9 ≤ normal x ∧ normal x < 2 * Real.pi := by
  obtain ⟨_, _, h⟩ := normal_cases x
  exact h

/-- An angle in the range stays. -/
theorem normal_self {x : ℝ} (h0 : 0 ≤ x) (h1 : x < 2 * Real.pi - 1e-9) : normal x = x := by
  have hp := Real.pi_gt_three
  have ht : trunc (x / (2 * Real.pi)) = 0 := by
    unfold trunc
    rw [if_pos (by positivity), Int.floor_eq_iff]
    constructor
    · push_cast; positivity
    · rw [div_lt_iff₀ (by linarith)]; push_cast; norm_num at h1 ⊢; linarith
  unfold normal
  rw [ht]
  simp only [Int.cast_zero, mul_zero, sub_zero]
  rw [if_neg (not_lt.2 h0), if_neg (not_le.2 h1)]

/-- A negative angle of less than a full turn. -/
theorem normal_neg {x : ℝ} (h0 : x < 0) (h1 : -(2 * Real.pi) < x) : normal x = x + 2 * Real.pi := by
  have hp := Real.pi_gt_three
  have ht : trunc (x / (2 * Real.pi)) = 0 := by
    unfold trunc
    rw [if_neg (not_le.2 (div_neg_of_neg_of_pos h0 (by linarith))), Int.ceil_eq_iff]
    constructor
    · rw [lt_div_iff₀ (by linarith)]; push_cast; linarith
    · push_cast; exact (div_neg_of_neg_of_pos h0 (by linarith)).le
  unfold normal
  rw [ht]
  simp only [Int.cast_zero, mul_zero, sub_zero]
  rw [if_pos h0]

theorem bearing_exp (v : ℂ) : (‖v‖ : ℂ) * exp ((bearing v : ℂ) * I) = v := by
  unfold bearing
  rw [normal_exp]
  exact Complex.norm_mul_exp_arg_mul_I v

theorem bearing_unit {v : ℂ} (h : v ≠ 0) : exp ((bearing v : ℂ) * I) = v / ‖v‖ := by
  have := bearing_exp v
  have hn : (‖v‖ : ℂ) ≠ 0 := by exact_mod_cast norm_ne_zero_iff.2 h
  field_simp
  rw [mul_comm]; exact this

theorem bearing_range (v : ℂ) : -1e-9 ≤ bearing v ∧ bearing v < 2 * Real.pi := normal_range _

theorem exp_unit (x : ℝ) : ‖exp ((x : ℂ) * I)‖ = 1 := norm_exp_ofReal_mul_I x

theorem exp_inv (x : ℝ) : exp (((-x : ℝ) : ℂ) * I) * exp ((x : ℂ) * I) = 1 := by
  rw [← Complex.exp_add]; push_cast; rw [show -(x : ℂ) * I + x * I = 0 by ring, Complex.exp_zero]

/-- A turn by the angle of `sweep` leads from one angle to the other. -/
theorem sweep_exp (dir : Dir) (a b : ℝ) : exp (((dir.sign * sweep dir a b : ℝ) : ℂ) * I) = exp (((b - a : ℝ) : ℂ) * I) := by
  cases dir <;> simp only [sweep, Dir.sign] <;> split
  · rw [show -1 * (a - b) = b - a by ring]
  · rw [show -1 * (a + (2 * Real.pi - b)) = (b - a) + 2 * Real.pi * ((-1 : ℤ) : ℝ) by push_cast; ring, exp_turns]
  · rw [one_mul]
  · rw [show 1 * (2 * Real.pi - a + b) = (b - a) + 2 * Real.pi * ((1 : ℤ) : ℝ) by push_cast; ring, exp_turns]

theorem sweep_range (dir : Dir) {a b : ℝ} (ha : -1e-9 ≤ a ∧ a < 2 * Real.pi) (hb : -1e-9 ≤ b ∧ b < 2 * Real.pi) :
    -1e-9 ≤ sweep dir a b ∧ sweep dir a b ≤ 2 * Real.pi + 1e-9 := by
  obtain ⟨a1, a2⟩ := ha
  obtain ⟨b1, b2⟩ := hb
  norm_num at *
  cases dir <;> simp only [sweep] <;> split <;> constructor <;> linarith

theorem sweep_self (dir : Dir) (a : ℝ) : sweep dir a a = 0 := by cases dir <;> simp [sweep]

/-- Either nothing is changed or the angles differ by less than 0.005, up to a full turn. -/
theorem snap_spec (star a : ℝ) : snap star a = star ∨ (snap star a = a ∧ (|star - a| < 0.005 ∨ |(|star - a| - 2 * Real.pi)| < 0.005)) := by
  unfold snap
  split
  · right; exact ⟨rfl, by assumption⟩
  · left; rfl

/-- The angles of a turn that is left out. -/
theorem snap_small {star a : ℝ} (dir : Dir) (h : |star - a| < 0.005 ∨ |(|star - a| - 2 * Real.pi)| < 0.005) :
    |sweep dir a star| < 0.005 ∨ |sweep dir a star - 2 * Real.pi| < 0.005 := by
  cases dir <;> simp only [sweep] <;> split
  · rename_i hc
    rw [abs_sub_comm, abs_of_nonneg (by linarith : (0 : ℝ) ≤ a - star)] at h
    rw [abs_of_nonneg (by linarith : (0 : ℝ) ≤ a - star)]
    exact h
  · rename_i hc
    rw [abs_of_nonneg (by linarith : (0 : ℝ) ≤ star - a)] at h
    rcases h with h | h
    · right
      rw [show a + (2 * Real.pi - star) - 2 * Real.pi = -(star - a) by ring, abs_neg, abs_of_nonneg (by linarith : (0 : ℝ) ≤ star - a)]
      exact h
    · left
      rw [show a + (2 * Real.pi - star) = -(star - a - 2 * Real.pi) by ring, abs_neg]
      exact h
  · rename_i hc
    rw [abs_of_nonneg (by linarith : (0 : ℝ) ≤ star - a)] at h
    rw [abs_of_nonneg (by linarith : (0 : ℝ) ≤ star - a)]
    exact h
  · rename_i hc
    rw [abs_sub_comm, abs_of_nonneg (by linarith : (0 : ℝ) ≤ a - star)] at h
    rcases h with h | h
    · right
      rw [show 2 * Real.pi - a + star - 2 * Real.pi = -(a - star) by ring, abs_neg, abs_of_nonneg (by linarith : (0 : ℝ) ≤ a - star)]
      exact h
    · left
      rw [show 2 * Real.pi - a + star = -(a - star - 2 * Real.pi) by ring, abs_neg]
      exact h

theorem norm_exp_sub_one (x : ℝ) : ‖exp ((x : ℂ) * I) - 1‖ ≤ |x| := by
  have := Real.norm_exp_I_mul_ofReal_sub_one_le (x := x)
  rw [mul_comm I] at this
  simpa using this

/-! ### What flying means -/

/-- A place and the direction of flight, of length 1. -/
@[ext] structure Pose where
  at_ : ℂ
  to_ : ℂ

/-- After a turn by an angle on a circle of the radius. -/
noncomputable def Pose.turned (p : Pose) (dir : Dir) (r a : ℝ) : Pose where
  at_ := p.at_ + dir.sign * r * I * p.to_ - dir.sign * r * I * p.to_ * exp (((dir.sign * a : ℝ) : ℂ) * I)
  to_ := p.to_ * exp (((dir.sign * a : ℝ) : ℂ) * I)

/-- After going straight on. -/
noncomputable def Pose.on (p : Pose) (l : ℝ) : Pose := ⟨p.at_ + l * p.to_, p.to_⟩

theorem toward_unit (h : ℝ) : ‖toward h‖ = 1 := exp_unit _

end Verif.Dubins
