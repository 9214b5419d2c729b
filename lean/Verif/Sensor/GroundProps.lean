import Verif.Sensor.Ground
import Mathlib.Analysis.SpecialFunctions.Trigonometric.Bounds

/-!
# Properties of footprints on the ground (C125)
-/

namespace Verif.Sensor

open Real

/-- Specification: an angle below the horizon, that is not within a billionth of a radian of it, in front or behind. -/
def Below (a : ℝ) : Prop := 1 / 1000000000 < -a ∧ -a < π - 1 / 1000000000

theorem not_near_tan {x : ℝ} (h0 : 1 / 1000000000 < x) (h1 : x < π - 1 / 1000000000) (hx : x ≠ π / 2) :
    ¬ NearZero (tan x) := by
  rintro ⟨ha, hb⟩
  rcases lt_or_gt_of_ne hx with h | h
  · have := lt_tan (by linarith) h
    linarith
  · have h2 := lt_tan (x := π - x) (by linarith) (by linarith)
    have h3 : tan (π - x) = -tan x := by
      rw [tan_eq_sin_div_cos, tan_eq_sin_div_cos, sin_pi_sub, cos_pi_sub, div_neg]
    linarith

/-- The distance on the ground. -/
theorem ratio_tan {x alt : ℝ} (h0 : 1 / 1000000000 < x) (h1 : x < π - 1 / 1000000000) :
    ratio alt (tan x) = alt * (cos x / sin x) := by
  unfold ratio
  by_cases hx : x = π / 2
  · subst hx
    rw [if_pos (by rw [tan_pi_div_two]; constructor <;> norm_num)]
    simp
  · rw [if_neg (not_near_tan h0 h1 hx), tan_eq_sin_div_cos]
    have hs : sin x ≠ 0 := (sin_pos_of_pos_of_lt_pi (by linarith) (by linarith)).ne'
    have hc : cos x ≠ 0 := by
      intro hc
      apply hx
      have h3 : x = π / 2 := by
        rcases lt_trichotomy x (π / 2) with h | h | h
        · have := cos_pos_of_mem_Ioo ⟨by linarith, h⟩
          linarith
        · exact h
        · have := cos_neg_of_pi_div_two_lt_of_lt h (by linarith [pi_pos])
          linarith
      exact h3
    field_simp

/-- The cotangent decreases below the horizon. -/
theorem cot_lt {x y : ℝ} (hx : 0 < x) (hxy : x < y) (hy : y < π) : cos y / sin y < cos x / sin x := by
  have hsx := sin_pos_of_pos_of_lt_pi hx (by linarith)
  have hsy := sin_pos_of_pos_of_lt_pi (show 0 < y by linarith) hy
  have h := sin_pos_of_pos_of_lt_pi (show 0 < y - x by linarith) (by linarith)
  rw [sin_sub] at h
  rw [div_lt_div_iff₀ hsy hsx]
  linarith

theorem cut_below {a : ℝ} (h : Below a) : cut a = a := by
  unfold cut
  obtain ⟨h0, h1⟩ := h
  rw [if_neg (by linarith), if_neg (by linarith)]

/-- **C125.**  A footprint that is below the horizon with both edges: the trailing edge, the centre and the leading edge come in this
order, with the altitude positive. -/
theorem C125_order_partial {hfov aspect el alt : ℝ} (halt : 0 < alt) (hv : 0 < hfov / aspect)
    (hhi : Below (el + hfov / aspect / 2)) (hlo : Below (el - hfov / aspect / 2)) :
    (ground hfov aspect el alt).trailing < (ground hfov aspect el alt).center ∧
      (ground hfov aspect el alt).center < (ground hfov aspect el alt).leading := by
  have e1 := hhi; have e2 := hlo
  obtain ⟨a0, a1⟩ := hhi
  obtain ⟨b0, b1⟩ := hlo
  simp only [ground, cut_below e1, cut_below e2]
  rw [ratio_tan a0 a1, ratio_tan b0 b1, ratio_tan (by linarith) (by linarith)]
  constructor
  · exact mul_lt_mul_of_pos_left (cot_lt (by linarith) (by linarith) (by linarith)) halt
  · exact mul_lt_mul_of_pos_left (cot_lt (by linarith) (by linarith) (by linarith)) halt

/-- **C125.**  The centre is where the camera looks: altitude, distance on the ground and slant range are the sides of a right
triangle. -/
theorem C125_triangle {hfov aspect el alt : ℝ} (h : Below el) (hs : 1 / 1000000000 < sin (-el)) :
    (ground hfov aspect el alt).slant ^ 2 = alt ^ 2 + (ground hfov aspect el alt).center ^ 2 := by
  obtain ⟨h0, h1⟩ := h
  simp only [ground]
  rw [ratio_tan h0 h1]
  unfold ratio
  rw [if_neg (fun hn => by have := hn.2; linarith)]
  have hne : sin (-el) ≠ 0 := by linarith
  have := sin_sq_add_cos_sq (-el)
  field_simp
  linear_combination (-(alt ^ 2)) * this

/-- **C125.**  The width is that of the field of view at the slant range. -/
theorem C125_width (hfov aspect el alt : ℝ) :
    (ground hfov aspect el alt).width = 2 * (ground hfov aspect el alt).slant * tan (hfov / 2) := by
  simp only [ground]
  congr 2
  ring

/-- **C125.**  The width is not negative, for fields of view below half a turn. -/
theorem C125_width_nonneg {hfov aspect el alt : ℝ} (halt : 0 < alt) (h0 : 0 ≤ hfov) (h1 : hfov < π) (hel : -π < el)
    (hel' : el < 0) : 0 ≤ (ground hfov aspect el alt).width := by
  rw [C125_width]
  have ht : 0 ≤ tan (hfov / 2) := tan_nonneg_of_nonneg_of_le_pi_div_two (by linarith) (by linarith)
  have hs : 0 ≤ (ground hfov aspect el alt).slant := by
    simp only [ground, ratio]
    split
    · exact le_rfl
    · exact div_nonneg halt.le (sin_pos_of_pos_of_lt_pi (by linarith) (by linarith)).le
  positivity

/-- **C125.**  When the upper edge of the image is at or above the horizon, the leading edge is reported at distance 0, under the
vehicle and behind the centre. -/
theorem C125_horizon_violated {hfov aspect el alt : ℝ} (halt : 0 < alt) (hel : -el < π / 2) (hel' : 1 / 1000000000 < -el)
    (hup : 0 ≤ el + hfov / aspect / 2) :
    (ground hfov aspect el alt).leading = 0 ∧ 0 < (ground hfov aspect el alt).center := by
  constructor
  · have hc : cut (el + hfov / aspect / 2) = 0 := by
      unfold cut
      rcases hup.lt_or_eq with h | h
      · rw [if_pos h]
      · rw [← h]
        rw [if_neg (lt_irrefl _), if_neg (by linarith [pi_pos])]
    have hz : ratio alt 0 = 0 := by
      unfold ratio
      rw [if_pos ⟨by norm_num, by norm_num⟩]
    simp only [ground]
    rw [hc, neg_zero, tan_zero, hz]
  · have hpi := two_le_pi
    simp only [ground]
    rw [ratio_tan hel' (by linarith)]
    refine mul_pos halt (div_pos ?_ ?_)
    · exact cos_pos_of_mem_Ioo ⟨by linarith, hel⟩
    · exact sin_pos_of_pos_of_lt_pi (by linarith) (by linarith)

/-- A camera that looks down at 45 degrees with a field of view of 30 degrees meets the hypotheses of C125_order_partial and
C125_triangle. -/
example : 0 < (π / 6) / 1 ∧ Below (-(π / 4) + (π / 6) / 1 / 2) ∧ Below (-(π / 4) - (π / 6) / 1 / 2) ∧ Below (-(π / 4)) ∧
    1 / 1000000000 < sin (-(-(π / 4))) := by
  have := two_le_pi
  refine ⟨by positivity, ⟨?_, ?_⟩, ⟨?_, ?_⟩, ⟨?_, ?_⟩, ?_⟩ <;> norm_num <;> try linarith
  have h1 : (1 : ℝ) < √2 := by
    rw [show (1 : ℝ) = √1 by simp]
    exact sqrt_lt_sqrt (by norm_num) (by norm_num)
  linarith

/-- A camera that looks ten degrees down with a field of view of 30 degrees meets those of C125_horizon_violated. -/
example : -(-(π / 18)) < π / 2 ∧ 1 / 1000000000 < -(-(π / 18)) ∧ 0 ≤ -(π / 18) + (π / 6) / 1 / 2 := by
  have := two_le_pi
  refine ⟨by linarith, by norm_num; linarith, by linarith⟩

end Verif.Sensor
