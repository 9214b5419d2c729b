import Verif.Earth.Angle
import Mathlib.Analysis.Real.Pi.Bounds
import Mathlib.Analysis.SpecialFunctions.Trigonometric.Bounds
import Mathlib.Tactic.Linarith
import Mathlib.Tactic.NormNum

/-!
# C128, C129: normalised angles and rounded numbers
-/

namespace Verif.Earth

/-! ## Lemmas -/

theorem trunc_spec (x : ℚ) : (0 ≤ x → (trunc x : ℚ) ≤ x ∧ x < trunc x + 1) ∧
    (x < 0 → x ≤ trunc x ∧ (trunc x : ℚ) - 1 < x) := by
  constructor
  · intro h
    unfold trunc
    rw [if_pos h]
    exact ⟨Int.floor_le x, Int.lt_floor_add_one x⟩
  · intro h
    unfold trunc
    rw [if_neg (not_le.mpr h)]
    exact ⟨Int.le_ceil x, by linarith [Int.ceil_lt_add_one x]⟩

theorem fmod_spec {m : ℚ} (hm : 0 < m) (x : ℚ) : -m < fmod x m ∧ fmod x m < m := by
  have hx : x = m * (x / m) := by field_simp
  have hs := trunc_spec (x / m)
  unfold fmod
  rcases le_or_gt 0 (x / m) with h | h
  · obtain ⟨h1, h2⟩ := hs.1 h
    constructor <;> nlinarith
  · obtain ⟨h1, h2⟩ := hs.2 h
    constructor <;> nlinarith

/-- The result of `normalize`. -/
theorem normalize_cases {asserts : Bool} {full x ref r : ℚ} (h : normalize asserts full x ref = .ok r) :
    (fmod x full < ref ∧ r = fmod x full + full) ∨
    (ref ≤ fmod x full ∧ ref + full - epsilon ≤ fmod x full ∧ r = fmod x full - full) ∨
    (ref ≤ fmod x full ∧ fmod x full < ref + full - epsilon ∧ r = fmod x full) := by
  unfold normalize at h
  split at h
  · cases h
  · have he : (0 : ℚ) < epsilon := by unfold epsilon; norm_num
    simp only [Outcome.ok.injEq, compare, decide_eq_true_eq, Bool.or_eq_true] at h
    by_cases h1 : fmod x full < ref
    · rw [if_pos h1] at h
      exact .inl ⟨h1, h.symm⟩
    · rw [if_neg h1] at h
      by_cases h2 : ref + full < fmod x full ∨ |fmod x full - (ref + full)| ≤ epsilon
      · rw [if_pos h2] at h
        refine .inr (.inl ⟨not_lt.mp h1, ?_, h.symm⟩)
        rcases h2 with h2 | h2
        · linarith
        · have := (abs_le.mp h2).1
          linarith
      · rw [if_neg h2] at h
        refine .inr (.inr ⟨not_lt.mp h1, ?_, h.symm⟩)
        rw [not_or, not_lt, not_le] at h2
        obtain ⟨h2, h3⟩ := h2
        rw [abs_of_nonpos (by linarith)] at h3
        linarith

/-! ## Normalised angles -/

/-- **C128.**  A normalised angle differs from the angle by a whole number of full turns (360, or twice the constant for
π). -/
theorem C128_turns {asserts : Bool} {full x ref r : ℚ} (h : normalize asserts full x ref = .ok r) :
    ∃ k : ℤ, r = x + k * full := by
  have hf : fmod x full = x + (-trunc (x / full) : ℤ) * full := by unfold fmod; push_cast; ring
  rcases normalize_cases h with ⟨_, h1⟩ | ⟨_, _, h1⟩ | ⟨_, _, h1⟩
  · exact ⟨-trunc (x / full) + 1, by rw [h1, hf]; push_cast; ring⟩
  · exact ⟨-trunc (x / full) - 1, by rw [h1, hf]; push_cast; ring⟩
  · exact ⟨-trunc (x / full), by rw [h1, hf]⟩

/-- **C128.**  A normalised angle is at least the reference, or below it by no more than the tolerance 10^-9, and less than
the reference plus a full turn; for every reference from minus a full turn to 0. -/
theorem C128_range_partial {asserts : Bool} {full x ref r : ℚ} (hfull : 0 < full) (h1 : -full ≤ ref) (h0 : ref ≤ 0)
    (h : normalize asserts full x ref = .ok r) : ref - 1 / 1000000000 ≤ r ∧ r < ref + full := by
  obtain ⟨h2, h3⟩ := fmod_spec hfull x
  have he : (epsilon : ℚ) = 1 / 1000000000 := rfl
  rcases normalize_cases h with ⟨h4, h5⟩ | ⟨h4, h5, h6⟩ | ⟨h4, h5, h6⟩
  · constructor <;> linarith
  · constructor
    · linarith
    · rw [h6]
      linarith
  · constructor <;> linarith

/-- **C128.**  An angle that lies in the range, and not within the tolerance of its end, is what every angle that differs
from it by whole turns normalises to.  In particular it normalises to itself, and with a full turn above the tolerance two
angles that differ by whole turns normalise to the same angle unless one of them is within the tolerance of the reference. -/
theorem C128_exact {asserts : Bool} {full ref y : ℚ} (hfull : 0 < full) (h1 : -full ≤ ref) (h0 : ref ≤ 0)
    (hy : ref ≤ y) (hy' : y < ref + full - 1 / 1000000000) (k : ℤ) :
    normalize asserts full (y + k * full) ref = .ok y := by
  have hok : ∃ r, normalize asserts full (y + k * full) ref = .ok r := by
    unfold normalize
    rw [if_neg (by rintro ⟨_, h⟩; exact h ⟨h0, h1⟩)]
    exact ⟨_, rfl⟩
  obtain ⟨r, hr⟩ := hok
  obtain ⟨h2, h3⟩ := C128_range_partial hfull h1 h0 hr
  obtain ⟨j, hj⟩ := C128_turns hr
  have hz : (k + j : ℤ) = 0 := by
    by_contra hne
    have hr' : r = y + ((k + j : ℤ) : ℚ) * full := by rw [hj]; push_cast; ring
    rcases lt_or_gt_of_ne hne with hlt | hgt
    · have : ((k + j : ℤ) : ℚ) ≤ -1 := by exact_mod_cast Int.le_sub_one_of_lt hlt
      nlinarith
    · have : (1 : ℚ) ≤ ((k + j : ℤ) : ℚ) := by exact_mod_cast hgt
      nlinarith
  have : (k : ℚ) + j = 0 := by exact_mod_cast hz
  rw [hr, hj]
  congr 1
  linear_combination full * this

/-- **C128.**  A reference outside the range stops a program compiled with assertions; otherwise the call returns. -/
theorem C128_reference (asserts : Bool) (full x ref : ℚ) :
    (normalize asserts full x ref = .throws ↔ asserts = true ∧ (0 < ref ∨ ref < -full)) ∧
    normalize asserts full x ref ≠ .ub := by
  unfold normalize
  constructor
  · split
    · rename_i h
      simp only [true_iff]
      refine ⟨h.1, ?_⟩
      by_contra hc
      rw [not_or, not_lt, not_lt] at hc
      exact h.2 hc
    · rename_i h
      simp only [reduceCtorEq, false_iff]
      rintro ⟨h1, h2⟩
      apply h
      refine ⟨h1, ?_⟩
      rintro ⟨h3, h4⟩
      rcases h2 with h2 | h2 <;> linarith
  · split <;> simp

/-- **C128.**  An angle in radians and its normalised angle point in the same direction up to the error of the constant for
π: for every full turn between them, their cosines and sines differ by less than 5 parts in 10^13. -/
theorem C128_direction {asserts : Bool} {x ref r : ℚ} (h : normalizeRad asserts x ref = .ok r) :
    ∃ k : ℤ, r = x + k * twoPiConst ∧ |Real.cos r - Real.cos x| ≤ |(k : ℝ)| * (1 / 2000000000000) ∧
      |Real.sin r - Real.sin x| ≤ |(k : ℝ)| * (1 / 2000000000000) := by
  obtain ⟨k, hk⟩ := C128_turns h
  have hr : (r : ℝ) = x + k * (twoPiConst - 2 * Real.pi) + k * (2 * Real.pi) := by
    rw [hk]; push_cast; ring
  have hb : |(twoPiConst : ℝ) - 2 * Real.pi| ≤ 1 / 2000000000000 := by
    have h1 := Real.pi_gt_d20
    have h2 := Real.pi_lt_d20
    have h3 : (twoPiConst : ℝ) = 6.28318530718 := by unfold twoPiConst piConst; norm_num
    rw [h3, abs_le]
    constructor <;> linarith
  have hd : |(x + k * (twoPiConst - 2 * Real.pi) : ℝ) - x| ≤ |(k : ℝ)| * (1 / 2000000000000) := by
    rw [add_sub_cancel_left, abs_mul]
    exact mul_le_mul_of_nonneg_left hb (abs_nonneg _)
  refine ⟨k, hk, ?_, ?_⟩
  · rw [hr, Real.cos_add_int_mul_two_pi]
    exact (Real.abs_cos_sub_cos_le _ _).trans hd
  · rw [hr, Real.sin_add_int_mul_two_pi]
    exact (Real.abs_sin_sub_sin_le _ _).trans hd

/-- 725 degrees are 5 degrees; the hypotheses of the theorems hold with references -180 and 0. -/
example : normalizeDeg true 725 = .ok 5 ∧ normalizeDeg true (-725) 0 = .ok 355 ∧ (-360 : ℚ) ≤ -180 ∧
    (-180 : ℚ) ≤ 5 ∧ (5 : ℚ) < -180 + 360 - 1 / 1000000000 := by
  refine ⟨by decide +kernel, by decide +kernel, by norm_num, by norm_num, by norm_num⟩

/-- A turn in radians. -/
example : normalizeRad true 7 = .ok (7 - 2 * 3.14159265359) := by decide +kernel

/-- **C128.**  The range is not kept: an angle just below a full turn, with reference 0, gets a negative result. -/
theorem C128_range_violated : ∃ x r, normalizeDeg true x 0 = .ok r ∧ r < 0 :=
  ⟨360 - 1 / 2000000000, -1 / 2000000000, by decide +kernel, by norm_num⟩

/-- **C128.**  Normalising is not idempotent: within the tolerance of the reference the result goes back and forth between
the two ends of the range. -/
theorem C128_idempotent_violated : ∃ x y, x ≠ y ∧ normalizeDeg true x 0 = .ok y ∧ normalizeDeg true y 0 = .ok x :=
  ⟨360 - 1 / 2000000000, -1 / 2000000000, by norm_num, by decide +kernel, by decide +kernel⟩

/-! ## Rounding -/

/-- **C129.**  A number that is at least -1/2 is rounded to a nearest integer, upwards from the middle. -/
theorem C129_integer_partial {x : ℚ} (h : -(1 / 2) ≤ x) : x - 1 / 2 < iRound x ∧ iRound x ≤ x + 1 / 2 := by
  obtain ⟨h1, h2⟩ := (trunc_spec (x + 1 / 2)).1 (by linarith)
  unfold iRound
  exact ⟨by linarith, h1⟩

example : iRound (5 / 2) = 3 ∧ iRound (-1 / 4) = 0 := by decide +kernel

/-- **C129.**  Below that it is not: half is added and the result is cut towards zero, so the result is at least half above
the number, and less than one and a half above it. -/
theorem C129_negative {x : ℚ} (h : x < -(1 / 2)) : x + 1 / 2 ≤ iRound x ∧ iRound x < x + 3 / 2 := by
  obtain ⟨h1, h2⟩ := (trunc_spec (x + 1 / 2)).2 (by linarith)
  unfold iRound
  exact ⟨h1, by linarith⟩

/-- **C129.**  -2 is rounded to -1. -/
theorem C129_integer_violated : iRound (-2) = -1 := by decide +kernel

/-- **C129.**  Rounding to a decimal place gives a multiple of the place that is nearest, within half a place, upwards from
the middle; it keeps the order, and rounding again changes nothing. -/
theorem C129_place {place : ℚ} (hp : 0 < place) :
    (∀ x, (∃ k : ℤ, dRound x place = k * place) ∧ x - place / 2 < dRound x place ∧ dRound x place ≤ x + place / 2) ∧
    (∀ x y, x ≤ y → dRound x place ≤ dRound y place) ∧
    (∀ k : ℤ, dRound (k * place) place = k * place) := by
  refine ⟨fun x => ⟨⟨_, rfl⟩, ?_, ?_⟩, ?_, ?_⟩
  · have h := Int.lt_floor_add_one (x / place + 1 / 2)
    have hx : x = x / place * place := by field_simp
    unfold dRound
    nlinarith
  · have h := Int.floor_le (x / place + 1 / 2)
    have hx : x = x / place * place := by field_simp
    unfold dRound
    nlinarith
  · intro x y hxy
    unfold dRound
    apply mul_le_mul_of_nonneg_right _ hp.le
    have : x / place ≤ y / place := div_le_div_of_nonneg_right hxy hp.le
    exact_mod_cast Int.floor_le_floor (by linarith)
  · intro k
    unfold dRound
    rw [mul_div_cancel_right₀ _ hp.ne']
    congr 1
    have : ⌊(k : ℚ) + 1 / 2⌋ = k := by
      rw [Int.floor_eq_iff]
      constructor <;> linarith
    exact_mod_cast this

/-- The example of the comment at Convert.h 286: two decimals. -/
example : dRound 123456.123456 0.01 = 123456.12 ∧ dRound 123456.123456 100 = 123500 := by decide +kernel

end Verif.Earth
