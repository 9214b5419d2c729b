import Verif.Clock.Model
import Mathlib.Tactic.IntervalCases
import Mathlib.Logic.Function.Iterate

/-!
# The calendar (C174)
-/

namespace Verif.Clock

/-- A day of the Gregorian calendar. -/
structure Date where
  y : ℤ
  m : ℤ
  d : ℤ

/-- How many days a month has. -/
def monthLength (y m : ℤ) : ℤ :=
  if m = 2 then (if (4 : ℤ) ∣ y ∧ (¬ (100 : ℤ) ∣ y ∨ (400 : ℤ) ∣ y) then 29 else 28)
  else if m = 4 ∨ m = 6 ∨ m = 9 ∨ m = 11 then 30 else 31

/-- The next day. -/
def Date.next (x : Date) : Date :=
  if x.d < monthLength x.y x.m then ⟨x.y, x.m, x.d + 1⟩
  else if x.m < 12 then ⟨x.y, x.m + 1, 1⟩
  else ⟨x.y + 1, 1, 1⟩

/-- The first of January 1970. -/
def epoch : Date := ⟨1970, 1, 1⟩

/-- A day there is. -/
def Date.Valid (x : Date) : Prop := (1 ≤ x.m ∧ x.m ≤ 12) ∧ 1 ≤ x.d ∧ x.d ≤ monthLength x.y x.m

theorem leap_iff (y : ℤ) : leap y = true ↔ ((4 : ℤ) ∣ y ∧ (¬ (100 : ℤ) ∣ y ∨ (400 : ℤ) ∣ y)) := by
  unfold leap
  simp only [Bool.and_eq_true, beq_iff_eq, Bool.or_eq_true, bne_iff_ne, ne_eq, Int.dvd_iff_emod_eq_zero]

theorem daysTo_succ (y : ℤ) : daysTo (y + 1) = daysTo y + 365 + if leap y then 1 else 0 := by
  by_cases h : leap y
  · rw [if_pos h]; rw [leap_iff] at h; unfold daysTo; omega
  · rw [if_neg h]; rw [leap_iff] at h; unfold daysTo; omega

theorem daysTo_lt (y : ℤ) : daysTo y < daysTo (y + 1) := by
  rw [daysTo_succ]; split <;> omega

theorem daysTo_mono {y z : ℤ} (h : y ≤ z) : daysTo y ≤ daysTo z := by
  induction z, h using Int.le_induction with
  | base => exact le_refl _
  | succ n _ ih => have := daysTo_lt n; omega

/-- The length of a month as the days before the next less those before it. -/
theorem month_step {y m : ℤ} (h1 : 1 ≤ m) (h2 : m < 12) : daysToMonth y (m + 1) = daysToMonth y m + monthLength y m := by
  by_cases h : leap y
  · have hl := (leap_iff y).1 h
    interval_cases m <;> simp [daysToMonth, monthLength, h, hl]
  · have hl : ¬ ((4 : ℤ) ∣ y ∧ (¬ (100 : ℤ) ∣ y ∨ (400 : ℤ) ∣ y)) := fun x => h ((leap_iff y).2 x)
    by_cases h2' : m = 2
    · subst h2'
      simp only [monthLength, if_true, if_neg hl]
      simp [daysToMonth, h]
    · interval_cases m <;> first | exact absurd rfl h2' | simp [daysToMonth, monthLength, h]

theorem year_step (y : ℤ) : daysTo (y + 1) + daysToMonth (y + 1) 1 = daysTo y + daysToMonth y 12 + monthLength y 12 := by
  rw [daysTo_succ]
  by_cases h : leap y <;> simp [daysToMonth, monthLength, h] <;> ring

/-- Days from the epoch. -/
def dayOf (x : Date) : ℤ := daysTo x.y + daysToMonth x.y x.m + (x.d - 1)

theorem next_spec {x : Date} (h : x.Valid) : x.next.Valid ∧ dayOf x.next = dayOf x + 1 := by
  obtain ⟨y, m, d⟩ := x
  obtain ⟨⟨m1, m2⟩, d1, d2⟩ := h
  simp only at m1 m2 d1 d2
  unfold Date.next
  simp only
  split
  · rename_i hd
    refine ⟨⟨⟨m1, m2⟩, by simp only; omega, by simp only; omega⟩, ?_⟩
    simp only [dayOf]; ring
  · rename_i hd
    have hd' : d = monthLength y m := le_antisymm d2 (not_lt.1 hd)
    have pos : ∀ y m, 1 ≤ monthLength y m := by
      intro y m; unfold monthLength; split_ifs <;> norm_num
    split
    · rename_i hm
      refine ⟨⟨⟨by simp only; omega, by simp only; omega⟩, le_refl _, pos _ _⟩, ?_⟩
      simp only [dayOf]
      rw [month_step m1 hm, hd']; ring
    · rename_i hm
      have hm' : m = 12 := by omega
      refine ⟨⟨⟨by norm_num, by norm_num⟩, le_refl _, pos _ _⟩, ?_⟩
      have := year_step y
      simp only [dayOf]
      rw [hd', hm']
      linarith

/-- The day `n` days after the epoch. -/
theorem day_after (n : ℕ) : (Date.next^[n] epoch).Valid ∧ dayOf (Date.next^[n] epoch) = n := by
  induction n with
  | zero => exact ⟨⟨⟨by decide, by decide⟩, by decide, by decide⟩, by decide⟩
  | succ n ih =>
      rw [Function.iterate_succ_apply']
      obtain ⟨h1, h2⟩ := next_spec ih.1
      exact ⟨h1, by rw [h2, ih.2]; push_cast; rfl⟩

theorem timegm_eq (x : Date) (h mi s : ℤ) : timegm x.y x.m x.d h mi s = 86400 * dayOf x + 3600 * h + 60 * mi + s := rfl

/-- The year of a day counted from the epoch: what `gmtime` tells. -/
def IsYear (yearOf : ℤ → ℤ) : Prop := ∀ n y, daysTo y ≤ n → n < daysTo (y + 1) → yearOf n = y

theorem year_exists (n : ℤ) : ∃ y, daysTo y ≤ n ∧ n < daysTo (y + 1) := by
  induction n using Int.induction_on with
  | zero => exact ⟨1970, by decide, by decide⟩
  | succ n ih =>
      obtain ⟨y, h1, h2⟩ := ih
      by_cases h : (n : ℤ) + 1 < daysTo (y + 1)
      · exact ⟨y, by omega, h⟩
      · have := daysTo_lt (y + 1)
        exact ⟨y + 1, by omega, by omega⟩
  | pred n ih =>
      obtain ⟨y, h1, h2⟩ := ih
      by_cases h : daysTo y ≤ -(n : ℤ) - 1
      · exact ⟨y, h, by omega⟩
      · have := daysTo_lt (y - 1)
        rw [sub_add_cancel] at this
        exact ⟨y - 1, by omega, by rw [sub_add_cancel]; omega⟩

/-- There is such a function. -/
noncomputable def someYear (n : ℤ) : ℤ := Classical.choose (year_exists n)

theorem someYear_isYear : IsYear someYear := by
  intro n y h1 h2
  obtain ⟨k1, k2⟩ := Classical.choose_spec (year_exists n)
  change daysTo (someYear n) ≤ n at k1
  change n < daysTo (someYear n + 1) at k2
  by_contra h
  rcases lt_or_gt_of_ne h with h | h
  · have := daysTo_mono (show someYear n + 1 ≤ y by omega); omega
  · have := daysTo_mono (show y + 1 ≤ someYear n by omega); omega

theorem year_lt {yearOf : ℤ → ℤ} (hy : IsYear yearOf) (n : ℤ) : yearOf n < 2016 ↔ n < 16801 := by
  obtain ⟨y, h1, h2⟩ := year_exists n
  rw [hy n y h1 h2]
  have e : daysTo 2016 = 16801 := by decide
  constructor
  · intro h; have := daysTo_mono (show y + 1 ≤ 2016 by omega); omega
  · intro h
    by_contra hc
    have := daysTo_mono (show (2016 : ℤ) ≤ y by omega); omega

theorem monthLength_pos (y m : ℤ) : 1 ≤ monthLength y m := by
  unfold monthLength; split_ifs <;> norm_num

theorem month_mono {y m k : ℤ} (h1 : 1 ≤ m) (h : m < k) (h2 : k ≤ 12) : daysToMonth y m + monthLength y m ≤ daysToMonth y k := by
  have h' : m + 1 ≤ k := h
  clear h
  induction k, h' using Int.le_induction with
  | base => rw [month_step h1 (by omega)]
  | succ n hn ih =>
      have := ih (by omega)
      rw [month_step (by omega) (by omega)]
      have := monthLength_pos y n
      omega

theorem day_year {x : Date} (h : x.Valid) : daysTo x.y ≤ dayOf x ∧ dayOf x < daysTo (x.y + 1) := by
  obtain ⟨⟨m1, m2⟩, d1, d2⟩ := h
  have e1 : ∀ y, daysToMonth y 1 = 0 := by intro y; simp [daysToMonth]
  have hy := year_step x.y
  rw [e1] at hy
  unfold dayOf
  constructor
  · rcases eq_or_lt_of_le m1 with h | h
    · rw [← h, e1]; omega
    · have := month_mono (y := x.y) (le_refl 1) h m2
      have := monthLength_pos x.y 1
      rw [e1] at *
      omega
  · rcases eq_or_lt_of_le m2 with h | h
    · rw [h] at d2 ⊢; omega
    · have := month_mono (y := x.y) m1 h (le_refl 12)
      have := monthLength_pos x.y 12
      omega

/-- A day is told by its number. -/
theorem dayOf_inj {x z : Date} (hx : x.Valid) (hz : z.Valid) (h : dayOf x = dayOf z) : x = z := by
  have ex := someYear_isYear _ _ (day_year hx).1 (day_year hx).2
  have ez := someYear_isYear _ _ (day_year hz).1 (day_year hz).2
  rw [h, ez] at ex
  obtain ⟨y, m, d⟩ := x
  obtain ⟨y', m', d'⟩ := z
  simp only at ex
  subst ex
  obtain ⟨⟨m1, m2⟩, d1, d2⟩ := hx
  obtain ⟨⟨n1, n2⟩, e1, e2⟩ := hz
  simp only [dayOf] at *
  rcases lt_trichotomy m m' with hm | hm | hm
  · have := month_mono (y := y') m1 hm n2; omega
  · subst hm
    have : d = d' := by omega
    rw [this]
  · have := month_mono (y := y') n1 hm m2; omega

/-- Every day from the epoch on is some days after it. -/
theorem reached {x : Date} (hx : x.Valid) {n : ℕ} (h : dayOf x = n) : Date.next^[n] epoch = x :=
  dayOf_inj (day_after n).1 hx ((day_after n).2.trans h.symm)

/-- A leap day comes every four years, but not in 2100. -/
example : (Date.next^[59] ⟨2024, 1, 1⟩).d = 29 ∧ (Date.next^[59] ⟨2100, 1, 1⟩).m = 3 := by decide +kernel

end Verif.Clock
