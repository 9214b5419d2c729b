import Verif.Clock.Calendar

/-!
# Calibration (C174)
-/

namespace Verif.Clock

/-- The middle of what a calibration does with a reference time. -/
theorem accept_eq {yearOf : ℤ → ℤ} (hy : IsYear yearOf) (now ref : ℤ) (c : Clock) :
    accept yearOf now ref c =
      if ref < -9223372036999 ∨ 9223372036999 < ref then .ub
      else if ref < 1451606400000 then .ok (false, c)
      else .ok (true, { c with delta := ref - now / 1000000, count := if c.count < 2 ^ 64 - 1 then c.count + 1 else c.count }) := by
  unfold accept
  simp only [year_lt hy]
  have ht : ref.tdiv 1000 = if 0 ≤ ref then ref / 1000 else -((-ref) / 1000) := by
    split
    · rename_i h; exact Int.tdiv_eq_ediv_of_nonneg h
    · rename_i h
      rw [← Int.tdiv_eq_ediv_of_nonneg (by omega), Int.neg_tdiv, neg_neg]
  have hf : (fits (ref.tdiv 1000) = true) ↔ ¬ (ref < -9223372036999 ∨ 9223372036999 < ref) := by
    unfold fits
    rw [ht]
    simp only [Bool.and_eq_true, decide_eq_true_eq]
    split <;> omega
  have hc : ref.tdiv 1000 / 86400 < 16801 ↔ ref < 1451606400000 := by
    rw [ht]; split <;> omega
  by_cases h : ref < -9223372036999 ∨ 9223372036999 < ref
  · rw [if_pos h, if_neg (by rw [hf]; exact not_not.2 h)]
  · rw [if_neg h, if_pos (hf.2 h)]
    simp only [hc]

/-- The fields of a time that the calibration looks at. -/
def Fields (month day hour minutes seconds : ℤ) : Prop :=
  (1 ≤ month ∧ month ≤ 12) ∧ (1 ≤ day ∧ day ≤ 31) ∧ (0 ≤ hour ∧ hour ≤ 23) ∧ (0 ≤ minutes ∧ minutes ≤ 59) ∧ 0 ≤ seconds ∧ seconds ≤ 60

theorem dayOf_ge {x : Date} (h : 2016 ≤ x.y) (hm : 1 ≤ x.m) (hd : 1 ≤ x.d) : 16801 ≤ dayOf x := by
  have h1 := daysTo_mono h
  have e : daysTo 2016 = 16801 := by decide
  have h2 : 0 ≤ daysToMonth x.y x.m := by
    unfold daysToMonth
    have : ∀ k : ℕ, (0 : ℤ) ≤ [0, 31, 59, 90, 120, 151, 181, 212, 243, 273, 304, 334].getD k 0 := by
      intro k
      rcases lt_or_ge k 12 with h | h
      · interval_cases k <;> decide
      · rw [List.getD_eq_getElem?_getD, List.getElem?_eq_none (by simpa using h)]; norm_num
    have := this (x.m - 1).toNat
    split <;> omega
  unfold dayOf; omega

theorem calibrate_eq {yearOf : ℤ → ℤ} (hy : IsYear yearOf) (now : ℤ) {year month day hour minutes seconds ms : ℤ}
    (hms : 0 ≤ ms ∧ ms ≤ 999) (c : Clock) :
    (¬ (2016 ≤ year ∧ Fields month day hour minutes seconds) →
      calibrate yearOf now year month day hour minutes seconds ms c = .ok (false, c)) ∧
    (2016 ≤ year ∧ Fields month day hour minutes seconds →
      calibrate yearOf now year month day hour minutes seconds ms c =
        if 9223372036 < timegm year month day hour minutes seconds then .ub
        else .ok (true, { c with
          delta := timegm year month day hour minutes seconds * 1000 + ms - now / 1000000,
          count := if c.count < 2 ^ 64 - 1 then c.count + 1 else c.count })) := by
  constructor
  · intro h
    unfold calibrate
    by_cases h1 : year < 2016
    · rw [if_pos h1]
    rw [if_neg h1]
    unfold impl
    rw [if_neg (by omega)]
    by_cases h2 : 0 < month ∧ month < 13
    swap
    · rw [if_pos h2]
    rw [if_neg (not_not.2 h2)]
    by_cases h3 : 0 < day ∧ day < 32
    swap
    · rw [if_pos h3]
    rw [if_neg (not_not.2 h3), if_pos (by norm_num)]
    by_cases h4 : -1 < hour ∧ hour < 24
    swap
    · rw [if_pos h4]
    rw [if_neg (not_not.2 h4)]
    by_cases h5 : -1 < minutes ∧ minutes < 60
    swap
    · rw [if_pos h5]
    rw [if_neg (not_not.2 h5)]
    by_cases h6 : -1 < seconds ∧ seconds < 61
    swap
    · rw [if_pos h6]
    exfalso
    apply h
    unfold Fields
    omega
  · rintro ⟨h1, h2, h3, h4, h5, h6⟩
    unfold calibrate impl
    rw [if_neg (by omega), if_neg (by omega), if_neg (by omega), if_neg (by omega), if_pos (by norm_num), if_neg (by omega),
      if_neg (by omega), if_neg (by omega)]
    have hd := dayOf_ge (x := ⟨year, month, day⟩) h1 h2.1 h3.1
    have ht : timegm year month day hour minutes seconds = 86400 * dayOf ⟨year, month, day⟩ + 3600 * hour + 60 * minutes + seconds := rfl
    generalize timegm year month day hour minutes seconds = t at *
    simp only
    by_cases h : 9223372036 < t
    · rw [if_pos h, if_neg (by unfold fits; simp only [Bool.and_eq_true, decide_eq_true_eq]; omega)]
    · rw [if_neg h, if_pos (by unfold fits; simp only [Bool.and_eq_true, decide_eq_true_eq]; omega), accept_eq hy, if_neg (by omega),
        if_neg (by omega)]

/-- **C174.**  Every day from 2016 on can be given: after a calibration with hour, minutes, seconds and milliseconds of the day that
is `n` days after the first of January 1970, the time is those `n` days, that time of day, and what has passed by the clock since. -/
theorem C174_set {yearOf : ℤ → ℤ} (hy : IsYear yearOf) (n : ℕ) {x : Date} (hx : Date.next^[n] epoch = x) (h16 : 2016 ≤ x.y)
    {hour minutes seconds ms : ℤ} (hh : 0 ≤ hour ∧ hour ≤ 23) (hm : 0 ≤ minutes ∧ minutes ≤ 59) (hs : 0 ≤ seconds ∧ seconds ≤ 59)
    (hms : 0 ≤ ms ∧ ms ≤ 999) (late : (n : ℤ) < 106751) (now : ℤ) (c : Clock) :
    ∃ c', calibrate yearOf now x.y x.m x.d hour minutes seconds ms c = .ok (true, c') ∧
      c'.count = min (c.count + 1) (max c.count (2 ^ 64 - 1)) ∧
      (c.count < 2 ^ 32 - 1 → calibrations c' = c.count + 1) ∧
      ∀ now', utcMs .real c' now' =
        86400000 * n + 3600000 * hour + 60000 * minutes + 1000 * seconds + ms + (now' / 1000000 - now / 1000000) := by
  obtain ⟨⟨⟨m1, m2⟩, d1, d2⟩, hday⟩ := day_after n
  rw [hx] at m1 m2 d1 d2 hday
  have ht := timegm_eq x hour minutes seconds
  rw [hday] at ht
  have hd : x.d ≤ 31 := by
    refine le_trans d2 ?_
    unfold monthLength; split_ifs <;> norm_num
  have hF : Fields x.m x.d hour minutes seconds := ⟨⟨m1, m2⟩, ⟨d1, hd⟩, hh, hm, hs.1, by omega⟩
  refine ⟨_, ((calibrate_eq hy now hms c).2 ⟨h16, hF⟩).trans (if_neg (by omega)), ?_, ?_, ?_⟩
  · simp only; split <;> omega
  · intro hc
    simp only [calibrations]; split <;> omega
  · intro now'
    simp only [utcMs, ht]
    ring

/-- **C174.**  What is refused leaves the clock as it was, and refused are exactly the years before 2016 and fields outside their
ranges. -/
theorem C174_refused {yearOf : ℤ → ℤ} (hy : IsYear yearOf) (now : ℤ) {year month day hour minutes seconds ms : ℤ}
    (hms : 0 ≤ ms ∧ ms ≤ 999) (c : Clock) :
    (∀ c', calibrate yearOf now year month day hour minutes seconds ms c = .ok (false, c') → c' = c) ∧
    (calibrate yearOf now year month day hour minutes seconds ms c = .ok (false, c) ↔
      (year < 2016 ∨ ¬ (1 ≤ month ∧ month ≤ 12) ∨ ¬ (1 ≤ day ∧ day ≤ 31) ∨ ¬ (0 ≤ hour ∧ hour ≤ 23) ∨ ¬ (0 ≤ minutes ∧ minutes ≤ 59) ∨
        ¬ (0 ≤ seconds ∧ seconds ≤ 60))) := by
  obtain ⟨h1, h2⟩ := calibrate_eq (year := year) (month := month) (day := day) (hour := hour) (minutes := minutes) (seconds := seconds)
    hy now hms c
  by_cases h : 2016 ≤ year ∧ Fields month day hour minutes seconds
  · rw [h2 h]
    constructor
    · intro c' hc
      split at hc <;> simp at hc
    · constructor
      · intro hc
        split at hc <;> simp at hc
      · intro hn
        exfalso
        unfold Fields at h
        omega
  · rw [h1 h]
    constructor
    · intro c' hc
      simpa using hc.symm
    · refine ⟨fun _ => ?_, fun _ => rfl⟩
      unfold Fields at h
      omega

/-- **C174 fails** for times whose nanoseconds do not fit into 64 bits: their calibration is undefined, exactly from
23:47:17 on 11 April 2262. -/
theorem C174_far_violated {yearOf : ℤ → ℤ} (hy : IsYear yearOf) (now : ℤ) {year month day hour minutes seconds ms : ℤ}
    (hms : 0 ≤ ms ∧ ms ≤ 999) (c : Clock) :
    (calibrate yearOf now year month day hour minutes seconds ms c = .ub ↔
      2016 ≤ year ∧ Fields month day hour minutes seconds ∧ 9223372036 < timegm year month day hour minutes seconds) ∧
    calibrate yearOf now 2262 4 11 23 47 17 0 c = .ub := by
  have key : ∀ {year month day hour minutes seconds ms : ℤ}, 0 ≤ ms ∧ ms ≤ 999 →
      (calibrate yearOf now year month day hour minutes seconds ms c = .ub ↔
        2016 ≤ year ∧ Fields month day hour minutes seconds ∧ 9223372036 < timegm year month day hour minutes seconds) := by
    intro year month day hour minutes seconds ms hms
    obtain ⟨h1, h2⟩ := calibrate_eq (year := year) (month := month) (day := day) (hour := hour) (minutes := minutes)
      (seconds := seconds) hy now hms c
    by_cases h : 2016 ≤ year ∧ Fields month day hour minutes seconds
    · rw [h2 h]
      constructor
      · intro hc
        split at hc
        · exact ⟨h.1, h.2, by assumption⟩
        · simp at hc
      · rintro ⟨_, _, h3⟩
        rw [if_pos h3]
    · rw [h1 h]
      constructor
      · intro hc; simp at hc
      · rintro ⟨k1, k2, _⟩
        exact absurd ⟨k1, k2⟩ h
  exact ⟨key hms, (key ⟨le_refl _, by norm_num⟩).2 ⟨by norm_num, by unfold Fields; norm_num, by decide⟩⟩

/-- **C174 fails** for days there are not: the 30th of February is taken, as the 2nd of March. -/
theorem C174_day_violated {yearOf : ℤ → ℤ} (hy : IsYear yearOf) (now : ℤ) (c : Clock) :
    calibrate yearOf now 2021 2 30 12 0 0 0 c = calibrate yearOf now 2021 3 2 12 0 0 0 c ∧
    ∃ c', calibrate yearOf now 2021 2 30 12 0 0 0 c = .ok (true, c') := by
  have h1 := (calibrate_eq (year := 2021) (month := 2) (day := 30) (hour := 12) (minutes := 0) (seconds := 0) (ms := 0) hy now
    (by norm_num) c).2 (by unfold Fields; norm_num)
  have h2 := (calibrate_eq (year := 2021) (month := 3) (day := 2) (hour := 12) (minutes := 0) (seconds := 0) (ms := 0) hy now
    (by norm_num) c).2 (by unfold Fields; norm_num)
  have e1 : timegm 2021 2 30 12 0 0 = 1614686400 := by decide
  have e2 : timegm 2021 3 2 12 0 0 = 1614686400 := by decide
  rw [e1] at h1
  rw [e2] at h2
  exact ⟨h1.trans h2.symm, _, h1.trans (if_neg (by norm_num))⟩

/-- **C174 fails** where the time is the simulated one: a calibration is accepted and counted, and changes no time. -/
theorem C174_discrete_violated {yearOf : ℤ → ℤ} {now year month day hour minutes seconds ms : ℤ} {c c' : Clock}
    (h : calibrate yearOf now year month day hour minutes seconds ms c = .ok (true, c')) (now' u : ℤ) :
    c'.count = min (c.count + 1) (max c.count (2 ^ 64 - 1)) ∧
    utcMs .discrete c' now' = utcMs .discrete c now' ∧ utcIn u .discrete c' now' = utcIn u .discrete c now' := by
  have key : ∀ ref, accept yearOf now ref c = .ok (true, c') →
      c' = { c with delta := ref - now / 1000000, count := if c.count < 2 ^ 64 - 1 then c.count + 1 else c.count } := by
    intro ref h
    unfold accept at h
    simp only at h
    split at h
    · split at h
      · simp at h
      · simp only [Outcome.ok.injEq, Prod.mk.injEq, true_and] at h
        exact h.symm
    · simp at h
  have : ∃ ref, accept yearOf now ref c = .ok (true, c') := by
    unfold calibrate at h
    split at h
    · simp at h
    unfold impl at h
    simp only at h
    split_ifs at h <;> first | (simp at h; done) | exact ⟨_, h⟩
  obtain ⟨ref, hr⟩ := this
  have hc := key ref hr
  subst hc
  refine ⟨?_, rfl, rfl⟩
  simp only; split <;> omega

/-- **C174.**  With weeks: the time is the days from the first of January 1970 to the date, the weeks, the milliseconds, and what has
passed by the clock since. -/
theorem C174_weeks {yearOf : ℤ → ℤ} (hy : IsYear yearOf) (n : ℕ) {x : Date} (hx : Date.next^[n] epoch = x) {weeks ms : ℤ}
    (hw : 0 ≤ weeks) (early : 1451606400000 ≤ 86400000 * n + 604800000 * weeks + ms) (late : (n : ℤ) < 106752)
    (late' : 86400000 * n + 604800000 * weeks + ms ≤ 9223372036999) (now : ℤ) (c : Clock) :
    ∃ c', calibrateWeeks yearOf now x.y x.m x.d weeks ms c = .ok (true, c') ∧
      c'.count = min (c.count + 1) (max c.count (2 ^ 64 - 1)) ∧
      (c.count < 2 ^ 32 - 1 → calibrations c' = c.count + 1) ∧
      ∀ now', utcMs .real c' now' = 86400000 * n + 604800000 * weeks + ms + (now' / 1000000 - now / 1000000) := by
  obtain ⟨⟨⟨m1, m2⟩, d1, d2⟩, hday⟩ := day_after n
  rw [hx] at m1 m2 d1 d2 hday
  have ht := timegm_eq x 0 0 0
  rw [hday] at ht
  have hd : x.d ≤ 31 := by
    refine le_trans d2 ?_
    unfold monthLength; split_ifs <;> norm_num
  have hyr : -2147483648 ≤ x.y - 1900 := by
    by_contra hc
    have := daysTo_mono (show x.y ≤ 0 by omega)
    have h0 : daysTo 0 = -719528 := by decide
    have h2 : daysToMonth x.y x.m ≤ 335 := by
      unfold daysToMonth
      have : ∀ k : ℕ, [0, 31, 59, 90, 120, 151, 181, 212, 243, 273, 304, 334].getD k 0 ≤ (334 : ℤ) := by
        intro k
        rcases lt_or_ge k 12 with h | h
        · interval_cases k <;> decide
        · rw [List.getD_eq_getElem?_getD, List.getElem?_eq_none (by simpa using h)]; norm_num
      have := this (x.m - 1).toNat
      split <;> omega
    unfold dayOf at hday
    omega
  unfold calibrateWeeks impl
  rw [if_neg (by omega), if_neg (by omega), if_neg (by omega), if_neg (by omega), if_neg (by omega)]
  simp only [ht]
  rw [if_pos (by unfold fits; simp only [Bool.and_eq_true, decide_eq_true_eq]; omega), accept_eq hy, if_neg (by omega), if_neg (by omega)]
  refine ⟨_, rfl, ?_, ?_, ?_⟩
  · simp only; split <;> omega
  · intro hc
    simp only [calibrations]; split <;> omega
  · intro now'
    simp only [utcMs]
    ring

end Verif.Clock
