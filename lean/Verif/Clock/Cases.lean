import Verif.Clock.Calibrate
import Verif.Clock.Units

/-!
# Cases of the clock (C174-C176)
-/

namespace Verif.Clock

/-- The 6th of January 1980 is 3657 days after the epoch. -/
theorem gps : Date.next^[3657] epoch = ⟨1980, 1, 6⟩ :=
  reached ⟨⟨by decide, by decide⟩, by decide, by decide⟩ (by decide)

/-- The 29th of February 2024 is 19782 days after the epoch. -/
theorem leapDay : Date.next^[19782] epoch = ⟨2024, 2, 29⟩ :=
  reached ⟨⟨by decide, by decide⟩, by decide, by decide⟩ (by decide)

/-- Noon of a leap day, and a minute later by the clock. -/
example (c : Clock) (h : c.count = 0) : ∃ c', calibrate someYear 5000000000 2024 2 29 12 0 0 500 c = .ok (true, c') ∧ c'.count = 1 ∧
    utcMs .real c' 65000000000 = 1709208060500 := by
  obtain ⟨c', h1, h2, _, h3⟩ := C174_set someYear_isYear 19782 leapDay (by norm_num) (hour := 12) (minutes := 0) (seconds := 0) (ms := 500)
    (by norm_num) (by norm_num) (by norm_num) (by norm_num) (by norm_num) 5000000000 c
  refine ⟨c', h1, by rw [h2, h]; rfl, ?_⟩
  rw [h3]; norm_num

/-- A week of the satellites' time. -/
example (c : Clock) : ∃ c', calibrateWeeks someYear 0 1980 1 6 2000 0 c = .ok (true, c') ∧ utcMs .real c' 0 = 1525564800000 := by
  obtain ⟨c', h1, _, _, h3⟩ := C174_weeks someYear_isYear 3657 gps (weeks := 2000) (ms := 0)
    (by norm_num) (by norm_num) (by norm_num) (by norm_num) 0 c
  refine ⟨c', h1, ?_⟩
  rw [h3]; norm_num

/-- Month 13 is refused. -/
example (c : Clock) : calibrate someYear 0 2024 13 1 0 0 0 0 c = .ok (false, c) :=
  (C174_refused someYear_isYear 0 (by norm_num) c).2.2 (Or.inr (Or.inl (by norm_num)))

/-- A state of an entity, a calibration, and the time is still that of the state. -/
example (w : World) : utcMs .discrete ((List.foldl World.step (w.step (.init 9)) [.state 10 700, .calibrated 11 5 1, .read 12]).get 13).1 13
    = 700 :=
  (C176_states w 9 [.state 10 700, .calibrated 11 5 1, .read 12] (by
    intro e he
    simp only [List.mem_cons, List.not_mem_nil, or_false] at he
    rcases he with rfl | rfl | rfl <;> exact trivial) 13).2.2.1

/-- The seconds of a clock moved by a whole hour are its milliseconds in whole seconds. -/
example (now : ℤ) : utcIn 1000 .real { delta := 3600000 } now = (now / 1000000 + 3600000) / 1000 :=
  (C175_units_partial (by norm_num) _ now).2.2 (by norm_num)

/-- A simulated second and a half on a clock that started a second and a half after the epoch: two seconds, though 3000 milliseconds. -/
example (now : ℤ) : utcIn 1000 .discrete { discrete := 1500, start := 1500000000 } now = 2 ∧
    utcMs .discrete { discrete := 1500, start := 1500000000 } now / 1000 = 3 ∧
    (3 : ℤ) - 1 ≤ utcIn 1000 .discrete { discrete := 1500, start := 1500000000 } now :=
  ⟨rfl, rfl, (C175_started_partial (u := 1000) (by norm_num) { discrete := 1500, start := 1500000000 } now (by norm_num)).1⟩

end Verif.Clock
