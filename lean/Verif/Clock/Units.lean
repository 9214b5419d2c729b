import Verif.Clock.Model

/-!
# Units and simulated time (C175, C176)
-/

namespace Verif.Clock

/-- Two truncated parts against the truncated sum. -/
theorem split_div {u : ℤ} (hu : 0 < u) (a d : ℤ) :
    (0 ≤ d → (a + d) / u - 1 ≤ a / u + d.tdiv u ∧ a / u + d.tdiv u ≤ (a + d) / u) ∧
    (d ≤ 0 → (a + d) / u ≤ a / u + d.tdiv u ∧ a / u + d.tdiv u ≤ (a + d) / u + 1) ∧
    (u ∣ d → a / u + d.tdiv u = (a + d) / u) := by
  have ha := Int.mul_ediv_add_emod a u
  have hd := Int.mul_ediv_add_emod d u
  have r1 := Int.emod_nonneg a (ne_of_gt hu)
  have r2 := Int.emod_lt_of_pos a hu
  have s1 := Int.emod_nonneg d (ne_of_gt hu)
  have s2 := Int.emod_lt_of_pos d hu
  have hsum : (a + d) / u = a / u + d / u + (a % u + d % u) / u := by
    have e : a + d = a % u + d % u + u * (a / u + d / u) := by linarith [mul_add u (a / u) (d / u)]
    rw [e, Int.add_mul_ediv_left _ _ (ne_of_gt hu)]
    ring
  have h0 : 0 ≤ (a % u + d % u) / u := Int.ediv_nonneg (by omega) (by omega)
  have h1 : (a % u + d % u) / u < 2 := Int.ediv_lt_of_lt_mul hu (by omega)
  have ht := Int.tdiv_eq_ediv (a := d) (b := u)
  have hs : u.sign = 1 := Int.sign_eq_one_of_pos hu
  refine ⟨fun h => ?_, fun h => ?_, fun h => ?_⟩
  · rw [if_pos (Or.inl h)] at ht
    omega
  · by_cases hdv : u ∣ d
    · rw [if_pos (Or.inr hdv)] at ht
      rw [Int.emod_eq_zero_of_dvd hdv, add_zero, Int.ediv_eq_zero_of_lt r1 r2] at hsum
      omega
    · rw [if_neg (by
        rintro (h' | h')
        · exact hdv (by rw [le_antisymm h h']; exact dvd_zero u)
        · exact hdv h'), hs] at ht
      omega
  · rw [if_pos (Or.inr h)] at ht
    rw [Int.emod_eq_zero_of_dvd h, add_zero, Int.ediv_eq_zero_of_lt r1 r2] at hsum
    omega

theorem now_div {u : ℤ} (now : ℤ) : now / (u * 1000000) = now / 1000000 / u := by
  rw [Int.mul_comm, Int.ediv_ediv_of_nonneg (by norm_num)]

/-- **C175**, the part that holds: the time in seconds, minutes or hours (a unit of `u` milliseconds) is the time in milliseconds in
whole units, or one less after a calibration forwards, or one more after one backwards; and exactly that if the clock was never
calibrated or was moved by whole units. -/
theorem C175_units_partial {u : ℤ} (hu : 0 < u) (c : Clock) (now : ℤ) :
    (0 ≤ c.delta → utcMs .real c now / u - 1 ≤ utcIn u .real c now ∧ utcIn u .real c now ≤ utcMs .real c now / u) ∧
    (c.delta ≤ 0 → utcMs .real c now / u ≤ utcIn u .real c now ∧ utcIn u .real c now ≤ utcMs .real c now / u + 1) ∧
    (u ∣ c.delta → utcIn u .real c now = utcMs .real c now / u) := by
  simp only [utcIn, utcMs, now_div]
  exact split_div hu _ _

/-- **C175**, the part that holds, of simulated times that started from 0: never negative, they are the same in all units. -/
theorem C175_simulated_partial {u : ℤ} (c : Clock) (now : ℤ) (h0 : c.start = 0) (hd : 0 ≤ c.discrete) :
    utcIn u .discrete c now = utcMs .discrete c now / u ∧ durationIn u .discrete c now = durationMs .discrete c now / u := by
  simp only [utcIn, utcMs, durationIn, durationMs, h0, Int.zero_ediv, add_zero]
  exact ⟨Int.tdiv_eq_ediv_of_nonneg hd, Int.tdiv_eq_ediv_of_nonneg hd⟩

/-- **C175**, the part that holds, of simulated times that did not start from 0: never negative, in whole units they are those in
milliseconds, or one less. -/
theorem C175_started_partial {u : ℤ} (hu : 0 < u) (c : Clock) (now : ℤ) (hd : 0 ≤ c.discrete) :
    utcMs .discrete c now / u - 1 ≤ utcIn u .discrete c now ∧ utcIn u .discrete c now ≤ utcMs .discrete c now / u := by
  have h := (split_div hu (c.start / 1000000) c.discrete).1 hd
  simp only [utcIn, utcMs, now_div]
  rw [add_comm c.discrete, add_comm (c.discrete.tdiv u)]
  exact h

/-- **C175**, the part that holds, of the time since the start: in whole units it is that in milliseconds, or one more. -/
theorem C175_since_partial {u : ℤ} (hu : 0 < u) (c : Clock) (now : ℤ) :
    durationMs .real c now / u ≤ durationIn u .real c now ∧ durationIn u .real c now ≤ durationMs .real c now / u + 1 := by
  simp only [durationIn, durationMs, now_div]
  generalize now / 1000000 = a
  generalize c.start / 1000000 = b
  have hs : (a - b) % u + u * ((a - b) / u) = a - b := Int.emod_add_mul_ediv _ _
  have r1 := Int.emod_nonneg (a - b) (ne_of_gt hu)
  have r2 := Int.emod_lt_of_pos (a - b) hu
  have ha : a % u + u * (a / u) = a := Int.emod_add_mul_ediv _ _
  have hb : b % u + u * (b / u) = b := Int.emod_add_mul_ediv _ _
  have a1 := Int.emod_nonneg a (ne_of_gt hu)
  have a2 := Int.emod_lt_of_pos a hu
  have b1 := Int.emod_nonneg b (ne_of_gt hu)
  have b2 := Int.emod_lt_of_pos b hu
  constructor
  · by_contra hc
    have : a / u - b / u + 1 ≤ (a - b) / u := by omega
    have := mul_le_mul_of_nonneg_left this (le_of_lt hu)
    rw [mul_add, mul_sub, mul_one] at this
    omega
  · by_contra hc
    have : (a - b) / u + 2 ≤ a / u - b / u := by omega
    have := mul_le_mul_of_nonneg_left this (le_of_lt hu)
    rw [mul_add, mul_sub] at this
    omega

/-- **C175 fails** after a calibration backwards by a millisecond: 999 milliseconds are one second. -/
theorem C175_ahead_violated : ∃ c : Clock, ∃ now, 0 ≤ now ∧ utcMs .real c now = 999 ∧ utcIn 1000 .real c now = 1 :=
  ⟨{ delta := -1 }, 1000000000, by decide, by decide, by decide⟩

/-- **C175 fails** after a calibration forwards by a millisecond: 2000 milliseconds are one second; the seconds stay behind until the
clock of the machine reaches its own next second. -/
theorem C175_behind_violated : ∃ c : Clock, ∃ now, 0 ≤ now ∧ utcMs .real c now = 2000 ∧ utcIn 1000 .real c now = 1 :=
  ⟨{ delta := 1 }, 1999000000, by decide, by decide, by decide⟩

/-- **C175 fails** of the time since the start: two milliseconds after a start just before the hour, it is said to be an hour. -/
theorem C175_since_violated : ∃ c : Clock, ∃ now, 0 ≤ c.start ∧ c.start ≤ now ∧ durationMs .real c now = 2 ∧
    durationIn 3600000 .real c now = 1 :=
  ⟨{ start := 3599999000000 }, 3600001000000, by decide, by decide, by decide, by decide⟩

/-- What an event says about the simulated time. -/
def Event.told : Event → Option ℤ
  | .state _ t => some t
  | _ => none

/-- Events that do not choose a mode. -/
def Event.Plain : Event → Prop
  | .mode _ => False
  | .init _ => False
  | _ => True

/-- The last of the times told. -/
def lastTold (t : ℤ) (es : List Event) : ℤ := (es.filterMap Event.told).getLastD t

/-- A clock on simulated time, which says `t`. -/
def Simulated (w : World) (t : ℤ) : Prop :=
  w.current = .discrete ∧ w.desired = .discrete ∧ ∃ c, w.instance_ = some c ∧ c.start = 0 ∧ c.discrete = t

theorem get_simulated {w : World} {t : ℤ} (h : Simulated w t) (now : ℤ) :
    (w.get now).2 = w ∧ (w.get now).1.start = 0 ∧ (w.get now).1.discrete = t := by
  obtain ⟨h1, h2, c, h3, h4, h5⟩ := h
  unfold World.get
  rw [h3]
  simp only
  rw [if_pos (by rw [h1, h2])]
  exact ⟨rfl, h4, h5⟩

theorem init_simulated (w : World) (now : ℤ) : Simulated (w.step (.init now)) 0 := by
  unfold World.step World.update World.setMode World.get
  cases hi : w.instance_ with
  | none => exact ⟨rfl, rfl, _, rfl, rfl, rfl⟩
  | some c =>
      simp only
      by_cases h : w.current = .discrete
      · rw [if_pos h]
        exact ⟨h, rfl, _, rfl, rfl, rfl⟩
      · rw [if_neg h]
        exact ⟨rfl, rfl, _, rfl, rfl, rfl⟩

theorem step_simulated {w : World} {t : ℤ} (h : Simulated w t) {e : Event} (he : e.Plain) : Simulated (w.step e) (e.told.getD t) := by
  have hg := fun now => get_simulated h now
  obtain ⟨h1, h2, _, h3, _⟩ := id h
  cases e with
  | init now => exact he.elim
  | mode m => exact he.elim
  | read now =>
      change Simulated (w.get now).2 t
      rw [(hg now).1]; exact h
  | state now t' =>
      refine ⟨?_, ?_, _, rfl, ?_, rfl⟩
      · change (w.get now).2.current = _; rw [(hg now).1]; exact h1
      · change (w.get now).2.desired = _; rw [(hg now).1]; exact h2
      · exact (hg now).2.1
  | calibrated now d n =>
      refine ⟨?_, ?_, _, rfl, ?_, ?_⟩
      · change (w.get now).2.current = _; rw [(hg now).1]; exact h1
      · change (w.get now).2.desired = _; rw [(hg now).1]; exact h2
      · exact (hg now).2.1
      · exact (hg now).2.2

theorem run_simulated : ∀ (es : List Event), (∀ e ∈ es, e.Plain) → ∀ {w : World} {t : ℤ}, Simulated w t →
    Simulated (es.foldl World.step w) (lastTold t es)
  | [], _, _, _, h => h
  | e :: es, he, w, t, h => by
      have ih := run_simulated es (fun x hx => he x (List.mem_cons_of_mem _ hx)) (step_simulated h (he e List.mem_cons_self))
      rw [List.foldl_cons]
      have : lastTold t (e :: es) = lastTold (e.told.getD t) es := by
        unfold lastTold
        rw [List.filterMap_cons]
        cases e.told with
        | none => rfl
        | some a => exact List.getLastD_cons
      rw [this]; exact ih

/-- **C176.**  From the start of the service that simulates time, whatever the clock was before, and until the kind of time is chosen
anew: the time, and the time since the start, are those of the last state of an entity, and 0 before the first, whatever the clock of
the machine says and however it is calibrated. -/
theorem C176_states (w : World) (now : ℤ) (es : List Event) (he : ∀ e ∈ es, e.Plain) (now' : ℤ) :
    let w' := es.foldl World.step (w.step (.init now))
    w'.current = .discrete ∧ (w'.get now').2 = w' ∧
    utcMs .discrete (w'.get now').1 now' = (es.filterMap Event.told).getLastD 0 ∧
    durationMs .discrete (w'.get now').1 now' = (es.filterMap Event.told).getLastD 0 := by
  intro w'
  have h : Simulated w' (lastTold 0 es) := run_simulated es he (init_simulated w now)
  obtain ⟨g1, g2, g3⟩ := get_simulated h now'
  refine ⟨h.1, g1, ?_, ?_⟩
  · simp only [utcMs, g2, g3, Int.zero_ediv, add_zero]; rfl
  · simp only [durationMs, g3]; rfl

/-- **C176.**  On real time, states of entities change no time. -/
theorem C176_real {w : World} {c : Clock} (hi : w.instance_ = some c) (hc : w.current = .real) (hd : w.desired = .real)
    (now t now' : ℤ) :
    ∃ c', (w.step (.state now t)).instance_ = some c' ∧ ((w.step (.state now t)).get now').1 = c' ∧
      (w.step (.state now t)).current = .real ∧
      utcMs .real c' now' = utcMs .real c now' ∧ durationMs .real c' now' = durationMs .real c now' := by
  have hg : w.get now = (c, w) := by
    unfold World.get
    rw [hi]
    simp only
    rw [if_pos (by rw [hc, hd])]
  have hs : w.step (.state now t) = { w with instance_ := some (c.set t) } := by
    change w.update now (·.set t) = _
    unfold World.update
    rw [hg]
  refine ⟨c.set t, by rw [hs], ?_, by rw [hs]; exact hc, rfl, rfl⟩
  rw [hs]
  unfold World.get
  simp only
  rw [if_pos (by rw [hc, hd])]

/-- **C176.**  After another kind of time is chosen, the next who asks gets a clock that was never calibrated, started at that
moment. -/
theorem C176_chosen (w : World) {m : Mode} (h : w.current ≠ m) (now now' : ℤ) :
    let w' := w.step (.mode m)
    (w'.get now).2.current = m ∧ calibrations (w'.get now).1 = 0 ∧
    utcMs m (w'.get now).1 now' = (if m = .real then now' else now) / 1000000 ∧
    durationMs m (w'.get now).1 now' = (if m = .real then now' / 1000000 - now / 1000000 else 0) := by
  intro w'
  have hg : w'.get now = ({ start := now }, { w' with instance_ := some { start := now }, current := m }) := by
    unfold World.get
    cases hi : w'.instance_ with
    | none => rfl
    | some c =>
        simp only
        exact if_neg h
  rw [hg]
  refine ⟨rfl, rfl, ?_, ?_⟩
  · cases m <;> simp [utcMs]
  · cases m <;> simp [durationMs]

/-- **C176 fails** as far as time is expected not to run backwards: after states of 5000 and 4000 milliseconds it is 4000. -/
theorem C176_back_violated : ∃ es : List Event, (∀ e ∈ es, e.Plain) ∧ es.filterMap Event.told = [5000, 4000] ∧
    ∀ (w : World) (now now' : ℤ),
      utcMs .discrete (((es.take 1).foldl World.step (w.step (.init now))).get now').1 now' = 5000 ∧
      utcMs .discrete ((es.foldl World.step (w.step (.init now))).get now').1 now' = 4000 := by
  have hp : ∀ e ∈ [Event.state 1 5000, Event.state 2 4000], e.Plain := by
    intro e he
    simp only [List.mem_cons, List.not_mem_nil, or_false] at he
    rcases he with rfl | rfl <;> exact trivial
  refine ⟨[.state 1 5000, .state 2 4000], hp, rfl, fun w now now' => ⟨?_, ?_⟩⟩
  · exact (C176_states w now [.state 1 5000] (fun e he => hp e (by
      rw [List.mem_singleton] at he; rw [he]; exact List.mem_cons_self)) now').2.2.1
  · exact (C176_states w now _ hp now').2.2.1

end Verif.Clock
