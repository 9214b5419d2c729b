import Verif.Rendezvous.Agree
import Verif.Rendezvous.Dist

/-!
# C136, C137: cases

Two vehicles with the speeds 10 to 40, nominal 20, have 1000 and 2000 metres to fly.  They can meet after 50 to 100 seconds and
choose 75; the first is told to fly as slowly, the second as fast as it can.
-/

namespace Verif.Rendezvous

open Real Verif.Earth

theorem toInt64_int {x : ℝ} {n : ℤ} (hx : x = n) (h0 : 0 ≤ n) (h1 : n ≤ 9223372036854775807) : toInt64 x = .ok n := by
  subst hx
  unfold toInt64
  dsimp only
  rw [if_pos (show (0 : ℝ) ≤ n by exact_mod_cast h0), Int.floor_intCast, if_pos (by omega)]

/-- Speeds from 10 to 40, nominal 20. -/
noncomputable def midway : Cfg := ⟨20, some (10, 40, 45)⟩

/-- The configurations of the vehicles 1 and 2. -/
noncomputable def both : Map Cfg := [(1, midway), (2, midway)]

/-- Their remaining distances. -/
def ways : List (ℤ × ℤ × ℝ) := [(1, 0, 1000), (2, 0, 2000)]

/-- A vehicle at the origin. -/
noncomputable def someone (id : ℤ) : Ent := { id := id, lat := 0, lon := 0, time := 0, ground := 20, airspeed := some 20, cur := 1 }

theorem clip_midway (nom : ℝ) : speedClip midway.air midway.nominal nom = (10, 40, 20) :=
  clip_ordered (c := midway) rfl (by norm_num) (by norm_num [midway]) (by norm_num [midway])

theorem both_one : both.get 1 = some midway := rfl
theorem both_two : both.get 2 = some midway := rfl

theorem span_1000 : SpanOf (10, 40, 20) 1000 0 ⟨50000, 100000, 25000⟩ := by
  refine ⟨toInt64_int ?_ ?_ ?_, toInt64_int ?_ ?_ ?_, toInt64_int ?_ ?_ ?_⟩ <;> norm_num

theorem span_2000 : SpanOf (10, 40, 20) 2000 0 ⟨100000, 200000, 50000⟩ := by
  refine ⟨toInt64_int ?_ ?_ ?_, toInt64_int ?_ ?_ ?_, toInt64_int ?_ ?_ ?_⟩ <;> norm_num

theorem meet_75 (v : Window) (h : v = ⟨[50000, 100000], 100000, 50000⟩ ∨ v = ⟨[100000, 50000], 100000, 50000⟩) :
    meetingTime v = 75000 := by
  rcases h with rfl | rfl <;> decide +kernel

theorem active_one : active both ways (someone 1) 1000 = .ok (some 10) := by
  unfold active
  rw [show both.get (someone 1).id = some midway from rfl]
  dsimp only
  obtain ⟨a, b, c⟩ := span_1000
  obtain ⟨d, e, f⟩ := span_2000
  rw [show midway.air = some (10, 40, 45) from rfl]
  dsimp only
  have hn : ¬(midway.nominal < 1 / 10000) := by norm_num [midway]
  rw [if_neg hn, if_neg hn, show some ((10 : ℝ), (40 : ℝ), (45 : ℝ)) = midway.air from rfl, clip_midway]
  dsimp only at a b c d e f ⊢
  rw [Int.cast_zero, sub_zero] at a b c
  rw [a, b, c]
  simp only [Outcome.bind_ok]
  have : gather both (someone 1).id 20 (someone 1).time ways ⟨[50000], 100000, 25000⟩ = .ok ⟨[50000, 100000], 100000, 50000⟩ := by
    unfold ways
    rw [gather, if_neg (by norm_num), if_pos (show (1 : ℤ) = (someone 1).id from rfl), gather, if_neg (by norm_num), if_neg (by decide), both_two]
    dsimp only
    rw [clip_midway, show (if (someone 1).time - 0 < 0 then (0 : ℤ) else (someone 1).time - 0) = 0 from rfl]
    dsimp only
    rw [d, e, f]
    simp only [Outcome.bind_ok]
    rw [if_pos (by norm_num)]
    rfl
  rw [this, Outcome.bind_ok, meet_75 _ (.inl rfl)]
  unfold command
  rw [if_pos (by norm_num)]
  norm_num

theorem active_two : active both ways (someone 2) 2000 = .ok (some 40) := by
  unfold active
  rw [show both.get (someone 2).id = some midway from rfl]
  dsimp only
  obtain ⟨a, b, c⟩ := span_2000
  obtain ⟨d, e, f⟩ := span_1000
  rw [show midway.air = some (10, 40, 45) from rfl]
  dsimp only
  have hn : ¬(midway.nominal < 1 / 10000) := by norm_num [midway]
  rw [if_neg hn, if_neg hn, show some ((10 : ℝ), (40 : ℝ), (45 : ℝ)) = midway.air from rfl, clip_midway]
  dsimp only at a b c d e f ⊢
  rw [Int.cast_zero, sub_zero] at a b c
  rw [a, b, c]
  simp only [Outcome.bind_ok]
  have : gather both (someone 2).id 20 (someone 2).time ways ⟨[100000], 200000, 50000⟩ = .ok ⟨[100000, 50000], 100000, 50000⟩ := by
    unfold ways
    rw [gather, if_neg (by norm_num), if_neg (by decide), both_one]
    dsimp only
    rw [clip_midway, show (if (someone 2).time - 0 < 0 then (0 : ℤ) else (someone 2).time - 0) = 0 from rfl]
    dsimp only
    rw [d, e, f]
    simp only [Outcome.bind_ok]
    rw [gather, if_neg (by norm_num), if_pos (show (2 : ℤ) = (someone 2).id from rfl), if_pos (by norm_num)]
    rfl
  rw [this, Outcome.bind_ok, meet_75 _ (.inr rfl)]
  unfold command
  rw [if_pos (by norm_num)]
  norm_num

theorem ways_able : (ways.map (·.1)).Nodup ∧ ∀ e ∈ ways, Able both 0 ways e := by
  refine ⟨by decide, ?_⟩
  have h : ∀ x ∈ ways, midway.nominal ≤ x.2.2 := by
    simp [ways, midway]
    norm_num
  intro e he
  have : e = (1, 0, 1000) ∨ e = (2, 0, 2000) := by simpa [ways] using he
  rcases this with rfl | rfl
  · exact ⟨rfl, midway, 10, 40, 45, rfl, rfl, by norm_num, by norm_num [midway], by norm_num [midway], h, _, span_1000, by norm_num⟩
  · exact ⟨rfl, midway, 10, 40, 45, rfl, rfl, by norm_num, by norm_num [midway], by norm_num [midway], h, _, span_2000, by norm_num⟩

/-- The hypotheses of `C136_agree`, `C136_active` and `C136_limits` can be met by vehicles whose times differ. -/
example : ∃ meet : ℤ, 10 = command 10 40 20 1000 meet ∧ 40 = command 10 40 20 2000 meet := by
  obtain ⟨m, h⟩ := C136_agree ways_able.1 ways_able.2
  exact ⟨m, h (someone 1) 1000 10 ways midway 10 40 45 (by simp [ways, someone]) (List.Perm.refl _) rfl rfl rfl active_one,
    h (someone 2) 2000 40 ways midway 10 40 45 (by simp [ways, someone]) (List.Perm.refl _) rfl rfl rfl active_two⟩

example : (10 : ℝ) ≤ 40 ∧ (40 : ℝ) ≤ 40 := by
  obtain ⟨_, c, hc, h⟩ := C136_limits active_two
  cases (show both.get (someone 2).id = some midway from rfl).symm.trans hc
  exact h 10 40 45 rfl (by norm_num) (by norm_num [midway]) (by norm_num [midway])

/-- `C136_direction`: 1000 metres in 40 seconds want more than the nominal speed 20. -/
example : (25 : ℝ) ≤ command 10 40 20 1000 40000 := by
  have := (C136_direction (lo := 10) (hi := 40) (nom := 20) (dist := 1000) (meet := 40000) (by norm_num) (by norm_num) (by norm_num)
    (by norm_num) (by norm_num) (by norm_num)).1 (by norm_num)
  norm_num at this ⊢
  exact this

/-- `C136_best`: the mean lies in the window. -/
example : cost [50000, 100000] 75000 ≤ cost [50000, 100000] 80000 + 2 := by
  have := (C136_best (w := ⟨[50000, 100000], 100000, 50000⟩) (by decide) (by decide) (by decide)).2.2 80000 (by decide) (by decide)
  rwa [meet_75 _ (.inl rfl)] at this

/-! ## The distance that remains -/

/-- A waypoint on the equator. -/
noncomputable def stop (number next : ℤ) (lon : ℝ) (tasks : List ℤ) : Wp :=
  { lat := 0, lon := lon, speed := 20, number := number, next := next, rest := { tasks := tasks } }

/-- A mission: 1 → 2 → 3, of which 3 is not the task's. -/
noncomputable def route3 : List Wp := [stop 1 2 1 [7], stop 2 3 2 [5, 7], stop 3 3 3 []]

/-- `C137_mission` for a vehicle at the origin that flies to the first waypoint. -/
example : ∃ d, arrivalDistance true 7 (some route3) (someone 1) = .ok d ∧
    d = lengthOver (0, 0) [Extend.plane (someone 1).origin (stop 1 2 1 [7]), Extend.plane (someone 1).origin (stop 2 3 2 [5, 7])] := by
  refine ⟨_, C137_mission true (task := 7) (ws := route3) (st := someone 1) (i := 0) (k := 2) (by simp [route3, stop]) ?_ (by norm_num) (by simp [route3])
    ⟨_, rfl, rfl⟩ ?_ (.inl ⟨_, rfl, by simp [stop]⟩), rfl⟩
  · intro j a b ha hb
    match j with
    | 0 => cases ha; cases hb; rfl
    | 1 => cases ha; cases hb; rfl
    | 2 => cases hb
    | j + 3 => cases ha
  · intro j w _ hj hw
    match j with
    | 0 => cases hw; simp [stop]
    | 1 => cases hw; simp [stop]
    | j + 2 => omega

/-- A mission whose links run in a circle: each waypoint is counted once. -/
example : Ahead [stop 1 2 1 [7], stop 2 1 2 [7]] 7 2 [] [stop 2 1 2 [7], stop 1 2 1 [7]] := by
  refine .on (i := 1) ⟨⟨_, rfl, rfl⟩, ?_⟩ rfl (by simp [stop]) (by simp) (.on (i := 0) ⟨⟨_, rfl, rfl⟩, ?_⟩ rfl (by simp [stop]) (by simp)
    (.again (i := 1) ⟨⟨_, rfl, rfl⟩, ?_⟩ (by simp)))
  · intro j w hj hw
    obtain rfl : j = 0 := by omega
    cases hw; decide
  · intro j w hj; omega
  · intro j w hj hw
    obtain rfl : j = 0 := by omega
    cases hw; decide

end Verif.Rendezvous
