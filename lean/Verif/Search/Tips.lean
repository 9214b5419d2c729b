import Verif.Search.RasterCases

/-!
# A pointed area (C140), and cases that meet the hypotheses of C138 to C140
-/

namespace Verif.Search

/-- A leg through points up to `y` sees nothing far beyond. -/
theorem beyond_leg {p q z c : Pos} {ax lead trail half y : ℝ} {up : Bool} (hlt : trail ≤ lead)
    (hp : p.n ≤ y) (hq : q.n ≤ y) (hz : y + (lead - trail) < (turnIn c ax z).n) :
    ¬ Swept lead trail half (if up then ax else ax + Real.pi)
      (turnOut c ax (leg p q up lead trail).start) (turnOut c ax (leg p q up lead trail).stop) z := by
  rintro ⟨t, t0, t1, h1, h2, -⟩
  rw [between_turn] at h1 h2
  have hb : ∀ a b : Pos, ∀ m : ℝ, a.n ≤ m → b.n ≤ m → (between a b t).n ≤ m := by
    intro a b m ha hb
    simp only [between]
    have := mul_le_mul_of_nonneg_left hb t0
    have := mul_le_mul_of_nonneg_left ha (sub_nonneg.2 t1)
    linarith
  cases up with
  | true =>
      simp only [if_true, along_turn] at h2
      have := hb (leg p q true lead trail).start (leg p q true lead trail).stop (y - trail)
        (by simp only [leg, if_true]; split <;> linarith)
        (by simp only [leg, if_true]; split <;> linarith)
      linarith
  | false =>
      simp only [Bool.false_eq_true, if_false, along_back, along_turn] at h1
      have := hb (leg p q false lead trail).start (leg p q false lead trail).stop (y + lead)
        (by simp only [leg, Bool.false_eq_true, if_false]; split <;> linarith)
        (by simp only [leg, Bool.false_eq_true, if_false]; split <;> linarith)
      linarith

/-- A triangle, 400 m to 4000 m. -/
def spike : List Pos := [⟨0, 0⟩, ⟨0, 400⟩, ⟨4000, 0⟩]

theorem spike_centre : polygonCentre spike = ⟨2000, 200⟩ := by
  have h := dblMin_lt
  have hd : (0:ℝ) < dblMin := by unfold dblMin; positivity
  have h3 : ¬ dblMin < 0 := by linarith
  simp only [polygonCentre, spike, lowest, List.foldl_cons, List.foldl_nil, Pos.mk.injEq]
  constructor
  · rw [if_neg h3, if_neg h3, if_pos (by linarith)]; norm_num
  · rw [if_neg h3, if_pos (show dblMin < 400 by linarith), if_neg (by norm_num)]; norm_num

theorem spike_corners : cornersOf .cmasi (.polygon spike) 0 =
    [⟨-2000, -200⟩, ⟨-2000, 200⟩, ⟨2000, -200⟩] := by
  simp only [cornersOf, axis_cmasi_zero, centre, spike_centre, boundary]
  simp only [spike, List.map_cons, List.map_nil, turnIn_zero]
  norm_num

/-- **C140**, the full claim is false of pointed areas, even where they fit the lanes: a lane
is flown as far as the line in its middle meets the boundary, though the area goes on
beside it.  A triangle 400 m wide and 4000 m high, lanes 100.8 m apart: a point 370 m
further than the nearest lane is flown stays unseen. -/
theorem C140_tip_violated :
    ∃ (legs : List Leg) (z : Pos),
      plan .cmasi (.polygon spike) 0 (0.9 * 112) 100 20 = .ok (legs, true) ∧
      Inside (-1) spike z ∧
      (∀ l ∈ legs, ¬ Swept 100 20 56 (if l.up then 0 else 0 + Real.pi) l.start l.stop z) := by
  have hb := spike_corners
  have hlo : loOf .cmasi (.polygon spike) 0 = -200 := by
    rw [loOf, hb]; simp only [lowest, List.foldl_cons, List.foldl_nil]; norm_num
  have hhi : hiOf .cmasi (.polygon spike) 0 = 200 := by
    rw [hiOf, hb]; simp only [highest, List.foldl_cons, List.foldl_nil]; norm_num
  have hfirst : firstLane .cmasi (-200) 200 (0.9 * 112) = -149.6 := by
    simp only [firstLane]; rw [if_neg (by norm_num)]; norm_num
  have hlane : ∀ i : ℕ, laneAt .cmasi (.polygon spike) 0 (0.9 * 112) i = -149.6 + i * 100.8 := by
    intro i; simp only [laneAt, hlo, hhi, laneOver, hfirst]; norm_num
  obtain ⟨legs, good, hp, -⟩ := C138_ends (k := .cmasi) (a := .polygon spike)
    (h := 0) (s := 0.9 * 112) (lead := 100) (trail := 20) (by norm_num)
    (.inr (by simp [boundary, spike]))
  have hgood : good = true := by
    refine succeeds (by norm_num) (by simp) hp ?_
    intro b hbm i hc
    rw [hlane, axis_cmasi_zero, across_zero] at hc
    have hi0 : (0 : ℝ) ≤ i := Nat.cast_nonneg i
    simp only [boundary, spike, List.mem_cons, List.not_mem_nil, or_false] at hbm
    have h4 : b.e = 0 ∨ b.e = 400 := by rcases hbm with rfl | rfl | rfl <;> simp
    rw [show (centre (.polygon spike)).e = 200 by simp only [centre, spike_centre]] at hc
    rcases h4 with h4 | h4 <;> rw [h4] at hc
    · linarith
    · rcases Nat.lt_or_ge i 4 with h | h
      · interval_cases i <;> norm_num at hc
      · have : (4 : ℝ) ≤ i := by exact_mod_cast h
        linarith
  subst hgood
  refine ⟨legs, ⟨3950, 1⟩, hp, ?_, ?_⟩
  · intro i hi
    have hi' : i < 3 := hi
    interval_cases i <;> simp only [spike, List.length_cons, List.length_nil] <;> norm_num
  intro l hl
  rcases plan_inv hp with ⟨-, rfl, -⟩ | ⟨hbn, ls, hsc, rfl⟩
  · simp at hl
  obtain ⟨l', hl', rfl⟩ := List.mem_map.1 hl
  obtain ⟨i, hi, rfl⟩ := List.getElem_of_mem hl'
  obtain ⟨hgo, p, q, ps, hh, he⟩ := (scan_spec hsc).1 i hi
  have hl3 : firstLane .cmasi (loOf .cmasi (.polygon spike) 0) (hiOf .cmasi (.polygon spike) 0) (0.9 * 112) +
    (i : ℝ) * laneOver .cmasi (0.9 * 112) = -149.6 + i * 100.8 := hlane i
  rw [hl3] at hh
  have hi0 : (0 : ℝ) ≤ i := Nat.cast_nonneg i
  have hn : ∀ v ∈ hits (cornersOf .cmasi (.polygon spike) 0)
      ⟨lowest (·.n) (cornersOf .cmasi (.polygon spike) 0) - 100000, -149.6 + i * 100.8⟩
      ⟨highest (·.n) (cornersOf .cmasi (.polygon spike) 0) + 100000, -149.6 + i * 100.8⟩, v.n ≤ 1496.5 := by
    intro v hv
    obtain ⟨g, hg, hc⟩ := List.mem_filterMap.1 hv
    have ho := off_near (crossing_off (c := ⟨lowest (·.n) (cornersOf .cmasi (.polygon spike) 0) - 100000, -149.6 + i * 100.8⟩)
      (d := ⟨highest (·.n) (cornersOf .cmasi (.polygon spike) 0) + 100000, -149.6 + i * 100.8⟩) rfl rfl hc).2
    rw [hb] at hg
    simp only [ring, path, List.cons_append, List.nil_append, List.mem_cons, List.not_mem_nil,
      or_false] at hg
    rcases hg with rfl | rfl | rfl
    · simp only [cut] at ho
      norm_num at ho
      linarith [ho.2]
    · simp only [cut] at ho
      have e : -2000 + (-149.6 + (i : ℝ) * 100.8 - 200) * (2000 - -2000) / (-200 - 200) = 1496 - i * 1008 := by
        ring
      rw [e] at ho
      linarith [ho.2]
    · rw [crossing_none (c := ⟨_, -149.6 + i * 100.8⟩) (d := ⟨_, -149.6 + i * 100.8⟩) (x := -149.6 + i * 100.8) rfl rfl] at hc
      · cases hc
      · have h0 : (cornersOf .cmasi (.polygon spike) 0) ≠ [] := by rw [hb]; simp
        obtain ⟨a, ha, -⟩ := lowest_mem (f := (·.n)) h0
        have h1 := lowest_le (f := (·.n)) ha
        have h2 := le_highest (f := (·.n)) ha
        simp only; linarith
      · left; constructor <;> simp only <;> linarith
  have hpm := hn p (by rw [hh]; simp)
  have hqm := hn ((q :: ps).getLast (by simp)) (by rw [hh]; exact List.mem_cons_of_mem _ (List.getLast_mem _))
  have := beyond_leg (z := ⟨3950, 1⟩) (c := centre (.polygon spike)) (ax := 0) (lead := 100) (trail := 20)
    (half := 56) (up := upAt (firstUp .cmasi) i) (by norm_num) hpm hqm
    (by simp only [turnIn_zero, centre, spike_centre]; norm_num)
  simp only [axis_cmasi_zero, he, leg_up]
  exact this

/-- **C139**, the full claim is false of areas of no known kind: a request without routes is sent,
and the option is given no start and no end. -/
theorem C139_other_violated {k : Kind} {h alt : ℝ} :
    ∃ r, onFootprint k (-1) (-1) .other h alt 112 100 20 = .ok r ∧ r.request = some [] ∧ r.start = none ∧
      r.stop = none ∧ r.warned = false := by
  have hs : (0.01 : ℝ) < spacing k (-1) (-1) 112 := by
    rw [C139_spacing.1 (.inr (.inl (by norm_num)))]; norm_num
  refine ⟨_, by simp only [onFootprint, if_pos hs, plan, Outcome.bind_ok]; rfl, ?_⟩
  simp [routes]

/-! ### Cases that meet the hypotheses -/

/-- A rectangle of 1000 m by 3000 m, turned by 30°, and a footprint of 1000/9 m (lanes 100 m apart): a plan
is found, in all four variants. -/
example (o : ℕ) : ∃ legs, plan (.angled o) (.rectangle ⟨7, -3⟩ 1000 3000 30) 0 100 100 20 = .ok (legs, true) ∧
    ∀ p : Pos, |across (axis (.angled o) (.rectangle ⟨7, -3⟩ 1000 3000 30) 0) ⟨7, -3⟩ p| ≤ 500 →
      ∃ l ∈ legs, |across (axis (.angled o) (.rectangle ⟨7, -3⟩ 1000 3000 30) 0) l.start p| ≤ 50.5 := by
  obtain ⟨legs, good, hp, -⟩ := C138_ends (k := .angled o) (a := .rectangle ⟨7, -3⟩ 1000 3000 30)
    (h := 0) (s := 100) (lead := 100) (trail := 20) (by norm_num) (.inr (by simp [boundary]))
  have hb := rect_corners o ⟨7, -3⟩ 1000 3000 30 0
  have hlo : loOf (.angled o) (.rectangle ⟨7, -3⟩ 1000 3000 30) 0 = -500 := by
    rw [loOf, hb, box_lo (by norm_num)]; norm_num
  have hhi : hiOf (.angled o) (.rectangle ⟨7, -3⟩ 1000 3000 30) 0 = 500 := by
    rw [hiOf, hb, box_hi (by norm_num)]; norm_num
  have he : ∀ b ∈ boundary (.angled o) (.rectangle ⟨7, -3⟩ 1000 3000 30),
      across (axis (.angled o) (.rectangle ⟨7, -3⟩ 1000 3000 30) 0) ⟨7, -3⟩ b = 500 ∨
      across (axis (.angled o) (.rectangle ⟨7, -3⟩ 1000 3000 30) 0) ⟨7, -3⟩ b = -500 := by
    intro b hbm
    have hm := List.mem_map_of_mem (f := turnIn (centre (.rectangle ⟨7, -3⟩ 1000 3000 30))
      (axis (.angled o) (.rectangle ⟨7, -3⟩ 1000 3000 30) 0)) hbm
    rw [show List.map _ _ = _ from hb] at hm
    have e : across (axis (.angled o) (.rectangle ⟨7, -3⟩ 1000 3000 30) 0) ⟨7, -3⟩ b =
      (turnIn (centre (.rectangle ⟨7, -3⟩ 1000 3000 30))
        (axis (.angled o) (.rectangle ⟨7, -3⟩ 1000 3000 30) 0) b).e := rfl
    rw [e]
    simp only [box, List.mem_cons, List.not_mem_nil, or_false] at hm
    rcases hm with h | h | h | h <;> rw [h] <;> norm_num
  have hgood : good = true := by
    refine succeeds (by norm_num) (by simp) hp ?_
    intro b hbm i hc
    have hl : ∃ n : ℤ, laneAt (.angled o) (.rectangle ⟨7, -3⟩ 1000 3000 30) 0 100 i = 50 + 100 * n := by
      by_cases c : o % 4 = 1 ∨ o % 4 = 3
      · refine ⟨i - 5, ?_⟩
        simp only [laneAt, hlo, hhi, firstLane, laneOver, if_pos c]
        rw [if_neg (by norm_num)]; push_cast; ring
      · refine ⟨4 - i, ?_⟩
        simp only [laneAt, hlo, hhi, firstLane, laneOver, if_neg c]
        rw [if_neg (by norm_num)]; push_cast; ring
    obtain ⟨n, hn⟩ := hl
    rw [hn] at hc
    have hx : across (axis (.angled o) (.rectangle ⟨7, -3⟩ 1000 3000 30) 0)
      (centre (.rectangle ⟨7, -3⟩ 1000 3000 30)) b = 50 + 100 * n := hc
    rcases he b hbm with h | h
    · rw [show centre (.rectangle ⟨7, -3⟩ 1000 3000 30) = ⟨7, -3⟩ from rfl, h] at hx
      have : (500 : ℤ) = 50 + 100 * n := by exact_mod_cast hx
      omega
    · rw [show centre (.rectangle ⟨7, -3⟩ 1000 3000 30) = ⟨7, -3⟩ from rfl, h] at hx
      have : (-500 : ℤ) = 50 + 100 * n := by exact_mod_cast hx
      omega
  subst hgood
  refine ⟨legs, hp, fun p hpe => ?_⟩
  obtain ⟨b, hb1, -, hb2⟩ := (C138_area (k := .angled o) (c := ⟨7, -3⟩) (r := 0) (w := 1000) (ht := 3000) (rot := 30)
    (vs := [])).2.2.1 ⟨o, rfl⟩ 1500 (-500) (by norm_num)
  obtain ⟨b', hb1', -, hb2'⟩ := (C138_area (k := .angled o) (c := ⟨7, -3⟩) (r := 0) (w := 1000) (ht := 3000) (rot := 30)
    (vs := [])).2.2.1 ⟨o, rfl⟩ 1500 500 (by norm_num)
  have e1 : across (axis (.angled o) (.rectangle ⟨7, -3⟩ 1000 3000 30) 0)
    (centre (.rectangle ⟨7, -3⟩ 1000 3000 30)) b = -500 := hb2
  have e2 : across (axis (.angled o) (.rectangle ⟨7, -3⟩ 1000 3000 30) 0)
    (centre (.rectangle ⟨7, -3⟩ 1000 3000 30)) b' = 500 := hb2'
  have hpe' := abs_le.1 hpe
  obtain ⟨l, h1, h2, -⟩ := (C140_across_partial (by norm_num) (by norm_num) hp hb1 hb1'
    (by rw [e1, e2]; norm_num)
    (fun v hv => by
      rw [e1, e2]
      rcases he v hv with h | h
      · exact ⟨(show (-500 : ℝ) ≤ 500 by norm_num).trans_eq h.symm, h.le⟩
      · exact ⟨h.ge, (show _ = (-500 : ℝ) from h).le.trans (by norm_num)⟩)
    (z := p) (by rw [e1]; exact hpe'.1) (by rw [e2]; exact hpe'.2)).2
    (by rw [e1, e2]; exact .inr ⟨(fun h => by cases h), 10, by norm_num, by norm_num⟩)
  exact ⟨l, h1, h2.trans (by norm_num)⟩

/-- The same rectangle with the footprint: a request is sent, whose routes see every point of it (C139, C140). -/
example : ∃ r rs, onFootprint (.angled 3) (-1) (-1) (.rectangle ⟨7, -3⟩ 1000 3000 30) 0 700 (1000 / 9) 100 20 = .ok r ∧
    r.request = some rs ∧ rs ≠ [] ∧ ∀ p : Pos, |along (course 30) ⟨7, -3⟩ p| ≤ 1500 → |across (course 30) ⟨7, -3⟩ p| ≤ 500 →
      ∃ q ∈ rs, RouteSees 100 20 (500 / 9) q p := by
  obtain ⟨r, hr, -⟩ := C139_sent (k := .angled 3) (least := -1) (most := -1) (a := .rectangle ⟨7, -3⟩ 1000 3000 30)
    (h := 0) (alt := 700) (width := 1000 / 9) (lead := 100) (trail := 20) (.inr (by simp [boundary]))
  obtain ⟨rs, h1, h2⟩ := C140_rectangle_partial (by norm_num) (by norm_num) (by norm_num) (by norm_num)
    (.inl (by norm_num)) hr (.inr ⟨10, by norm_num, by norm_num⟩)
  have h2' : ∀ p : Pos, |along (course 30) ⟨7, -3⟩ p| ≤ 1500 → |across (course 30) ⟨7, -3⟩ p| ≤ 500 →
      ∃ q ∈ rs, RouteSees 100 20 (500 / 9) q p := by
    intro p ha hb
    obtain ⟨q, hq, h⟩ := h2 p (ha.trans (by norm_num)) (hb.trans (by norm_num))
    exact ⟨q, hq, by rwa [show (1000 / 9 / 2 : ℝ) = 500 / 9 by norm_num] at h⟩
  refine ⟨r, rs, hr, h1, ?_, h2'⟩
  rintro rfl
  obtain ⟨q, hq, -⟩ := h2' ⟨7, -3⟩ (by simp [along]) (by simp [across])
  simp at hq

/-- The other service: a rectangle of 400 m by 1000 m with lanes 100 m apart (C140). -/
example : ∃ r rs, onFootprint .cmasi (-1) (-1) (.rectangle ⟨7, -3⟩ 400 1000 0) 0 700 (1000 / 9) 100 20 = .ok r ∧
    r.request = some rs ∧ ∃ q ∈ rs, RouteSees 100 20 (500 / 9) q ⟨507, 197⟩ := by
  obtain ⟨r, hr, -⟩ := C139_sent (k := .cmasi) (least := -1) (most := -1) (a := .rectangle ⟨7, -3⟩ 400 1000 0)
    (h := 0) (alt := 700) (width := 1000 / 9) (lead := 100) (trail := 20) (.inr (by simp [boundary]))
  obtain ⟨rs, h1, h2⟩ := C140_cmasi_rectangle_partial (by norm_num) (by norm_num) (by norm_num) (by norm_num)
    hr (.inr ⟨by norm_num, 4, by norm_num, by norm_num⟩)
  obtain ⟨q, hq, h⟩ := h2 ⟨507, 197⟩ (by norm_num) (by norm_num)
  exact ⟨r, rs, hr, h1, q, hq, by rwa [show (1000 / 9 / 2 : ℝ) = 500 / 9 by norm_num] at h⟩

end Verif.Search
