import Mathlib.Tactic.NormNum
import Mathlib.Tactic.IntervalCases
import Verif.Search.Rect

/-!
# Cases of the searches: what is not seen (C140), and examples
-/

namespace Verif.Search

/-- Nothing is seen that is far from all the lanes that are flown. -/
theorem unseen {k : Kind} {a : Area} {h s lead trail half : ℝ} {legs : List Leg} {good : Bool}
    (hlt : trail ≤ lead) (hp : plan k a h s lead trail = .ok (legs, good)) {z : Pos}
    (hz : ∀ i : ℕ, Going (loOf k a h) (hiOf k a h) (laneOver k s) (laneAt k a h s i) →
      half + 1 / 2 < |across (axis k a h) (centre a) z - laneAt k a h s i|) :
    ∀ l ∈ legs, ¬ Swept lead trail half (if l.up then axis k a h else axis k a h + Real.pi)
      l.start l.stop z := by
  intro l hl
  rcases plan_inv hp with ⟨-, rfl, -⟩ | ⟨hbn, ls, hsc, rfl⟩
  · simp at hl
  obtain ⟨l', hl', rfl⟩ := List.mem_map.1 hl
  obtain ⟨i, hi, rfl⟩ := List.getElem_of_mem hl'
  obtain ⟨hgo, p, q, ps, hh, he⟩ := (scan_spec hsc).1 i hi
  have hpm := hits_lane (p := p) (by rw [hh]; simp)
  have hqm := hits_lane (p := (q :: ps).getLast (by simp))
    (by rw [hh]; exact List.mem_cons_of_mem _ (List.getLast_mem _))
  have hf := leg_facts (up := upAt (firstUp k) i) (lead := lead) (trail := trail) hlt hpm hqm
  rw [← he] at hf
  exact not_swept (c := centre a) (x := laneAt k a h s i) (by rw [across_place]; exact hf.1)
    (by rw [across_place]; exact hf.2.1) (hz i hgo)

/-- **C140**, the full claim is false: a strip of up to half a lane spacing along the
far side can stay unseen.  A rectangle of 140 m by 1000 m and a footprint 112 m wide:
one lane is flown, and the far side is 90 m from it. -/
theorem C140_far_side_violated :
    ∃ (a : Area) (legs : List Leg) (z : Pos),
      a = .rectangle ⟨0, 0⟩ 140 1000 0 ∧
      plan (.angled 1) a 0 (0.9 * 112) 100 20 = .ok (legs, true) ∧ legs ≠ [] ∧
      |along (course 0) ⟨0, 0⟩ z| ≤ 500 ∧ |across (course 0) ⟨0, 0⟩ z| ≤ 70 ∧
      ∀ l ∈ legs, ¬ Swept 100 20 56 (if l.up then course 0 else course 0 + Real.pi)
        l.start l.stop z := by
  have hb := rect_corners 1 ⟨0, 0⟩ 140 1000 0 0
  have hlo : loOf (.angled 1) (.rectangle ⟨0, 0⟩ 140 1000 0) 0 = -70 := by
    rw [loOf, hb, box_lo (by norm_num)]; norm_num
  have hhi : hiOf (.angled 1) (.rectangle ⟨0, 0⟩ 140 1000 0) 0 = 70 := by
    rw [hiOf, hb, box_hi (by norm_num)]; norm_num
  have hover : laneOver (.angled 1) (0.9 * 112) = 100.8 := by simp [laneOver]; norm_num
  have hfirst : firstLane (.angled 1) (-70) 70 (0.9 * 112) = -19.6 := by
    simp only [firstLane]
    rw [if_neg (by norm_num), if_pos (by norm_num)]; norm_num
  have hlane : ∀ i : ℕ, laneAt (.angled 1) (.rectangle ⟨0, 0⟩ 140 1000 0) 0 (0.9 * 112) i =
      -19.6 + i * 100.8 := by
    intro i; simp only [laneAt, hlo, hhi, hover, hfirst]
  have hax : axis (.angled 1) (.rectangle ⟨0, 0⟩ 140 1000 0) 0 = course 0 := rfl
  obtain ⟨legs, good, hp, -⟩ := C138_ends (k := .angled 1) (a := .rectangle ⟨0, 0⟩ 140 1000 0)
    (h := 0) (s := 0.9 * 112) (lead := 100) (trail := 20) (by norm_num) (.inr (by simp [boundary]))
  have hc0 : course 0 = 0 := by simp [course]
  have hgood : good = true := by
    refine succeeds (by norm_num) (by simp) hp ?_
    intro b hbm i
    rw [hlane]
    have hm : turnIn ⟨0, 0⟩ (course 0) b ∈ box 140 1000 := by
      have := List.mem_map_of_mem (f := turnIn (centre (.rectangle ⟨0, 0⟩ 140 1000 0))
        (axis (.angled 1) (.rectangle ⟨0, 0⟩ 140 1000 0) 0)) hbm
      rw [← hb]; exact this
    have hi0 : (0 : ℝ) ≤ i := Nat.cast_nonneg i
    intro hc
    have hce : (turnIn ⟨0, 0⟩ (course 0) b).e = -19.6 + i * 100.8 := hc
    have he : (turnIn ⟨0, 0⟩ (course 0) b).e = 70 ∨ (turnIn ⟨0, 0⟩ (course 0) b).e = -70 := by
      simp only [box, List.mem_cons, List.not_mem_nil, or_false] at hm
      rcases hm with h | h | h | h <;> rw [h] <;> norm_num
    rcases he with he | he
    · rcases Nat.eq_zero_or_pos i with rfl | hi
      · rw [he] at hce; norm_num at hce
      · have : (1 : ℝ) ≤ i := by exact_mod_cast hi
        rw [he] at hce; linarith
    · rw [he] at hce; linarith
  subst hgood
  refine ⟨.rectangle ⟨0, 0⟩ 140 1000 0, legs, ⟨0, 70⟩, rfl, hp, ?_, ?_, ?_, ?_⟩
  · rintro rfl
    rcases plan_inv hp with ⟨h0, -, -⟩ | ⟨-, ls, hsc, hmap⟩
    · cases h0
    · have : ls = [] := by simpa using hmap.symm
      subst this
      have := (scan_spec hsc).2.1 rfl
      apply this
      left
      rw [hlo, hhi, hover, hfirst]; norm_num
  · rw [hc0, along_zero]; norm_num
  · rw [hc0, across_zero]; norm_num
  · have := unseen (half := 56) (z := ⟨0, 70⟩) (by norm_num) hp (fun i hg => by
      rw [hlane, hax, hc0, across_zero]
      have hw := lane_within (k := .angled 1) (by norm_num) hg
      rw [show firstLane _ _ _ _ + _ = _ from hlane i, hlo, hhi] at hw
      have hi : i = 0 := by
        by_contra h0
        have : (1 : ℝ) ≤ i := by exact_mod_cast Nat.pos_of_ne_zero h0
        linarith [hw.2]
      subst hi
      simp only [centre]
      rw [abs_of_pos (by norm_num)]; norm_num)
    exact this

/-- **C140**, the full claim is false of the first service: with lanes a little further
apart than half the width of the area there is one lane in the middle, and a strip on
either side stays unseen.  A rectangle of 190 m by 1000 m, a footprint 112 m wide. -/
theorem C140_middle_lane_violated :
    ∃ (legs : List Leg) (good : Bool) (z z' : Pos),
      plan .cmasi (.rectangle ⟨0, 0⟩ 190 1000 0) 0 (0.9 * 112) 100 20 = .ok (legs, good) ∧
      (|z.n| ≤ 500 ∧ |z.e| ≤ 95) ∧ (|z'.n| ≤ 500 ∧ |z'.e| ≤ 95) ∧ z ≠ z' ∧
      ∀ l ∈ legs, ¬ Swept 100 20 56 (if l.up then 0 else 0 + Real.pi) l.start l.stop z ∧
        ¬ Swept 100 20 56 (if l.up then 0 else 0 + Real.pi) l.start l.stop z' := by
  have hb := cmasi_corners ⟨0, 0⟩ 190 1000 0
  have hlo : loOf .cmasi (.rectangle ⟨0, 0⟩ 190 1000 0) 0 = -95 := by
    rw [loOf, hb, box_lo (by norm_num)]; norm_num
  have hhi : hiOf .cmasi (.rectangle ⟨0, 0⟩ 190 1000 0) 0 = 95 := by
    rw [hiOf, hb, box_hi (by norm_num)]; norm_num
  have hfirst : firstLane .cmasi (-95) 95 (0.9 * 112) = 0 := by
    simp only [firstLane]
    rw [if_pos (by norm_num)]; norm_num
  have hlane : ∀ i : ℕ, laneAt .cmasi (.rectangle ⟨0, 0⟩ 190 1000 0) 0 (0.9 * 112) i =
      i * (0.9 * 112) := by
    intro i; simp only [laneAt, hlo, hhi, laneOver, hfirst, zero_add]
  obtain ⟨legs, good, hp, -⟩ := C138_ends (k := .cmasi) (a := .rectangle ⟨0, 0⟩ 190 1000 0)
    (h := 0) (s := 0.9 * 112) (lead := 100) (trail := 20) (by norm_num) (.inr (by simp [boundary]))
  have un : ∀ z : Pos, |z.e| = 95 → ∀ l ∈ legs,
      ¬ Swept 100 20 56 (if l.up then 0 else 0 + Real.pi) l.start l.stop z := by
    intro z hz
    have := unseen (half := 56) (z := z) (by norm_num) hp (fun i hg => by
      rw [hlane, axis_cmasi_zero, across_zero]
      have hw := lane_within (k := .cmasi) (by norm_num) hg
      rw [show firstLane _ _ _ _ + _ = _ from hlane i, hlo, hhi] at hw
      have hi : i = 0 := by
        by_contra h0
        have : (1 : ℝ) ≤ i := by exact_mod_cast Nat.pos_of_ne_zero h0
        linarith [hw.2]
      subst hi
      simp only [centre, Nat.cast_zero, zero_mul, sub_zero]
      rw [hz]; norm_num)
    rw [axis_cmasi_zero] at this
    exact this
  refine ⟨legs, good, ⟨0, 95⟩, ⟨0, -95⟩, hp, by norm_num, by norm_num, ?_, ?_⟩
  · intro h
    have := congrArg Pos.e h
    norm_num at this
  · intro l hl
    exact ⟨un _ (by norm_num) l hl, un _ (by norm_num) l hl⟩

/-- **C140**, the full claim is false of the first service: it leaves the rotation of a
rectangle aside.  Of a rectangle 100 m wide and 1000 m high, turned by a quarter, it
searches another than the one asked for. -/
theorem C140_rotation_violated :
    ∃ (legs : List Leg) (good : Bool) (z : Pos),
      plan .cmasi (.rectangle ⟨0, 0⟩ 100 1000 90) 0 (0.9 * 112) 100 20 = .ok (legs, good) ∧
      |along (course 90) ⟨0, 0⟩ z| ≤ 1000 / 2 ∧ |across (course 90) ⟨0, 0⟩ z| ≤ 100 / 2 ∧
      ∀ l ∈ legs, ¬ Swept 100 20 56 (if l.up then 0 else 0 + Real.pi) l.start l.stop z := by
  have hb := cmasi_corners ⟨0, 0⟩ 100 1000 90
  have hlo : loOf .cmasi (.rectangle ⟨0, 0⟩ 100 1000 90) 0 = -50 := by
    rw [loOf, hb, box_lo (by norm_num)]; norm_num
  have hhi : hiOf .cmasi (.rectangle ⟨0, 0⟩ 100 1000 90) 0 = 50 := by
    rw [hiOf, hb, box_hi (by norm_num)]; norm_num
  obtain ⟨legs, good, hp, -⟩ := C138_ends (k := .cmasi) (a := .rectangle ⟨0, 0⟩ 100 1000 90)
    (h := 0) (s := 0.9 * 112) (lead := 100) (trail := 20) (by norm_num) (.inr (by simp [boundary]))
  have hc : course 90 = Real.pi / 2 := by simp only [course]; ring
  refine ⟨legs, good, ⟨0, 400⟩, hp, ?_, ?_, ?_⟩
  · rw [hc]; simp [along]; norm_num
  · rw [hc]; simp [across]; norm_num
  · have := unseen (half := 56) (z := ⟨0, 400⟩) (by norm_num) hp (fun i hg => by
      rw [axis_cmasi_zero, across_zero]
      have hw := lane_within (k := .cmasi) (by norm_num) hg
      have hw1 : loOf .cmasi (.rectangle ⟨0, 0⟩ 100 1000 90) 0 <
        laneAt .cmasi (.rectangle ⟨0, 0⟩ 100 1000 90) 0 (0.9 * 112) i := hw.1
      have hw2 : laneAt .cmasi (.rectangle ⟨0, 0⟩ 100 1000 90) 0 (0.9 * 112) i <
        hiOf .cmasi (.rectangle ⟨0, 0⟩ 100 1000 90) 0 := hw.2
      rw [hlo] at hw1
      rw [hhi] at hw2
      simp only [centre, sub_zero]
      rw [abs_of_pos (by linarith)]; linarith)
    rw [axis_cmasi_zero] at this
    exact this

/-! ### A lane through a corner -/

/-- A square standing on a corner. -/
def diamond : List Pos := [⟨100, 0⟩, ⟨0, 100⟩, ⟨-100, 0⟩, ⟨0, -100⟩]

theorem dblMin_lt : dblMin < 100 := by
  unfold dblMin
  have h1 : (1 : ℝ) ≤ 2 ^ 1022 := one_le_pow₀ (by norm_num)
  exact lt_of_le_of_lt ((div_le_one (by positivity)).2 h1) (by norm_num)

theorem diamond_centre : polygonCentre diamond = ⟨100, 100⟩ := by
  have h := dblMin_lt
  have hd : (0:ℝ) < dblMin := by unfold dblMin; positivity
  have h2 : ¬ dblMin < -100 := by linarith
  have h3 : ¬ dblMin < 0 := by linarith
  simp only [polygonCentre, diamond, lowest, List.foldl_cons, List.foldl_nil, Pos.mk.injEq]
  constructor
  · rw [if_pos h]; norm_num
  · rw [if_neg h3, if_pos h]; norm_num

theorem diamond_corners : cornersOf .cmasi (.polygon diamond) 0 =
    [⟨0, -100⟩, ⟨-100, 0⟩, ⟨-200, -100⟩, ⟨-100, -200⟩] := by
  simp only [cornersOf, axis_cmasi_zero, centre, diamond_centre, boundary]
  simp only [diamond, List.map_cons, List.map_nil, turnIn_zero]
  norm_num

/-- A leg through two points less than a metre apart sees little. -/
theorem short_leg {p q z : Pos} {lead trail half y : ℝ} {c : Pos} (hlt : trail ≤ lead)
    (hp : |p.n - y| ≤ 1 / 2) (hq : |q.n - y| ≤ 1 / 2)
    (hz : (turnIn c 0 z).n < y - 1 / 2 - (lead - trail)) :
    ¬ Swept lead trail half (if true then 0 else 0 + Real.pi)
      (turnOut c 0 (leg p q true lead trail).start) (turnOut c 0 (leg p q true lead trail).stop) z := by
  rintro ⟨t, t0, t1, h, -, -⟩
  rw [between_turn] at h
  simp only [if_true, along_turn] at h
  obtain ⟨p1, p2⟩ := abs_le.1 hp
  obtain ⟨q1, q2⟩ := abs_le.1 hq
  have hs : y - 1 / 2 - lead ≤ (leg p q true lead trail).start.n := by
    simp only [leg, if_true]; split <;> linarith
  have hst : (leg p q true lead trail).start.n ≤ (leg p q true lead trail).stop.n := by
    simp only [leg, if_true]
    by_cases h : p.n < q.n
    · rw [if_pos h, if_pos h]; linarith
    · rw [if_neg h, if_neg h]; linarith
  have hb : (leg p q true lead trail).start.n ≤
      (between (leg p q true lead trail).start (leg p q true lead trail).stop t).n := by
    simp only [between]
    have := mul_nonneg t0 (sub_nonneg.2 hst)
    linarith
  linarith

/-- **C140**, the full claim is false when a lane passes through the first corner of the
boundary: the points where the lane meets the two sides there are taken for the two
ends, and the leg has no length.  A square standing on a corner, with one lane down
its middle: the opposite corner, right beneath the lane, stays unseen. -/
theorem C140_corner_violated :
    ∃ (legs : List Leg) (z : Pos),
      plan .cmasi (.polygon diamond) 0 (0.9 * 168) 100 20 = .ok (legs, true) ∧ legs.length = 1 ∧
      Inside 1 diamond z ∧
      (∀ l ∈ legs, ¬ Swept 100 20 84 (if l.up then 0 else 0 + Real.pi) l.start l.stop z) := by
  have hb := diamond_corners
  have hlo : loOf .cmasi (.polygon diamond) 0 = -200 := by
    rw [loOf, hb]; simp only [lowest, List.foldl_cons, List.foldl_nil]; norm_num
  have hhi : hiOf .cmasi (.polygon diamond) 0 = 0 := by
    rw [hiOf, hb]; simp only [highest, List.foldl_cons, List.foldl_nil]; norm_num
  have hnlo : lowest (·.n) (cornersOf .cmasi (.polygon diamond) 0) = -200 := by
    rw [hb]; simp only [lowest, List.foldl_cons, List.foldl_nil]; norm_num
  have hnhi : highest (·.n) (cornersOf .cmasi (.polygon diamond) 0) = 0 := by
    rw [hb]; simp only [highest, List.foldl_cons, List.foldl_nil]; norm_num
  have hfirst : firstLane .cmasi (-200) 0 (0.9 * 168) = -100 := by
    simp only [firstLane]; rw [if_pos (by norm_num)]; norm_num
  obtain ⟨legs, good, hp, -⟩ := C138_ends (k := .cmasi) (a := .polygon diamond)
    (h := 0) (s := 0.9 * 168) (lead := 100) (trail := 20) (by norm_num)
    (.inr (by simp [boundary, diamond]))
  rcases plan_inv hp with ⟨h0, -, -⟩ | ⟨-, ls, hsc, rfl⟩
  · cases h0
  obtain ⟨h1, h2, h3⟩ := scan_spec hsc
  rw [hlo, hhi, hfirst] at h1 h2 h3
  rw [hnlo, hnhi] at h1 h3
  simp only [laneOver] at h1 h2 h3
  -- the four points of the lane
  have cs : ∀ u v : Pos, (-100000 - 200 < u.n ∧ u.n < 100000) → (-100000 - 200 < v.n ∧ v.n < 100000) →
      ((u.e ≤ -100 ∧ -100 ≤ v.e) ∨ (v.e ≤ -100 ∧ -100 ≤ u.e)) → u.e ≠ v.e →
      ∃ p, crossing u v ⟨-200 - 100000, -100⟩ ⟨0 + 100000, -100⟩ = some p ∧ Off (-100) p.e ∧
        Off (cut u v (-100)) p.n := by
    intro u v hu hv h hne
    exact crossing_some rfl rfl (by simp only; constructor <;> linarith [hu.1, hu.2])
      (by simp only; constructor <;> linarith [hv.1, hv.2]) h hne
  obtain ⟨p0, e0, -, o0⟩ := cs ⟨0, -100⟩ ⟨-100, 0⟩ (by norm_num) (by norm_num) (by norm_num) (by norm_num)
  obtain ⟨p1, e1, -, -⟩ := cs ⟨-100, 0⟩ ⟨-200, -100⟩ (by norm_num) (by norm_num) (by norm_num) (by norm_num)
  obtain ⟨p2, e2, -, -⟩ := cs ⟨-200, -100⟩ ⟨-100, -200⟩ (by norm_num) (by norm_num) (by norm_num) (by norm_num)
  obtain ⟨p3, e3, -, o3⟩ := cs ⟨-100, -200⟩ ⟨0, -100⟩ (by norm_num) (by norm_num) (by norm_num) (by norm_num)
  have hh : hits (cornersOf .cmasi (.polygon diamond) 0) ⟨-200 - 100000, -100⟩ ⟨0 + 100000, -100⟩ =
      [p0, p1, p2, p3] := by
    rw [hb]
    simp only [hits, ring, path, List.cons_append, List.nil_append, List.filterMap_cons,
      List.filterMap_nil, e0, e1, e2, e3]
  have c0 : cut ⟨0, -100⟩ ⟨-100, 0⟩ (-100) = 0 := by simp only [cut]; norm_num
  have c3 : cut ⟨-100, -200⟩ ⟨0, -100⟩ (-100) = 0 := by simp only [cut]; norm_num
  rw [c0] at o0
  rw [c3] at o3
  have hlen : ls.length = 1 := by
    match ls with
    | [] =>
        exfalso
        cases good with
        | true => exact h2 rfl (.inl ⟨by norm_num, by norm_num⟩)
        | false =>
            have := (h3 rfl).2
            simp only [List.length_nil, Nat.cast_zero, zero_mul, add_zero] at this
            rw [hh] at this
            simp at this
    | [_] => rfl
    | _ :: _ :: _ =>
        exfalso
        rcases (h1 1 (by simp)).1 with ⟨-, h⟩ | ⟨h, -⟩
        · norm_num at h
        · norm_num at h
  have hgood : good = true := by
    cases good with
    | true => rfl
    | false =>
        exfalso
        have := (h3 rfl).1
        rw [hlen] at this
        rcases this with ⟨-, h⟩ | ⟨h, -⟩
        · norm_num at h
        · norm_num at h
  subst hgood
  refine ⟨ls.map (place .cmasi (.polygon diamond) 0), ⟨-100, 0⟩, hp, by simpa using hlen, ?_, ?_⟩
  · intro i hi
    have hi' : i < 4 := hi
    interval_cases i <;> simp only [diamond, List.length_cons, List.length_nil] <;>
      norm_num
  · intro l hl
    obtain ⟨l', hl', rfl⟩ := List.mem_map.1 hl
    obtain ⟨i, hi, rfl⟩ := List.getElem_of_mem hl'
    have hi0 : i = 0 := by omega
    subst hi0
    obtain ⟨-, p, q, ps, hh', he⟩ := h1 0 (by omega)
    simp only [Nat.cast_zero, zero_mul, add_zero] at hh'
    rw [hh] at hh'
    simp only [List.cons.injEq] at hh'
    obtain ⟨rfl, rfl, rfl⟩ := hh'
    have hup : upAt (firstUp .cmasi) 0 = true := rfl
    rw [hup] at he
    have := short_leg (p := p0) (q := p3) (z := ⟨-100, 0⟩) (lead := 100) (trail := 20) (half := 84)
      (y := 0) (c := centre (.polygon diamond)) (by norm_num) (le_of_eq o0.1) (le_of_eq o3.1)
      (by simp only [turnIn_zero, centre, diamond_centre]; norm_num)
    simp only [axis_cmasi_zero, he]
    exact this

end Verif.Search
