import Verif.Stare.Look
import Verif.Stare.Watch

/-!
# Sensor steering: where it fails, and cases that meet the hypotheses
-/

namespace Verif.Stare

open Complex
open Verif.Escort (along)
open Verif.Pattern (Turn)
open Verif.Search (Pos)

/-! ### C161 -/

/-- **C161 is violated**, for any two waypoints in a row at the same place of a way that has some length: on the way to the second
of them 0 is divided by 0 and the quotient cast to an integer. -/
theorem C161_coinciding_violated {wps : List (ℤ × ℂ)} (hids : wps.Pairwise fun x y => x.1 < y.1) (road : List Spot)
    {k : ℕ} (hk : k + 1 < wps.length) (hab : wps[k].2 = wps[k + 1].2) (hW : 0 < len (wps.map (·.2))) (pos : ℂ) :
    (Steering.init wps road).find (wps[k + 1].1) pos = .ub := by
  have hfind := find_get hids road pos (k + 1) hk
  rw [dif_neg (by omega)] at hfind
  simp only [Nat.add_sub_cancel] at hfind
  rw [hfind]
  have htot : (Steering.init wps road).length = len (wps.map (·.2)) := total_eq _
  unfold progress
  simp only [hab, sub_self, Complex.zero_im, Complex.zero_re, mul_zero, add_zero, if_true, htot]
  rw [if_pos hW]
  rfl

theorem roadKey_zero {l : List Spot} (h : len (l.map (·.at_)) = 0) (c : ℝ) : roadKey (total (l.map (·.at_))) c = 0 := by
  rw [total_eq, h, roadKey, if_neg (lt_irrefl _)]

/-- **C161 is violated**, for any road without length (one point, or a point repeated): once a thousandth of the way is flown the
sensor is pointed at latitude 0 and longitude 0. -/
theorem C161_point_road_violated {wps : List (ℤ × ℂ)} (hids : wps.Pairwise fun x y => x.1 < y.1) {road : List Spot}
    (hL : len (road.map (·.at_)) = 0) {k : ℕ} (hk : k + 1 < wps.length) (hab : wps[k].2 ≠ wps[k + 1].2) {pos q : ℂ}
    (hq : q ∈ segment ℝ wps[k].2 wps[k + 1].2) (hmin : ∀ r ∈ segment ℝ wps[k].2 wps[k + 1].2, ‖pos - q‖ ≤ ‖pos - r‖)
    (hfar : 1 / 1000 * len (wps.map (·.2)) ≤ len ((wps.map (·.2)).take (k + 1)) + ‖q - wps[k].2‖) :
    (Steering.init wps road).find (wps[k + 1].1) pos = .ok .nowhere := by
  obtain ⟨n, hn, hfind⟩ : ∃ n : ℤ, 1 ≤ n ∧ (Steering.init wps road).find (wps[k + 1].1) pos =
      .ok (lookAt (Steering.init [] road).road n) := by
    obtain ⟨hf0, hf1, hqa⟩ := clamp_closest hab hq hmin
    have hfind := find_get hids road pos (k + 1) hk
    rw [dif_neg (by omega)] at hfind
    simp only [Nat.add_sub_cancel] at hfind
    set f₀ := ((pos - wps[k].2).im * (wps[k + 1].2 - wps[k].2).im + (pos - wps[k].2).re * (wps[k + 1].2 - wps[k].2).re) /
      ((wps[k + 1].2 - wps[k].2).im * (wps[k + 1].2 - wps[k].2).im + (wps[k + 1].2 - wps[k].2).re * (wps[k + 1].2 - wps[k].2).re)
      with hf₀
    set f := if f₀ < 0 then 0 else if 1 < f₀ then 1 else f₀ with hf
    have hpos : 0 < ‖wps[k + 1].2 - wps[k].2‖ := norm_pos_iff.2 (sub_ne_zero.2 (Ne.symm hab))
    have hsucc : len ((wps.map (·.2)).take (k + 2)) = len ((wps.map (·.2)).take (k + 1)) + ‖wps[k + 1].2 - wps[k].2‖ := by
      have := len_take_succ (wps.map (·.2)) k (by simpa using hk)
      simpa using this
    have hW : 0 < len (wps.map (·.2)) := by
      have := len_take_le (wps.map (·.2)) (k + 2)
      have := len_nonneg ((wps.map (·.2)).take (k + 1))
      linarith
    have htot : (Steering.init wps road).length = len (wps.map (·.2)) := total_eq _
    have hsq : (wps[k + 1].2 - wps[k].2).im * (wps[k + 1].2 - wps[k].2).im +
        (wps[k + 1].2 - wps[k].2).re * (wps[k + 1].2 - wps[k].2).re ≠ 0 := by
      have := Verif.Escort.normSq_def (wps[k + 1].2 - wps[k].2)
      have h2 : 0 < ‖wps[k + 1].2 - wps[k].2‖ ^ 2 := by positivity
      intro h; nlinarith
    have e : f * (len ((wps.map (·.2)).take (k + 2)) - len ((wps.map (·.2)).take (k + 1))) + len ((wps.map (·.2)).take (k + 1)) =
        len ((wps.map (·.2)).take (k + 1)) + ‖q - wps[k].2‖ := by
      rw [hqa, hsucc]; ring
    set d := len ((wps.map (·.2)).take (k + 1)) + ‖q - wps[k].2‖ with hd
    refine ⟨⌊d / len (wps.map (·.2)) * 1000⌋, ?_, ?_⟩
    · rw [Int.le_floor]
      push_cast
      have : 1 / 1000 ≤ d / len (wps.map (·.2)) := by rw [le_div_iff₀ hW]; exact hfar
      linarith
    · rw [hfind]
      unfold progress
      simp only
      rw [if_neg hsq, htot, if_pos hW, ← hf₀, ← hf, e, toInt_nonneg, Outcome.bind_ok]
      have : 0 ≤ d := add_nonneg (len_nonneg _) (norm_nonneg _)
      positivity
  rw [hfind]
  congr 1
  unfold lookAt
  have : lowerBound n none (Steering.init [] road).road = none := by
    rw [lowerBound_none]
    intro x hx
    obtain ⟨i, hi, g, -⟩ := mem_build.1 hx
    rw [← g]
    simp only [List.getElem_map]
    rw [roadKey_zero hL]
    omega
  rw [this]

/-- Two legs, along a road of 300 m beside them. -/
def way : List (ℤ × ℂ) := [(1, 0), (2, 100), (3, 300)]

/-- Not in the code: two places beside a line, for the examples. -/
def beside : List Spot := [⟨⟨0, 50⟩, 0⟩, ⟨⟨300, 50⟩, 20⟩]

theorem way_sorted : way.Pairwise fun x y => x.1 < y.1 := by simp [way]

theorem beside_len : len (beside.map (·.at_)) = 300 := by
  have : (⟨300, 50⟩ : ℂ) - ⟨0, 50⟩ = ((300 : ℝ) : ℂ) := by apply Complex.ext <;> simp
  simp only [beside, List.map_cons, List.map_nil, len_cons, len_single, this]
  rw [Complex.norm_real]; norm_num

/-- C161_near: a vehicle at (200, 7) on the way to the third waypoint is closest to (200, 0). -/
theorem closest_200 (r : ℂ) (hr : r ∈ segment ℝ (100 : ℂ) (300 : ℂ)) : ‖(⟨200, 7⟩ : ℂ) - ⟨200, 0⟩‖ ≤ ‖(⟨200, 7⟩ : ℂ) - r‖ := by
  have him : r.im = 0 := by
    rw [segment_eq_image'] at hr
    obtain ⟨t, -, rfl⟩ := hr
    simp
  have h1 : ‖(⟨200, 7⟩ : ℂ) - ⟨200, 0⟩‖ = 7 := by
    have : (⟨200, 7⟩ : ℂ) - ⟨200, 0⟩ = ((7 : ℝ) : ℂ) * I := by apply Complex.ext <;> simp
    rw [this, norm_mul, Complex.norm_I, Complex.norm_real]; norm_num
  have h2 := Complex.abs_im_le_norm ((⟨200, 7⟩ : ℂ) - r)
  rw [Complex.sub_im, him] at h2
  rw [h1]
  norm_num at h2
  exact h2

theorem mem_200 : (⟨200, 0⟩ : ℂ) ∈ segment ℝ (100 : ℂ) (300 : ℂ) := by
  rw [segment_eq_image']
  exact ⟨1 / 2, by norm_num, by apply Complex.ext <;> norm_num⟩

example : ∃ z, ((Steering.init way beside).find 3 ⟨200, 7⟩ = .ok (.onto z) ∨
        ∃ alt, (Steering.init way beside).find 3 ⟨200, 7⟩ = .ok (.wholly ⟨z, alt⟩)) ∧
      ‖z - along (beside.map (·.at_)) ((len ((way.map (·.2)).take 2) + ‖(⟨200, 0⟩ : ℂ) - 100‖) / len (way.map (·.2)) *
          len (beside.map (·.at_)))‖ ≤ 2 / 1000 * len (beside.map (·.at_)) :=
  C161_near way_sorted (by rw [beside_len]; norm_num) (k := 1) (by simp [way]) (by simp [way]) (q := ⟨200, 0⟩)
    (by simpa [way] using mem_200) (by simpa [way] using closest_200)

example : ∃ z, ((Steering.init way beside).find 1 ⟨5, 7⟩ = .ok (.onto z) ∨
        ∃ alt, (Steering.init way beside).find 1 ⟨5, 7⟩ = .ok (.wholly ⟨z, alt⟩)) ∧
      ‖z - along (beside.map (·.at_)) 0‖ ≤ 2 / 1000 * len (beside.map (·.at_)) :=
  C161_first way_sorted (by rw [beside_len]; norm_num) (by simp [way]) _

example : (Steering.init way beside).find 7 ⟨5, 7⟩ = .ok .untouched := C161_unknown (by simp [way]) _

/-- C161_coinciding_violated: the same waypoint twice. -/
example : (Steering.init [(1, 0), (2, 0), (3, 300)] beside).find 2 ⟨5, 7⟩ = .ub :=
  C161_coinciding_violated (by simp) beside (k := 0) (by simp) (by simp) (by simp [len_cons]) _

/-- C161_point_road_violated: a road of one point. -/
example : (Steering.init way [⟨⟨0, 50⟩, 0⟩]).find 3 ⟨200, 7⟩ = .ok .nowhere :=
  C161_point_road_violated way_sorted (by simp) (k := 1) (by simp [way]) (by simp [way]) (q := ⟨200, 0⟩)
    (by simpa [way] using mem_200) (by simpa [way] using closest_200)
    (by
      have h1 : ‖(⟨200, 0⟩ : ℂ) - 100‖ = 100 := by
        have : (⟨200, 0⟩ : ℂ) - 100 = ((100 : ℝ) : ℂ) := by apply Complex.ext <;> norm_num
        rw [this, Complex.norm_real]; norm_num
      have h2 : ‖(300 : ℂ) - 100‖ = 200 := by
        have : (300 : ℂ) - 100 = ((200 : ℝ) : ℂ) := by apply Complex.ext <;> norm_num
        rw [this, Complex.norm_real]; norm_num
      simp [way, len_cons, h1, h2]; norm_num)

/-! ### C162 -/

/-- Two segments that share waypoint 3. -/
example (pos : ℂ) : findIn (segments [(way, beside), ([(3, 300), (4, 500)], beside)]) 3 pos = (Steering.init way beside).find 3 pos :=
  C162_segment (ids := [1, 3]) (by simp [way]) (by simp) (j := 0) (by simp) (by simp) (by simp)
    (by
      intro i hi h
      have : i = 1 := by simp at hi; omega
      subst this; simp)

example (pos : ℂ) : findIn (segments [(way, beside), ([(3, 300), (4, 500)], beside)]) 1 pos = (Steering.init way beside).find 1 pos :=
  C162_start (ids := [1, 3]) (by simp [way]) (by simp) (by simp) (by simp) (by simp)

/-- **C162 is violated** by segments that begin with the same waypoint: the first of them is lost. -/
theorem C162_same_start_violated (ws ws' : List (ℤ × ℂ)) (rs rs' : List Spot) (n : ℤ) (p p' : ℂ) (w : ℤ) (pos : ℂ) :
    findIn (segments [((n, p) :: ws, rs), ((n, p') :: ws', rs')]) w pos = (Steering.init ((n, p') :: ws') rs').find w pos := by
  have e : segments [((n, p) :: ws, rs), ((n, p') :: ws', rs')] = [(n, Steering.init ((n, p') :: ws') rs')] := by
    simp [segments, build, put]
  rw [e]
  unfold findIn lowerBound
  simp only [List.getLast?_singleton]
  by_cases h : w ≤ n
  · rw [if_pos h]
  · rw [if_neg h]; rfl

/-- Three turns, the centre as wide as the second. -/
def turns : List (ℝ × Turn) :=
  [(50, ⟨⟨0, 50⟩, ⟨0, 100⟩⟩), (100, ⟨⟨100, 0⟩, ⟨100, 0⟩⟩), (150, ⟨⟨0, -150⟩, ⟨0, -150⟩⟩)]

example (pos : ℂ) : findIn (segments (spiralSegs 100 1 true [] [] turns)) 2 pos =
    (Steering.init (wpsFrom 1 (turns.take 2)) (roadOf (turns.take 2))).find 2 pos :=
  C162_spiral_inner 100 (pre := turns.take 1) (x := (100, ⟨⟨100, 0⟩, ⟨100, 0⟩⟩)) (turns.drop 2) (by simp [turns]; norm_num) (by norm_num)
    (by norm_num) (by simp [turns]) pos

example (pos : ℂ) : findIn (segments (spiralSegs 100 1 true [] [] turns)) 3 pos =
    (Steering.init (wpsFrom 2 (turns.drop 1)) (roadOf (turns.drop 1))).find 3 pos :=
  C162_spiral_outer 100 (pre := turns.take 1) (x := (100, ⟨⟨100, 0⟩, ⟨100, 0⟩⟩)) (turns.drop 2) (by simp [turns]; norm_num) (by norm_num)
    (by simp [turns]) pos

example (pos : ℂ) : findIn (segments (spiralSegs 200 1 true [] [] turns)) 3 pos =
    (Steering.init (wpsFrom 1 turns) (roadOf turns)).find 3 pos :=
  C162_spiral_whole 200 (by simp [turns]; norm_num) (by simp [turns]) (by norm_num) pos

/-! ### C163 -/

/-- A task for any vehicle, with nothing known yet. -/
def fresh : Search :=
  { task := 12, eligible := [], bands := [1], configs := [], planned := [], steering := none, numbers := [], streamed := false }

/-- Vehicle 4 has a camera, two gimbals and another payload. -/
def fitted : List Payload := [.camera 1 1, .gimbal 2, .gimbal 3, .other 9]

example : firstGimbal (some fitted) = 2 := rfl

example (configs : Map (List Payload)) (h : configs.get 4 = some fitted) :
    pointActive configs 5 10 4 = [.stare 4 3 [] (some 5) 10] :=
  C163_point configs 5 10 4 h (pre := [.camera 1 1, .gimbal 2]) (post := [.other 9]) rfl (by simp)

/-- C163_command and C163_stream_once: a run with a configuration and a state. -/
example : ∃ t out, fresh.run [.config 4 fitted, .state 4 5 1] = .ok (t, out) := ⟨_, _, rfl⟩

example : fresh.run [.config 4 fitted, .state 4 5 1] = .ok ({ fresh with configs := [(4, fitted)] },
    [.angle 4 2 [12] 0 (-80), .record]) := rfl

/-- **C163 is violated**: of a vehicle only the first configuration counts.  Once one was heard, another one changes nothing that is
sent. -/
theorem C163_later_config_violated {s : Search} {v : ℤ} {ps : List Payload} (h : s.configs.get v = some ps) (qs : List Payload)
    (es : List Event) : s.run (.config v qs :: es) = s.run es := by
  have e : s.step (.config v qs) = .ok (s, []) := by rw [Search.step, if_neg (by rw [h]; simp)]
  rw [Search.run, e, Outcome.bind_ok]
  cases s.run es <;> rfl

example : ∃ s : Search, s.configs.get 4 = some fitted := ⟨{ fresh with configs := [(4, fitted)] }, rfl⟩

/-- **C163 is violated**: after the first stare of any vehicle no camera is chosen any more, for whatever vehicle, even when the
first vehicle had none or its configuration was not known. -/
theorem C163_stream_missed_violated {s t t' : Search} {v w : ℤ} {pos : ℂ} {out out' : List Sent} {m : List (ℤ × Steering)} {n : ℤ}
    (hs : s.steering = some m) (hn : s.numbers.get w = some n) (h0 : s.configs.get v = none)
    (h : s.step (.state v pos w) = .ok (t, out)) (es : List Event) (h' : t.run es = .ok (t', out')) :
    out.filterMap Sent.stream? = [] ∧ out'.filterMap Sent.stream? = [] := by
  have ha : s.active v pos w = .ok (t, out) := h
  obtain ⟨-, -, -, -, -, hc⟩ := active_ok ha
  rcases hc with ⟨rfl, rfl⟩ | ⟨rfl, rfl⟩ | ⟨ht, m', n', r, hm, hn', hr, rfl⟩
  · exfalso
    unfold Search.active at ha
    rw [hs] at ha
    simp only at ha
    rw [hn] at ha
    simp only at ha
    rw [Outcome.bind_eq_ok] at ha
    obtain ⟨r, -, h2⟩ := ha
    simp at h2
  · exfalso
    unfold Search.active at ha
    rw [hs] at ha
    simp only at ha
    rw [hn] at ha
    simp only at ha
    rw [Outcome.bind_eq_ok] at ha
    obtain ⟨r, -, h2⟩ := ha
    have h3 := congrArg (fun o => match o with | Outcome.ok (p : Search × List Sent) => p.2 | _ => []) h2
    simp [streamAction, h0] at h3
    split at h3
    · simp at h3
    · split at h3 <;> simp at h3
  · refine ⟨?_, (C163_stream_once h').2 ht⟩
    rw [List.filterMap_append]
    unfold streamAction
    rw [h0]
    split
    · rfl
    · split <;> rfl

/-- **C163 is violated**: an option laid out again keeps the steering of the first time, whatever the new way is. -/
theorem C163_replanned_violated {s t : Search} {out : List Sent} {o : ℤ} {segs : List (ℤ × Steering)} (new : List (ℤ × Steering))
    (numbers : Map ℤ) (hs : s.planned.get o = some segs) (h : s.run [.planned o new, .implemented o numbers] = .ok (t, out)) :
    t.steering = some segs :=
  (C163_first_plan (es := [.planned o new]) numbers hs h).1

/-- **C163 is violated**: an option that is not a spiral, implemented after one that is, is flown with the steering of that one. -/
theorem C163_left_over_violated {s t : Search} {out : List Sent} {o : ℤ} {m : List (ℤ × Steering)} (numbers : Map ℤ)
    (hs : s.planned.get o = none) (hm : s.steering = some m) (h : s.run [.implemented o numbers] = .ok (t, out)) :
    t.steering = some m := by
  simp only [Search.run, Search.step, Outcome.bind_ok, Outcome.ok.injEq, Prod.mk.injEq] at h
  obtain ⟨rfl, -⟩ := h
  simp [hs, hm]

/-- **C163 is violated**: a number that no waypoint of the steering has is still sent a stare, at latitude 0 and longitude 0. -/
theorem C163_nowhere_violated {s : Search} {v w n : ℤ} {wps : List (ℤ × ℂ)} {road : List Spot} {x : ℤ × ℂ} (pos : ℂ)
    (hw : ∀ y ∈ x :: wps, y.1 ≠ n) (hs : s.steering = some (segments [(x :: wps, road)])) (hn : s.numbers.get w = some n) :
    ∃ t out, s.step (.state v pos w) = .ok (t, out) ∧
      .stare v (firstGimbal (s.configs.get v)) [s.task] none 0 ∈ out := by
  have e : findIn (segments [(x :: wps, road)]) n pos = .ok .untouched := by
    have : findIn (segments [(x :: wps, road)]) n pos = (Steering.init (x :: wps) road).find n pos := by
      have e : segments [(x :: wps, road)] = [(x.1, Steering.init (x :: wps) road)] := by simp [segments, build, put]
      rw [e]
      unfold findIn lowerBound
      simp only [List.getLast?_singleton]
      by_cases h : n ≤ x.1
      · rw [if_pos h]
      · rw [if_neg h]; rfl
    rw [this, C161_unknown hw]
  refine ⟨{ s with streamed := true }, streamAction s v ++ [.stare v (firstGimbal (s.configs.get v)) [s.task] none 0, .record], ?_, by simp⟩
  change s.active v pos w = _
  unfold Search.active
  rw [hs]
  simp only
  rw [hn]
  simp only
  rw [e, Outcome.bind_ok]
  rfl

/-- A spiral search that was planned and implemented, waypoint 11 of the mission being 1 of the option. -/
noncomputable def spiralling : Search :=
  { fresh with
    planned := [(1, segments (spiralSegs 100 1 true [] [] turns))]
    steering := some (segments (spiralSegs 100 1 true [] [] turns))
    numbers := [(11, 1), (12, 2), (13, 3), (14, 9)] }

theorem toC_turns : toC (turns[0]'(by simp [turns])).2.vehicle = ⟨100, 0⟩ ∧ toC (turns[1]'(by simp [turns])).2.vehicle = ⟨0, 100⟩ := by
  simp [turns, toC]

/-- C163_look: at the first waypoint, on the way to the second. -/
example : ∃ t' out z alt, spiralling.step (.state 4 ⟨100, 0⟩ 12) = .ok (t', out) ∧ .stare 4 0 [12] (some z) alt ∈ out := by
  obtain ⟨t', out, z, alt, h0, h1, -⟩ := C163_look (t := spiralling) (v := 4) (w := 12) (pos := ⟨100, 0⟩) (q := ⟨100, 0⟩)
    (centre := 100) (pre := turns.take 1) (x := (100, ⟨⟨100, 0⟩, ⟨100, 0⟩⟩)) (post := turns.drop 2) (by simp [turns]; norm_num)
    (by norm_num) rfl (us := turns.take 2) (n := 1) (Or.inl ⟨rfl, rfl⟩) (k := 0) (by simp [turns]) rfl
    (by
      simp [turns, len_cons, toC, sub_eq_zero])
    (by intro h; have := congrArg Complex.re h; simp [turns, toC] at this)
    (by simpa [turns, toC] using left_mem_segment ℝ (⟨100, 0⟩ : ℂ) ⟨0, 100⟩)
    (by intro r _; simp)
  exact ⟨t', out, z, alt, h0, h1⟩

example : spiralling.planned.get 1 = some (segments (spiralSegs 100 1 true [] [] turns)) := rfl

/-- C163_stream_missed_violated: nothing is known of vehicle 4 yet. -/
example : spiralling.steering.isSome = true ∧ spiralling.numbers.get 12 = some 2 ∧ spiralling.configs.get 4 = none := ⟨rfl, rfl, rfl⟩

example : spiralling.planned.get 2 = none ∧ spiralling.steering.isSome = true := ⟨rfl, rfl⟩

example (pos : ℂ) : ∃ t out, ({ fresh with steering := some (segments [(way, beside)]), numbers := [(14, 9)] } : Search).step
    (.state 4 pos 14) = .ok (t, out) ∧ .stare 4 (firstGimbal none) [12] none 0 ∈ out :=
  C163_nowhere_violated (x := (1, 0)) (wps := [(2, 100), (3, 300)]) (road := beside) (n := 9) pos (by simp) rfl rfl

/-! ### C164 -/

/-- Entity 7 is to be watched. -/
def watching : Watch := { task := 12, watched := 7, number := 1, eligible := [4, 5], configs := [], last := none }

/-- Vehicle 4 with two gimbals; entity 7 twice. -/
noncomputable def seen : List Happening :=
  [.config 4 ⟨.air, 20, fitted⟩, .state ⟨7, ⟨1, 2, 0, 0⟩, 90, 5⟩ false, .config 4 ⟨.air, 30, []⟩, .state ⟨7, ⟨1, 3, 0, 0⟩, 80, 5⟩ false]

example : ((watching.after seen).step (.state ⟨4, ⟨9, 9, 700, 1⟩, 0, 21⟩ true)).2 =
    [.command 4 [.loiter ⟨1, 3, 700, 1⟩ 20 300 false [12], .stare 2 ⟨1, 3, 0, 0⟩ [12], .stare 3 ⟨1, 3, 0, 0⟩ [12]]] := rfl

example : watching.eligible = [] ∨ (4 : ℤ) ∈ watching.eligible := by simp [watching]

/-- C164_number_violated: one vehicle is wanted, both are composed. -/
example : ∃ cs, ((watching.after seen).step (.asked [[4, 5]])).2 = [.options cs ".(p4 p5 )"] := ⟨_, rfl⟩

example : ((watching.after []).step (.asked [[4, 5]])).2 = [] := rfl

end Verif.Stare
