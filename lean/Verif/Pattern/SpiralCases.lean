import Verif.Pattern.Spiral

/-!
# Spiral searches: the option and its cost, what is not seen (C142), and examples
-/

namespace Verif.Pattern

open Verif.Search

/-- The length of the way through the positions. -/
noncomputable def flown (ws : List Pos) : ℝ :=
  (List.zipWith (fun p q : Pos => √((q.n - p.n) ^ 2 + (q.e - p.e) ^ 2)) ws ws.tail).sum

theorem summed_flown : ∀ (v : Pos) (vs : List Pos), summed v vs = flown (v :: vs)
  | _, [] => by simp [summed, flown]
  | v, w :: vs => by
      rw [summed, summed_flown w vs]
      simp [flown, apart]

theorem lastTwo_spec : ∀ (p q : Pos) (l : List Pos), (lastTwo p q l).2 = (q :: l).getLast (by simp) ∧
    ∀ a b rest, p :: q :: l = rest ++ [a, b] → lastTwo p q l = (a, b)
  | p, q, [] => by
      refine ⟨rfl, ?_⟩
      intro a b rest h
      match rest, h with
      | [], h => simp at h; simp [lastTwo, h.1, h.2]
      | [_], h => simp at h
      | _ :: _ :: r, h => simp at h
  | p, q, x :: xs => by
      obtain ⟨h1, h2⟩ := lastTwo_spec q x xs
      refine ⟨by rw [lastTwo, h1]; simp, ?_⟩
      intro a b rest h
      match rest, h with
      | [], h => simp at h
      | y :: r, h =>
          rw [List.cons_append, List.cons.injEq] at h
          rw [lastTwo]
          exact h2 a b r h.2

/-- **C142.**  Of a disc, the option starts at the first waypoint, heading north, and ends at the last, with the course of
the last leg; its cost is that of the way from the origin of the coordinates to the first waypoint and on along the
spiral. -/
theorem C142_option {rounds : ℕ} {c : Pos} {E s centre speed : ℝ} {o : Outcome SpiralPlan} (hs : 0 < s)
    (hb : 0 ≤ E + 0.55 * s) (h : spiralPlan rounds c E s centre speed = some o) :
    ∃ p turns, o = .ok p ∧ spiral rounds c E s centre = some turns ∧
      p.waypoints = turns.map (·.vehicle) ∧ p.look = turns.map (·.road) ∧
      p.waypoints.head? = some p.start ∧ p.startHeading = 0 ∧ p.waypoints.getLast? = some p.stop ∧
      (∀ a b rest, p.waypoints = rest ++ [a, b] → ∃ d, 0 ≤ d ∧ b.n - a.n = d * Real.cos (p.stopHeading * (Real.pi / 180)) ∧
        b.e - a.e = d * Real.sin (p.stopHeading * (Real.pi / 180))) ∧
      p.cost = if 0 < speed then ⌊(√(p.start.n ^ 2 + p.start.e ^ 2) + flown p.waypoints) / speed * 1000⌋ else 0 := by
  rw [spiralPlan, Option.map_eq_some_iff] at h
  obtain ⟨turns, ht, rfl⟩ := h
  obtain ⟨ls, rfl, -, -⟩ := spiral_inv hs hb ht
  set v := polar c (vehicleRadius centre 50) 0 with hv
  set vs := ls.map (·.vehicle) with hvs
  refine ⟨_, _, rfl, ht, rfl, rfl, rfl, rfl, ?_, ?_, ?_⟩
  · simp only [List.map_cons]
    rw [(lastTwo_spec ⟨0, 0⟩ v vs).1, List.getLast?_eq_some_getLast (by simp)]
  · intro a b rest hab
    simp only at hab
    have h2 := (lastTwo_spec ⟨0, 0⟩ v vs).2 a b (⟨0, 0⟩ :: rest) (by rw [hab]; rfl)
    simp only [List.map_cons]
    rw [h2]
    refine ⟨‖(⟨b.n - a.n, b.e - a.e⟩ : ℂ)‖, norm_nonneg _, ?_, ?_⟩
    · have := Complex.norm_mul_cos_arg ⟨b.n - a.n, b.e - a.e⟩
      simp only
      rw [show Complex.arg ⟨b.n - a.n, b.e - a.e⟩ * (180 / Real.pi) * (Real.pi / 180) = Complex.arg ⟨b.n - a.n, b.e - a.e⟩ by
        have := Real.pi_ne_zero; field_simp, this]
    · have := Complex.norm_mul_sin_arg ⟨b.n - a.n, b.e - a.e⟩
      simp only
      rw [show Complex.arg ⟨b.n - a.n, b.e - a.e⟩ * (180 / Real.pi) * (Real.pi / 180) = Complex.arg ⟨b.n - a.n, b.e - a.e⟩ by
        have := Real.pi_ne_zero; field_simp, this]
  · simp only [List.map_cons]
    have e : summed ⟨0, 0⟩ (v :: vs) = √(v.n ^ 2 + v.e ^ 2) + flown (v :: vs) := by
      rw [summed, summed_flown]; simp [apart]
    rw [e]
    by_cases hsp : 0 < speed
    · rw [if_pos hsp, if_pos hsp]
    · rw [if_neg hsp, if_neg hsp]; simp

/-- **C142**, the full claim is false: the cost is not the time the spiral takes.  A spiral around the origin of the
coordinates, at 20 m/s and no nearer to it than 200 m, is charged ten seconds more than it takes, whatever the disc. -/
theorem C142_cost_violated {rounds : ℕ} {E s : ℝ} {p : SpiralPlan} (hs : 0 < s) (hb : 0 ≤ E + 0.55 * s)
    (h : spiralPlan rounds ⟨0, 0⟩ E s 200 20 = some (.ok p)) : flown p.waypoints / 20 * 1000 + 9999 < p.cost := by
  obtain ⟨q, turns, hq, ht, hw, -, hh, -, -, -, hc⟩ := C142_option hs hb h
  obtain rfl := Outcome.ok.inj hq
  obtain ⟨θ, r, t0, r0, -, -, hp, -, hl, -⟩ := C142_points hs hb ht
  have h0 := (hp 0 hl).2
  rw [r0, t0] at h0
  have hst : p.start = ⟨0, 200⟩ := by
    rw [hw, List.head?_eq_getElem?, List.getElem?_eq_getElem (by simpa using hl)] at hh
    have := Option.some.inj hh
    rw [List.getElem_map, h0] at this
    rw [← this]; norm_num
  rw [hc, if_pos (by norm_num), hst]
  have e : √((0 : ℝ) ^ 2 + 200 ^ 2) = 200 := by
    rw [show (0 : ℝ) ^ 2 + 200 ^ 2 = 200 ^ 2 by norm_num, Real.sqrt_sq (by norm_num)]
  simp only
  rw [e]
  have := Int.lt_floor_add_one ((200 + flown p.waypoints) / 20 * 1000)
  linarith

/-- **C142**, the full claim is false: for a radius so negative that there are no waypoints, the last of them is read
nevertheless. -/
theorem C142_negative_violated (rounds : ℕ) (c : Pos) {E s : ℝ} (centre speed : ℝ) (h : E + 0.55 * s < 0) :
    spiralPlan (rounds + 1) c E s centre speed = some .ub := by
  rw [spiralPlan, spiral, spiralFrom_stop rounds (by linarith)]
  rfl

example : spiralPlan 1 ⟨0, 0⟩ (-100) 90 200 20 = some .ub := C142_negative_violated 0 _ _ _ (by norm_num)

/-- **C142**, the full claim is false: where the footprint is wide, the sensor looks all around the centre but past points
near it.  A disc of 3 km, a footprint 1111 m wide: a point 680 m from the centre is farther from all points to look at than
half of the footprint. -/
theorem C142_hole_violated :
    ∃ (rounds : ℕ) (turns : List Turn) (z : Pos), spiral rounds ⟨0, 0⟩ 3000 1000 200 = some turns ∧ turns ≠ [] ∧
      (z.n - 0) ^ 2 + (z.e - 0) ^ 2 ≤ 3000 ^ 2 ∧
      ∀ t ∈ turns, 1000 / 0.9 / 2 < √((t.road.n - z.n) ^ 2 + (t.road.e - z.e) ^ 2) := by
  have hpi := Real.pi_pos
  have hp := Real.pi_gt_d2
  have hp' := Real.pi_lt_d2
  obtain ⟨rounds, turns, h⟩ := C142_ends (c := ⟨0, 0⟩) (E := 3000) (s := 1000) (centre := 200) (by norm_num)
  obtain ⟨ls, rfl, h1, -⟩ := spiral_inv (by norm_num) (by norm_num) h
  refine ⟨rounds, _, ⟨0, 680⟩, h, by simp, by norm_num, ?_⟩
  intro t ht
  apply Real.lt_sqrt_of_sq_lt
  rcases List.mem_cons.1 ht with rfl | ht
  · simp [polar]; norm_num
  obtain ⟨i, hi, rfl⟩ := List.getElem_of_mem ht
  rw [(h1 i hi).1]
  have hα : 1 ≤ angles 1000 1 i := by
    clear ht
    cases i with
    | zero => exact le_refl _
    | succ j =>
        have : ∀ j, 1 ≤ angles 1000 1 j := by
          intro j
          induction j with
          | zero => exact le_refl _
          | succ j ih =>
              have h2 := arm_pos (s := 1000) (by norm_num) (show 0 ≤ angles 1000 1 j by linarith)
              have : 0 ≤ 50 / arm 1000 (angles 1000 1 j) := div_nonneg (by norm_num) (by linarith)
              rw [angles]; linarith
        exact this _
  set α := angles 1000 1 i
  set R := arm 1000 α with hR
  have hRe : R = 450 + 450 * (α / Real.pi) := by rw [hR]; unfold arm; ring
  have R0 : 0 ≤ R := by
    have : 0 ≤ α / Real.pi := div_nonneg (by linarith) hpi.le
    linarith
  have hsc := Real.sin_sq_add_cos_sq α
  have hd : (R * Real.sin α + 0 - 0) ^ 2 + (R * Real.cos α + 0 - 680) ^ 2 = R * (R - 1360 * Real.cos α) + 462400 := by
    linear_combination R ^ 2 * hsc
  have hd' : ((polar ⟨0, 0⟩ R α).n - 0) ^ 2 + ((polar ⟨0, 0⟩ R α).e - 680) ^ 2 = R * (R - 1360 * Real.cos α) + 462400 := by
    rw [← hd]; rfl
  have hnum : (1000 / 0.9 / 2 : ℝ) ^ 2 < 308700 := by norm_num
  refine lt_of_lt_of_le hnum ?_
  simp only
  rw [hd']
  rcases le_or_gt α (2 * Real.pi - 1) with ha | ha
  · have hcos : Real.cos α ≤ 5 / 9 := by
      refine le_trans ?_ Real.cos_one_le
      rcases le_or_gt α Real.pi with hb | hb
      · exact Real.cos_le_cos_of_nonneg_of_le_pi (by norm_num) hb hα
      · rw [← Real.cos_two_pi_sub α]
        exact Real.cos_le_cos_of_nonneg_of_le_pi (by norm_num) (by linarith) (by linarith)
    have := mul_le_mul_of_nonneg_left hcos R0
    nlinarith [sq_nonneg (R - 680 * 5 / 9)]
  · have hq : 5.28 / 3.15 ≤ α / Real.pi := by
      rw [div_le_div_iff₀ (by norm_num) hpi]
      nlinarith
    have hR1 : 1204 ≤ R := by rw [hRe]; linarith
    rcases le_or_gt α 5.6 with hb | hb
    · have hcos : Real.cos α ≤ 0.85 := by
        rw [← Real.cos_two_pi_sub α]
        set x := 2 * Real.pi - α with hx
        have x1 : x ≤ 1 := by linarith
        have x0 : 0.68 ≤ x := by linarith
        have h2 := Real.sin_gt_sub_cube (x := x) (by linarith)
        have h3 : x ^ 3 ≤ x := by nlinarith [sq_nonneg x]
        have h4 : 0.56 ≤ Real.sin x := by linarith
        have h5 := Real.sin_sq_add_cos_sq x
        apply le_of_sq_le_sq _ (by norm_num)
        nlinarith
      have : 0 ≤ R * (R - 1360 * Real.cos α) := mul_nonneg R0 (by linarith)
      linarith
    · have hq2 : 5.6 / 3.15 ≤ α / Real.pi := by
        rw [div_le_div_iff₀ (by norm_num) hpi]
        nlinarith
      have hR2 : 1250 - 1e-9 ≤ R := by rw [hRe]; linarith
      have := mul_le_mul_of_nonneg_left (Real.cos_le_one α) R0
      nlinarith

/-- A disc of 500 m with lanes 90 m apart is searched, its rim included. -/
example : ∃ rounds p turns, spiralPlan rounds ⟨3, 4⟩ 500 90 200 20 = some (.ok p) ∧
    spiral rounds ⟨3, 4⟩ 500 90 200 = some turns ∧ p.startHeading = 0 ∧
    ∃ t ∈ turns, √((t.road.n - 303) ^ 2 + (t.road.e - 404) ^ 2) ≤ 0.45 * 90 + 66 := by
  obtain ⟨rounds, turns, h⟩ := C142_ends (c := ⟨3, 4⟩) (E := 500) (s := 90) (centre := 200) (by norm_num)
  obtain ⟨o, ho⟩ : ∃ o, spiralPlan rounds ⟨3, 4⟩ 500 90 200 20 = some o := by rw [spiralPlan, h]; exact ⟨_, rfl⟩
  obtain ⟨p, turns', rfl, h', -, -, -, hh, -⟩ := C142_option (by norm_num) (by norm_num) ho
  exact ⟨rounds, p, turns, ho, h, hh, C142_near_partial (z := ⟨303, 404⟩) (by norm_num) (by norm_num) h (by norm_num) (by norm_num)⟩

end Verif.Pattern
