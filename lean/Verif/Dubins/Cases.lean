import Verif.Dubins.Long

/-!
# Routes that respect turn radii: a theorem on paths without corners, and cases
-/

namespace Verif.Dubins

open Complex

/-- **C171.**  A path without corners: the two places if neither heading is to be used or the radius is below a metre, and otherwise the
places of a route that ends at the end asked for, up to 2.5 metres and a 200th of the radius. -/
theorem C171_direct (b : ℂ) (hb : ℝ) (e : ℂ) (he : ℝ) {r sep : ℝ} :
    (∀ straight, (straight = true ∨ r < 1) → direct straight b hb e he r sep = .ok [b, e]) ∧
    (1 ≤ r → 0 < sep → 2 * (‖e - b‖ + r) < 2147483647 → 7 * r < 2147483648 * sep →
      ∃ ps x, direct false b hb e he r sep = .ok ps ∧ ps.getLast? = some x ∧ ‖x - e‖ ≤ 5 / 2 + 0.005 * r ∧
        (Distinct ⟨b, toward hb⟩ ⟨e, toward he⟩ r → ∃ path, Flyable path ∧ (Pose.fly ⟨b, toward hb⟩ r path).to_ = toward he ∧
          ‖(Pose.fly ⟨b, toward hb⟩ r path).at_ - e‖ ≤ 1 ∧ ∀ y ∈ ps, ∃ x, Passes ⟨b, toward hb⟩ r path x ∧ ‖y - x‖ ≤ 2)) := by
  constructor
  · intro straight h
    unfold direct
    rw [if_pos h]
  · intro hr hs h1 h7
    obtain ⟨ws, w, hd, hw, hn⟩ := C171_arrives b hb e he hr hs h1 h7
    refine ⟨ws.map (·.pos), w.pos, ?_, by rw [List.getLast?_map, hw]; rfl, hn, ?_⟩
    · unfold direct
      rw [if_neg (by simp only [Bool.false_eq_true, false_or]; linarith), hd]
      rfl
    · intro hD
      obtain ⟨path, hf, ht, ha, hsh, _⟩ := C171_route_partial hr hs hD hd
      refine ⟨path, hf, ht, ha, ?_⟩
      intro y hy
      obtain ⟨v, hv, rfl⟩ := List.mem_map.1 hy
      exact hsh v hv

/-- Places more than a diameter apart have no circle in common. -/
theorem distinct_of (b : ℂ) (hb : ℝ) (e : ℂ) (he : ℝ) {r : ℝ} (hr : 0 ≤ r) (h : 2 * r + 1 / 2 ≤ ‖e - b‖) : Distinct ⟨b, toward hb⟩ ⟨e, toward he⟩ r := by
  intro d1 d2
  have n1 : ‖(Pose.circle ⟨b, toward hb⟩ d1 r).c - b‖ ≤ r := by
    have := beside_near b hb r hr d1 b
    rw [beside_eq] at this; simpa using this
  have n2 : ‖(Pose.circle ⟨e, toward he⟩ d2 r).c - e‖ ≤ r := by
    have := beside_near e he r hr d2 e
    rw [beside_eq] at this; simpa using this
  have k1 : ‖e - b‖ ≤ ‖(Pose.circle ⟨e, toward he⟩ d2 r).c - (Pose.circle ⟨b, toward hb⟩ d1 r).c‖ + ‖(Pose.circle ⟨b, toward hb⟩ d1 r).c - b‖ +
      ‖(Pose.circle ⟨e, toward he⟩ d2 r).c - e‖ := by
    have e1 : e - b = ((Pose.circle ⟨e, toward he⟩ d2 r).c - (Pose.circle ⟨b, toward hb⟩ d1 r).c) + ((Pose.circle ⟨b, toward hb⟩ d1 r).c - b) -
      ((Pose.circle ⟨e, toward he⟩ d2 r).c - e) := by ring
    calc ‖e - b‖ = _ := by rw [← e1]
      _ ≤ _ := (norm_sub_le _ _).trans (add_le_add_left (norm_add_le _ _) _)
  linarith

/-! ### A vehicle with a radius of 100 m, from one place to another 500 m east of it -/

theorem far : ‖(500 : ℂ) - 0‖ = 500 := by norm_num

/-- `C171_route_partial`, `C171_arrives`: heading north at both. -/
example : ∃ ws path, dubins 0 0 500 0 100 50 = .ok (some ws) ∧ Flyable path ∧ (Pose.fly ⟨0, toward 0⟩ 100 path).to_ = toward 0 ∧
    ‖(Pose.fly ⟨0, toward 0⟩ 100 path).at_ - 500‖ ≤ 1 ∧ Shows ⟨0, toward 0⟩ 100 path ws := by
  obtain ⟨ws, w, hd, _⟩ := C171_arrives 0 0 500 0 (r := 100) (sep := 50) (by norm_num) (by norm_num) (by rw [far]; norm_num) (by norm_num)
  obtain ⟨path, h1, h2, h3, h4, _⟩ := C171_route_partial (by norm_num) (by norm_num) (distinct_of 0 0 500 0 (by norm_num) (by rw [far]; norm_num)) hd
  exact ⟨ws, path, hd, h1, h2, h3, h4⟩

/-- `C171_direct`: the same, as a path. -/
example : ∃ ps x, direct false 0 0 500 0 100 50 = .ok ps ∧ ps.getLast? = some x ∧ ‖x - 500‖ ≤ 3 := by
  obtain ⟨ps, x, h1, h2, h3, _⟩ := (C171_direct 0 0 500 0 (r := 100) (sep := 50)).2 (by norm_num) (by norm_num) (by rw [far]; norm_num) (by norm_num)
  exact ⟨ps, x, h1, h2, by norm_num at h3 ⊢; linarith⟩

/-- `C172_same_partial`: north at first and south at the end: two quarters of a circle and 300 m. -/
example : ∃ ws, dubins 0 0 500 Real.pi 100 50 = .ok (some ws) ∧ total ws ≤ 100 * Real.pi + 300 + 1 / 2 := by
  obtain ⟨ws, w, hd, _⟩ := C171_arrives 0 0 500 Real.pi (r := 100) (sep := 50) (by norm_num) (by norm_num) (by rw [far]; norm_num) (by norm_num)
  obtain ⟨ws', he, H⟩ := C172_same_partial (by norm_num) (by norm_num) (distinct_of 0 0 500 Real.pi (by norm_num) (by rw [far]; norm_num)) hd
  simp only [Option.some.injEq] at he
  subst he
  refine ⟨ws, hd, ?_⟩
  have hp := Real.pi_pos
  have hq : exp (((-1 * (Real.pi / 2) : ℝ) : ℂ) * I) = -I := by
    rw [show ((-1 * (Real.pi / 2) : ℝ) : ℂ) * I = -(Real.pi / 2 * I) by push_cast; ring, Complex.exp_neg, Complex.exp_pi_div_two_mul_I, Complex.inv_I]
  have := H .cw (Real.pi / 2) 300 (Real.pi / 2) ⟨by linarith, by linarith⟩ (by norm_num) ⟨by linarith, by linarith⟩ (by
    simp only [Pose.fly, List.foldl_cons, List.foldl_nil, Pose.leg, Pose.on, Pose.turned, Dir.sign]
    rw [hq, toward_zero, toward_pi, Pose.ext_iff]
    constructor
    · push_cast
      linear_combination (100 * I ^ 2 - 500 : ℂ) * I_mul_I
    · linear_combination I * I_mul_I)
  simp only [List.map_cons, List.map_nil, Leg.length, List.sum_cons, List.sum_nil] at this
  linarith

/-- `C171_straight`: the right turns at both. -/
example : ∃ c s, cscShape 0 500 (Pose.circle ⟨0, I⟩ .cw 100) (Pose.circle ⟨500, I⟩ .cw 100) 500 200 = (c, some s) ∧
    iRound ‖(Pose.circle ⟨500, I⟩ .cw 100).c - (Pose.circle ⟨0, I⟩ .cw 100).c‖ = .ok 500 ∧ iRound (100 + 100) = .ok 200 := by
  have h : ∃ c s, cscShape 0 500 (Pose.circle ⟨0, I⟩ .cw 100) (Pose.circle ⟨500, I⟩ .cw 100) 500 200 = (c, some s) := by
    unfold cscShape
    simp only [if_neg (show ¬ |((500 : ℤ) : ℝ)| ≤ 0.01 by norm_num)]
    rw [if_neg (by simp [Pose.circle])]
    exact ⟨_, _, rfl⟩
  obtain ⟨c, s, h⟩ := h
  refine ⟨c, s, h, ?_, iRound_200⟩
  · rw [show (Pose.circle ⟨500, I⟩ .cw 100).c - (Pose.circle ⟨0, I⟩ .cw 100).c = 500 by simp [Pose.circle]]
    norm_num
    exact iRound_of (by norm_num) (by norm_num) (by norm_num) (by norm_num)

/-- `C171_turns`: two places 300 m apart. -/
example : ∃ c m s, cccShape 0 300 (Pose.circle ⟨0, I⟩ .cw 100) (Pose.circle ⟨300, I⟩ .cw 100) = (c, m, s) ∧
    0.01 < ‖(Pose.circle ⟨300, I⟩ .cw 100).c - (Pose.circle ⟨0, I⟩ .cw 100).c‖ ∧ ‖(Pose.circle ⟨300, I⟩ .cw 100).c - (Pose.circle ⟨0, I⟩ .cw 100).c‖ ≤ 4 * 100 := by
  refine ⟨_, _, _, rfl, ?_⟩
  rw [show (Pose.circle ⟨300, I⟩ .cw 100).c - (Pose.circle ⟨0, I⟩ .cw 100).c = 300 by simp [Pose.circle]]
  norm_num

/-- `C173_turn`, `C173_length`: a turn of 320 m with waypoints every 100 m has two of them and its end, 120 m on. -/
example : ∃ ws, turnWays 0 (200 : ℂ) 320 (Pose.circle ⟨0, I⟩ .cw 100).c 100 .cw 100 = .ok ws ∧ (ws.map (·.seg)).sum = 320 ∧ ws.length = 3 := by
  obtain ⟨ws, h⟩ := (C173_undefined 0 (200 : ℂ) (Pose.circle ⟨0, I⟩ .cw 100).c (len := 320) (r := 100) (sep := 100) .cw (by norm_num) (by norm_num) (by norm_num)).2 (by norm_num)
  refine ⟨ws, h, (C173_length (by norm_num) (by norm_num) (by norm_num) h).1, ?_⟩
  obtain ⟨k, hw, h1, h2, h3⟩ := C173_turn (p := ⟨0, I⟩) (by simp) (by norm_num) (by norm_num) (by norm_num) h
  have k1 : (k : ℝ) < 3 := by
    rcases h3 with h3 | h3
    · rw [h3]; norm_num
    · linarith
  have k2 : (1 : ℝ) < k := by linarith
  have k1' : k < 3 := by exact_mod_cast k1
  have k2' : 1 < k := by exact_mod_cast k2
  rw [hw]
  simp
  omega

/-- `C173_undefined`: waypoints every micrometre on a turn of 3 km. -/
example (s e c : ℂ) : turnWays s e 3000 c 1000 .ccw 1e-6 = .ub :=
  (C173_undefined s e c (len := 3000) (r := 1000) (sep := 1e-6) .ccw (by norm_num) (by norm_num) (by norm_num)).1.2 (by norm_num)

/-- `C171_back_violated`, `C172_turn_violated`: waypoints every 50 m. -/
example : dubins 0 0 0 Real.pi 100 50 = .ok (some [⟨0, 0⟩]) ∧ ∃ ws, dubins 0 0 corner (Real.pi / 3) R 50 = .ok (some ws) ∧ 500 < total ws :=
  ⟨C171_back_violated (by norm_num) (by norm_num), (C172_turn_violated (by norm_num) (by norm_num)).2.2⟩

end Verif.Dubins
