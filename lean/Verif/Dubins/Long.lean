import Verif.Dubins.Wrong

/-!
# A route that is too long (C172)
-/

namespace Verif.Dubins

open Complex

/-- The turn radius, 100.3 m. -/
noncomputable def R : ℝ := 1003 / 10

theorem R_pos : 0 < R := by unfold R; norm_num

/-- A turn to the right by 60 degrees. -/
noncomputable def E : ℂ := exp (((-(Real.pi / 3) : ℝ) : ℂ) * I)

theorem E_eq : E = 1 / 2 - ((Real.sqrt 3 / 2 : ℝ) : ℂ) * I := by
  unfold E
  rw [exp_cos_sin, Real.cos_neg, Real.sin_neg, Real.cos_pi_div_three, Real.sin_pi_div_three]
  push_cast; ring

theorem one_sub_E : 1 - E = exp (((Real.pi / 3 : ℝ) : ℂ) * I) := by
  rw [E_eq, exp_cos_sin, Real.cos_pi_div_three, Real.sin_pi_div_three]
  push_cast; ring

theorem neg_E : -E = exp (((2 * Real.pi / 3 : ℝ) : ℂ) * I) := by
  unfold E
  rw [← exp_add_pi]; congr 3; ring

theorem E_norm : ‖E‖ = 1 := exp_unit _

/-- Where the turn ends. -/
noncomputable def corner : ℂ := (Pose.turned ⟨0, toward 0⟩ .cw R (Real.pi / 3)).at_

theorem corner_eq : corner = R - R * E := by
  unfold corner
  simp only [Pose.turned, Dir.sign]
  rw [toward_zero, show exp (((-1 * (Real.pi / 3) : ℝ) : ℂ) * I) = E by unfold E; congr 3; ring]
  push_cast
  linear_combination (-(R : ℂ) + R * E) * I_mul_I

theorem toward_third : toward (Real.pi / 3) = I * E := by
  unfold toward E
  have hI : I * exp (((-(Real.pi / 3) : ℝ) : ℂ) * I) = exp ((Real.pi / 2 : ℂ) * I) * exp (((-(Real.pi / 3) : ℝ) : ℂ) * I) := by
    rw [Complex.exp_pi_div_two_mul_I]
  rw [hI, ← Complex.exp_add]
  congr 1; push_cast; ring

/-- It leads there. -/
theorem turn_leads : Pose.fly ⟨0, toward 0⟩ R [.turn .cw (Real.pi / 3), .straight 0, .turn .cw 0] = ⟨corner, toward (Real.pi / 3)⟩ := by
  have : (Pose.turned ⟨0, toward 0⟩ .cw R (Real.pi / 3)).to_ = toward (Real.pi / 3) := by
    simp only [Pose.turned, Dir.sign]
    rw [toward_zero, toward_third]
    congr 1
    unfold E; congr 3; ring
  simp only [Pose.fly, List.foldl_cons, List.foldl_nil, Pose.leg, Pose.on]
  rw [Pose.ext_iff]
  constructor
  · simp [Pose.turned, corner]
  · rw [← this]; simp [Pose.turned]

theorem b_cw : beside 0 0 R .cw = ⟨R, R, .cw⟩ := by
  unfold beside; rw [toward_zero]; ext1
  · simp only [Dir.sign]; push_cast; linear_combination (-(R : ℂ)) * I_mul_I
  · rfl
  · rfl

theorem b_ccw : beside 0 0 R .ccw = ⟨-R, R, .ccw⟩ := by
  unfold beside; rw [toward_zero]; ext1
  · simp only [Dir.sign]; push_cast; linear_combination (R : ℂ) * I_mul_I
  · rfl
  · rfl

theorem e_cw : beside corner (Real.pi / 3) R .cw = ⟨R, R, .cw⟩ := by
  unfold beside; rw [toward_third, corner_eq]; ext1
  · simp only [Dir.sign]; push_cast; linear_combination (-(R : ℂ) * E) * I_mul_I
  · rfl
  · rfl

theorem e_ccw : beside corner (Real.pi / 3) R .ccw = ⟨R - 2 * R * E, R, .ccw⟩ := by
  unfold beside; rw [toward_third, corner_eq]; ext1
  · simp only [Dir.sign]; push_cast; linear_combination ((R : ℂ) * E) * I_mul_I
  · rfl
  · rfl

theorem iRound_2R : iRound (2 * R) = .ok 201 := iRound_of (by unfold R; norm_num) (by unfold R; norm_num) (by unfold R; norm_num) (by norm_num)

theorem iRound_RR : iRound (R + R) = .ok 201 := by rw [← two_mul]; exact iRound_2R

/-- The angle of the tangent. -/
theorem angle_bounds : 0.005 < Real.arccos (2 * R / (201 : ℝ)) ∧ Real.arccos (2 * R / (201 : ℝ)) < 1 := by
  have hp := Real.pi_gt_three
  have hR : 2 * R / 201 = 2006 / 2010 := by unfold R; norm_num
  rw [hR]
  have hcos : Real.cos (Real.arccos (2006 / 2010)) = 2006 / 2010 := Real.cos_arccos (by norm_num) (by norm_num)
  have h0 := Real.arccos_nonneg (2006 / 2010)
  constructor
  · by_contra hc
    have := Real.cos_le_cos_of_nonneg_of_le_pi h0 (by norm_num; linarith) (not_lt.1 hc)
    have h2 := Real.one_sub_sq_div_two_le_cos (x := 0.005)
    rw [hcos] at this
    norm_num at this h2
    linarith
  · by_contra hc
    have h1 := Real.arccos_le_pi (2006 / 2010)
    have := Real.cos_le_cos_of_nonneg_of_le_pi (by norm_num) h1 (not_lt.1 hc)
    rw [hcos] at this
    have h2 := Real.cos_one_le
    norm_num at this
    linarith

theorem counted_ge {x l : ℝ} (hx : 1 ≤ x) (h : x < l) : x < counted l := by unfold counted; rw [if_pos (by linarith)]; exact h

theorem counted_nonneg (l : ℝ) : 0 ≤ counted l := by unfold counted; split <;> linarith

/-- A route with a long turn is long. -/
theorem csc_long {b e : ℂ} {sep x : ℝ} {c1 c2 c : Circle} {w : List Way} (hx : 1 ≤ x) (h1 : 0 < c1.r) (h2 : 0 < c2.r) (hs : 0 < sep)
    (h : csc b e sep c1 c2 = .ok (c, some w))
    (H : ∀ d least s, iRound ‖c2.c - c1.c‖ = .ok d → cscShape b e c1 c2 d least = (c, some s) → x < s.l1 ∨ x < s.l3) : x < total w := by
  obtain ⟨d, least, s, hdd, _, hsh, ht⟩ := csc_total h1 h2 hs h
  have a1 := counted_nonneg s.l1
  have a3 := counted_nonneg s.l3
  have a2 : 0 ≤ s.l2 := by rw [cscShape_l2 hsh]; exact norm_nonneg _
  rw [ht]
  rcases H d least s hdd hsh with h | h
  · have := counted_ge hx h; linarith
  · have := counted_ge hx h; linarith

theorem ccc_long {b e : ℂ} {sep : ℝ} {c1 c2 c : Circle} {w : List Way} (h1 : c1.r = R) (hs : 0 < sep) (hD : ‖c1.c - c2.c‖ ≤ 2 * R)
    (h : ccc b e sep c1 c2 = .ok (c, some w)) : 5 * R < total w := by
  have hp := Real.pi_gt_d2
  have hR := R_pos
  have ht := ccc_total (by rw [h1]; exact hR) hs h
  rw [h1] at ht
  have ha : Real.pi / 3 ≤ Real.arccos (‖c1.c - c2.c‖ / (4 * R)) := by
    have e : Real.arccos (1 / 2) = Real.pi / 3 := by
      rw [← Real.cos_pi_div_three, Real.arccos_cos (by linarith) (by linarith)]
    rw [← e]
    apply Real.arccos_le_arccos
    rw [div_le_div_iff₀ (by linarith) (by norm_num)]
    linarith
  norm_num at hp
  nlinarith

theorem five_R : 1 ≤ 5 * R := by unfold R; norm_num

theorem diff_2 : ((R : ℂ) - 2 * R * E) - R = ((2 * R : ℝ) : ℂ) * exp (((2 * Real.pi / 3 : ℝ) : ℂ) * I) := by
  rw [← neg_E]; push_cast; ring

theorem diff_4 : ((R : ℂ) - 2 * R * E) - (-R) = ((2 * R : ℝ) : ℂ) * exp (((Real.pi / 3 : ℝ) : ℂ) * I) := by
  rw [← one_sub_E]; push_cast; ring

theorem norm_2 : ‖((R : ℂ) - 2 * R * E) - R‖ = 2 * R := by
  rw [diff_2, norm_mul, exp_unit, mul_one, Complex.norm_real, Real.norm_of_nonneg (by have := R_pos; linarith)]

theorem norm_4 : ‖((R : ℂ) - 2 * R * E) - (-R)‖ = 2 * R := by
  rw [diff_4, norm_mul, exp_unit, mul_one, Complex.norm_real, Real.norm_of_nonneg (by have := R_pos; linarith)]

theorem norm_3 : ‖(R : ℂ) - (-R)‖ = 2 * R := by
  rw [show (R : ℂ) - (-R) = ((2 * R : ℝ) : ℂ) by push_cast; ring, Complex.norm_real, Real.norm_of_nonneg (by have := R_pos; linarith)]

/-- The tangent angle for the rounded distance. -/
theorem tangent_angle : (if 2 * R / ((201 : ℤ) : ℝ) < 1 then normal (Real.arccos (2 * R / ((201 : ℤ) : ℝ))) else 0) = Real.arccos (2 * R / (201 : ℝ)) := by
  have hp := Real.pi_gt_three
  have ha := angle_bounds
  push_cast
  rw [if_pos (by unfold R; norm_num)]
  exact normal_self (by linarith [ha.1]) (by norm_num; linarith [ha.2])

theorem long_1 {sep : ℝ} (hs : 0 < sep) {c : Circle} {w : List Way} (h : csc 0 corner sep ⟨R, R, .cw⟩ ⟨R, R, .cw⟩ = .ok (c, some w)) : 5 * R < total w := by
  have hp := Real.pi_gt_d2
  norm_num at hp
  have hR := R_pos
  refine csc_long five_R hR hR hs h ?_
  intro d least s hdd hsh
  simp only at hdd
  rw [sub_self, norm_zero, iRound_of (n := 0) (le_refl _) (by norm_num) (by norm_num) (by norm_num)] at hdd
  simp only [Outcome.ok.injEq] at hdd
  subst hdd
  obtain ⟨rot, _, hcase, _, q1, q2, as, bs, htan, rfl⟩ := cscShape_some hsh
  obtain ⟨_, rfl, rfl⟩ := hcase.resolve_right (fun h => h.1 (by norm_num))
  right
  simp only [tangents, if_true, Prod.mk.injEq] at htan
  obtain ⟨_, _, rfl, rfl⟩ := htan
  simp only
  have hbe : bearing ((corner - R) / 1 - (R - R) / 1) = 2 * Real.pi / 3 := by
    rw [show (corner - R) / 1 - ((R : ℂ) - R) / 1 = (R : ℂ) * exp (((2 * Real.pi / 3 : ℝ) : ℂ) * I) by rw [← neg_E, corner_eq]; ring]
    exact bearing_polar hR (by linarith) (by linarith)
  rw [hbe]
  have hsn : snap (0.5 * Real.pi) (2 * Real.pi / 3) = 0.5 * Real.pi := by
    apply snap_far <;> rw [abs_of_neg (by linarith)] <;> norm_num <;> linarith
  rw [hsn]
  simp only [sweep]
  rw [if_neg (by linarith)]
  nlinarith

theorem long_2 {sep : ℝ} (hs : 0 < sep) {c : Circle} {w : List Way} (h : csc 0 corner sep ⟨R, R, .cw⟩ ⟨R - 2 * R * E, R, .ccw⟩ = .ok (c, some w)) : 5 * R < total w := by
  have hp := Real.pi_gt_d2
  norm_num at hp
  have hR := R_pos
  have ha := angle_bounds
  refine csc_long five_R hR hR hs h ?_
  intro d least s hdd hsh
  simp only at hdd
  rw [norm_2, iRound_2R] at hdd
  simp only [Outcome.ok.injEq] at hdd
  subst hdd
  obtain ⟨rot, _, hcase, _, q1, q2, as, bs, htan, rfl⟩ := cscShape_some hsh
  obtain ⟨_, rfl, hrot⟩ := hcase.resolve_left (fun h => absurd h.1 (by norm_num))
  right
  simp only [tangents] at htan
  rw [if_neg (by simp), tangent_angle] at htan
  simp only [Prod.mk.injEq] at htan
  obtain ⟨_, _, rfl, rfl⟩ := htan
  simp only at hrot ⊢
  have hrot' : rot = -E := by
    rw [hrot, neg_E]
    congr 3
    rw [diff_2]
    exact bearing_polar (by linarith) (by linarith) (by linarith)
  have hE : E ≠ 0 := by rw [← norm_ne_zero_iff, E_norm]; norm_num
  have hbe : bearing ((corner - R) / rot - ((R - 2 * R * E) - R) / rot) = Real.pi := by
    rw [show (corner - R) / rot - (((R : ℂ) - 2 * R * E) - R) / rot = -((R : ℝ) : ℂ) by rw [hrot', corner_eq]; field_simp; ring]
    exact bearing_neg_real hR
  rw [hbe, normal_self (by linarith [ha.1]) (by norm_num; linarith [ha.2])]
  generalize Real.arccos (2 * R / 201) = a0 at ha
  norm_num at ha
  have hsn : snap (a0 + Real.pi) Real.pi = a0 + Real.pi := by
    apply snap_far <;> rw [abs_of_pos (by linarith)] <;> norm_num <;> linarith
  rw [hsn]
  simp only [sweep]
  rw [if_neg (by linarith)]
  nlinarith

theorem long_3 {sep : ℝ} (hs : 0 < sep) {c : Circle} {w : List Way} (h : csc 0 corner sep ⟨-R, R, .ccw⟩ ⟨R, R, .cw⟩ = .ok (c, some w)) : 5 * R < total w := by
  have hp := Real.pi_gt_d2
  norm_num at hp
  have hR := R_pos
  have ha := angle_bounds
  refine csc_long five_R hR hR hs h ?_
  intro d least s hdd hsh
  simp only at hdd
  rw [norm_3, iRound_2R] at hdd
  simp only [Outcome.ok.injEq] at hdd
  subst hdd
  obtain ⟨rot, _, hcase, _, q1, q2, as, bs, htan, rfl⟩ := cscShape_some hsh
  obtain ⟨_, rfl, hrot⟩ := hcase.resolve_left (fun h => absurd h.1 (by norm_num))
  left
  simp only [tangents] at htan
  rw [if_neg (by simp), tangent_angle] at htan
  simp only [Prod.mk.injEq] at htan
  obtain ⟨_, _, rfl, rfl⟩ := htan
  simp only at hrot ⊢
  have hrot' : rot = 1 := by
    rw [hrot, show (R : ℂ) - (-R) = ((2 * R : ℝ) : ℂ) by push_cast; ring, bearing_real (by linarith)]
    simp
  have hal : bearing ((0 - -(R : ℂ)) / rot) = 0 := by
    rw [hrot', show (0 - -(R : ℂ)) / 1 = ((R : ℝ) : ℂ) by ring]
    exact bearing_real hR
  rw [hal]
  rw [normal_self (x := 2 * Real.pi - Real.arccos (2 * R / 201)) (by linarith [ha.2]) (by have := ha.1; norm_num at this ⊢; linarith)]
  generalize Real.arccos (2 * R / 201) = a0 at ha
  norm_num at ha
  have hsn : snap (2 * Real.pi - a0) 0 = 2 * Real.pi - a0 := by
    apply snap_far <;> rw [abs_of_pos (by linarith)] <;> norm_num <;> linarith
  rw [hsn]
  simp only [sweep]
  rw [if_pos (by linarith)]
  nlinarith

theorem long_4 {sep : ℝ} (hs : 0 < sep) {c : Circle} {w : List Way} (h : csc 0 corner sep ⟨-R, R, .ccw⟩ ⟨R - 2 * R * E, R, .ccw⟩ = .ok (c, some w)) : 5 * R < total w := by
  have hp := Real.pi_gt_d2
  norm_num at hp
  have hR := R_pos
  refine csc_long five_R hR hR hs h ?_
  intro d least s hdd hsh
  simp only at hdd
  rw [norm_4, iRound_2R] at hdd
  simp only [Outcome.ok.injEq] at hdd
  subst hdd
  obtain ⟨rot, _, hcase, _, q1, q2, as, bs, htan, rfl⟩ := cscShape_some hsh
  obtain ⟨_, rfl, hrot⟩ := hcase.resolve_left (fun h => absurd h.1 (by norm_num))
  left
  simp only [tangents, if_true, Prod.mk.injEq] at htan
  obtain ⟨_, _, rfl, rfl⟩ := htan
  simp only at hrot ⊢
  have hrot' : rot = exp (((Real.pi / 3 : ℝ) : ℂ) * I) := by
    rw [hrot]
    congr 3
    rw [diff_4]
    exact bearing_polar (by linarith) (by linarith) (by linarith)
  have hal : bearing ((0 - -(R : ℂ)) / rot) = 5 * Real.pi / 3 := by
    rw [show (0 - -(R : ℂ)) / rot = (R : ℂ) * exp (((-(Real.pi / 3) : ℝ) : ℂ) * I) by
      rw [hrot', div_eq_iff (Complex.exp_ne_zero _), mul_assoc, exp_inv]; ring]
    rw [bearing_polar_neg hR (by linarith) (by linarith)]; ring
  rw [hal]
  have hsn : snap (1.5 * Real.pi) (5 * Real.pi / 3) = 1.5 * Real.pi := by
    apply snap_far <;> rw [abs_of_neg (by linarith)] <;> norm_num <;> linarith
  rw [hsn]
  simp only [sweep]
  rw [if_neg (by linarith)]
  nlinarith

/-- **C172, violated.**  A vehicle with a turn radius of 100.3 m that heads north and is to head 60 degrees to the right of that where a
right turn by 60 degrees ends, which is 106 m long, is given a route of more than 500 m.  Because the distance of the circles is
rounded, the straight line between touching circles is taken to leave a little before the vehicle, and all the way around is flown. -/
theorem C172_turn_violated {sep : ℝ} (hs : 0 < sep) (h7 : 703 < 2147483648 * sep) :
    Pose.fly ⟨0, toward 0⟩ R [.turn .cw (Real.pi / 3), .straight 0, .turn .cw 0] = ⟨corner, toward (Real.pi / 3)⟩ ∧
    ([Leg.turn .cw (Real.pi / 3), .straight 0, .turn .cw 0].map (Leg.length R)).sum < 106 ∧
    ∃ ws, dubins 0 0 corner (Real.pi / 3) R sep = .ok (some ws) ∧ 500 < total ws := by
  have hp := Real.pi_gt_three
  have hR := R_pos
  refine ⟨turn_leads, ?_, ?_⟩
  · simp only [List.map_cons, List.map_nil, Leg.length, List.sum_cons, List.sum_nil]
    have := Real.pi_lt_d2
    unfold R
    norm_num at this ⊢
    linarith
  have hcor : ‖corner - 0‖ ≤ 2 * R := by
    rw [corner_eq, sub_zero]
    refine (norm_sub_le _ _).trans ?_
    rw [norm_mul, E_norm, mul_one, Complex.norm_real, Real.norm_of_nonneg hR.le]; linarith
  obtain ⟨ws, w, hd, _⟩ := C171_arrives 0 0 corner (Real.pi / 3) (r := R) (sep := sep) (by unfold R; norm_num) hs
    (by unfold R at *; linarith) (by unfold R; linarith)
  refine ⟨ws, hd, ?_⟩
  unfold dubins at hd
  rw [b_cw, b_ccw, e_cw, e_ccw] at hd
  rw [Outcome.bind_eq_ok] at hd
  obtain ⟨y1, h1, hd⟩ := hd
  rw [Outcome.bind_eq_ok] at hd
  obtain ⟨y2, h2, hd⟩ := hd
  rw [Outcome.bind_eq_ok] at hd
  obtain ⟨y3, h3, hd⟩ := hd
  rw [Outcome.bind_eq_ok] at hd
  obtain ⟨y4, h4, hd⟩ := hd
  simp only [Outcome.ok.injEq] at hd
  have three : ∀ (c1 c2 c c' : Circle) (x : Option (List Way)) (w : List Way), c1.r = R → c2.r = R → ‖c2.c - c1.c‖ ≤ 2 * R → csc 0 corner sep c1 c2 = .ok (c, x) →
      ccc 0 corner sep c c2 = .ok (c', some w) → 5 * R < total w := by
    intro c1 c2 c c' x w k1 k2 hD hx h
    obtain ⟨c'', x', h', hc⟩ := csc_ok (b := 0) (e := corner) (sep := sep) (r := R) (by unfold R; norm_num) hs k1 k2 (by unfold R at *; linarith) (by unfold R; norm_num) (by unfold R; linarith)
    rw [hx] at h'
    simp only [Outcome.ok.injEq, Prod.mk.injEq] at h'
    rw [← h'.1] at hc
    rcases hc with rfl | rfl
    · exact ccc_long k1 hs (by rw [norm_sub_rev]; exact hD) h
    · exact ccc_long k2 hs (by rw [sub_self, norm_zero]; linarith) h
  have p1 : ∀ w, y1.2 = some w → 5 * R < total w := by
    refine pair_all h1 (by simp) (fun c w h => long_1 hs h) ?_
    intro c x c' w hx _ h
    exact three _ _ c c' x w rfl rfl (by simp only; rw [sub_self, norm_zero]; linarith) hx h
  have y1c : y1.1 = ⟨R, R, .cw⟩ := pair_first rfl h1
  have p2 : ∀ w, y2.2 = some w → 5 * R < total w := by
    refine pair_all h2 p1 ?_ ?_
    · intro c w h; rw [y1c] at h; exact long_2 hs h
    · intro c x c' w hx _ h
      rw [y1c] at hx
      exact three _ _ c c' x w rfl rfl norm_2.le hx h
  have p3 : ∀ w, y3.2 = some w → 5 * R < total w := by
    refine pair_all h3 p2 (fun c w h => long_3 hs h) ?_
    intro c x c' w hx _ h
    exact three _ _ c c' x w rfl rfl norm_3.le hx h
  have y3c : y3.1 = ⟨-R, R, .ccw⟩ := by
    have := (pair_spec (p := ⟨0, toward 0⟩) (q := ⟨corner, toward (Real.pi / 3)⟩) (d1 := .ccw) (d2 := .cw) (r := R) (sep := sep) (best := y2.2) (y := y3)
      (toward_unit 0) (toward_unit _) (by unfold R; norm_num) hs
      (by rw [← beside_eq, ← beside_eq, b_ccw, e_cw]; simp only; rw [norm_3]; unfold R; norm_num) (by rw [← beside_eq, ← beside_eq, b_ccw, e_cw]; exact h3)).1
    rw [this, ← beside_eq, b_ccw]
  have p4 : ∀ w, y4.2 = some w → 5 * R < total w := by
    refine pair_all h4 p3 ?_ ?_
    · intro c w h; rw [y3c] at h; exact long_4 hs h
    · intro c x c' w hx _ h
      rw [y3c] at hx
      exact three _ _ c c' x w rfl rfl norm_4.le hx h
  have := p4 ws hd
  unfold R at this
  linarith

end Verif.Dubins
