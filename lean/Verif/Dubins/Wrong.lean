import Verif.Dubins.Total

/-!
# Routes that are not what is asked for (C171, C172)
-/

namespace Verif.Dubins

open Complex

theorem bearing_polar {ρ x : ℝ} (hρ : 0 < ρ) (h0 : 0 ≤ x) (h1 : x ≤ Real.pi) : bearing (ρ * exp ((x : ℂ) * I)) = x := by
  have hp := Real.pi_gt_three
  unfold bearing
  rw [Complex.exp_mul_I, Complex.arg_mul_cos_add_sin_mul_I hρ ⟨by linarith, h1⟩]
  exact normal_self h0 (by norm_num; linarith)

theorem bearing_polar_neg {ρ x : ℝ} (hρ : 0 < ρ) (h0 : x < 0) (h1 : -Real.pi < x) : bearing (ρ * exp ((x : ℂ) * I)) = x + 2 * Real.pi := by
  have hp := Real.pi_gt_three
  unfold bearing
  rw [Complex.exp_mul_I, Complex.arg_mul_cos_add_sin_mul_I hρ ⟨h1, by linarith⟩]
  exact normal_neg h0 (by linarith)

theorem snap_far {star a : ℝ} (h1 : 0.005 ≤ |star - a|) (h2 : |star - a| ≤ 2 * Real.pi - 0.005) : snap star a = star := by
  unfold snap
  rw [if_neg]
  rintro (h | h)
  · linarith
  · rw [abs_of_neg (by norm_num at h2 ⊢; linarith)] at h; linarith

theorem iRound_of {x : ℝ} {n : ℤ} (h0 : 0 ≤ x) (h1 : (n : ℝ) ≤ x + 1 / 2) (h2 : x + 1 / 2 < n + 1) (h3 : n ≤ 2147483647) : iRound x = .ok n := by
  have ht : trunc (x + 1 / 2) = n := by
    unfold trunc
    rw [if_pos (by linarith), Int.floor_eq_iff]
    exact ⟨h1, h2⟩
  have : 0 ≤ n := by rw [← ht]; exact trunc_nonneg (by linarith)
  unfold iRound toInt
  rw [ht, if_pos ⟨by omega, h3⟩]

theorem total_append' {a : List Way} (b : List Way) (h : a ≠ []) : total (a ++ b) = total a + totalFrom (lastPos 0 a) b := by
  cases a with
  | nil => exact absurd rfl h
  | cons x xs => simp only [List.cons_append, total, totalFrom_append, lastPos]; ring

theorem total_nonneg (a : List Way) : 0 ≤ total a := by
  cases a with
  | nil => simp [total]
  | cons x xs =>
      simp only [total]
      have := totalFrom_nonneg x.pos xs
      split <;> linarith

/-- A route of three turns is at least as long as the one in the middle. -/
theorem ccc_total {b e : ℂ} {sep : ℝ} {c1 c2 c : Circle} {ws : List Way} (hr : 0 < c1.r) (hs : 0 < sep) (h : ccc b e sep c1 c2 = .ok (c, some ws)) :
    (Real.pi + 2 * Real.arccos (‖c1.c - c2.c‖ / (4 * c1.r))) * c1.r ≤ total ws := by
  have hp := Real.pi_pos
  unfold ccc at h
  split at h
  · simp at h
  · rcases hsh : cccShape b e c1 c2 with ⟨c', m, s⟩
    have hl2 : s.l2 = (Real.pi + 2 * Real.arccos (‖c1.c - c2.c‖ / (4 * c1.r))) * c1.r := by
      have hs' := congrArg (fun x => x.2.2.l2) hsh
      simp only [cccShape] at hs'
      exact hs'.symm
    rw [hsh] at h
    simp only at h
    rw [Outcome.bind_eq_ok] at h
    obtain ⟨w1, hw1, h⟩ := h
    rw [Outcome.bind_eq_ok] at h
    obtain ⟨w2, hw2, h⟩ := h
    rw [Outcome.bind_eq_ok] at h
    obtain ⟨w3, hw3, h⟩ := h
    simp only [Outcome.ok.injEq, Prod.mk.injEq, Option.some.injEq] at h
    rw [← h.2, ← hl2]
    have hpos : 0 < s.l2 := by
      rw [hl2]
      have := Real.arccos_nonneg (‖c1.c - c2.c‖ / (4 * c1.r))
      positivity
    obtain ⟨_, _, _, _, ht⟩ := C173_length hr hs hpos hw2
    have hne : w1 ≠ [] := by
      rintro rfl
      have := turnWays_last hw1
      simp at this
    rw [List.append_assoc, total_append' _ hne, totalFrom_append, ht]
    have h1 := total_nonneg w1
    have h3 := totalFrom_nonneg (lastPos (lastPos 0 w1) w2) w3
    linarith

/-- What holds of all routes of a pair of circles holds of the best. -/
theorem pair_all {P : List Way → Prop} {b e : ℂ} {sep : ℝ} {st y : Circle × Option (List Way)} {c2 : Circle} (h : pair b e sep st c2 = .ok y)
    (h0 : ∀ w, st.2 = some w → P w) (h1 : ∀ c w, csc b e sep st.1 c2 = .ok (c, some w) → P w)
    (h2 : ∀ c x c' w, csc b e sep st.1 c2 = .ok (c, x) → c.dir = c2.dir → ccc b e sep c c2 = .ok (c', some w) → P w) : ∀ w, y.2 = some w → P w := by
  unfold pair at h
  rw [Outcome.bind_eq_ok] at h
  obtain ⟨⟨c, x⟩, hx, h⟩ := h
  have k1 : ∀ w, x = some w → P w := by rintro w rfl; exact h1 c w hx
  split at h
  · rename_i ht
    rw [Outcome.bind_eq_ok] at h
    obtain ⟨⟨c', z⟩, hz, h⟩ := h
    simp only [Outcome.ok.injEq] at h
    subst h
    refine better_keeps (better_keeps h0 k1) ?_
    rintro w rfl
    exact h2 c x c' w hx ht.1 hz
  · simp only [Outcome.ok.injEq] at h
    subst h
    exact better_keeps h0 k1

theorem ccc_first {b e : ℂ} {sep : ℝ} {c2 c : Circle} {x : Option (List Way)} (h : ccc b e sep c2 c2 = .ok (c, x)) : c = c2 := by
  unfold ccc at h
  split at h
  · simp only [Outcome.ok.injEq, Prod.mk.injEq] at h; exact h.1.symm
  · have h1 : (cccShape b e c2 c2).1 = c2 := by simp [cccShape]
    simp only at h
    rw [Outcome.bind_eq_ok] at h
    obtain ⟨w1, hw1, h⟩ := h
    rw [Outcome.bind_eq_ok] at h
    obtain ⟨w2, hw2, h⟩ := h
    rw [Outcome.bind_eq_ok] at h
    obtain ⟨w3, hw3, h⟩ := h
    simp only [Outcome.ok.injEq, Prod.mk.injEq] at h
    rw [← h.1]; exact h1

/-- The first circle after a pair of circles at one place. -/
theorem pair_first {b e : ℂ} {sep : ℝ} {st y : Circle × Option (List Way)} {c2 : Circle} (hc : st.1.c = c2.c) (h : pair b e sep st c2 = .ok y) : y.1 = c2 := by
  unfold pair at h
  rw [Outcome.bind_eq_ok] at h
  obtain ⟨⟨c, x⟩, hx, h⟩ := h
  have hcc : c = c2 := by
    unfold csc at hx
    rw [hc, sub_self, norm_zero, iRound_of (n := 0) (le_refl _) (by norm_num) (by norm_num) (by norm_num), Outcome.bind_ok, Outcome.bind_eq_ok] at hx
    obtain ⟨least, hl, hx⟩ := hx
    rcases hsh : cscShape b e st.1 c2 0 least with ⟨c', _ | s⟩
    · unfold cscShape at hsh
      simp only [if_pos (show |((0 : ℤ) : ℝ)| ≤ 0.01 by norm_num)] at hsh
      rw [if_neg (by simp)] at hsh
      simp at hsh
    · rw [hsh] at hx
      simp only at hx
      rw [Outcome.bind_eq_ok] at hx
      obtain ⟨ws', hw, hx⟩ := hx
      simp only [Outcome.ok.injEq, Prod.mk.injEq] at hx
      obtain ⟨_, _, hcase, _⟩ := cscShape_some hsh
      rw [← hx.1]
      exact (hcase.resolve_right (fun h => h.1 (by norm_num))).2.1
  subst hcc
  split at h
  · rename_i ht
    rw [Outcome.bind_eq_ok] at h
    obtain ⟨⟨c', z⟩, hz, h⟩ := h
    simp only [Outcome.ok.injEq] at h
    subst h
    exact ccc_first hz
  · simp only [Outcome.ok.injEq] at h
    subst h
    rfl

theorem toward_zero : toward 0 = I := by
  unfold toward
  rw [show (((Real.pi / 2 - 0 : ℝ) : ℂ)) * I = Real.pi / 2 * I by push_cast; ring, Complex.exp_pi_div_two_mul_I]

theorem toward_pi : toward Real.pi = -I := by
  unfold toward
  rw [show (((Real.pi / 2 - Real.pi : ℝ) : ℂ)) * I = -(Real.pi / 2 * I) by push_cast; ring, Complex.exp_neg, Complex.exp_pi_div_two_mul_I, Complex.inv_I]

/-! ### Turning back on the spot -/

theorem spot_cw : beside 0 0 100 .cw = ⟨100, 100, .cw⟩ := by
  unfold beside; rw [toward_zero]; ext1
  · simp only [Dir.sign]; push_cast; linear_combination (-100 : ℂ) * I_mul_I
  · rfl
  · rfl

theorem spot_ccw : beside 0 0 100 .ccw = ⟨-100, 100, .ccw⟩ := by
  unfold beside; rw [toward_zero]; ext1
  · simp only [Dir.sign]; push_cast; linear_combination (100 : ℂ) * I_mul_I
  · rfl
  · rfl

theorem back_cw : beside 0 Real.pi 100 .cw = ⟨-100, 100, .cw⟩ := by
  unfold beside; rw [toward_pi]; ext1
  · simp only [Dir.sign]; push_cast; linear_combination (100 : ℂ) * I_mul_I
  · rfl
  · rfl

theorem back_ccw : beside 0 Real.pi 100 .ccw = ⟨100, 100, .ccw⟩ := by
  unfold beside; rw [toward_pi]; ext1
  · simp only [Dir.sign]; push_cast; linear_combination (-100 : ℂ) * I_mul_I
  · rfl
  · rfl

theorem iRound_200 : iRound (100 + 100) = .ok 200 := iRound_of (by norm_num) (by norm_num) (by norm_num) (by norm_num)

theorem norm_200 : ‖(100 : ℂ) - -100‖ = 200 ∧ ‖(-100 : ℂ) - 100‖ = 200 := by norm_num

theorem bearing_real {x : ℝ} (h : 0 < x) : bearing (x : ℂ) = 0 := by
  have := bearing_polar h (le_refl 0) Real.pi_pos.le
  simpa using this

theorem bearing_neg_real {x : ℝ} (h : 0 < x) : bearing (-(x : ℂ)) = Real.pi := by
  have := bearing_polar h Real.pi_pos.le (le_refl Real.pi)
  rw [Complex.exp_pi_mul_I] at this
  rw [← this]; congr 1; ring

/-- The last pair, after the first circle has been replaced: no turn and no line. -/
theorem spot_last (sep : ℝ) : csc 0 0 sep ⟨-100, 100, .cw⟩ ⟨100, 100, .ccw⟩ = .ok (⟨-100, 100, .cw⟩, some [⟨0, 0⟩]) := by
  have hp := Real.pi_gt_three
  unfold csc
  simp only
  rw [norm_200.1, show (200 : ℝ) = 100 + 100 by norm_num, iRound_200]
  simp only [Outcome.bind_ok]
  have hd : ¬ |((200 : ℤ) : ℝ)| ≤ 0.01 := by norm_num
  have hrot : bearing ((100 : ℂ) - -100) = 0 := by
    rw [show (100 : ℂ) - -100 = ((200 : ℝ) : ℂ) by norm_num]; exact bearing_real (by norm_num)
  have htan : tangents 100 .cw .ccw ((200 : ℤ) : ℝ) = (100, 100, 0, Real.pi) := by
    unfold tangents
    rw [if_neg (by simp)]
    simp only
    rw [if_neg (by norm_num)]
    have : normal (0 + Real.pi) = Real.pi := by rw [zero_add]; exact normal_self (by linarith) (by norm_num; linarith)
    rw [this]
    norm_num
  have hal : bearing (((0 : ℂ) - -100) / 1) = 0 := by
    rw [show ((0 : ℂ) - -100) / 1 = ((100 : ℝ) : ℂ) by norm_num]; exact bearing_real (by norm_num)
  have hbe : bearing (((0 : ℂ) - -100) / 1 - ((100 : ℂ) - -100) / 1) = Real.pi := by
    rw [show ((0 : ℂ) - -100) / 1 - ((100 : ℂ) - -100) / 1 = -((100 : ℝ) : ℂ) by norm_num]; exact bearing_neg_real (by norm_num)
  have hsh : cscShape 0 0 ⟨-100, 100, .cw⟩ ⟨100, 100, .ccw⟩ 200 200 = (⟨-100, 100, .cw⟩, some ⟨0, 0, 0, 0, 0⟩) := by
    unfold cscShape
    simp only [if_neg hd]
    rw [if_neg (by simp), hrot]
    simp only [Complex.ofReal_zero, zero_mul, Complex.exp_zero]
    rw [hal, hbe, htan]
    have s1 : snap 0 0 = 0 := by rcases snap_spec 0 0 with h | ⟨h, _⟩ <;> exact h
    have s2 : snap Real.pi Real.pi = Real.pi := by rcases snap_spec Real.pi Real.pi with h | ⟨h, _⟩ <;> exact h
    simp only [s1, s2, sweep_self]
    norm_num
  rw [hsh]
  simp only [cscWays]
  rw [if_neg (by norm_num), if_neg (by norm_num)]
  rfl

/-- **C171, violated.**  A vehicle with a turn radius of 100 m that is to turn back on the spot is given a route of one waypoint, where it is.
The circle to its left is at the place of that to the right of the way back, so it is replaced by it, direction and all; with the next
circle it is taken for a turn to the right, which touches the turn to the left at the vehicle. -/
theorem C171_back_violated {sep : ℝ} (hs : 0 < sep) (h7 : 700 < 2147483648 * sep) : dubins 0 0 0 Real.pi 100 sep = .ok (some [⟨0, 0⟩]) := by
  have hp := Real.pi_gt_three
  obtain ⟨ws, w, hd, _⟩ := C171_arrives 0 0 0 Real.pi (r := 100) (sep := sep) (by norm_num) hs (by norm_num) (by linarith)
  have hd' := hd
  unfold dubins at hd
  rw [spot_cw, spot_ccw, back_cw, back_ccw] at hd
  rw [Outcome.bind_eq_ok] at hd
  obtain ⟨y1, h1, hd⟩ := hd
  rw [Outcome.bind_eq_ok] at hd
  obtain ⟨y2, h2, hd⟩ := hd
  rw [Outcome.bind_eq_ok] at hd
  obtain ⟨y3, h3, hd⟩ := hd
  rw [Outcome.bind_eq_ok] at hd
  obtain ⟨y4, h4, hd⟩ := hd
  simp only [Outcome.ok.injEq] at hd
  have hccc : ∀ (c c2 c' : Circle) (w : List Way), c.r = 100 → ccc 0 0 sep c c2 = .ok (c', some w) → 0 < total w := by
    intro c c2 c' w hc h
    have := ccc_total (by rw [hc]; norm_num) hs h
    have hg := Real.arccos_nonneg (‖c.c - c2.c‖ / (4 * c.r))
    rw [hc] at this hg
    have : 0 < (Real.pi + 2 * Real.arccos (‖c.c - c2.c‖ / (4 * 100))) * 100 := by positivity
    linarith
  have hrad : ∀ (c1 c2 c : Circle) (x : Option (List Way)), c1.r = 100 → c2.r = 100 → ‖c2.c - c1.c‖ < 2147483647 → csc 0 0 sep c1 c2 = .ok (c, x) → c.r = 100 := by
    intro c1 c2 c x k1 k2 hD h
    obtain ⟨c', x', h', hc⟩ := csc_ok (b := 0) (e := 0) (sep := sep) (r := 100) (by norm_num) hs k1 k2 hD (by norm_num) (by linarith)
    rw [h] at h'
    simp only [Outcome.ok.injEq, Prod.mk.injEq] at h'
    rw [h'.1]
    rcases hc with rfl | rfl <;> assumption
  -- the routes that are tried before
  have p1 : ∀ w, y1.2 = some w → 0 < total w := by
    refine pair_all h1 (by simp) ?_ ?_
    · intro c w h
      obtain ⟨d, least, s, hdd, _, hsh, ht⟩ := csc_total (by norm_num) (by norm_num) hs h
      simp only at hdd
      rw [norm_200.2, show (200 : ℝ) = 100 + 100 by norm_num, iRound_200] at hdd
      simp only [Outcome.ok.injEq] at hdd
      subst hdd
      obtain ⟨rot, _, hcase, _, q1, q2, as, bs, htan, rfl⟩ := cscShape_some hsh
      obtain ⟨_, rfl, _⟩ := hcase.resolve_left (fun h => absurd h.1 (by norm_num))
      simp only [tangents, if_true, Prod.mk.injEq] at htan
      obtain ⟨rfl, rfl, rfl, rfl⟩ := htan
      rw [ht]
      simp only
      have e1 : ∀ l, 0 ≤ counted l := by intro l; unfold counted; split <;> linarith
      rw [show ((((200 : ℤ) : ℝ) : ℂ) + ((100 : ℝ) : ℂ) * I - ((100 : ℝ) : ℂ) * I) = ((200 : ℝ) : ℂ) by push_cast; ring, Complex.norm_real, Real.norm_of_nonneg (by norm_num)]
      have a1 := e1 (sweep Dir.cw (bearing ((0 - 100) / rot)) (snap (0.5 * Real.pi) (bearing ((0 - 100) / rot))) * 100)
      have a2 := e1 (sweep Dir.cw (snap (0.5 * Real.pi) (bearing ((0 - 100) / rot - (-100 - 100) / rot))) (bearing ((0 - 100) / rot - (-100 - 100) / rot)) * 100)
      linarith
    · intro c x c' w hx _ h
      exact hccc c _ c' w (hrad _ _ c x rfl rfl (by simp only; rw [norm_200.2]; norm_num) hx) h
  have y1c : y1.1 = ⟨100, 100, .cw⟩ := by
    have := (pair_spec (p := ⟨0, toward 0⟩) (q := ⟨0, toward Real.pi⟩) (d1 := .cw) (d2 := .cw) (r := 100) (sep := sep) (best := none) (y := y1) (toward_unit 0) (toward_unit Real.pi) (by norm_num) hs
      (by rw [← beside_eq, ← beside_eq, spot_cw, back_cw]; simp only; rw [norm_200.2]; norm_num) (by rw [← beside_eq, ← beside_eq, spot_cw, back_cw]; exact h1)).1
    rw [this, ← beside_eq, spot_cw]
  have full : ∀ (c1 c2 c : Circle) (w : List Way) , c1.r = 100 → c2.r = 100 → c1.c = c2.c → (c2 = ⟨100, 100, .ccw⟩ ∨ c2 = ⟨-100, 100, .cw⟩) → csc 0 0 sep c1 c2 = .ok (c, some w) → 0 < total w := by
    intro c1 c2 c w k1 k2 hcc hor h
    obtain ⟨d, least, s, hdd, _, hsh, ht⟩ := csc_total (by rw [k1]; norm_num) (by rw [k2]; norm_num) hs h
    rw [hcc, sub_self, norm_zero, iRound_of (n := 0) (le_refl _) (by norm_num) (by norm_num) (by norm_num)] at hdd
    simp only [Outcome.ok.injEq] at hdd
    subst hdd
    obtain ⟨rot, _, hcase, _, q1, q2, as, bs, htan, rfl⟩ := cscShape_some hsh
    obtain ⟨_, rfl, rfl⟩ := hcase.resolve_right (fun h => h.1 (by norm_num))
    have e1 : ∀ l, 0 ≤ counted l := by intro l; unfold counted; split <;> linarith
    have key : 1 ≤ sweep c.dir (bearing ((0 - c.c) / 1)) (snap as (bearing ((0 - c.c) / 1))) * c.r := by
      rcases hor with rfl | rfl
      · have hal : bearing (((0 : ℂ) - 100) / 1) = Real.pi := by
          rw [show ((0 : ℂ) - 100) / 1 = -((100 : ℝ) : ℂ) by norm_num]; exact bearing_neg_real (by norm_num)
        simp only [tangents, if_true, Prod.mk.injEq] at htan
        obtain ⟨_, _, rfl, rfl⟩ := htan
        simp only
        rw [hal]
        have hsn : snap (1.5 * Real.pi) Real.pi = 1.5 * Real.pi := by
          apply snap_far <;> rw [abs_of_pos (by linarith)] <;> norm_num <;> linarith
        rw [hsn]
        simp only [sweep]
        rw [if_pos (by linarith)]
        linarith
      · have hal : bearing (((0 : ℂ) - -100) / 1) = 0 := by
          rw [show ((0 : ℂ) - -100) / 1 = ((100 : ℝ) : ℂ) by norm_num]; exact bearing_real (by norm_num)
        simp only [tangents, if_true, Prod.mk.injEq] at htan
        obtain ⟨_, _, rfl, rfl⟩ := htan
        simp only
        rw [hal]
        have hsn : snap (0.5 * Real.pi) 0 = 0.5 * Real.pi := by
          apply snap_far <;> rw [abs_of_pos (by linarith)] <;> norm_num <;> linarith
        rw [hsn]
        simp only [sweep]
        rw [if_neg (by linarith)]
        linarith
    rw [ht]
    have c1 : 1 ≤ counted (sweep c.dir (bearing ((0 - c.c) / 1)) (snap as (bearing ((0 - c.c) / 1))) * c.r) := by
      unfold counted; rw [if_pos key]; exact key
    simp only
    have c2 := norm_nonneg (q2 - q1)
    have c3 := e1 (sweep c.dir (snap bs (bearing ((0 - c.c) / 1 - (c.c - c.c) / 1))) (bearing ((0 - c.c) / 1 - (c.c - c.c) / 1)) * c.r)
    linarith
  have p2 : ∀ w, y2.2 = some w → 0 < total w := by
    refine pair_all h2 p1 ?_ ?_
    · intro c w h
      rw [y1c] at h
      exact full ⟨100, 100, .cw⟩ ⟨100, 100, .ccw⟩ c w rfl rfl rfl (Or.inl rfl) h
    · intro c x c' w hx _ h
      rw [y1c] at hx
      exact hccc c _ c' w (hrad _ _ c x rfl rfl (by simp) hx) h
  have p3 : ∀ w, y3.2 = some w → 0 < total w := by
    refine pair_all h3 p2 ?_ ?_
    · intro c w h
      exact full ⟨-100, 100, .ccw⟩ ⟨-100, 100, .cw⟩ c w rfl rfl rfl (Or.inr rfl) h
    · intro c x c' w hx _ h
      exact hccc c _ c' w (hrad _ _ c x rfl rfl (by simp) hx) h
  have y3c : y3.1 = ⟨-100, 100, .cw⟩ := pair_first rfl h3
  -- the last one
  unfold pair at h4
  rw [y3c, spot_last] at h4
  simp only [Outcome.bind_ok] at h4
  rw [if_neg (by rintro ⟨h, _⟩; simp at h)] at h4
  simp only [Outcome.ok.injEq] at h4
  have hres : y4.2 = some [⟨0, 0⟩] := by
    rw [← h4]
    simp only
    have ht0 : total [(⟨0, 0⟩ : Way)] = 0 := by simp [total, totalFrom]
    rcases hy : y3.2 with _ | v
    · rfl
    · have := p3 v hy
      simp only [better]
      rw [ht0, if_pos this]
  rw [hd', ← hd, hres]

end Verif.Dubins
