import Verif.Extend.Near

/-!
The slide and the race track.
-/

namespace Verif.Extend

open Real

/-! ## The slide -/

/-- The ends of the pieces, in the frame of the segment. -/
noncomputable def sli (th R : ℝ) : ℕ → Pose
  | 0 => ⟨0, 0, 0⟩
  | 1 => ⟨R, R, π / 2⟩
  | 2 => ⟨2 * R, 2 * R, 0⟩
  | 3 => ⟨3 * R, R, -(π / 2)⟩
  | 4 => ⟨2 * R + R * cos th, R - R * sin th, -(π / 2) - th⟩
  | 5 => ⟨2 * R + 2 * R * cos th + R * sin (arccos (1 - sin th)),
      R - 2 * R * sin th - R * cos (arccos (1 - sin th)), arccos (1 - sin th)⟩
  | _ => ⟨2 * R + 2 * R * cos th + 2 * R * sin (arccos (1 - sin th)),
      2 * R - 2 * R * sin th - 2 * R * cos (arccos (1 - sin th)), 0⟩

theorem sli1 (th R : ℝ) : (sli th R 0).leftBy R (π / 2) = sli th R 1 := by
  simp [sli, Pose.leftBy]
theorem sli2 (th R : ℝ) : (sli th R 1).rightBy R (π / 2) = sli th R 2 := by
  simp [sli, Pose.rightBy]; ring
theorem sli3 (th R : ℝ) : (sli th R 2).rightBy R (π / 2) = sli th R 3 := by
  simp [sli, Pose.rightBy]; constructor <;> ring

theorem sin_under (t : ℝ) : sin (-(π / 2) - t) = -cos t := by
  rw [show -(π / 2) - t = -(t + π / 2) by ring, sin_neg, sin_add_pi_div_two]

theorem cos_under (t : ℝ) : cos (-(π / 2) - t) = -sin t := by
  rw [show -(π / 2) - t = -(t + π / 2) by ring, cos_neg, cos_add_pi_div_two]

theorem sli4 (th R : ℝ) : (sli th R 3).rightBy R th = sli th R 4 := by
  simp only [sli, Pose.rightBy, Pose.mk.injEq, sin_under, cos_under, sin_neg, cos_neg, sin_pi_div_two, cos_pi_div_two]
  refine ⟨by ring, by ring, trivial⟩
theorem sli5 (th R : ℝ) : (sli th R 4).leftBy R (π / 2 + arccos (1 - sin th) + th) = sli th R 5 := by
  have h : -(π / 2) - th + (π / 2 + arccos (1 - sin th) + th) = arccos (1 - sin th) := by ring
  simp only [sli, Pose.leftBy, Pose.mk.injEq, h, sin_under, cos_under]
  refine ⟨by ring, by ring, trivial⟩
theorem sli6 (th R : ℝ) : (sli th R 5).rightBy R (arccos (1 - sin th)) = sli th R 6 := by
  simp only [sli, Pose.rightBy, Pose.mk.injEq, sub_self, sin_zero, cos_zero]
  refine ⟨by ring, by ring, trivial⟩

theorem slide_end {th : ℝ} (R : ℝ) (h0 : 0 ≤ th) (h1 : th ≤ π / 2) (o : Pose) :
    (((((o.leftBy R (π / 2)).rightBy R (π / 2)).rightBy R (π / 2)).rightBy R th).leftBy R
        (π / 2 + arccos (1 - sin th) + th)).rightBy R (arccos (1 - sin th)) =
      ⟨o.x + slideStraight th R * cos o.psi, o.y + slideStraight th R * sin o.psi, o.psi⟩ := by
  have h := place_zero o
  rw [← h, place_leftBy, place_rightBy, place_rightBy, place_rightBy, place_leftBy, place_rightBy]
  have : (⟨0, 0, 0⟩ : Pose) = sli th R 0 := rfl
  rw [this, sli1, sli2, sli3, sli4, sli5, sli6]
  obtain ⟨_, _, hc, hs⟩ := del_spec h0 h1
  have hy : 2 * R - 2 * R * sin th - 2 * R * (1 - sin th) = 0 := by ring
  simp [place, sli, slideStraight, hc, hs, hy]

theorem slide_total (th R : ℝ) (a b : Dubins) : total (buildSlide th R a b) = slideArc th R := by
  simp [total, buildSlide, left, right, rightAround, slideArc]
  ring

theorem slide_near {th R d : ℝ} (hR : 0 < R) (h0 : 0 ≤ th) (h1 : th ≤ π / 2) {a b : Dubins}
    (hx : b.x - a.x = d * cos (direction a b)) (hy : b.y - a.y = d * sin (direction a b))
    (hd : slideStraight th R ≤ d) {z : ℝ × ℝ}
    (hz : Passes R ⟨a.x, a.y, direction a b⟩ (buildSlide th R a b) z) : Near a b (2 * R) z := by
  rw [← place_zero ⟨a.x, a.y, direction a b⟩] at hz
  obtain ⟨u, v, hq, rfl⟩ := passes_place hz
  clear hz
  have hs0 : 0 ≤ sin th := sin_nonneg_of_nonneg_of_le_pi h0 (by linarith [pi_pos])
  have hs1 := sin_le_one th
  have hc0 : 0 ≤ cos th := cos_nonneg_of_neg_pi_div_two_le_of_le (by linarith [pi_pos]) h1
  have hcs := sin_sq_add_cos_sq th
  obtain ⟨d0, d1, dc, ds⟩ := del_spec h0 h1
  have hsum : 1 ≤ cos th + sin th := by nlinarith
  have hds : sin th ≤ sin (arccos (1 - sin th)) := by
    rw [ds]
    apply Real.le_sqrt_of_sq_le
    nlinarith
  have hbox : ∀ t, 0 ≤ t → t ≤ π / 2 → 0 ≤ sin t ∧ sin t ≤ 1 ∧ 0 ≤ cos t ∧ cos t ≤ 1 := fun t a b =>
    ⟨sin_nonneg_of_nonneg_of_le_pi a (by linarith [pi_pos]), sin_le_one t,
      cos_nonneg_of_neg_pi_div_two_le_of_le (by linarith [pi_pos]) b, cos_le_one t⟩
  have hbx : ∀ t, 0 ≤ t → t ≤ π / 2 → 0 ≤ R * sin t ∧ R * sin t ≤ R ∧ 0 ≤ R * cos t ∧ R * cos t ≤ R := fun t a b => by
    obtain ⟨k1, k2, k3, k4⟩ := hbox t a b
    exact ⟨mul_nonneg hR.le k1, mul_le_of_le_one_right hR.le k2, mul_nonneg hR.le k3, mul_le_of_le_one_right hR.le k4⟩
  obtain ⟨n1, n2, n3, n4⟩ := hbx th h0 h1
  have n5 := mul_nonneg hR.le (hs0.trans hds)
  unfold slideStraight at hd
  rw [← ds] at hd
  have goal : 0 ≤ u ∧ u ≤ 2 * R + 2 * R * cos th + 2 * R * sin (arccos (1 - sin th)) ∧ -(2 * R) ≤ v ∧ v ≤ 2 * R := by
    have e0 : (⟨0, 0, 0⟩ : Pose) = sli th R 0 := rfl
    rw [e0] at hq
    unfold buildSlide at hq
    have hL : 4 * R ≤ 2 * R + 2 * R * cos th + 2 * R * sin (arccos (1 - sin th)) := by nlinarith
    rcases passes_left hR rfl rfl hq with ⟨t, t0, t1, hz⟩ | hq
    · simp only [Pose.leftBy, sli, Prod.mk.injEq, sin_zero, cos_zero, zero_add] at hz
      obtain ⟨rfl, rfl⟩ := hz
      obtain ⟨k1, k2, k3, k4⟩ := hbx t t0 t1
      refine ⟨by linarith, by linarith, by linarith, by linarith⟩
    rw [sli1] at hq
    rcases passes_right hR rfl rfl hq with ⟨t, t0, t1, hz⟩ | hq
    · simp only [Pose.rightBy, sli, Prod.mk.injEq, sin_pi_div_two, cos_pi_div_two, sin_pi_div_two_sub,
        cos_pi_div_two_sub] at hz
      obtain ⟨rfl, rfl⟩ := hz
      obtain ⟨k1, k2, k3, k4⟩ := hbx t t0 t1
      refine ⟨by linarith, by linarith, by linarith, by linarith⟩
    rw [sli2] at hq
    rcases passes_right hR rfl rfl hq with ⟨t, t0, t1, hz⟩ | hq
    · simp only [Pose.rightBy, sli, Prod.mk.injEq, zero_sub, sin_neg, cos_neg, sin_zero, cos_zero] at hz
      obtain ⟨rfl, rfl⟩ := hz
      obtain ⟨k1, k2, k3, k4⟩ := hbx t t0 t1
      refine ⟨by linarith, by linarith, by linarith, by linarith⟩
    rw [sli3] at hq
    rcases passes_right hR rfl rfl hq with ⟨t, t0, t1, hz⟩ | hq
    · simp only [Pose.rightBy, sli, Prod.mk.injEq, sin_under, cos_under, sin_neg, cos_neg, sin_pi_div_two,
        cos_pi_div_two] at hz
      obtain ⟨rfl, rfl⟩ := hz
      obtain ⟨k1, k2, k3, k4⟩ := hbx t t0 (t1.trans h1)
      refine ⟨by linarith, by linarith, by linarith, by linarith⟩
    rw [sli4] at hq
    rcases passes_left hR rfl rfl hq with ⟨t, t0, t1, hz⟩ | hq
    · simp only [Pose.leftBy, sli, Prod.mk.injEq, sin_under, cos_under] at hz
      obtain ⟨rfl, rfl⟩ := hz
      have k1 := neg_one_le_sin (-(π / 2) - th + t)
      have k2 := neg_one_le_cos (-(π / 2) - th + t)
      have k3 := cos_le_one (-(π / 2) - th + t)
      have k4 : sin (-(π / 2) - th + t) ≤ sin (arccos (1 - sin th)) := by
        rcases le_total (-(π / 2)) (-(π / 2) - th + t) with h | h
        · exact sin_le_sin_of_le_of_le_pi_div_two h d1 (by linarith)
        · have : sin (-(π / 2) - th + t) ≤ 0 := sin_nonpos_of_nonpos_of_neg_pi_le (by linarith [pi_pos]) (by linarith)
          linarith
      have m1 := mul_le_mul_of_nonneg_left k1 hR.le
      have m2 := mul_le_mul_of_nonneg_left k2 hR.le
      have m3 := mul_le_mul_of_nonneg_left k3 hR.le
      have m4 := mul_le_mul_of_nonneg_left k4 hR.le
      have m5 := mul_nonneg hR.le hs0
      have m6 := mul_le_mul_of_nonneg_left hs1 hR.le
      have m7 := mul_nonneg hR.le hc0
      have m8 := mul_nonneg hR.le (hs0.trans hds)
      refine ⟨by linarith, by linarith, by linarith, by linarith⟩
    rw [sli5] at hq
    rcases passes_right hR rfl rfl hq with ⟨t, t0, t1, hz⟩ | hq
    · simp only [Pose.rightBy, sli, Prod.mk.injEq] at hz
      obtain ⟨rfl, rfl⟩ := hz
      obtain ⟨k1, k2, k3, k4⟩ := hbx (arccos (1 - sin th) - t) (by linarith) (by linarith)
      have k5 : sin (arccos (1 - sin th) - t) ≤ sin (arccos (1 - sin th)) :=
        sin_le_sin_of_le_of_le_pi_div_two (by linarith [pi_pos]) d1 (by linarith)
      have m5 := mul_le_mul_of_nonneg_left k5 hR.le
      have m6 : R * cos (arccos (1 - sin th)) = R - R * sin th := by rw [dc]; ring
      refine ⟨by linarith, by linarith, by linarith, by linarith⟩
    exact hq.elim
  obtain ⟨g1, g2, g3, g4⟩ := goal
  refine near_of hx hy g1 (g2.trans hd) ?_
  rw [sub_self]
  nlinarith

/-! ## The race track -/

theorem passes_quarters {R tx ty : ℝ} (hR : 0 < R) : ∀ (n : ℕ) {p o : Pose} {vs : List Dubins} {z : ℝ × ℝ},
    Passes R o ((quarters R tx ty n p).2 ++ vs) z →
    (∃ t, z = ((o.leftBy R t).x, (o.leftBy R t).y)) ∨ Passes R (o.leftBy R (n * (π / 2))) vs z
  | 0, p, o, vs, z, h => by
    right
    simpa [quarters, Pose.leftBy] using h
  | n + 1, p, o, vs, z, h => by
    unfold quarters at h
    dsimp only at h
    rw [List.cons_append] at h
    rcases passes_left (w := (quarter R tx ty p).2) hR rfl rfl h with ⟨t, _, _, hz⟩ | h
    · exact .inl ⟨t, hz⟩
    · rcases passes_quarters hR n h with ⟨t, hz⟩ | h
      · rw [leftBy_add] at hz
        exact .inl ⟨_, hz⟩
      · rw [leftBy_add] at h
        have : π / 2 + n * (π / 2) = (n + 1 : ℕ) * (π / 2) := by push_cast; ring
        rw [this] at h
        exact .inr h

theorem turns (N : ℕ) : cos ((N * 4 : ℕ) * (π / 2)) = 1 ∧ sin ((N * 4 : ℕ) * (π / 2)) = 0 := by
  have : ((N * 4 : ℕ) : ℝ) * (π / 2) = (N : ℕ) * (2 * π) := by push_cast; ring
  rw [this]
  refine ⟨cos_nat_mul_two_pi N, ?_⟩
  have h2 : ((N : ℕ) : ℝ) * (2 * π) = ((N * 2 : ℕ) : ℝ) * π := by push_cast; ring
  rw [h2]
  exact sin_nat_mul_pi _

theorem half : ((2 : ℕ) : ℝ) * (π / 2) = π := by push_cast; ring

theorem track_end (N : ℕ) (track R : ℝ) (o : Pose) :
    ((((o.leftBy R ((N * 4 : ℕ) * (π / 2))).ahead track).leftBy R ((2 : ℕ) * (π / 2))).ahead track).leftBy R
      ((2 : ℕ) * (π / 2)) = ⟨o.x, o.y, o.psi + (N + 1 : ℕ) * (2 * π)⟩ := by
  obtain ⟨hc, hs⟩ := turns N
  rw [half, ← place_zero o, place_leftBy, place_ahead, place_leftBy, place_ahead, place_leftBy]
  simp only [Pose.leftBy, Pose.ahead, place, zero_add, sin_zero, cos_zero, cos_add_pi, sin_add_pi, hc, hs,
    Pose.mk.injEq]
  refine ⟨by ring, by ring, by push_cast; ring⟩

theorem total_quarters (R tx ty : ℝ) : ∀ (n : ℕ) (p : Pose), total (quarters R tx ty n p).2 = n * (π / 2 * R)
  | 0, p => by simp [quarters, total]
  | n + 1, p => by
    have h := total_quarters R tx ty n (quarter R tx ty p).1
    unfold total at h ⊢
    unfold quarters
    simp only [List.map_cons, List.sum_cons, h]
    simp only [quarter]
    push_cast
    ring

theorem total_append (ws vs : List Dubins) : total (ws ++ vs) = total ws + total vs := by
  simp [total]

theorem track_total (N : ℕ) (track R : ℝ) (a b : Dubins) :
    total (buildRaceTrack N track R a b) = (N + 1) * (2 * π * R) + 2 * track := by
  unfold buildRaceTrack
  simp only [total_append, total_quarters]
  simp only [total, straight, List.map_cons, List.map_nil, List.sum_cons, List.sum_nil]
  push_cast
  ring

theorem track_near {N : ℕ} {track R d : ℝ} (hR : 0 < R) (h0 : 0 ≤ track) {a b : Dubins}
    (hx : b.x - a.x = d * cos (direction a b)) (hy : b.y - a.y = d * sin (direction a b)) (hd : track ≤ d) {z : ℝ × ℝ}
    (hz : Passes R ⟨a.x, a.y, direction a b⟩ (buildRaceTrack N track R a b) z) : Near a b (2 * R) z := by
  rw [← place_zero ⟨a.x, a.y, direction a b⟩] at hz
  obtain ⟨u, v, hq, rfl⟩ := passes_place hz
  clear hz
  obtain ⟨hc, hs⟩ := turns N
  have goal : ∃ u0, 0 ≤ u0 ∧ u0 ≤ track ∧ (u - u0) ^ 2 + v ^ 2 ≤ (2 * R) ^ 2 := by
    unfold buildRaceTrack at hq
    simp only [List.append_assoc, List.singleton_append] at hq
    rcases passes_quarters hR _ hq with ⟨t, hz⟩ | hq
    · simp only [Pose.leftBy, Prod.mk.injEq, sin_zero, cos_zero, zero_add] at hz
      obtain ⟨rfl, rfl⟩ := hz
      refine ⟨0, le_rfl, h0, ?_⟩
      have h1 := sin_sq_add_cos_sq t
      have h2 := neg_one_le_cos t
      have hR2 : 0 < R ^ 2 := by positivity
      nlinarith
    have e1 : (⟨0, 0, 0⟩ : Pose).leftBy R ((N * 4 : ℕ) * (π / 2)) = ⟨0, 0, (N * 4 : ℕ) * (π / 2)⟩ := by
      simp only [Pose.leftBy, zero_add, hc, hs, sin_zero, cos_zero, Pose.mk.injEq]
      refine ⟨by ring, by ring, trivial⟩
    rw [e1] at hq
    rcases passes_straight rfl hq with ⟨t, t0, t1, hz⟩ | hq
    · simp only [Pose.ahead, Prod.mk.injEq, hc, hs, zero_add] at hz
      obtain ⟨rfl, rfl⟩ := hz
      refine ⟨t * 1, by linarith, by simp only [straight] at t1; linarith, ?_⟩
      have hR2 : 0 < R ^ 2 := by positivity
      nlinarith
    have e2 : (⟨0, 0, (N * 4 : ℕ) * (π / 2)⟩ : Pose).ahead track = ⟨track, 0, (N * 4 : ℕ) * (π / 2)⟩ := by
      simp only [Pose.ahead, hc, hs, Pose.mk.injEq]
      refine ⟨by ring, by ring, trivial⟩
    have e2' : ∀ p : Pose, (straight track p).2.len = track := fun _ => rfl
    rw [e2', e2] at hq
    rcases passes_quarters hR _ hq with ⟨t, hz⟩ | hq
    · simp only [Pose.leftBy, Prod.mk.injEq, sin_add, cos_add, hc, hs] at hz
      obtain ⟨rfl, rfl⟩ := hz
      refine ⟨track, h0, le_rfl, ?_⟩
      have h1 := sin_sq_add_cos_sq t
      have h2 := neg_one_le_cos t
      have hR2 : 0 < R ^ 2 := by positivity
      nlinarith
    have e3 : (⟨track, 0, (N * 4 : ℕ) * (π / 2)⟩ : Pose).leftBy R ((2 : ℕ) * (π / 2))
        = ⟨track, 2 * R, (N * 4 : ℕ) * (π / 2) + π⟩ := by
      simp only [Pose.leftBy, half, sin_add_pi, cos_add_pi, hc, hs, Pose.mk.injEq]
      refine ⟨by ring, by ring, trivial⟩
    rw [e3] at hq
    rcases passes_straight rfl hq with ⟨t, t0, t1, hz⟩ | hq
    · simp only [Pose.ahead, Prod.mk.injEq, hc, hs, sin_add_pi, cos_add_pi] at hz
      obtain ⟨rfl, rfl⟩ := hz
      simp only [straight] at t1
      refine ⟨track - t, by linarith, by linarith, ?_⟩
      nlinarith
    have e4 : (⟨track, 2 * R, (N * 4 : ℕ) * (π / 2) + π⟩ : Pose).ahead track = ⟨0, 2 * R, (N * 4 : ℕ) * (π / 2) + π⟩ := by
      simp only [Pose.ahead, hc, hs, sin_add_pi, cos_add_pi, Pose.mk.injEq]
      refine ⟨by ring, by ring, trivial⟩
    rw [e2', e4, ← List.append_nil (quarters _ _ _ 2 _).2] at hq
    rcases passes_quarters hR _ hq with ⟨t, hz⟩ | hq
    · simp only [Pose.leftBy, Prod.mk.injEq, sin_add, cos_add, hc, hs, sin_pi, cos_pi] at hz
      obtain ⟨rfl, rfl⟩ := hz
      refine ⟨0, le_rfl, h0, ?_⟩
      have h1 := sin_sq_add_cos_sq t
      have h2 := cos_le_one t
      have hR2 : 0 < R ^ 2 := by positivity
      nlinarith
    exact hq.elim
  obtain ⟨u0, g1, g2, g3⟩ := goal
  exact near_of hx hy g1 (g2.trans hd) g3

end Verif.Extend
