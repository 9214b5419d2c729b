import Verif.Dubins.Angles

/-!
# The paths that are laid out
-/

namespace Verif.Dubins

open Complex

theorem Dir.sign_sq (d : Dir) : d.sign * d.sign = 1 := by cases d <;> simp [Dir.sign]

theorem Dir.sign_abs (d : Dir) : |d.sign| = 1 := by cases d <;> simp [Dir.sign]

theorem Dir.sign_ne {d1 d2 : Dir} (h : d1 ≠ d2) : d2.sign = -d1.sign := by cases d1 <;> cases d2 <;> simp_all [Dir.sign]

theorem iI_sq (d : Dir) : ((d.sign : ℂ) * I) * ((d.sign : ℂ) * I) = -1 := by
  have : ((d.sign : ℂ)) * d.sign = 1 := by exact_mod_cast d.sign_sq
  linear_combination (I * I) * this + I_mul_I

/-- The circle beside a pose. -/
noncomputable def Pose.circle (p : Pose) (dir : Dir) (r : ℝ) : Circle := ⟨p.at_ + dir.sign * r * I * p.to_, r, dir⟩

theorem beside_eq (p : ℂ) (h r : ℝ) (dir : Dir) : beside p h r dir = Pose.circle ⟨p, toward h⟩ dir r := rfl

/-- The angle at which a pose is seen from the centre of its circle. -/
theorem pose_angle {p : Pose} {dir : Dir} {r : ℝ} (hr : 0 < r) (hu : ‖p.to_‖ = 1) {rot : ℂ} (hrot : ‖rot‖ = 1) :
    (r : ℂ) * exp ((bearing ((p.at_ - (p.circle dir r).c) / rot) : ℂ) * I) * rot = p.at_ - (p.circle dir r).c ∧
    p.to_ = dir.sign * I * (exp ((bearing ((p.at_ - (p.circle dir r).c) / rot) : ℂ) * I) * rot) := by
  have hrot0 : rot ≠ 0 := by rw [← norm_ne_zero_iff, hrot]; norm_num
  have hv : p.at_ - (p.circle dir r).c = -(dir.sign * r * I * p.to_) := by simp [Pose.circle]
  have hn : ‖(p.at_ - (p.circle dir r).c) / rot‖ = r := by
    rw [norm_div, hrot, hv]
    simp [hu, dir.sign_abs, abs_of_pos hr]
  have hb := bearing_exp ((p.at_ - (p.circle dir r).c) / rot)
  rw [hn] at hb
  have h1 : (r : ℂ) * exp ((bearing ((p.at_ - (p.circle dir r).c) / rot) : ℂ) * I) * rot = p.at_ - (p.circle dir r).c := by
    rw [hb]; field_simp
  refine ⟨h1, ?_⟩
  have hr0 : (r : ℂ) ≠ 0 := by exact_mod_cast hr.ne'
  apply mul_left_cancel₀ hr0
  have h2 := iI_sq dir
  have h3 := h1.trans hv
  linear_combination (-(dir.sign : ℂ) * I) * h3 + (r * p.to_) * h2

/-- A turn from the angle `a` to the angle `b` (up to full turns), in the frame of the centre. -/
theorem turned_angle {p : Pose} {dir : Dir} {r a b t : ℝ} {c rot : ℂ} (h1 : (r : ℂ) * exp ((a : ℂ) * I) * rot = p.at_ - c)
    (h2 : p.to_ = dir.sign * I * (exp ((a : ℂ) * I) * rot)) (ht : exp (((dir.sign * t : ℝ) : ℂ) * I) = exp (((b - a : ℝ) : ℂ) * I)) :
    p.turned dir r t = ⟨c + r * exp ((b : ℂ) * I) * rot, dir.sign * I * (exp ((b : ℂ) * I) * rot)⟩ := by
  have hb : exp ((a : ℂ) * I) * exp (((b - a : ℝ) : ℂ) * I) = exp ((b : ℂ) * I) := by
    rw [← Complex.exp_add]; congr 1; push_cast; ring
  have h3 := iI_sq dir
  unfold Pose.turned
  rw [ht]
  ext
  · simp only
    rw [h2]
    linear_combination (-1 : ℂ) * h1 + (r * exp ((a : ℂ) * I) * rot) * h3 -
      (r * exp ((a : ℂ) * I) * rot * exp (((b - a : ℝ) : ℂ) * I)) * h3 + (r * rot) * hb
  · simp only
    rw [h2]
    linear_combination (dir.sign * I * rot) * hb

theorem exp_half_pi : exp (((0.5 * Real.pi : ℝ) : ℂ) * I) = I := by
  rw [show (((0.5 * Real.pi : ℝ) : ℂ)) * I = Real.pi / 2 * I by push_cast; ring, Complex.exp_pi_div_two_mul_I]

theorem exp_three_half_pi : exp (((1.5 * Real.pi : ℝ) : ℂ) * I) = -I := by
  rw [show (((1.5 * Real.pi : ℝ) : ℂ)) * I = Real.pi * I + Real.pi / 2 * I by push_cast; ring, Complex.exp_add,
    Complex.exp_pi_div_two_mul_I, Complex.exp_pi_mul_I]
  ring

theorem exp_add_pi (x : ℝ) : exp (((x + Real.pi : ℝ) : ℂ) * I) = -exp ((x : ℂ) * I) := by
  rw [show (((x + Real.pi : ℝ) : ℂ)) * I = x * I + Real.pi * I by push_cast; ring, Complex.exp_add, Complex.exp_pi_mul_I]
  ring

theorem exp_cos_sin (x : ℝ) : exp ((x : ℂ) * I) = (Real.cos x : ℂ) + (Real.sin x : ℂ) * I := by
  rw [Complex.exp_mul_I, Complex.ofReal_cos, Complex.ofReal_sin]

/-- The straight line: it leaves the first circle in the direction of flight and reaches the second one in it, up to half a metre. -/
theorem tangents_spec {r d : ℝ} {d1 d2 : Dir} (hr : 0 < r) (hd : 0 ≤ d) (hx : d1 ≠ d2 → 1 ≤ d ∧ 2 * r ≤ d + 1 / 2) {p1 p2 : ℂ} {as bs : ℝ}
    (h : tangents r d1 d2 d = (p1, p2, as, bs)) :
    p1 = r * exp ((as : ℂ) * I) ∧ p2 = d + r * exp ((bs : ℂ) * I) ∧ d1.sign * exp ((as : ℂ) * I) = d2.sign * exp ((bs : ℂ) * I) ∧
    (∃ l δ : ℝ, 0 ≤ l ∧ 0 ≤ δ ∧ δ ≤ 1 / 2 ∧ p2 + δ = p1 + l * (d1.sign * I * exp ((as : ℂ) * I)) ∧ |‖p2 - p1‖ - l| ≤ δ ∧
      (d1 = d2 ∨ 2 * r < d → δ = 0) ∧ (d1 = d2 → l = d)) ∧
    (-1e-9 ≤ as ∧ as < 2 * Real.pi) ∧ (-1e-9 ≤ bs ∧ bs < 2 * Real.pi) := by
  have hp := Real.pi_gt_three
  unfold tangents at h
  by_cases he : d1 = d2
  · rw [if_pos he] at h
    subst he
    cases d1 <;> simp only [Prod.mk.injEq] at h <;> obtain ⟨rfl, rfl, rfl, rfl⟩ := h
    · refine ⟨by rw [exp_half_pi], by rw [exp_half_pi], rfl, ⟨d, 0, hd, le_refl _, by norm_num, ?_, ?_, fun _ => rfl, fun _ => rfl⟩,
        ⟨by norm_num; linarith, by linarith⟩, ⟨by norm_num; linarith, by linarith⟩⟩
      · rw [exp_half_pi]; simp only [Dir.sign]; push_cast; linear_combination (d : ℂ) * I_mul_I
      · rw [show (d : ℂ) + r * I - r * I = d by ring, Complex.norm_real, Real.norm_of_nonneg hd]; simp
    · refine ⟨by rw [exp_three_half_pi]; ring, by rw [exp_three_half_pi]; ring, rfl, ⟨d, 0, hd, le_refl _, by norm_num, ?_, ?_, fun _ => rfl, fun _ => rfl⟩,
        ⟨by norm_num; linarith, by linarith⟩, ⟨by norm_num; linarith, by linarith⟩⟩
      · rw [exp_three_half_pi]; simp only [Dir.sign]; push_cast; linear_combination (d : ℂ) * I_mul_I
      · rw [show (d : ℂ) - r * I - -(r * I) = d by ring, Complex.norm_real, Real.norm_of_nonneg hd]; simp
  · rw [if_neg he] at h
    obtain ⟨hd1, hrd⟩ := hx he
    have hd0 : 0 < d := by linarith
    have hd0' : (d : ℂ) ≠ 0 := by exact_mod_cast hd0.ne'
    -- the angle
    obtain ⟨a0, ha0, h0, hle, hspec⟩ : ∃ a0 : ℝ, (if 2 * r / d < 1 then normal (Real.arccos (2 * r / d)) else 0) = a0 ∧ 0 ≤ a0 ∧ a0 ≤ Real.pi / 2 ∧
        ((d * Real.cos a0 = 2 * r ∧ 2 * r < d) ∨ (a0 = 0 ∧ d ≤ 2 * r)) := by
      split
      · rename_i hc
        have hpos : 0 ≤ 2 * r / d := by positivity
        have h2 := Real.arccos_le_pi_div_two.2 hpos
        refine ⟨Real.arccos (2 * r / d), normal_self (Real.arccos_nonneg _) (by norm_num; linarith), Real.arccos_nonneg _, h2, Or.inl ⟨?_, ?_⟩⟩
        · rw [Real.cos_arccos (by linarith) hc.le]; field_simp
        · rwa [div_lt_one hd0] at hc
      · rename_i hc
        refine ⟨0, rfl, le_refl _, by linarith, Or.inr ⟨rfl, ?_⟩⟩
        rw [div_lt_one hd0] at hc
        linarith
    rw [ha0] at h
    have hsin : 0 ≤ Real.sin a0 := Real.sin_nonneg_of_nonneg_of_le_pi h0 (by linarith)
    -- lengths
    obtain ⟨l, δ, hl0, hδ0, hδ1, e1, e2, hδ⟩ : ∃ l δ : ℝ, 0 ≤ l ∧ 0 ≤ δ ∧ δ ≤ 1 / 2 ∧ d - 2 * (r * Real.cos a0) + δ = l * Real.sin a0 ∧
        2 * (r * Real.sin a0) = l * Real.cos a0 ∧ ((2 * r < d → δ = 0) ∧ ((δ = 0) ∨ (l = 0 ∧ a0 = 0 ∧ δ = 2 * r - d))) := by
      rcases hspec with ⟨hs, hlt⟩ | ⟨rfl, hs⟩
      · refine ⟨d * Real.sin a0, 0, by positivity, le_refl _, by norm_num, ?_, ?_, fun _ => rfl, Or.inl rfl⟩
        · have := Real.sin_sq_add_cos_sq a0
          rw [← mul_assoc, ← hs]
          linear_combination (-d) * this
        · rw [← mul_assoc, ← hs]; ring
      · refine ⟨0, 2 * r - d, le_refl _, by linarith, by linarith, ?_, ?_, fun h => absurd h (by linarith), Or.inr ⟨rfl, rfl, rfl⟩⟩
        · simp
        · simp
    have hnorm : ∀ x y : ℝ, |x| = |d - 2 * (r * Real.cos a0)| → |y| = |2 * (r * Real.sin a0)| → |‖(x : ℂ) + y * I‖ - l| ≤ δ := by
      intro x y hx hy
      rcases hδ.2 with rfl | ⟨rfl, rfl, rfl⟩
      · have : ‖(x : ℂ) + y * I‖ = l := by
          rw [Complex.norm_add_mul_I, ← sq_abs x, ← sq_abs y, hx, hy, e2, ← add_zero (d - _), e1, sq_abs, sq_abs]
          rw [show (l * Real.sin a0) ^ 2 + (l * Real.cos a0) ^ 2 = l ^ 2 * (Real.sin a0 ^ 2 + Real.cos a0 ^ 2) by ring, Real.sin_sq_add_cos_sq, mul_one,
            Real.sqrt_sq hl0]
        rw [this]; simp
      · have hy0 : y = 0 := by rw [← abs_eq_zero, hy]; simp
        rw [hy0]
        simp only [Complex.ofReal_zero, zero_mul, add_zero, sub_zero]
        rw [Complex.norm_real, Real.norm_eq_abs, abs_abs, hx, Real.cos_zero, mul_one, abs_sub_comm, abs_of_nonneg (by linarith)]
    have e1' : (d : ℂ) - 2 * (r * Real.cos a0) + δ = l * Real.sin a0 := by exact_mod_cast e1
    have e2' : (2 : ℂ) * (r * Real.sin a0) = l * Real.cos a0 := by exact_mod_cast e2
    cases d2
    · -- counterclockwise, then clockwise
      have h1 : d1 = .ccw := by cases d1 <;> simp_all
      subst h1
      simp only [Prod.mk.injEq] at h
      obtain ⟨rfl, rfl, rfl, rfl⟩ := h
      have hconj : exp ((normal (2 * Real.pi - a0) : ℂ) * I) = (Real.cos a0 : ℂ) - (Real.sin a0 : ℂ) * I := by
        rw [normal_exp, show (2 * Real.pi - a0 : ℝ) = -a0 + 2 * Real.pi * ((1 : ℤ) : ℝ) by push_cast; ring, exp_turns, exp_cos_sin, Real.cos_neg, Real.sin_neg]
        push_cast; ring
      have hb : exp ((normal (normal (2 * Real.pi - a0) + Real.pi) : ℂ) * I) = -((Real.cos a0 : ℂ) - (Real.sin a0 : ℂ) * I) := by
        rw [normal_exp, exp_add_pi, hconj]
      refine ⟨by rw [hconj]; push_cast; ring, by rw [hb]; push_cast; ring, by rw [hb, hconj]; simp [Dir.sign], ⟨l, δ, hl0, hδ0, hδ1, ?_, ?_, fun hh => ?_, fun hh => absurd hh he⟩,
        normal_range _, normal_range _⟩
      · rw [hconj]; simp only [Dir.sign]; push_cast; push_cast at e1' e2'
        linear_combination e1' + I * e2' + (l * Complex.sin a0) * I_mul_I
      · have := hnorm (d - 2 * (r * Real.cos a0)) (2 * (r * Real.sin a0)) rfl rfl
        convert this using 4
        push_cast; ring
      · exact hδ.1 (hh.resolve_left he)
    · have h1 : d1 = .cw := by cases d1 <;> simp_all
      subst h1
      simp only [Prod.mk.injEq] at h
      obtain ⟨rfl, rfl, rfl, rfl⟩ := h
      have hb : exp ((normal (a0 + Real.pi) : ℂ) * I) = -((Real.cos a0 : ℂ) + (Real.sin a0 : ℂ) * I) := by
        rw [normal_exp, exp_add_pi, exp_cos_sin]
      refine ⟨by rw [exp_cos_sin]; push_cast; ring, by rw [hb]; push_cast; ring, by rw [hb, exp_cos_sin]; simp [Dir.sign], ⟨l, δ, hl0, hδ0, hδ1, ?_, ?_, fun hh => ?_, fun hh => absurd hh he⟩,
        ⟨by norm_num; linarith, by linarith⟩, normal_range _⟩
      · rw [exp_cos_sin]; simp only [Dir.sign]; push_cast; push_cast at e1' e2'
        linear_combination e1' - I * e2' + (l * Complex.sin a0) * I_mul_I
      · have := hnorm (d - 2 * (r * Real.cos a0)) (-(2 * (r * Real.sin a0))) rfl (abs_neg _)
        convert this using 4
        push_cast; ring
      · exact hδ.1 (hh.resolve_left he)

end Verif.Dubins
