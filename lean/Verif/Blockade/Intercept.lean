import Verif.Blockade.Model
import Mathlib.Analysis.SpecialFunctions.Trigonometric.Bounds

/-!
# Where the enemy is met (C146)
-/

namespace Verif.Blockade

open Complex Verif.Escort

theorem rotate_eq (z : ℂ) (th : ℝ) : rotate z th = z * exp (th * I) := by
  rw [exp_mul_I, ← ofReal_cos, ← ofReal_sin]
  apply Complex.ext
  · simp only [rotate, mul_re, add_re, add_im, mul_im, ofReal_re, ofReal_im, I_re, I_im]; ring
  · simp only [rotate, mul_re, add_re, add_im, mul_im, ofReal_re, ofReal_im, I_re, I_im]; ring

theorem rotate_norm (z : ℂ) (th : ℝ) : ‖rotate z th‖ = ‖z‖ := by
  rw [rotate_eq, norm_mul, norm_exp_ofReal_mul_I, mul_one]

theorem rotate_back (z : ℂ) (th : ℝ) : rotate (rotate z (-th)) th = z := by
  rw [rotate_eq, rotate_eq, mul_assoc, ← exp_add]; simp

theorem rotate_sub (z w : ℂ) (th : ℝ) : rotate (z - w) th = rotate z th - rotate w th := by
  rw [rotate_eq, rotate_eq, rotate_eq]; ring

theorem rotate_arg (z : ℂ) : rotate z (-arg z) = (‖z‖ : ℂ) := by
  rw [rotate_eq]
  conv_lhs => rw [← norm_mul_exp_arg_mul_I z]
  rw [mul_assoc, ← exp_add]
  simp

theorem near_right {a b : ℝ} (ha : 0 < a) (hb : 0 ≤ b) (h : |b ^ 2 - a ^ 2| ≤ 1e-4 * (a ^ 2 + b ^ 2)) :
    |b ^ 2 - a ^ 2| ≤ 2e-4 * b * (2 * a) := by
  have h2 := (abs_le.1 h).1
  have h3 := (abs_le.1 h).2
  norm_num at h2 h3
  have hba : b ≤ 2 * a := by
    apply le_of_sq_le_sq _ (by linarith)
    rw [mul_pow]; linarith [sq_nonneg a]
  have hab : a ≤ 2 * b := by
    apply le_of_sq_le_sq _ (by linarith)
    rw [mul_pow]; linarith [sq_nonneg b]
  have h4 := mul_le_mul_of_nonneg_left hba hb
  have h5 := mul_le_mul_of_nonneg_left hab ha.le
  refine le_trans h ?_
  norm_num
  nlinarith

theorem near_axis {a b : ℝ} (ha : 0 < a) (hb : 0 ≤ b) (hle : b ≤ a) (h : 2 * a * b ≤ 1e-4 * |a ^ 2 - b ^ 2|) :
    b ^ 2 ≤ 2e-4 * b * (2 * a) := by
  rw [abs_of_nonneg (by nlinarith)] at h
  norm_num at h ⊢
  have : 20000 * b ≤ a := by
    by_contra hc
    have := mul_lt_mul_of_pos_left (not_le.1 hc) ha
    nlinarith
  nlinarith

theorem near_none {a b e : ℝ} (ha : 0 < a) (hlt : a < b) (h : 2 * a * b ≤ 1e-4 * |a ^ 2 - b ^ 2|) (he : e ≤ 90000)
    (hbe : b ^ 2 ≤ 2 * e * a - a ^ 2) : a ^ 2 + b ^ 2 < 100 := by
  rw [abs_of_nonpos (by nlinarith)] at h
  norm_num at h
  have hb0 : 0 < b := by linarith
  have h4 : 20000 * a ≤ b := by
    by_contra hc
    have := mul_lt_mul_of_pos_left (not_le.1 hc) hb0
    nlinarith
  have h5 : 2 * e * a ≤ 180000 * a := by nlinarith
  have h6 : b ≤ 9 := by
    by_contra hc
    have := mul_lt_mul_of_pos_left (not_le.1 hc) hb0
    nlinarith
  nlinarith

/-- What `meet` computes before its special cases: the point of the axis as far from the vehicle as from the enemy. -/
theorem meet_near {e : ℝ} {w : ℂ} (hw : ‖w‖ ≤ e) (hq : 10 ≤ ‖w - (e : ℂ)‖) (he : e ≤ 90000) :
    0 ≤ meet e w ∧ meet e w ≤ e ∧
      |‖(meet e w : ℂ) - w‖ - (e - meet e w)| ≤ 4e-4 * |w.im| := by
  have hpi := Real.pi_pos
  have he0 : 0 ≤ e := le_trans (norm_nonneg _) hw
  set q := w - (e : ℂ) with hqdef
  set a := e - w.re with ha
  set b := |w.im| with hb
  have b0 : 0 ≤ b := abs_nonneg _
  have b2 : w.im ^ 2 = b ^ 2 := by rw [hb, sq_abs]
  have hqre : q.re = -a := by rw [hqdef, ha]; simp
  have hqim : q.im = w.im := by rw [hqdef]; simp
  have hq2 : ‖q‖ ^ 2 = a ^ 2 + b ^ 2 := by rw [normSq_def, hqre, hqim, b2]; ring
  have hw2 : w.re ^ 2 + b ^ 2 ≤ e ^ 2 := by
    rw [← b2, ← normSq_def]
    exact pow_le_pow_left₀ (norm_nonneg _) hw 2
  have hab : 100 ≤ a ^ 2 + b ^ 2 := by rw [← hq2]; nlinarith
  have hbe : b ^ 2 ≤ 2 * e * a - a ^ 2 := by rw [ha]; nlinarith
  have ha0 : 0 < a := by
    by_contra hc
    have : 2 * e * a ≤ 0 := mul_nonpos_of_nonneg_of_nonpos (by linarith) (not_lt.1 hc)
    nlinarith
  have hqpos : 0 < ‖q‖ := by linarith
  -- the angle
  set d := |angle (e : ℂ) w| with hd
  have hang : angle (e : ℂ) w = arg q := by
    unfold angle; rw [← hqdef, if_neg]; norm_num; linarith
  have hcos : ‖q‖ * Real.cos d = -a := by
    rw [hd, hang, Real.cos_abs, ← hqre]; exact norm_mul_cos_arg q
  have hsin : ‖q‖ * Real.sin d = b := by
    rw [hd, hang, hb, ← hqim]
    rcases le_or_gt 0 q.im with h | h
    · rw [abs_of_nonneg (arg_nonneg_iff.2 h), abs_of_nonneg h]; exact norm_mul_sin_arg q
    · rw [abs_of_neg (arg_neg_iff.2 h), abs_of_neg h, Real.sin_neg, ← norm_mul_sin_arg q]; ring
  have hd0 : 0 ≤ d := abs_nonneg _
  have hd1 : d ≤ Real.pi := by rw [hd, hang]; exact abs_arg_le_pi q
  have hd2 : Real.pi / 2 < d := by
    by_contra hc
    have := Real.cos_nonneg_of_neg_pi_div_two_le_of_le (x := d) (by linarith) (not_lt.1 hc)
    have := mul_nonneg hqpos.le this
    linarith
  set c := ‖q‖ ^ 2 with hc
  have hs2 : c * Real.sin (Real.pi - 2 * d) = -(2 * a * b) := by
    rw [Real.sin_pi_sub, Real.sin_two_mul, hc]
    linear_combination (2 * ‖q‖ * Real.cos d) * hsin + 2 * b * hcos
  have hc2 : c * Real.cos (Real.pi - 2 * d) = b ^ 2 - a ^ 2 := by
    rw [Real.cos_pi_sub, Real.cos_two_mul']
    have h1 : c * Real.cos d ^ 2 = a ^ 2 := by
      rw [hc]; linear_combination (‖q‖ * Real.cos d - a) * hcos
    have h2 : c * Real.sin d ^ 2 = b ^ 2 := by
      rw [hc]; linear_combination (‖q‖ * Real.sin d + b) * hsin
    linarith
  have cpos : 0 < c := by positivity
  set beta := Real.pi - 2 * d with hbeta
  have htan : Real.tan beta * (a ^ 2 - b ^ 2) = 2 * a * b ∨ (a = b ∧ Real.cos beta = 0) := by
    by_cases hz : Real.cos beta = 0
    · right
      rw [hz, mul_zero] at hc2
      exact ⟨by nlinarith, hz⟩
    · left
      rw [Real.tan_eq_sin_div_cos, div_mul_eq_mul_div, div_eq_iff hz]
      apply mul_left_cancel₀ cpos.ne'
      have : a ^ 2 - b ^ 2 = -(c * Real.cos beta) := by linarith
      rw [this]
      linear_combination (-(c * Real.cos beta)) * hs2
  -- the exact place
  set x := (a ^ 2 - b ^ 2) / (2 * a) with hx
  have hx0 : 0 ≤ w.re + x := by
    have : w.re + x = (2 * e * a - a ^ 2 - b ^ 2) / (2 * a) := by
      have : e = a + w.re := by rw [ha]; ring
      rw [hx, this]; field_simp; ring
    rw [this]
    exact div_nonneg (by linarith) (by linarith)
  have hxe : e - (w.re + x) = (a ^ 2 + b ^ 2) / (2 * a) := by
    have : e = a + w.re := by rw [ha]; ring
    rw [hx, this]; field_simp; ring
  have hxn : ‖((w.re + x : ℝ) : ℂ) - w‖ = e - (w.re + x) := by
    rw [hxe]
    have h0 : 0 ≤ (a ^ 2 + b ^ 2) / (2 * a) := by positivity
    apply le_antisymm
    · apply le_of_sq_le_sq _ h0
      rw [normSq_def]; simp only [sub_re, sub_im, ofReal_re, ofReal_im]
      rw [show (0 - w.im) ^ 2 = b ^ 2 by rw [← b2]; ring, hx]
      apply le_of_eq; field_simp; ring
    · apply le_of_sq_le_sq _ (norm_nonneg _)
      rw [normSq_def]; simp only [sub_re, sub_im, ofReal_re, ofReal_im]
      rw [show (0 - w.im) ^ 2 = b ^ 2 by rw [← b2]; ring, hx]
      apply le_of_eq; field_simp; ring
  have hxle : x ≤ a / 2 := by
    rw [hx, div_le_iff₀ (by linarith)]; nlinarith
  -- what is computed
  obtain ⟨y, hy, hyx, hya⟩ : ∃ y, meet e w = (if y + w.re < 0 then 0 else y + w.re) ∧ |y - x| ≤ 2e-4 * b ∧ y ≤ a := by
    refine ⟨_, rfl, ?_⟩
    rw [← hd, ← hbeta]
    by_cases c1 : |beta + Real.pi / 2| < 1e-4
    · rw [if_pos c1, zero_sub, abs_neg]
      refine ⟨?_, ha0.le⟩
      have hs : |Real.sin (beta + Real.pi / 2)| < 1e-4 := by
        refine lt_of_le_of_lt ?_ c1
        have h3 := Real.two_le_pi
        obtain ⟨l1, l2⟩ := abs_lt.1 c1
        norm_num at l1 l2
        rcases le_total 0 (beta + Real.pi / 2) with h | h
        · rw [abs_of_nonneg h, abs_of_nonneg (Real.sin_nonneg_of_nonneg_of_le_pi h (by linarith))]
          exact Real.sin_le h
        · rw [abs_of_nonpos h, abs_of_nonpos (Real.sin_nonpos_of_nonpos_of_neg_pi_le h (by linarith))]
          exact neg_le_neg (Real.le_sin h)
      rw [Real.sin_add_pi_div_two] at hs
      have h1 : |b ^ 2 - a ^ 2| ≤ 1e-4 * (a ^ 2 + b ^ 2) := by
        rw [← hc2, ← hq2, abs_mul, abs_of_pos cpos, mul_comm]
        exact mul_le_mul_of_nonneg_right hs.le cpos.le
      rw [hx, abs_div, abs_of_pos (show 0 < 2 * a by linarith), div_le_iff₀ (by linarith), abs_sub_comm]
      exact near_right ha0 b0 h1
    · rw [if_neg c1]
      by_cases c2 : 1e-4 < |Real.tan beta|
      · rw [if_pos c2]
        have ht : Real.tan beta ≠ 0 := by
          intro h; rw [h, abs_zero] at c2; norm_num at c2
        rcases htan with h | ⟨-, h⟩
        · have : b / Real.tan beta = x := by
            rw [hx, div_eq_div_iff ht (by linarith), mul_comm (a ^ 2 - b ^ 2), h]; ring
          rw [this, sub_self, abs_zero]
          exact ⟨by positivity, by linarith⟩
        · exact absurd (by rw [Real.tan_eq_sin_div_cos, h, div_zero]) ht
      · rw [if_neg c2]
        refine ⟨?_, by rw [← ha]; linarith⟩
        rcases htan with h | ⟨-, h⟩
        · have h1 : 2 * a * b ≤ 1e-4 * |a ^ 2 - b ^ 2| := by
            rw [← abs_of_nonneg (show 0 ≤ 2 * a * b by positivity), ← h, abs_mul]
            exact mul_le_mul_of_nonneg_right (not_lt.1 c2) (abs_nonneg _)
          have e1 : (e - w.re) / 2 - x = b ^ 2 / (2 * a) := by
            rw [← ha, hx]; field_simp; ring
          rw [e1, abs_of_nonneg (by positivity), div_le_iff₀ (by linarith)]
          rcases le_or_gt b a with hle | hlt
          · exact near_axis ha0 b0 hle h1
          · exact absurd (near_none ha0 hlt h1 he hbe) (not_lt.2 hab)
        · exfalso
          apply c1
          have hz : Real.sin (beta + Real.pi / 2) = 0 := by rw [Real.sin_add_pi_div_two, h]
          have := (Real.sin_eq_zero_iff_of_lt_of_lt (by rw [hbeta]; linarith) (by rw [hbeta]; linarith)).1 hz
          rw [this, abs_zero]; norm_num
  -- the clamp
  have hm : |meet e w - (w.re + x)| ≤ 2e-4 * b := by
    rw [hy]
    by_cases hneg : y + w.re < 0
    · rw [if_pos hneg, zero_sub, abs_neg, abs_of_nonneg hx0]
      have := (abs_le.1 hyx).1
      linarith
    · rw [if_neg hneg, show y + w.re - (w.re + x) = y - x by ring]; exact hyx
  refine ⟨?_, ?_, ?_⟩
  · rw [hy]; split_ifs with h
    · exact le_refl _
    · exact not_lt.1 h
  · rw [hy]; split_ifs with h
    · exact he0
    · rw [ha] at hya; linarith
  · have h1 : |‖(meet e w : ℂ) - w‖ - ‖((w.re + x : ℝ) : ℂ) - w‖| ≤ |meet e w - (w.re + x)| := by
      refine le_trans (abs_norm_sub_norm_le _ _) (le_of_eq ?_)
      rw [sub_sub_sub_cancel_right, ← ofReal_sub, norm_real, Real.norm_eq_abs]
    rw [hxn] at h1
    have e2 : ‖(meet e w : ℂ) - w‖ - (e - meet e w) =
        (‖(meet e w : ℂ) - w‖ - (e - (w.re + x))) + (meet e w - (w.re + x)) := by ring
    rw [e2]
    refine le_trans (abs_add_le _ _) ?_
    have := le_trans h1 hm
    norm_num at this hm ⊢
    linarith

/-- The direction from the base to the enemy. -/
noncomputable def dir (base enemy : ℂ) : ℂ := exp (arg (enemy - base) * I)

theorem dir_norm (base enemy : ℂ) : ‖dir base enemy‖ = 1 := norm_exp_ofReal_mul_I _

theorem dir_spec (base enemy : ℂ) : enemy - base = (‖enemy - base‖ : ℂ) * dir base enemy :=
  (norm_mul_exp_arg_mul_I _).symm

/-- **C146.**  A vehicle is sent to the place on the line of approach, between the base and the point at the standoff distance
in front of the enemy, that it reaches at the same time as the enemy would, both at the same speed: when it is no further from
the base than that point, and to within 0.04 % of its own distance from the base.  When it is further, it is sent to the base;
when it is within 10 m of the point, to the point itself. -/
theorem C146_meet_partial {v target base : ℂ} {standoff : ℝ} (h : standoff < ‖target - base‖) :
    let e := ‖target - base‖ - standoff
    let front := base + (e : ℂ) * dir base target
    ∃ ell : ℝ, (centre (some v) target (some base) standoff).1 = base + (ell : ℂ) * dir base target ∧
      (e < ‖v - base‖ → ell = 0) ∧
      (‖v - base‖ ≤ e → ‖v - front‖ < 10 → ell = e) ∧
      (‖v - base‖ ≤ e → 10 ≤ ‖v - front‖ → e ≤ 90000 →
        0 ≤ ell ∧ ell ≤ e ∧
        |‖base + (ell : ℂ) * dir base target - v‖ - ‖base + (ell : ℂ) * dir base target - front‖| ≤ 4e-4 * ‖v - base‖) := by
  intro e front
  have he : 0 < e := by simp only [e]; linarith
  set r := arg (target - base) with hr
  set u := dir base target with hu
  have hu1 : ‖u‖ = 1 := dir_norm _ _
  have huu : exp (((-r : ℝ) : ℂ) * I) * u = 1 := by
    rw [hu, dir, ← hr, ← exp_add]; simp
  set w := rotate (v - base) (-r) with hw
  have hwn : ‖w‖ = ‖v - base‖ := rotate_norm _ _
  have hwu : w * u = v - base := by
    rw [hw, rotate_eq, mul_assoc, huu, mul_one]
  have hfr : (⟨(rotate (target - base) (-r)).re - standoff, (rotate (target - base) (-r)).im⟩ : ℂ) = (e : ℂ) := by
    rw [hr, rotate_arg]; apply Complex.ext <;> simp [e]
  have hback : rotate (e : ℂ) r = (e : ℂ) * u := by rw [rotate_eq]; rfl
  have hdist : ∀ x : ℂ, ‖base + x * u - v‖ = ‖x - w‖ := by
    intro x
    rw [show base + x * u - v = (x - w) * u by rw [sub_mul, hwu]; ring, norm_mul, hu1, mul_one]
  have hfront : ‖v - front‖ = ‖w - (e : ℂ)‖ := by
    rw [norm_sub_rev, hdist, norm_sub_rev]
  have hcen : (centre (some v) target (some base) standoff).1 =
      ((if e < ‖w‖ then (0 : ℝ) else if ‖w - (e : ℂ)‖ < 10 then 1 else meet e w / e : ℝ) : ℂ) * ((e : ℂ) * u) + base := by
    simp only [centre]
    rw [if_pos h]
    simp only
    have hre : (rotate (target - base) (-r)).re - standoff = e := by
      have := congrArg Complex.re hfr; simpa using this
    rw [← hr, hfr, ← hw, hback, hre]
  rw [hcen]
  by_cases c1 : e < ‖w‖
  · rw [if_pos c1]
    rw [hwn] at c1
    refine ⟨0, by simp, fun _ => rfl, fun h => absurd c1 (not_lt.2 h), fun h => absurd c1 (not_lt.2 h)⟩
  rw [if_neg c1]
  by_cases c2 : ‖w - (e : ℂ)‖ < 10
  · rw [if_pos c2]
    refine ⟨e, by simp; ring, fun h => absurd (hwn ▸ h) c1, fun _ _ => rfl, fun _ h => absurd (hfront ▸ h) (not_le.2 c2)⟩
  rw [if_neg c2]
  refine ⟨meet e w, ?_, fun h => absurd (hwn ▸ h) c1, fun _ h => absurd (hfront ▸ h) c2, ?_⟩
  · have : (e : ℂ) ≠ 0 := by rw [ofReal_ne_zero]; exact he.ne'
    push_cast; field_simp; ring
  · intro h1 h2 h3
    obtain ⟨m1, m2, m3⟩ := meet_near (not_lt.1 c1) (not_lt.1 c2) h3
    refine ⟨m1, m2, ?_⟩
    have e1 : ‖base + (meet e w : ℂ) * u - front‖ = e - meet e w := by
      rw [show base + (meet e w : ℂ) * u - front = ((meet e w - e : ℝ) : ℂ) * u by simp only [front]; push_cast; ring,
        norm_mul, hu1, mul_one, norm_real, Real.norm_of_nonpos (by linarith)]; ring
    rw [hdist, e1]
    refine le_trans m3 ?_
    have : |w.im| ≤ ‖v - base‖ := hwn ▸ abs_im_le_norm w
    norm_num
    linarith

/-- **C146.**  When the enemy is within the standoff distance of the base, a vehicle is sent to the base. -/
theorem C146_close {v target base : ℂ} {standoff : ℝ} (h : ‖target - base‖ ≤ standoff) :
    (centre (some v) target (some base) standoff).1 = base := by
  simp only [centre]
  rw [if_neg (not_lt.2 h)]
  simp

end Verif.Blockade
