import Mathlib.Analysis.SpecialFunctions.Trigonometric.ArctanDeriv
import Mathlib.Analysis.Real.Pi.Bounds
import Verif.Dpss.Simplify

/-!
# How simplifying a road differs from what is meant (C165)
-/

namespace Verif.Dpss

open Complex

theorem arg_forward {z : ℂ} (h : 0 < z.re) : arg z = Real.arctan (z.im / z.re) := by
  rw [← Complex.tan_arg, Real.arctan_tan]
  · exact (abs_lt.1 (Complex.abs_arg_lt_pi_div_two_iff.2 (Or.inl h))).1
  · exact (abs_lt.1 (Complex.abs_arg_lt_pi_div_two_iff.2 (Or.inl h))).2

theorem arctan_sub_le {x y : ℝ} (h : x ≤ y) : Real.arctan y - Real.arctan x ≤ y - x := by
  have hm : Monotone fun t : ℝ => t - Real.arctan t := by
    apply monotone_of_deriv_nonneg
    · exact differentiable_id.sub Real.differentiable_arctan
    · intro t
      have hd : deriv (fun t : ℝ => t - Real.arctan t) t = 1 - 1 / (1 + t ^ 2) :=
        ((hasDerivAt_id t).sub (Real.hasDerivAt_arctan t)).deriv
      rw [hd, sub_nonneg, one_div]
      exact inv_le_one_of_one_le₀ (by nlinarith [sq_nonneg t])
  have := hm h
  simp only at this
  linarith

theorem arctan_abs_sub_le (x y : ℝ) : |Real.arctan x - Real.arctan y| ≤ |x - y| := by
  rcases le_total x y with h | h
  · have h1 := arctan_sub_le h
    have h2 := Real.arctan_mono h
    rw [abs_of_nonpos (by linarith), abs_of_nonpos (by linarith)]; linarith
  · have h1 := arctan_sub_le h
    have h2 := Real.arctan_mono h
    rw [abs_of_nonneg (by linarith), abs_of_nonneg (by linarith)]; linarith

/-- The angle and the separation when both steps go forward. -/
theorem separation_forward {a b c : ℂ} (h1 : 1 ≤ (b - a).re) (h2 : 1 ≤ (c - b).re) :
    separation a b c = (Real.arctan ((b - a).im / (b - a).re) - Real.arctan ((c - b).im / (c - b).re),
      |(b - a).re * (c - a).im - (c - a).re * (b - a).im| / ‖c - a‖) := by
  have big : ∀ z : ℂ, 1 ≤ z.re → ¬ ‖z‖ < 1e-6 := by
    intro z hz h
    have := Complex.re_le_norm z
    norm_num at h; linarith
  have h3 : 1 ≤ (c - a).re := by
    have e : (c - a).re = (b - a).re + (c - b).re := by simp
    rw [e]; linarith
  have e1 := arg_forward (z := b - a) (by linarith)
  have e2 := arg_forward (z := c - b) (by linarith)
  have hp := Real.pi_pos
  have b1 := Real.arctan_lt_pi_div_two ((b - a).im / (b - a).re)
  have b2 := Real.neg_pi_div_two_lt_arctan ((b - a).im / (b - a).re)
  have b3 := Real.arctan_lt_pi_div_two ((c - b).im / (c - b).re)
  have b4 := Real.neg_pi_div_two_lt_arctan ((c - b).im / (c - b).re)
  unfold separation
  simp only
  rw [if_neg (big _ h1), if_neg (big _ h2), if_neg (big _ h3), e1, e2]
  have n1 : ¬ Real.arctan ((b - a).im / (b - a).re) - Real.arctan ((c - b).im / (c - b).re) < -Real.pi := by linarith
  have n2 : ¬ Real.pi < Real.arctan ((b - a).im / (b - a).re) - Real.arctan ((c - b).im / (c - b).re) := by linarith
  rw [if_neg n1, if_neg n2]

/-- When the slopes differ by little and the triangle is flat the middle point is left out. -/
theorem straight_forward {a b c : Pt} (h1 : 1 ≤ (b.at_ - a.at_).re) (h2 : 1 ≤ (c.at_ - b.at_).re)
    (hs : |(b.at_ - a.at_).im / (b.at_ - a.at_).re - (c.at_ - b.at_).im / (c.at_ - b.at_).re| < 0.0017)
    (hd : |(b.at_ - a.at_).re * (c.at_ - a.at_).im - (c.at_ - a.at_).re * (b.at_ - a.at_).im| < (c.at_ - a.at_).re) :
    straight a b c := by
  unfold straight
  rw [separation_forward h1 h2]
  constructor
  · refine lt_of_le_of_lt (arctan_abs_sub_le _ _) (hs.trans ?_)
    have := Real.pi_gt_d2
    norm_num at this ⊢; linarith
  · simp only
    have h3 := Complex.re_le_norm (c.at_ - a.at_)
    have h4 : 0 < ‖c.at_ - a.at_‖ := by
      have e : (c.at_ - a.at_).re = (b.at_ - a.at_).re + (c.at_ - b.at_).re := by simp
      linarith
    rw [div_lt_one h4]
    linarith

/-- A point of the witnesses. -/
def pt (x y : ℝ) : Pt := ⟨⟨x, y⟩, 0, false⟩

/-- **C165, violated.**  A point that is left out may be more than a metre from what is left: the triangle is tested only
with the next point, and the line is turned further when that is left out too. -/
theorem C165_metre_violated :
    preProcess [pt 0 0, pt 10000 0, pt 20000 1.8, pt 40000 5.4] = [pt 0 0, pt 40000 5.4] ∧
    ∀ q, OnLine q ([pt 0 0, pt 40000 5.4].map (·.at_)) → 1.3 < ‖(pt 10000 0).at_ - q‖ := by
  constructor
  · have s1 : straight (pt 0 0) (pt 10000 0) (pt 20000 1.8) := by
      apply straight_forward <;> simp [pt] <;> norm_num [abs_lt]
    have s2 : straight (pt 0 0) (pt 20000 1.8) (pt 40000 5.4) := by
      apply straight_forward <;> simp [pt] <;> norm_num [abs_lt]
    rw [preProcess, straighten, if_pos s1, straighten, if_pos s2, straighten]
  · intro q hq
    simp only [List.map_cons, List.map_nil] at hq
    rw [onLine_cons] at hq
    have hq : q ∈ segment ℝ (pt 0 0).at_ (pt 40000 5.4).at_ := by
      rcases hq with hq | ⟨pre, a, b, post, h, _⟩ | hq
      · exact hq
      · have := congrArg List.length h; simp at this; omega
      · simp only [List.cons.injEq, and_true] at hq
        rw [← hq]; exact right_mem_segment ℝ _ _
    obtain ⟨r, s, hr, hs, hrs, rfl⟩ := hq
    have hn := Verif.Escort.normSq_def ((pt 10000 0).at_ - (r • (pt 0 0).at_ + s • (pt 40000 5.4).at_))
    simp only [pt, sub_re, sub_im, add_re, add_im, real_smul, mul_re, mul_im, ofReal_re, ofReal_im] at hn
    by_contra hc
    push Not at hc
    have h0 := norm_nonneg ((pt 10000 0).at_ - (r • (pt 0 0).at_ + s • (pt 40000 5.4).at_))
    have : ‖(pt 10000 0).at_ - (r • (pt 0 0).at_ + s • (pt 40000 5.4).at_)‖ ^ 2 ≤ 1.3 ^ 2 := pow_le_pow_left₀ h0 hc 2
    simp only [pt, real_smul] at this hn
    rw [hn] at this
    norm_num at this
    nlinarith [sq_nonneg (s - 0.25)]

/-- **C165, violated.**  What is left may still have a point that could be left out: one is not looked at again when the one
after it is gone. -/
theorem C165_again_violated :
    preProcess [pt 0 0, pt 500 0, pt 1000 1, pt 50000 25] = [pt 0 0, pt 500 0, pt 50000 25] ∧
    straight (pt 0 0) (pt 500 0) (pt 50000 25) := by
  constructor
  · have s1 : ¬ straight (pt 0 0) (pt 500 0) (pt 1000 1) := by
      unfold straight
      rw [separation_forward (by norm_num [pt]) (by norm_num [pt])]
      rintro ⟨h, -⟩
      simp only [pt, sub_re, sub_im] at h
      norm_num at h
      rw [abs_of_nonneg (Real.arctan_nonneg.2 (by norm_num))] at h
      have h1 : Real.arctan (1 / 500) < Real.arctan (Real.tan (Real.pi / 1800)) := by
        rw [Real.arctan_tan (by have := Real.pi_pos; linarith) (by have := Real.pi_pos; linarith)]
        refine lt_of_lt_of_eq h ?_
        ring
      have h2 := Real.arctan_lt_arctan_iff.1 h1
      have hp := Real.pi_lt_d2
      have hp0 := Real.pi_pos
      have hc := Real.one_sub_sq_div_two_le_cos (x := Real.pi / 1800)
      have hsn := Real.sin_le (x := Real.pi / 1800) (by positivity)
      have hcp : 0.99 ≤ Real.cos (Real.pi / 1800) := by
        refine le_trans ?_ hc
        norm_num at hp ⊢; nlinarith
      rw [Real.tan_eq_sin_div_cos, lt_div_iff₀ (by linarith)] at h2
      norm_num at hcp hp; linarith
    have s2 : straight (pt 500 0) (pt 1000 1) (pt 50000 25) := by
      apply straight_forward <;> simp [pt] <;> norm_num [abs_lt]
    rw [preProcess, straighten, if_neg s1, straighten, if_pos s2, straighten]
  · apply straight_forward <;> simp [pt] <;> norm_num [abs_lt]

end Verif.Dpss
