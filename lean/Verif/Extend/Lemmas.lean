import Verif.Extend.Spec
import Mathlib.Analysis.SpecialFunctions.Trigonometric.Bounds
import Mathlib.Analysis.Calculus.Deriv.MeanValue
import Mathlib.Analysis.Real.Pi.Bounds

/-!
Lemmas on the bisection, the lengths and the shapes.
-/

namespace Verif.Extend

open Real

/-! ## Bisection -/

theorem bisect_spec {f : ℝ → ℝ} : ∀ (n : ℕ) (lo hi : ℝ), 0 ≤ f lo → f hi < 0 → lo < hi → hi - lo ≤ eps * 2 ^ n →
    lo ≤ bisect f n lo hi ∧ 0 ≤ f (bisect f n lo hi) ∧
      ∃ h, bisect f n lo hi < h ∧ h ≤ bisect f n lo hi + eps ∧ h ≤ hi ∧ f h < 0
  | 0, lo, hi, h1, h2, h3, h4 => by
    refine ⟨le_rfl, h1, hi, h3, ?_, le_rfl, h2⟩
    simp only [bisect]
    linarith
  | n + 1, lo, hi, h1, h2, h3, h4 => by
    unfold bisect
    by_cases hg : lo + eps < hi
    · rw [if_pos hg]
      dsimp only
      by_cases hm : f (1 / 2 * lo + 1 / 2 * hi) < 0
      · have hne : ¬((f lo < 0) = (f (1 / 2 * lo + 1 / 2 * hi) < 0)) := by
          simp only [hm, not_lt.mpr h1, eq_iff_iff, false_iff, not_true, not_false_iff]
        rw [if_neg hne]
        obtain ⟨a, b, h, c, d, e, g⟩ := bisect_spec n lo (1 / 2 * lo + 1 / 2 * hi) h1 hm (by linarith) (by
          rw [pow_succ] at h4; linarith)
        exact ⟨a, b, h, c, d, by linarith, g⟩
      · have he : (f lo < 0) = (f (1 / 2 * lo + 1 / 2 * hi) < 0) := by
          simp only [hm, not_lt.mpr h1]
        rw [if_pos he]
        obtain ⟨a, b, h, c, d, e, g⟩ := bisect_spec n (1 / 2 * lo + 1 / 2 * hi) hi (not_lt.mp hm) h2 (by linarith) (by
          rw [pow_succ] at h4; linarith)
        exact ⟨by linarith, b, h, c, d, e, g⟩
    · rw [if_neg hg]
      exact ⟨le_rfl, h1, hi, h3, by linarith, le_rfl, h2⟩

/-- The search finds an angle at which the error is still not negative, and within `eps` of one at which it is. -/
theorem search_spec {f : ℝ → ℝ} (h0 : 0 ≤ f 0) (h1 : f (π / 2) < 0) :
    0 ≤ search f ∧ 0 ≤ f (search f) ∧ ∃ h, search f < h ∧ h ≤ search f + eps ∧ h ≤ π / 2 ∧ f h < 0 := by
  refine bisect_spec 28 0 (π / 2) h0 h1 (by positivity) ?_
  have := pi_le_four
  unfold eps
  norm_num
  linarith

/-! ## Lengths -/

theorem bubble_bracket {e R : ℝ} (he : 0 ≤ e) (h : e < 2 * R * (π - 2)) :
    0 ≤ bubbleError e R 0 ∧ bubbleError e R (π / 2) < 0 := by
  unfold bubbleError bubbleStraight bubbleArc
  rw [sin_zero, sin_pi_div_two]
  constructor
  · linarith
  · linarith

/-- The bubble gains the length asked for, or less by at most `4 R eps`. -/
theorem bubble_gain {e R : ℝ} (hR : 0 < R) (he : 0 ≤ e) (h : e < 2 * R * (π - 2)) :
    let th := search (bubbleError e R)
    0 ≤ th ∧ th ≤ π / 2 ∧ bubbleArc th R - bubbleStraight th R ≤ e ∧
      e - 4 * R * eps ≤ bubbleArc th R - bubbleStraight th R := by
  obtain ⟨h0, h1⟩ := bubble_bracket he h
  obtain ⟨a, b, u, c, d, g, k⟩ := search_spec h0 h1
  generalize search (bubbleError e R) = th at *
  refine ⟨a, by linarith, ?_, ?_⟩
  · unfold bubbleError at b
    linarith
  · unfold bubbleError bubbleStraight bubbleArc at k
    unfold bubbleStraight bubbleArc
    have hs : sin th ≤ sin u := sin_le_sin_of_le_of_le_pi_div_two (by linarith [pi_pos]) g c.le
    nlinarith

/-- `d - sin d + cos d` decreases on a quarter turn. -/
theorem arc_decr {d1 d2 : ℝ} (h0 : 0 ≤ d1) (h : d1 ≤ d2) (h2 : d2 ≤ π / 2) :
    (d2 - sin d2) - (d1 - sin d1) ≤ cos d1 - cos d2 := by
  have hanti : AntitoneOn (fun d => d - sin d + cos d) (Set.Icc 0 (π / 2)) := by
    apply antitoneOn_of_deriv_nonpos (convex_Icc 0 (π / 2))
    · fun_prop
    · fun_prop
    · intro x hx
      rw [interior_Icc] at hx
      have hd : HasDerivAt (fun d => d - sin d + cos d) (1 - cos x + -sin x) x :=
        ((hasDerivAt_id x).sub (hasDerivAt_sin x)).add (hasDerivAt_cos x)
      rw [hd.deriv]
      have hs : 0 ≤ sin x := sin_nonneg_of_nonneg_of_le_pi hx.1.le (by linarith [hx.2, pi_pos])
      have hc : 0 ≤ cos x := cos_nonneg_of_neg_pi_div_two_le_of_le (by linarith [hx.1, pi_pos]) hx.2.le
      nlinarith [sin_sq_add_cos_sq x]
  have := hanti ⟨h0, h.trans h2⟩ ⟨h0.trans h, h2⟩ h
  simp only at this
  linarith

theorem del_spec {th : ℝ} (h0 : 0 ≤ th) (h1 : th ≤ π / 2) :
    0 ≤ arccos (1 - sin th) ∧ arccos (1 - sin th) ≤ π / 2 ∧ cos (arccos (1 - sin th)) = 1 - sin th ∧
      sin (arccos (1 - sin th)) = √(1 - (1 - sin th) * (1 - sin th)) := by
  have hs0 : 0 ≤ sin th := sin_nonneg_of_nonneg_of_le_pi h0 (by linarith [pi_pos])
  have hs1 := sin_le_one th
  refine ⟨arccos_nonneg _, ?_, cos_arccos (by linarith) (by linarith), ?_⟩
  · rw [arccos_le_pi_div_two]
    linarith
  · rw [sin_arccos, sq]

theorem slide_bracket {e R : ℝ} (hR : 0 < R) (h0 : 2 * R * (π - 2) ≤ e) (h : e < 2 * π * R) :
    0 ≤ slideError e R 0 ∧ slideError e R (π / 2) < 0 := by
  have hpi := pi_gt_three
  unfold slideError slideStraight slideArc
  rw [sin_zero, cos_zero, sin_pi_div_two, cos_pi_div_two]
  norm_num
  constructor
  · nlinarith
  · nlinarith

/-- The slide gains the length asked for, or less by at most `6 R eps`. -/
theorem slide_gain {e R : ℝ} (hR : 0 < R) (h0 : 2 * R * (π - 2) ≤ e) (h : e < 2 * π * R) :
    let th := search (slideError e R)
    0 ≤ th ∧ th ≤ π / 2 ∧ slideArc th R - slideStraight th R ≤ e ∧
      e - 6 * R * eps ≤ slideArc th R - slideStraight th R := by
  obtain ⟨b0, b1⟩ := slide_bracket hR h0 h
  obtain ⟨a, b, u, c, d, g, k⟩ := search_spec b0 b1
  generalize search (slideError e R) = th at *
  have hth : th ≤ π / 2 := by linarith
  have hu : 0 ≤ u := by linarith
  refine ⟨a, hth, ?_, ?_⟩
  · unfold slideError at b
    linarith
  · obtain ⟨p1, p2, p3, p4⟩ := del_spec a hth
    obtain ⟨q1, q2, q3, q4⟩ := del_spec hu g
    unfold slideError slideStraight slideArc at k
    unfold slideStraight slideArc
    rw [← q4] at k
    rw [← p4]
    have hs : sin th ≤ sin u := sin_le_sin_of_le_of_le_pi_div_two (by linarith [pi_pos]) g c.le
    have hle : arccos (1 - sin th) ≤ arccos (1 - sin u) := arccos_le_arccos (by linarith)
    have hd := arc_decr p1 hle q2
    rw [p3, q3] at hd
    have hc : cos th - cos u ≤ u - th := by
      have := abs_le.mp (Real.abs_cos_sub_cos_le th u)
      rw [abs_of_neg (by linarith)] at this
      linarith [this.2]
    have hss : sin u - sin th ≤ u - th := by
      have := abs_le.mp (Real.abs_sin_sub_sin_le u th)
      rw [abs_of_pos (by linarith)] at this
      linarith [this.2]
    have key : (arccos (1 - sin u) - sin (arccos (1 - sin u))) - (arccos (1 - sin th) - sin (arccos (1 - sin th)))
        ≤ u - th := by linarith
    have e1 : 0 < eps := by unfold eps; norm_num
    nlinarith [mul_le_mul_of_nonneg_left key hR.le, mul_le_mul_of_nonneg_left hc hR.le,
      mul_le_mul_of_nonneg_left (show u - th ≤ eps by linarith) hR.le]

end Verif.Extend
