import Mathlib.Analysis.SpecialFunctions.Complex.Arg

/-!
# Points and segments of the plane

`Dpss_Data_n::xyPoint` and `Dpss_Data_n::Segment`, src/cpp/DPSS/DpssDataTypes.{h,cpp}, as the
tasks use them.

A point is a complex number, `x` (east) its real and `y` (north) its imaginary part: `len` is
its norm (DpssDataTypes.h 47), `atan2(y, x)` its argument.  The third coordinate is used by the
code only to tell that two lines have no intersection, here `none`.  Simplified throughout: real
arithmetic in place of doubles, π in place of the constants of the code, positions in metres (the
conversion is that of C127).
-/

namespace Verif.Escort

open Complex

/-- DpssDataTypes.cpp 69-78: on which side of the segment a point is. -/
noncomputable def side (a b t : ℂ) : ℤ :=
  let q := t - a
  let r := b - a
  let d := r.re * q.im - q.re * r.im
  if |d| < 1e-10 then 0 else if 0 < d then 1 else -1

/-- A quarter turn to the left: `xyPoint(-v.y, v.x)` in DpssDataTypes.cpp 83-84 and 124. -/
def left (v : ℂ) : ℂ := ⟨-v.im, v.re⟩

/-- DpssDataTypes.cpp 80-89: whether a point is beside the segment (0), before it or after. -/
noncomputable def swathSide (a b p : ℂ) : ℤ :=
  let v := b - a
  if side a (a + left v) p ≤ 0 ∧ 0 ≤ side b (b + left v) p then 0
  else if 0 < side a (a + left v) p then 1 else -1

/-- DpssDataTypes.cpp 102-117: the intersection of the lines through `a b` and `c d`. -/
noncomputable def intersectPoint (a b c d : ℂ) : Option ℂ :=
  let a₁ := b.im - a.im
  let b₁ := a.re - b.re
  let c₁ := b.re * a.im - a.re * b.im
  let a₂ := d.im - c.im
  let b₂ := c.re - d.re
  let c₂ := d.re * c.im - c.re * d.im
  let denom := a₁ * b₂ - a₂ * b₁
  if |denom| < 1e-10 then none
  else some ⟨(b₁ * c₂ - b₂ * c₁) / denom, (a₂ * c₁ - a₁ * c₂) / denom⟩

/-- DpssDataTypes.cpp 119-133. -/
noncomputable def closestPoint (a b t : ℂ) : ℂ :=
  match intersectPoint a b t (t + left (b - a)) with
  | none => a
  | some v => if swathSide a b v = 1 then a else if swathSide a b v = -1 then b else v

/-- DpssDataTypes.cpp 62-67: `distToClosestPoint`. -/
noncomputable def distTo (a b t : ℂ) : ℝ := ‖closestPoint a b t - t‖

/-- DpssDataTypes.cpp 141-149. -/
noncomputable def angle (a b : ℂ) : ℝ := if ‖b - a‖ < 1e-6 then 0 else arg (b - a)

/-! ### The closest point -/

/-- The inner product of two vectors. -/
def dot (u v : ℂ) : ℝ := u.re * v.re + u.im * v.im

theorem dot_self (u : ℂ) : dot u u = ‖u‖ ^ 2 := by
  rw [← normSq_eq_norm_sq, normSq_apply]; rfl

theorem normSq_def (u : ℂ) : ‖u‖ ^ 2 = u.re ^ 2 + u.im ^ 2 := by
  rw [← normSq_eq_norm_sq, normSq_apply]; ring

theorem dot_le (u v : ℂ) : dot u v ≤ ‖u‖ * ‖v‖ := by
  have h1 := normSq_def u
  have h2 := normSq_def v
  apply le_of_sq_le_sq _ (by positivity)
  rw [mul_pow, h1, h2]
  unfold dot
  nlinarith [sq_nonneg (u.re * v.im - u.im * v.re)]

theorem side_left (a v p : ℂ) : side a (a + left v) p =
    if |dot v (p - a)| < 1e-10 then 0 else if dot v (p - a) < 0 then 1 else -1 := by
  have e : (a + left v - a).re * (p - a).im - (p - a).re * (a + left v - a).im = -dot v (p - a) := by
    simp [left, dot]; ring
  unfold side
  simp only
  rw [e, abs_neg]
  by_cases h : |dot v (p - a)| < 1e-10
  · rw [if_pos h, if_pos h]
  · rw [if_neg h, if_neg h]
    by_cases h' : dot v (p - a) < 0
    · rw [if_pos h', if_pos (by linarith)]
    · rw [if_neg h', if_neg (by linarith)]

theorem swathSide_spec (a b p : ℂ) : swathSide a b p =
    if dot (b - a) (p - a) ≤ -1e-10 then 1 else if dot (b - a) (p - b) < 1e-10 then 0 else -1 := by
  unfold swathSide
  simp only
  rw [side_left, side_left]
  set x := dot (b - a) (p - a)
  set y := dot (b - a) (p - b)
  by_cases hx : x ≤ -1e-10
  · have h1 : ¬ |x| < 1e-10 := by
      rw [not_lt, abs_of_nonpos (by norm_num at hx ⊢; linarith)]; linarith
    have h2 : x < 0 := by norm_num at hx ⊢; linarith
    simp [h1, h2, hx]
  · have hA : (if |x| < 1e-10 then (0 : ℤ) else if x < 0 then 1 else -1) ≤ 0 := by
      by_cases h1 : |x| < 1e-10
      · rw [if_pos h1]
      · have : ¬ x < 0 := by
          intro h2
          rw [abs_of_neg h2] at h1
          norm_num at h1 hx; linarith
        rw [if_neg h1, if_neg this]; norm_num
    rw [if_neg hx]
    by_cases hy : y < 1e-10
    · have hB : 0 ≤ (if |y| < 1e-10 then (0 : ℤ) else if y < 0 then 1 else -1) := by
        by_cases h1 : |y| < 1e-10
        · rw [if_pos h1]
        · have : y < 0 := by
            by_contra h2
            rw [abs_of_nonneg (not_lt.1 h2)] at h1
            exact h1 hy
          rw [if_neg h1, if_pos this]; norm_num
      rw [if_pos ⟨hA, hB⟩, if_pos hy]
    · have hB : ¬ 0 ≤ (if |y| < 1e-10 then (0 : ℤ) else if y < 0 then 1 else -1) := by
        have h0 : 0 ≤ y := by norm_num at hy; linarith
        rw [abs_of_nonneg h0, if_neg hy, if_neg (not_lt.2 h0)]; norm_num
      rw [if_neg (fun h => hB h.2), if_neg (not_lt.2 hA), if_neg hy]

/-- The foot of the perpendicular. -/
noncomputable def foot (a b t : ℂ) : ℂ := a + ((dot (b - a) (t - a) / ‖b - a‖ ^ 2 : ℝ) : ℂ) * (b - a)

theorem intersect_foot (a b t : ℂ) : intersectPoint a b t (t + left (b - a)) =
    if ‖b - a‖ ^ 2 < 1e-10 then none else some (foot a b t) := by
  have hn := normSq_def (b - a)
  simp only [sub_re, sub_im] at hn
  have e : (b.im - a.im) * (t.re - (t + left (b - a)).re) - ((t + left (b - a)).im - t.im) * (a.re - b.re) = ‖b - a‖ ^ 2 := by
    rw [hn]; simp [left]; ring
  unfold intersectPoint
  simp only
  rw [e, abs_of_nonneg (sq_nonneg _)]
  by_cases h : ‖b - a‖ ^ 2 < 1e-10
  · rw [if_pos h, if_pos h]
  · rw [if_neg h, if_neg h]
    have h0 : ‖b - a‖ ^ 2 ≠ 0 := by
      intro h0; rw [h0] at h; norm_num at h
    congr 1
    apply Complex.ext
    · simp only [foot, add_re, mul_re, ofReal_re, ofReal_im, sub_re, sub_im, left, dot, add_im]
      rw [div_mul_eq_mul_div, zero_mul, sub_zero, ← sub_eq_iff_eq_add']
      rw [eq_div_iff h0, sub_mul, div_mul_cancel₀ _ h0, hn]
      ring
    · simp only [foot, add_re, mul_im, ofReal_re, ofReal_im, sub_re, sub_im, left, dot, add_im]
      rw [div_mul_eq_mul_div, zero_mul, add_zero, ← sub_eq_iff_eq_add']
      rw [eq_div_iff h0, sub_mul, div_mul_cancel₀ _ h0, hn]
      ring

/-- **C143.**  The closest point of a segment is in the segment, to within 0.01 mm, and no point of the segment is closer by
more than 0.01 mm. -/
theorem C143_closest (a b t : ℂ) :
    (∃ l : ℝ, 0 ≤ l ∧ l ≤ 1 ∧ ‖closestPoint a b t - (a + (l : ℂ) * (b - a))‖ ≤ 1e-5) ∧
    ∀ l : ℝ, 0 ≤ l → l ≤ 1 → distTo a b t ≤ ‖a + (l : ℂ) * (b - a) - t‖ + 1e-5 := by
  set v := b - a with hv
  set n := ‖v‖ with hnn
  have n0 : 0 ≤ n := norm_nonneg _
  unfold distTo closestPoint
  rw [intersect_foot, ← hv, ← hnn]
  by_cases h : n ^ 2 < 1e-10
  · have hn : n ≤ 1e-5 := by
      apply le_of_sq_le_sq _ (by norm_num)
      norm_num at h ⊢; linarith
    rw [if_pos h]
    refine ⟨⟨0, le_refl _, by norm_num, by norm_num⟩, ?_⟩
    intro l l0 l1
    simp only
    have e : a - t = (a + (l : ℂ) * v - t) - (l : ℂ) * v := by ring
    calc ‖a - t‖ = ‖(a + (l : ℂ) * v - t) - (l : ℂ) * v‖ := by rw [← e]
      _ ≤ ‖a + (l : ℂ) * v - t‖ + ‖(l : ℂ) * v‖ := norm_sub_le _ _
      _ ≤ _ := by
        rw [norm_mul, Complex.norm_real, Real.norm_of_nonneg l0, ← hnn]
        have : l * n ≤ 1 * n := mul_le_mul_of_nonneg_right l1 n0
        linarith
  rw [if_neg h]
  have h10 : 1e-10 ≤ n ^ 2 := not_lt.1 h
  have hn5 : 1e-5 ≤ n := by
    apply le_of_sq_le_sq _ n0
    norm_num at h10 ⊢; linarith
  have hnpos : 0 < n := by linarith
  set k := dot v (t - a) / n ^ 2 with hk
  have hf : foot a b t = a + (k : ℂ) * v := rfl
  have hkd : dot v (t - a) = k * n ^ 2 := by rw [hk]; field_simp
  -- where the foot is
  have d1 : dot v (foot a b t - a) = k * n ^ 2 := by
    rw [hf, hnn, ← dot_self]; simp [dot]; ring
  have d2 : dot v (foot a b t - b) = (k - 1) * n ^ 2 := by
    rw [hf, hnn, ← dot_self]; simp [dot, hv]; ring
  -- distances along the line
  have hdist : ∀ l : ℝ, ‖a + (l : ℂ) * v - t‖ ^ 2 = ‖foot a b t - t‖ ^ 2 + (l - k) ^ 2 * n ^ 2 := by
    intro l
    rw [hf]
    have h2 := hkd
    rw [hnn, normSq_def] at h2
    rw [hnn, normSq_def, normSq_def, normSq_def]
    simp only [dot, sub_re, sub_im, add_re, add_im, mul_re, mul_im, ofReal_re, ofReal_im, zero_mul, sub_zero, add_zero] at h2 ⊢
    linear_combination (2 * (k - l)) * h2
  have hmono : ∀ l l' : ℝ, (l - k) ^ 2 ≤ (l' - k) ^ 2 → ‖a + (l : ℂ) * v - t‖ ≤ ‖a + (l' : ℂ) * v - t‖ := by
    intro l l' hl
    apply le_of_sq_le_sq _ (norm_nonneg _)
    rw [hdist, hdist]
    have := mul_le_mul_of_nonneg_right hl (sq_nonneg n)
    linarith
  have hA : ∀ l : ℝ, foot a b t - (a + (l : ℂ) * v) = ((k - l : ℝ) : ℂ) * v := by
    intro l; rw [hf]; push_cast; ring
  have hsmall : ∀ x : ℝ, |x * n ^ 2| < 1e-10 → |x| * n ≤ 1e-5 := by
    intro x hx
    rw [abs_mul, abs_of_nonneg (sq_nonneg n)] at hx
    have h1 : |x| * n * 1e-5 ≤ |x| * n * n := mul_le_mul_of_nonneg_left hn5 (by positivity)
    nlinarith
  simp only
  rw [swathSide_spec, ← hv, d1, d2]
  have n2 : 0 < n ^ 2 := by positivity
  have key : ∀ (c : ℂ) (l₀ : ℝ), c = a + (l₀ : ℂ) * v → 0 ≤ l₀ → l₀ ≤ 1 → (∀ l : ℝ, 0 ≤ l → l ≤ 1 → (l₀ - k) ^ 2 ≤ (l - k) ^ 2) →
      (∃ l : ℝ, 0 ≤ l ∧ l ≤ 1 ∧ ‖c - (a + (l : ℂ) * v)‖ ≤ 1e-5) ∧
      ∀ l : ℝ, 0 ≤ l → l ≤ 1 → ‖c - t‖ ≤ ‖a + (l : ℂ) * v - t‖ + 1e-5 := by
    intro c l₀ hc h0 h1 hm
    refine ⟨⟨l₀, h0, h1, by rw [hc]; norm_num⟩, ?_⟩
    intro l l0 l1
    have := hmono l₀ l (hm l l0 l1)
    rw [hc]; linarith
  have near : ∀ l₀ : ℝ, 0 ≤ l₀ → l₀ ≤ 1 → |k - l₀| * n ≤ 1e-5 →
      (∃ l : ℝ, 0 ≤ l ∧ l ≤ 1 ∧ ‖foot a b t - (a + (l : ℂ) * v)‖ ≤ 1e-5) ∧
      ∀ l : ℝ, 0 ≤ l → l ≤ 1 → ‖foot a b t - t‖ ≤ ‖a + (l : ℂ) * v - t‖ + 1e-5 := by
    intro l₀ h0 h1 hs
    refine ⟨⟨l₀, h0, h1, by rw [hA, norm_mul, Complex.norm_real, Real.norm_eq_abs]; exact hs⟩, ?_⟩
    intro l l0 l1
    have : ‖foot a b t - t‖ ≤ ‖a + (l : ℂ) * v - t‖ := by
      apply le_of_sq_le_sq _ (norm_nonneg _); rw [hdist]; nlinarith [mul_nonneg (sq_nonneg (l - k)) n2.le]
    linarith
  by_cases c1 : k * n ^ 2 ≤ -1e-10
  · rw [if_pos c1]
    have hk0 : k ≤ 0 := by
      by_contra hc
      have := mul_pos (not_le.1 hc) n2
      norm_num at c1; linarith
    rw [if_pos rfl]
    exact key a 0 (by simp) (le_refl _) (by norm_num) (fun l l0 _ => by nlinarith)
  rw [if_neg c1]
  by_cases c2 : (k - 1) * n ^ 2 < 1e-10
  · rw [if_pos c2]
    rw [if_neg (show ¬ (0 : ℤ) = 1 by decide), if_neg (show ¬ (0 : ℤ) = -1 by decide)]
    rcases lt_or_ge k 0 with k0 | k0
    · refine near 0 (le_refl _) (by norm_num) (hsmall _ ?_)
      rw [sub_zero, abs_of_nonpos (by nlinarith)]
      norm_num at c1 ⊢; linarith
    rcases lt_or_ge 1 k with k1 | k1
    · refine near 1 (by norm_num) (le_refl _) (hsmall _ ?_)
      rw [abs_of_nonneg (mul_nonneg (by linarith) n2.le)]
      exact c2
    · exact near k k0 k1 (by rw [sub_self, abs_zero, zero_mul]; norm_num)
  · rw [if_neg c2]
    rw [if_neg (show ¬ (-1 : ℤ) = 1 by decide), if_pos rfl]
    have hk1 : 1 ≤ k := by
      by_contra hc
      have : (k - 1) * n ^ 2 ≤ 0 := mul_nonpos_of_nonpos_of_nonneg (by linarith) n2.le
      norm_num at c2; linarith
    exact key b 1 (by rw [hv]; push_cast; ring) (by norm_num) (le_refl _) (fun l _ l1 => by nlinarith)

end Verif.Escort
