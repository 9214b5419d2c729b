import Mathlib.Analysis.Convex.Segment
import Mathlib.Analysis.SpecialFunctions.Trigonometric.Bounds
import Verif.Dpss.Model
import Verif.Escort.Segment

/-!
# What is left of a road (C165)
-/

namespace Verif.Dpss

open Complex
open Verif.Escort (dot normSq_def dot_self)

/-! ### The points that are left -/

theorem straighten_sublist : ∀ (a : Pt) (l : List Pt), (straighten a l).Sublist l
  | _, [] => by simp [straighten]
  | _, [b] => by simp [straighten]
  | a, b :: c :: l => by
      rw [straighten]
      by_cases h : straight a b c
      · rw [if_pos h]; exact (straighten_sublist a (c :: l)).cons b
      · rw [if_neg h]; exact (straighten_sublist b (c :: l)).cons_cons b

theorem straighten_last : ∀ (a : Pt) (l : List Pt), (straighten a l).getLast? = l.getLast?
  | _, [] => by simp [straighten]
  | _, [b] => by simp [straighten]
  | a, b :: c :: l => by
      rw [straighten]
      by_cases h : straight a b c
      · rw [if_pos h, straighten_last a (c :: l)]; simp
      · rw [if_neg h]
        rw [List.getLast?_cons, straighten_last b (c :: l), List.getLast?_cons_cons, List.getLast?_eq_some_getLast (by simp)]
        simp

/-- **C165.**  Simplifying a road leaves points of it, in their order, and among them its first and its last. -/
theorem C165_points (l : List Pt) :
    (preProcess l).Sublist l ∧ (preProcess l).head? = l.head? ∧ (preProcess l).getLast? = l.getLast? := by
  cases l with
  | nil => exact ⟨by simp [preProcess], rfl, rfl⟩
  | cons a l =>
      refine ⟨(straighten_sublist a l).cons_cons a, rfl, ?_⟩
      rw [preProcess, List.getLast?_cons, List.getLast?_cons, straighten_last]

/-! ### How far the road is from what is left of it -/

/-- The points of a broken line. -/
def OnLine (x : ℂ) (l : List ℂ) : Prop :=
  (∃ pre a b post, l = pre ++ a :: b :: post ∧ x ∈ segment ℝ a b) ∨ l = [x]

theorem onLine_cons {x a b : ℂ} {l : List ℂ} : OnLine x (a :: b :: l) ↔ x ∈ segment ℝ a b ∨ OnLine x (b :: l) := by
  constructor
  · rintro (⟨pre, p, q, post, h, hx⟩ | h)
    · cases pre with
      | nil =>
          simp only [List.nil_append, List.cons.injEq] at h
          obtain ⟨rfl, rfl, rfl⟩ := h
          exact Or.inl hx
      | cons r pre =>
          simp only [List.cons_append, List.cons.injEq] at h
          exact Or.inr (Or.inl ⟨pre, p, q, post, h.2, hx⟩)
    · simp at h
  · rintro (h | ⟨pre, p, q, post, h, hx⟩ | h)
    · exact Or.inl ⟨[], a, b, l, rfl, h⟩
    · exact Or.inl ⟨a :: pre, p, q, post, by rw [h]; rfl, hx⟩
    · simp only [List.cons.injEq] at h
      obtain ⟨rfl, rfl⟩ := h
      exact Or.inl ⟨[], a, b, [], rfl, right_mem_segment ℝ a b⟩

theorem dot_polar (u v : ℂ) : dot u v = ‖u‖ * ‖v‖ * Real.cos (arg u - arg v) := by
  have hu : ∀ w : ℂ, w.re = ‖w‖ * Real.cos (arg w) ∧ w.im = ‖w‖ * Real.sin (arg w) := fun w =>
    ⟨(Complex.norm_mul_cos_arg w).symm, (Complex.norm_mul_sin_arg w).symm⟩
  rw [Real.cos_sub]
  unfold dot
  rw [(hu u).1, (hu u).2, (hu v).1, (hu v).2]
  ring_nf

theorem separation_cos {a b c : ℂ} (h1 : ¬ ‖b - a‖ < 1e-6) (h2 : ¬ ‖c - b‖ < 1e-6) :
    Real.cos (separation a b c).1 = Real.cos (arg (b - a) - arg (c - b)) := by
  unfold separation
  simp only [h1, h2, if_false]
  by_cases hA : arg (b - a) - arg (c - b) < -Real.pi
  · rw [if_pos hA]
    by_cases hB : Real.pi < arg (b - a) - arg (c - b) + 2 * Real.pi
    · rw [if_pos hB]; congr 1; ring
    · rw [if_neg hB, Real.cos_add_two_pi]
  · rw [if_neg hA]
    by_cases hB : Real.pi < arg (b - a) - arg (c - b)
    · rw [if_pos hB, Real.cos_sub_two_pi]
    · rw [if_neg hB]

theorem foot_near {u w : ℂ} (hw : 0 < ‖w‖) (h0 : 0 ≤ dot u w) (h1 : dot u w ≤ ‖w‖ ^ 2) :
    ∃ t : ℝ, 0 ≤ t ∧ t ≤ 1 ∧ ‖u - t * w‖ = |u.re * w.im - w.re * u.im| / ‖w‖ := by
  have hw2 : 0 < ‖w‖ ^ 2 := by positivity
  refine ⟨dot u w / ‖w‖ ^ 2, div_nonneg h0 hw2.le, (div_le_one hw2).2 h1, ?_⟩
  have hsq : ‖u - ((dot u w / ‖w‖ ^ 2 : ℝ) : ℂ) * w‖ ^ 2 = ((|u.re * w.im - w.re * u.im| / ‖w‖) : ℝ) ^ 2 := by
    rw [normSq_def, div_pow, sq_abs]
    simp only [sub_re, sub_im, mul_re, mul_im, ofReal_re, ofReal_im, zero_mul, sub_zero, add_zero]
    have e : ‖w‖ ^ 2 = w.re ^ 2 + w.im ^ 2 := normSq_def w
    rw [e] at hw2 ⊢
    unfold dot
    field_simp
    ring
  have h3 := norm_nonneg (u - ((dot u w / ‖w‖ ^ 2 : ℝ) : ℂ) * w)
  have h4 : 0 ≤ |u.re * w.im - w.re * u.im| / ‖w‖ := by positivity
  exact (pow_left_inj₀ h3 h4 two_ne_zero).1 hsq

/-- The middle one of three points that is left out is less than a metre from the way past it. -/
theorem straight_near {a b c : Pt} (h : straight a b c) : ∃ t : ℝ, 0 ≤ t ∧ t ≤ 1 ∧ ‖b.at_ - (a.at_ + t * (c.at_ - a.at_))‖ ≤ 1 := by
  by_cases h1 : ‖b.at_ - a.at_‖ < 1e-6
  · refine ⟨0, le_refl _, zero_le_one, ?_⟩
    simp only [ofReal_zero, zero_mul, add_zero]
    norm_num at h1 ⊢; linarith
  by_cases h2 : ‖c.at_ - b.at_‖ < 1e-6
  · refine ⟨1, zero_le_one, le_refl _, ?_⟩
    have e : b.at_ - (a.at_ + ((1 : ℝ) : ℂ) * (c.at_ - a.at_)) = -(c.at_ - b.at_) := by push_cast; ring
    rw [e, norm_neg]
    norm_num at h2 ⊢; linarith
  have hcos := separation_cos h1 h2
  have hb : 0 ≤ Real.cos (arg (b.at_ - a.at_) - arg (c.at_ - b.at_)) := by
    rw [← hcos]
    have hh := abs_lt.1 h.1
    have hp := Real.pi_pos
    apply Real.cos_nonneg_of_neg_pi_div_two_le_of_le <;> [skip; skip] <;> norm_num at hh ⊢ <;> linarith
  have hd : 0 ≤ dot (b.at_ - a.at_) (c.at_ - b.at_) := by rw [dot_polar]; positivity
  have hs := h.2
  unfold separation at hs
  simp only [h1, h2, if_false] at hs
  by_cases h3 : ‖c.at_ - a.at_‖ < 1e-6
  · rw [if_pos h3] at hs
    refine ⟨0, le_refl _, zero_le_one, ?_⟩
    simp only [ofReal_zero, zero_mul, add_zero]
    exact hs.le
  · rw [if_neg h3] at hs
    have hw : 0 < ‖c.at_ - a.at_‖ := by norm_num at h3; linarith
    have e1 : dot (b.at_ - a.at_) (c.at_ - a.at_) = ‖b.at_ - a.at_‖ ^ 2 + dot (b.at_ - a.at_) (c.at_ - b.at_) := by
      rw [normSq_def]; simp [dot]; ring
    have e2 : ‖c.at_ - a.at_‖ ^ 2 = dot (b.at_ - a.at_) (c.at_ - a.at_) + ‖c.at_ - b.at_‖ ^ 2
        + dot (b.at_ - a.at_) (c.at_ - b.at_) := by
      rw [normSq_def, normSq_def]; simp [dot]; ring
    obtain ⟨t, t0, t1, ht⟩ := foot_near (u := b.at_ - a.at_) hw (by rw [e1]; positivity) (by rw [e2]; nlinarith [sq_nonneg ‖c.at_ - b.at_‖])
    refine ⟨t, t0, t1, ?_⟩
    rw [← sub_sub, ht]
    exact hs.le

theorem near_convex {a b c : ℂ} {t : ℝ} (t0 : 0 ≤ t) (t1 : t ≤ 1) (hb : ‖b - (a + t * (c - a))‖ ≤ 1) {x : ℂ}
    (hx : x ∈ segment ℝ a b ∨ x ∈ segment ℝ b c) : ∃ q ∈ segment ℝ a c, ‖x - q‖ ≤ 1 := by
  rcases hx with ⟨r, s, hr, hs, hrs, rfl⟩ | ⟨r, s, hr, hs, hrs, rfl⟩
  · refine ⟨r • a + s • (a + t * (c - a)), ⟨r + s * (1 - t), s * t, by nlinarith, by positivity, by linarith, ?_⟩, ?_⟩
    · simp only [real_smul]; push_cast; ring
    · have e : r • a + s • b - (r • a + s • (a + t * (c - a))) = (s : ℂ) * (b - (a + t * (c - a))) := by
        simp only [real_smul]; ring
      rw [e, norm_mul, norm_real, Real.norm_of_nonneg hs]
      nlinarith [norm_nonneg (b - (a + t * (c - a)))]
  · refine ⟨r • (a + t * (c - a)) + s • c, ⟨r * (1 - t), r * t + s, by nlinarith, by positivity, by linarith, ?_⟩, ?_⟩
    · simp only [real_smul]; push_cast; ring
    · have e : r • b + s • c - (r • (a + t * (c - a)) + s • c) = (r : ℂ) * (b - (a + t * (c - a))) := by
        simp only [real_smul]; ring
      rw [e, norm_mul, norm_real, Real.norm_of_nonneg hr]
      nlinarith [norm_nonneg (b - (a + t * (c - a)))]

theorem straighten_near : ∀ (a : Pt) (l : List Pt) (x : ℂ), OnLine x ((a :: l).map (·.at_)) →
    ∃ q, OnLine q ((a :: straighten a l).map (·.at_)) ∧ ‖x - q‖ ≤ ((l.length - (straighten a l).length : ℕ) : ℝ)
  | _, [], x, hx => ⟨x, hx, by simp⟩
  | _, [b], x, hx => ⟨x, hx, by simp⟩
  | a, b :: c :: l, x, hx => by
      rw [straighten]
      simp only [List.map_cons] at hx
      rw [onLine_cons, onLine_cons] at hx
      by_cases h : straight a b c
      · rw [if_pos h]
        obtain ⟨t, t0, t1, ht⟩ := straight_near h
        have hlen := (straighten_sublist a (c :: l)).length_le
        have hy : ∃ y, OnLine y ((a :: c :: l).map (·.at_)) ∧ ‖x - y‖ ≤ 1 := by
          rcases hx with hx | hx | hx
          · obtain ⟨q, hq, h1⟩ := near_convex t0 t1 ht (Or.inl hx)
            exact ⟨q, onLine_cons.2 (Or.inl hq), h1⟩
          · obtain ⟨q, hq, h1⟩ := near_convex t0 t1 ht (Or.inr hx)
            exact ⟨q, onLine_cons.2 (Or.inl hq), h1⟩
          · exact ⟨x, onLine_cons.2 (Or.inr hx), by simp⟩
        obtain ⟨y, hy, h1⟩ := hy
        obtain ⟨q, hq, h2⟩ := straighten_near a (c :: l) y hy
        refine ⟨q, hq, ?_⟩
        have e : ((b :: c :: l).length - (straighten a (c :: l)).length : ℕ)
            = ((c :: l).length - (straighten a (c :: l)).length : ℕ) + 1 := by
          simp only [List.length_cons] at hlen ⊢; omega
        rw [e, Nat.cast_add, Nat.cast_one]
        calc ‖x - q‖ = ‖(x - y) + (y - q)‖ := by ring_nf
          _ ≤ ‖x - y‖ + ‖y - q‖ := norm_add_le _ _
          _ ≤ _ := by linarith
      · rw [if_neg h]
        have e : ((b :: c :: l).length - (b :: straighten b (c :: l)).length : ℕ)
            = ((c :: l).length - (straighten b (c :: l)).length : ℕ) := by simp
        rw [e]
        rcases hx with hx | hx
        · exact ⟨x, onLine_cons.2 (Or.inl hx), by simp⟩
        · obtain ⟨q, hq, h2⟩ := straighten_near b (c :: l) x (onLine_cons.2 hx)
          exact ⟨q, onLine_cons.2 (Or.inr hq), h2⟩

/-- **C165.**  No point of a road is farther from what is left of it than as many metres as points were left out. -/
theorem C165_near_partial (l : List Pt) {x : ℂ} (hx : OnLine x (l.map (·.at_))) :
    ∃ q, OnLine q ((preProcess l).map (·.at_)) ∧ ‖x - q‖ ≤ ((l.length - (preProcess l).length : ℕ) : ℝ) := by
  cases l with
  | nil => exact ⟨x, hx, by simp [preProcess]⟩
  | cons a l =>
      obtain ⟨q, hq, h⟩ := straighten_near a l x hx
      exact ⟨q, hq, by simpa [preProcess] using h⟩

end Verif.Dpss
