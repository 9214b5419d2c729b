import Verif.Escort.Model

/-!
# The place of an escort (C144)
-/

namespace Verif.Escort

open Complex

/-! ### Headings -/

/-- The direction of a heading, in degrees from the north. -/
noncomputable def compass (h : ℝ) : ℂ := ⟨Real.sin (h * (Real.pi / 180)), Real.cos (h * (Real.pi / 180))⟩

theorem headingDelta_turns (h s : ℝ) : ∃ m : ℤ, headingDelta h s = h - s + m * 360 := by
  unfold headingDelta
  simp only
  by_cases h1 : 180 < h - s
  · rw [if_pos h1]
    by_cases h2 : h - s - 360 < -180
    · rw [if_pos h2]; exact ⟨0, by push_cast; ring⟩
    · rw [if_neg h2]; exact ⟨-1, by push_cast; ring⟩
  · rw [if_neg h1]
    by_cases h2 : h - s < -180
    · rw [if_pos h2]; exact ⟨1, by push_cast; ring⟩
    · rw [if_neg h2]; exact ⟨0, by push_cast; ring⟩

theorem headingDelta_range {h s : ℝ} (h1 : -540 ≤ h - s) (h2 : h - s ≤ 540) : |headingDelta h s| ≤ 180 := by
  unfold headingDelta
  simp only
  by_cases c1 : 180 < h - s
  · rw [if_pos c1, if_neg (by linarith), abs_le]; constructor <;> linarith
  · rw [if_neg c1]
    by_cases c2 : h - s < -180
    · rw [if_pos c2, abs_le]; constructor <;> linarith
    · rw [if_neg c2, abs_le]; constructor <;> linarith

theorem segmentHeading_range (a b : ℂ) : 0 ≤ segmentHeading a b ∧ segmentHeading a b < 360 := by
  have hpi := Real.pi_pos
  have hang : -Real.pi < angle a b ∧ angle a b ≤ Real.pi := by
    unfold angle
    split_ifs
    · constructor <;> linarith
    · exact ⟨neg_pi_lt_arg _, arg_le_pi _⟩
  have e : (Real.pi / 2 - angle a b) * (180 / Real.pi) = 90 - angle a b / Real.pi * 180 := by field_simp; ring
  have k1 : -1 < angle a b / Real.pi := by rw [lt_div_iff₀ hpi]; linarith
  have k2 : angle a b / Real.pi ≤ 1 := by rw [div_le_iff₀ hpi]; linarith
  unfold segmentHeading
  simp only
  rw [e]
  split_ifs with h
  · constructor <;> linarith
  · constructor <;> linarith

theorem segmentHeading_compass {a b : ℂ} (h : 1e-6 ≤ ‖b - a‖) :
    b - a = (‖b - a‖ : ℂ) * compass (segmentHeading a b) := by
  have hpi := Real.pi_ne_zero
  have hang : angle a b = arg (b - a) := by unfold angle; rw [if_neg (not_lt.2 h)]
  have hc : ∀ x : ℝ, x = (Real.pi / 2 - angle a b) * (180 / Real.pi) ∨ x = (Real.pi / 2 - angle a b) * (180 / Real.pi) + 360 →
      compass x = ⟨Real.cos (arg (b - a)), Real.sin (arg (b - a))⟩ := by
    rintro x (rfl | rfl)
    · unfold compass
      rw [show (Real.pi / 2 - angle a b) * (180 / Real.pi) * (Real.pi / 180) = Real.pi / 2 - arg (b - a) by
        rw [hang]; field_simp, Real.sin_pi_div_two_sub, Real.cos_pi_div_two_sub]
    · unfold compass
      rw [show ((Real.pi / 2 - angle a b) * (180 / Real.pi) + 360) * (Real.pi / 180) = Real.pi / 2 - arg (b - a) + 2 * Real.pi by
        rw [hang]; field_simp; ring, Real.sin_add_two_pi, Real.cos_add_two_pi, Real.sin_pi_div_two_sub, Real.cos_pi_div_two_sub]
  have hx : segmentHeading a b = (Real.pi / 2 - angle a b) * (180 / Real.pi) ∨
      segmentHeading a b = (Real.pi / 2 - angle a b) * (180 / Real.pi) + 360 := by
    unfold segmentHeading
    simp only
    split_ifs
    · exact Or.inr rfl
    · exact Or.inl rfl
  rw [hc _ hx]
  apply Complex.ext
  · simp only [mul_re, ofReal_re, ofReal_im, zero_mul, sub_zero]
    rw [Complex.norm_mul_cos_arg]
  · simp only [mul_im, ofReal_re, ofReal_im, zero_mul, add_zero]
    rw [Complex.norm_mul_sin_arg]

/-- Whether a segment goes the way of the heading: at less than a right angle. -/
theorem congruent_iff {h : ℝ} {a b : ℂ} (h0 : -180 ≤ h) (h1 : h ≤ 540) (hab : 1e-6 ≤ ‖b - a‖) :
    |headingDelta h (segmentHeading a b)| < 90 ↔ 0 < dot (compass h) (b - a) := by
  have hpi := Real.pi_pos
  obtain ⟨s0, s1⟩ := segmentHeading_range a b
  have hr := headingDelta_range (h := h) (s := segmentHeading a b) (by linarith) (by linarith)
  obtain ⟨m, hm⟩ := headingDelta_turns h (segmentHeading a b)
  set s := segmentHeading a b with hs
  have hdot : dot (compass h) (b - a) = ‖b - a‖ * Real.cos (headingDelta h s * (Real.pi / 180)) := by
    have e : headingDelta h s * (Real.pi / 180) = h * (Real.pi / 180) - s * (Real.pi / 180) + m * (2 * Real.pi) := by
      rw [hm]; ring
    rw [e, Real.cos_add_int_mul_two_pi, Real.cos_sub]
    conv_lhs => rw [segmentHeading_compass hab]
    simp only [dot, compass, mul_re, mul_im, ofReal_re, ofReal_im, zero_mul, sub_zero, add_zero, ← hs]
    ring
  have hn : 0 < ‖b - a‖ := by norm_num at hab; linarith
  rw [hdot]
  set d := headingDelta h s
  constructor
  · intro hd
    rw [abs_lt] at hd
    apply mul_pos hn
    apply Real.cos_pos_of_mem_Ioo
    constructor
    · have := mul_lt_mul_of_pos_right hd.1 (show 0 < Real.pi / 180 by positivity)
      linarith
    · have := mul_lt_mul_of_pos_right hd.2 (show 0 < Real.pi / 180 by positivity)
      linarith
  · intro hp
    by_contra hd
    rw [not_lt] at hd
    have hc : Real.cos (d * (Real.pi / 180)) ≤ 0 := by
      rw [← Real.cos_abs, abs_mul, abs_of_pos (show 0 < Real.pi / 180 by positivity)]
      apply Real.cos_nonpos_of_pi_div_two_le_of_le
      · have := mul_le_mul_of_nonneg_right hd (show 0 ≤ Real.pi / 180 by positivity)
        linarith
      · have := mul_le_mul_of_nonneg_right hr (show 0 ≤ Real.pi / 180 by positivity)
        linarith
    have := mul_nonpos_of_nonneg_of_nonpos hn.le hc
    linarith

theorem wrap_compass (h : ℝ) : compass (wrap h) = compass h ∧ 0 ≤ wrap h ∧ wrap h < 360 := by
  refine ⟨?_, ?_, ?_⟩
  · unfold compass wrap
    have e : (h - 360 * ⌊h / 360⌋) * (Real.pi / 180) = h * (Real.pi / 180) - ⌊h / 360⌋ * (2 * Real.pi) := by ring
    rw [e, Real.sin_sub_int_mul_two_pi, Real.cos_sub_int_mul_two_pi]
  · have := Int.floor_le (h / 360)
    unfold wrap; rw [le_div_iff₀ (by norm_num)] at this; linarith
  · have := Int.lt_floor_add_one (h / 360)
    unfold wrap; rw [div_lt_iff₀ (by norm_num)] at this; linarith

/-! ### The nearest segment -/

/-- The segments that count: those that go the way of the target, or all when it is at rest. -/
def Counts (h speed : ℝ) (s : ℂ × ℂ) : Prop := |speed| < 1 ∨ |headingDelta h (segmentHeading s.1 s.2)| < 90

theorem project_spec {t : ℂ} {h speed : ℝ} : ∀ (ss : List (ℂ × ℂ)) (i : ℕ) (n : Near),
    (n.mindist < 0 ∨ 0 ≤ n.mindist) →
    let m := project t h speed ss i n
    (m = n ∧ (∀ s ∈ ss, Counts h speed s → 0 ≤ n.mindist ∧ n.mindist ≤ distTo s.1 s.2 t)) ∨
    (∃ j, ∃ hj : j < ss.length, m = { mindist := distTo ss[j].1 ss[j].2 t, proj := closestPoint ss[j].1 ss[j].2 t, stop := i + j + 1, start := i + j } ∧
      Counts h speed ss[j] ∧ (∀ s ∈ ss, Counts h speed s → distTo ss[j].1 ss[j].2 t ≤ distTo s.1 s.2 t) ∧
      (0 ≤ n.mindist → distTo ss[j].1 ss[j].2 t < n.mindist))
  | [], i, n, _ => Or.inl ⟨rfl, by simp⟩
  | s :: ss, i, n, hn => by
      have hd : 0 ≤ distTo s.1 s.2 t := norm_nonneg _
      simp only [project]
      by_cases hc : (n.mindist < 0 ∨ distTo s.1 s.2 t < n.mindist) ∧
            (|headingDelta h (segmentHeading s.1 s.2)| < 90 ∨ |speed| < 1)
      · rw [if_pos hc]
        have hcs : Counts h speed s := hc.2.symm
        have hlt : 0 ≤ n.mindist → distTo s.1 s.2 t < n.mindist := fun h0 => hc.1.resolve_left (not_lt.2 h0)
        rcases project_spec ss (i + 1) ⟨distTo s.1 s.2 t, closestPoint s.1 s.2 t, i + 1, i⟩ (Or.inr hd) with
          ⟨h1, h2⟩ | ⟨j, hj, h1, h2, h3, h4⟩
        · refine Or.inr ⟨0, by simp, by rw [h1]; rfl, hcs, ?_, hlt⟩
          intro s' hs' hc'
          rcases List.mem_cons.1 hs' with rfl | hs'
          · exact le_refl _
          · exact (h2 s' hs' hc').2
        · refine Or.inr ⟨j + 1, by simpa using hj, ?_, h2, ?_, ?_⟩
          · rw [h1]; simp only [List.getElem_cons_succ]; congr 1 <;> omega
          · intro s' hs' hc'
            rcases List.mem_cons.1 hs' with rfl | hs'
            · exact (h4 hd).le
            · exact h3 s' hs' hc'
          · intro h0
            exact lt_trans (h4 hd) (hlt h0)
      · rw [if_neg hc]
        have hs : Counts h speed s → 0 ≤ n.mindist ∧ n.mindist ≤ distTo s.1 s.2 t := by
          intro hcs
          have : ¬ (n.mindist < 0 ∨ distTo s.1 s.2 t < n.mindist) := fun h' => hc ⟨h', hcs.symm⟩
          rw [not_or, not_lt, not_lt] at this
          exact this
        rcases project_spec ss (i + 1) n hn with ⟨h1, h2⟩ | ⟨j, hj, h1, h2, h3, h4⟩
        · refine Or.inl ⟨h1, ?_⟩
          intro s' hs' hc'
          rcases List.mem_cons.1 hs' with rfl | hs'
          · exact hs hc'
          · exact h2 s' hs' hc'
        · refine Or.inr ⟨j + 1, by simpa using hj, ?_, h2, ?_, h4⟩
          · rw [h1]; simp only [List.getElem_cons_succ]; congr 1 <;> omega
          · intro s' hs' hc'
            rcases List.mem_cons.1 hs' with rfl | hs'
            · obtain ⟨g0, g1⟩ := hs hc'
              exact (lt_of_lt_of_le (h4 g0) g1).le
            · exact h3 s' hs' hc'

/-! ### Along the path -/

/-- The point at the distance `d` along a broken line; its end when the line is shorter. -/
noncomputable def along : List ℂ → ℝ → ℂ
  | [], _ => 0
  | [p], _ => p
  | p :: q :: l, d => if d ≤ ‖q - p‖ then p + ((d / ‖q - p‖ : ℝ) : ℂ) * (q - p) else along (q :: l) (d - ‖q - p‖)

theorem settle_along {d c : ℝ} {p q : ℂ} (rest : List ℂ) (last : ℂ) (hc : c ≤ d) (hd : d ≤ c + ‖q - p‖) :
    ‖settle d p q (c + ‖q - p‖) last - along (p :: q :: rest) (d - c)‖ ≤ 0.01 := by
  have hn : ‖p - q‖ = ‖q - p‖ := norm_sub_rev _ _
  have ha : along (p :: q :: rest) (d - c) = p + (((d - c) / ‖q - p‖ : ℝ) : ℂ) * (q - p) := by
    rw [along, if_pos (by linarith)]
  have e : q - (p + (((d - c) / ‖q - p‖ : ℝ) : ℂ) * (q - p)) = ((1 - (d - c) / ‖q - p‖ : ℝ) : ℂ) * (q - p) := by
    push_cast; ring
  unfold settle
  rw [if_pos hd]
  simp only
  rw [hn, ha]
  by_cases h1 : 1e-2 < ‖q - p‖ ∧ c + ‖q - p‖ - d ≤ ‖q - p‖ + 1
  · rw [if_pos h1]
    have h0 : ‖q - p‖ ≠ 0 := by
      have := h1.1; intro h; rw [h] at this; norm_num at this
    have e2 : (c + ‖q - p‖ - d) / ‖q - p‖ = 1 - (d - c) / ‖q - p‖ := by field_simp; ring
    rw [e2]
    have : q + ((1 - (d - c) / ‖q - p‖ : ℝ) : ℂ) * (p - q) - (p + (((d - c) / ‖q - p‖ : ℝ) : ℂ) * (q - p)) = 0 := by
      push_cast; ring
    rw [this, norm_zero]; norm_num
  · rw [if_neg h1]
    have hsm : ‖q - p‖ ≤ 1e-2 := by
      by_contra hh
      exact h1 ⟨not_le.1 hh, by linarith⟩
    rw [e, norm_mul, Complex.norm_real, Real.norm_eq_abs]
    have hab : |1 - (d - c) / ‖q - p‖| ≤ 1 := by
      rcases (norm_nonneg (q - p)).eq_or_lt with h0 | h0
      · rw [← h0]; simp
      · rw [abs_le]
        have k1 : (d - c) / ‖q - p‖ ≤ 1 := by rw [div_le_iff₀ h0]; linarith
        have k2 : 0 ≤ (d - c) / ‖q - p‖ := div_nonneg (by linarith) h0.le
        constructor <;> linarith
    have := mul_le_mul hab hsm (norm_nonneg _) (by norm_num)
    norm_num at this ⊢; linarith

theorem place_along {d : ℝ} : ∀ (p q : ℂ) (rest : List ℂ) (c : ℝ), c ≤ d →
    ‖settle d (walk d p q rest (c + ‖q - p‖)).1 (walk d p q rest (c + ‖q - p‖)).2.1 (walk d p q rest (c + ‖q - p‖)).2.2
      ((q :: rest).getLast (by simp)) - along (p :: q :: rest) (d - c)‖ ≤ 0.01
  | p, q, [], c, hc => by
      rw [show walk d p q [] (c + ‖q - p‖) = (p, q, c + ‖q - p‖) from rfl]
      rcases le_or_gt d (c + ‖q - p‖) with hd | hd
      · exact settle_along [] _ hc hd
      · unfold settle
        simp only
        rw [if_neg (not_le.2 hd), along, if_neg (by linarith), along]
        simp; norm_num
  | p, q, r :: rest, c, hc => by
      rcases le_or_gt d (c + ‖q - p‖) with hd | hd
      · rw [show walk d p q (r :: rest) (c + ‖q - p‖) = (p, q, c + ‖q - p‖) by rw [walk, if_neg (not_lt.2 hd)]]
        exact settle_along _ _ hc hd
      · rw [show walk d p q (r :: rest) (c + ‖q - p‖) = walk d q r rest (c + ‖q - p‖ + ‖r - q‖) by rw [walk, if_pos hd],
          along, if_neg (by linarith), show d - c - ‖q - p‖ = d - (c + ‖q - p‖) by ring,
          List.getLast_cons (by simp)]
        exact place_along q r rest (c + ‖q - p‖) hd.le

theorem place_spec {d : ℝ} (hd : 0 ≤ d) (proj : ℂ) {l : List ℂ} (hl : l ≠ []) :
    ∃ z, place d proj l = some z ∧ ‖z - along (proj :: l) d‖ ≤ 0.01 := by
  cases l with
  | nil => exact absurd rfl hl
  | cons q rest =>
      have := place_along (d := d) proj q rest 0 hd
      rw [zero_add, sub_zero] at this
      exact ⟨_, rfl, this⟩

theorem segments_length (l : List ℂ) : (segments l).length = l.length - 1 := by
  unfold segments; simp

theorem segments_get {l : List ℂ} {j : ℕ} (hj : j < (segments l).length) :
    (segments l)[j] = (l[j]'(by rw [segments_length] at hj; omega), l[j + 1]'(by rw [segments_length] at hj; omega)) := by
  simp [segments]

/-- The segments of the path that go the way of the vehicle: at less than a right angle to its heading, or at all when it is
at rest (slower than 1 m/s). -/
def GoesAlong (heading speed : ℝ) (a b : ℂ) : Prop := |speed| < 1 ∨ 0 < dot (compass heading) (b - a)

theorem counts_iff {heading speed : ℝ} {a b : ℂ} (h : 1e-6 ≤ ‖b - a‖) : Counts (wrap heading) speed (a, b) ↔ GoesAlong heading speed a b := by
  obtain ⟨w1, w2, w3⟩ := wrap_compass heading
  unfold Counts GoesAlong
  rw [congruent_iff (by linarith) (by linarith) h, w1]

/-- **C144.**  The escort is put on the path of the vehicle: the place is found by going, from the point of the path nearest
to the vehicle among the segments that go its way, the standoff distance forwards along the path, or backwards when it is
negative, up to the end of the path; to within a centimetre. -/
theorem C144_place {k : Known} {task : Task} {t : ℂ} {heading speed : ℝ} {path : List ℂ} (hs : 0.11 ≤ |task.standoff|)
    (hpath : choosePath k task t heading speed = path)
    (hl : ∀ j (hj : j + 1 < path.length), 1e-6 ≤ ‖path[j + 1] - path[j]‖)
    (hg : ∃ j, ∃ hj : j + 1 < path.length, GoesAlong heading speed path[j] path[j + 1]) :
    ∃ z j, ∃ hj : j + 1 < path.length, targetPoint k task t heading speed = some z ∧
      GoesAlong heading speed path[j] path[j + 1] ∧
      (∀ i (hi : i + 1 < path.length), GoesAlong heading speed path[i] path[i + 1] →
        distTo path[j] path[j + 1] t ≤ distTo path[i] path[i + 1] t) ∧
      (0 < task.standoff →
        ‖z - along (closestPoint path[j] path[j + 1] t :: path.drop (j + 1)) task.standoff‖ ≤ 0.01) ∧
      (task.standoff < 0 →
        ‖z - along (closestPoint path[j] path[j + 1] t :: (path.take (j + 1)).reverse) (-task.standoff)‖ ≤ 0.01) := by
  have hp : path ≠ [] := by
    obtain ⟨j, hj, -⟩ := hg
    rintro rfl; simp at hj
  have hz : ¬ |task.standoff - 0.001| < 0.1 := by
    intro h
    rw [abs_lt] at h
    rcases abs_cases task.standoff with ⟨e, -⟩ | ⟨e, -⟩ <;> rw [e] at hs <;> linarith [h.1, h.2]
  have hlen := segments_length path
  have key := project_spec (t := t) (h := wrap heading) (speed := speed) (segments path) 0
    { mindist := -1, proj := t, stop := 0, start := 0 } (Or.inl (by norm_num))
  simp only at key
  have hT : targetPoint k task t heading speed =
      (let n := project t (wrap heading) speed (segments path) 0 { mindist := -1, proj := t, stop := 0, start := 0 }
      if -0.01 ≤ task.standoff then place task.standoff n.proj (path.drop n.stop)
      else place |task.standoff| n.proj (path.take (n.start + 1)).reverse) := by
    unfold targetPoint
    rw [if_neg hz, hpath]
    simp only
    rw [if_neg hp]
  rcases key with ⟨-, h2⟩ | ⟨j, hj, h1, h2, h3, -⟩
  · exfalso
    obtain ⟨j, hj, hg⟩ := hg
    have hj' : j < (segments path).length := by rw [hlen]; omega
    have := h2 (segments path)[j] (List.getElem_mem _) (by rw [segments_get]; exact (counts_iff (hl j hj)).2 hg)
    norm_num at this
  · have hj' : j + 1 < path.length := by omega
    rw [segments_get hj] at h1 h2 h3
    simp only [Nat.zero_add] at h1
    simp only at h3
    rw [hT, h1]
    simp only
    have nearest : ∀ i (hi : i + 1 < path.length), GoesAlong heading speed path[i] path[i + 1] →
        distTo path[j] path[j + 1] t ≤ distTo path[i] path[i + 1] t := by
      intro i hi hgo
      have hi' : i < (segments path).length := by omega
      have := h3 (segments path)[i] (List.getElem_mem _) (by rw [segments_get]; exact (counts_iff (hl i hi)).2 hgo)
      rw [segments_get] at this
      exact this
    rcases lt_or_ge 0 task.standoff with hpos | hneg
    · obtain ⟨z, z1, z2⟩ := place_spec hpos.le (closestPoint path[j] path[j + 1] t) (l := path.drop (j + 1))
        (by simp; omega)
      exact ⟨z, j, hj', by rw [if_pos (by linarith)]; exact z1, (counts_iff (hl j hj')).1 h2, nearest, fun _ => z2,
        fun h => absurd h (by linarith)⟩
    · have hneg' : task.standoff ≤ -0.11 := by rw [abs_of_nonpos hneg] at hs; linarith
      obtain ⟨z, z1, z2⟩ := place_spec (d := -task.standoff) (by linarith) (closestPoint path[j] path[j + 1] t)
        (l := (path.take (j + 1)).reverse) (by simp; omega)
      exact ⟨z, j, hj', by rw [if_neg (by linarith), abs_of_nonpos hneg]; exact z1, (counts_iff (hl j hj')).1 h2, nearest,
        fun h => absurd h (by linarith), fun _ => z2⟩

/-- **C144.**  When no segment goes the way of a moving vehicle, the escort is put on the way from the vehicle to the first
corner of the path: ahead of it, and on along the path from there; behind it, no further than that corner. -/
theorem C144_lost {k : Known} {task : Task} {t : ℂ} {heading speed : ℝ} {path : List ℂ} (hs : 0.11 ≤ |task.standoff|)
    (hpath : choosePath k task t heading speed = path) (hp : path ≠ [])
    (hl : ∀ j (hj : j + 1 < path.length), 1e-6 ≤ ‖path[j + 1] - path[j]‖)
    (hg : ∀ j (hj : j + 1 < path.length), ¬ GoesAlong heading speed path[j] path[j + 1]) :
    ∃ z, targetPoint k task t heading speed = some z ∧
      (0 < task.standoff → ‖z - along (t :: path) task.standoff‖ ≤ 0.01) ∧
      (task.standoff < 0 → ‖z - along [t, path.head hp] (-task.standoff)‖ ≤ 0.01) := by
  have hz : ¬ |task.standoff - 0.001| < 0.1 := by
    rw [abs_lt]
    rcases abs_cases task.standoff with ⟨h1, h2⟩ | ⟨h1, h2⟩ <;> rw [h1] at hs <;> rintro ⟨h3, h4⟩ <;> norm_num at * <;> linarith
  have hlen := segments_length path
  have hproj : project t (wrap heading) speed (segments path) 0 { mindist := -1, proj := t, stop := 0, start := 0 } =
      { mindist := -1, proj := t, stop := 0, start := 0 } := by
    rcases project_spec (t := t) (h := wrap heading) (speed := speed) (segments path) 0
      { mindist := -1, proj := t, stop := 0, start := 0 } (Or.inl (by norm_num)) with ⟨h, -⟩ | ⟨j, hj, -, h, -⟩
    · exact h
    · exfalso
      have hj' : j + 1 < path.length := by omega
      rw [segments_get hj] at h
      exact hg j hj' ((counts_iff (hl j hj')).1 h)
  unfold targetPoint
  rw [if_neg hz]
  simp only
  rw [hpath, if_neg hp, hproj]
  simp only [List.drop_zero, zero_add]
  by_cases h0 : 0 < task.standoff
  · rw [if_pos (by norm_num; linarith)]
    obtain ⟨z, h1, h2⟩ := place_spec h0.le t hp
    exact ⟨z, h1, fun _ => h2, fun h => absurd h (by linarith)⟩
  · have hneg : task.standoff ≤ -0.11 := by
      rw [abs_of_nonpos (by linarith)] at hs; linarith
    rw [if_neg (by norm_num at hneg ⊢; linarith), abs_of_nonpos (by linarith)]
    have e : (path.take 1).reverse = [path.head hp] := by
      cases path with
      | nil => exact absurd rfl hp
      | cons a l => simp
    rw [e]
    obtain ⟨z, h1, h2⟩ := place_spec (d := -task.standoff) (by linarith) t (l := [path.head hp]) (by simp)
    exact ⟨z, h1, fun h => absurd h h0, fun _ => h2⟩

/-- **C144.**  Near zero the standoff distance, and without a known path any, puts the escort at the vehicle itself. -/
theorem C144_none {k : Known} {task : Task} {t : ℂ} {heading speed : ℝ}
    (h : |task.standoff| ≤ 0.09 ∨ choosePath k task t heading speed = []) : targetPoint k task t heading speed = some t := by
  unfold targetPoint
  by_cases hz : |task.standoff - 0.001| < 0.1
  · rw [if_pos hz]
  · rw [if_neg hz]
    rcases h with h | h
    · exfalso
      apply hz
      rw [abs_le] at h
      rw [abs_lt]; constructor <;> linarith [h.1, h.2]
    · simp only
      rw [if_pos h]

/-- **C144.**  The computation always gives a place. -/
theorem C144_total (k : Known) (task : Task) (t : ℂ) (heading speed : ℝ) :
    ∃ z, targetPoint k task t heading speed = some z := by
  unfold targetPoint
  by_cases h1 : |task.standoff - 0.001| < 0.1
  · rw [if_pos h1]; exact ⟨_, rfl⟩
  rw [if_neg h1]
  simp only
  set path := choosePath k task t heading speed
  by_cases hp : path = []
  · rw [if_pos hp]; exact ⟨_, rfl⟩
  rw [if_neg hp]
  have hpos : 0 < path.length := List.length_pos_of_ne_nil hp
  have hlen := segments_length path
  have key := project_spec (t := t) (h := wrap heading) (speed := speed) (segments path) 0
    { mindist := -1, proj := t, stop := 0, start := 0 } (Or.inl (by norm_num))
  simp only at key
  have hb : (project t (wrap heading) speed (segments path) 0 { mindist := -1, proj := t, stop := 0, start := 0 }).stop < path.length := by
    rcases key with ⟨h, -⟩ | ⟨j, hj, h, -⟩
    · rw [h]; exact hpos
    · rw [h]; simp only; omega
  split_ifs with h2
  · cases h : path.drop (project t (wrap heading) speed (segments path) 0 { mindist := -1, proj := t, stop := 0, start := 0 }).stop with
    | nil => rw [List.drop_eq_nil_iff] at h; omega
    | cons a l => exact ⟨_, rfl⟩
  · cases h : (path.take ((project t (wrap heading) speed (segments path) 0 { mindist := -1, proj := t, stop := 0, start := 0 }).start + 1)).reverse with
    | nil => simp at h; exact absurd h hp
    | cons a l => exact ⟨_, rfl⟩

end Verif.Escort
