import Verif.Escort.Path

/-!
# Cases of C143 to C145, and where the code falls short of them
-/

namespace Verif.Escort

open Complex

/-- A line of interest from west to east, one kilometre long. -/
noncomputable def exLines : List (ℤ × List ℂ) := [(7, [0, 1000])]

/-- No mission is known. -/
noncomputable def exKnown : Known := { missions := fun _ => none, lines := exLines }

/-- Vehicle 5 is to be followed 100 m behind. -/
noncomputable def exTask : Task := { supported := 5, route := 0, prescribed := [], standoff := -100 }

theorem compass90 : compass 90 = ⟨1, 0⟩ := by
  unfold compass
  rw [show (90 : ℝ) * (Real.pi / 180) = Real.pi / 2 by ring, Real.sin_pi_div_two, Real.cos_pi_div_two]

theorem compass270 : compass 270 = ⟨-1, 0⟩ := by
  unfold compass
  rw [show (270 : ℝ) * (Real.pi / 180) = Real.pi + Real.pi / 2 by ring, Real.sin_add, Real.cos_add]
  simp

/-- A vehicle 10 m beside the line is about 10 m away from it. -/
theorem ex_dist : 9 < distTo 0 1000 (500 + 10 * I) := by
  obtain ⟨⟨l, -, -, h⟩, -⟩ := C143_closest 0 1000 (500 + 10 * I)
  unfold distTo
  set c := closestPoint 0 1000 (500 + 10 * I)
  have h1 := Complex.abs_im_le_norm (c - (0 + (l : ℂ) * (1000 - 0)))
  have h2 := Complex.abs_im_le_norm (c - (500 + 10 * I))
  simp at h1 h2
  have h3 := (abs_le.1 (le_trans h1 (by simpa using h))).2
  have h4 := neg_abs_le (c.im - 10)
  norm_num at h3
  linarith

theorem ex_distLine : 0 < distanceToLine (500 + 10 * I) [0, 1000] := by
  have h := ex_dist
  unfold distanceToLine
  simp only [segments, List.tail_cons, List.zip_cons_cons, List.zip_nil_right, List.foldl_cons, List.foldl_nil]
  rw [if_pos (Or.inl (by norm_num))]
  linarith

theorem ex_nearest : (nearestLine (500 + 10 * I) exLines).2 = 7 := by
  unfold nearestLine exLines
  simp only [List.foldl_cons, List.foldl_nil]
  rw [if_pos ⟨ex_distLine, Or.inl (by norm_num)⟩]

/-- C143: a point beside the segment; its distance is 10 m to within 0.01 mm. -/
example : distTo 0 1000 (500 + 10 * I) ≤ 10 + 1e-5 := by
  have h := (C143_closest 0 1000 (500 + 10 * I)).2 (1 / 2) (by norm_num) (by norm_num)
  rw [show (0 : ℂ) + ((1 / 2 : ℝ) : ℂ) * (1000 - 0) - (500 + 10 * I) = -((10 : ℝ) : ℂ) * I by push_cast; ring] at h
  simpa using h

/-- A mission with a corner. -/
noncomputable def exMission : Known := { missions := fun i => if i = 5 then some [0, 1000, 1000 + 1000 * I] else none, lines := [] }

/-- C144: the hypotheses are met by a mission with a corner and a vehicle that follows it. -/
example : ∃ z, targetPoint exMission { exTask with standoff := 700 } (500 + 10 * I) 90 10 = some z := by
  have hp : choosePath exMission { exTask with standoff := 700 } (500 + 10 * I) 90 10 = [0, 1000, 1000 + 1000 * I] :=
    (C145_order _ _ _ _ _).2.1 rfl _ (by simp [exMission, exTask])
  obtain ⟨z, -, -, h, -⟩ := C144_place (t := 500 + 10 * I) (heading := 90) (speed := 10) (k := exMission)
    (task := { exTask with standoff := 700 }) (by norm_num [exTask]) hp
    (by
      intro j hj
      simp at hj
      have : j = 0 ∨ j = 1 := by omega
      rcases this with rfl | rfl <;> norm_num)
    ⟨0, by simp, Or.inr (by rw [compass90]; simp [dot])⟩
  exact ⟨z, h⟩

/-- C144: the first corner is 500 m ahead, so 700 m along the path is 200 m past it, to the north. -/
example : along [500, 1000, 1000 + 1000 * I] 700 = 1000 + 200 * I := by
  have n1 : ‖(1000 : ℂ) - 500‖ = 500 := by norm_num
  have n2 : ‖(1000 : ℂ) + 1000 * I - 1000‖ = 1000 := by norm_num
  rw [along, n1, if_neg (by norm_num), along, n2, if_pos (by norm_num)]
  push_cast; ring

/-- C145: a line beside the vehicle is found. -/
example : choosePath exKnown exTask (500 + 10 * I) 90 10 ≠ [] := by
  rcases C145_nearest_partial (k := exKnown) (task := exTask) (t := 500 + 10 * I) (heading := 90) (speed := 10)
    (by simp [exKnown, exLines]) (by simp [exKnown, exLines]) rfl rfl rfl with ⟨-, h⟩ | ⟨l, hl, h, -⟩
  · have := h (7, [0, 1000]) (by simp [exKnown, exLines])
    have := ex_distLine
    simp only at *
    linarith
  · simp [exKnown, exLines] at hl
    subst hl
    rcases h with h | h <;> rw [h] <;> simp

/-- C145: a hairpin, and a vehicle that goes east: the line is reversed just when the northern branch is nearer than the
southern one. -/
example (t : ℂ) :
    flipLine t 90 [0, 1000, 1000 + 100 * I, 100 * I] = true ↔ distTo (100 * I) (1000 + 100 * I) t < distTo 0 1000 t := by
  rw [C145_flip_partial (by norm_num) (by norm_num)]
  · simp [segments, compass90, dot]
  · simp [segments]; norm_num

/-! ### Where the code falls short -/

/-- **C145, violated**: a vehicle that moves against a line of interest, no part of which goes its way, does not have the
line reversed: for such lines the code never does. -/
theorem C145_against_violated {t : ℂ} {heading : ℝ} {l : List ℂ} (h0 : -180 ≤ heading) (h1 : heading ≤ 540)
    (hl : ∀ s ∈ segments l ++ segments l.reverse, 1e-6 ≤ ‖s.2 - s.1‖)
    (hg : ∀ s ∈ segments l, dot (compass heading) (s.2 - s.1) ≤ 0) : flipLine t heading l = false := by
  cases h : flipLine t heading l with
  | false => rfl
  | true =>
      obtain ⟨⟨s, hs, hd⟩, -⟩ := (C145_flip_partial h0 h1 hl).1 h
      exact absurd (hg s hs) (not_le.2 hd)

/-- **C145, violated**: a vehicle goes west, beside a line of interest that was drawn from west to east, and its escort is to
stay 100 m behind.  It is put 100 m ahead. -/
theorem C145_ahead_violated : ∃ z, targetPoint exKnown exTask (500 + 10 * I) 270 10 = some z ∧
    ‖z - (500 + 10 * I)‖ = 100 ∧ 99 < dot (compass 270) (z - (500 + 10 * I)) := by
  set t : ℂ := 500 + 10 * I with ht
  have hflip : flipLine t 270 [0, 1000] = false :=
    C145_against_violated (by norm_num) (by norm_num) (by simp [segments]; norm_num) (by simp [segments, compass270, dot])
  have hpath : choosePath exKnown exTask t 270 10 = [0, 1000] := by
    have hn : (nearestLine t exKnown.lines).2 = 7 := ex_nearest
    have hlk : exKnown.lines.lookup 7 = some [0, 1000] := rfl
    have h10 : ¬ |(10 : ℝ)| < 1 := by norm_num
    unfold choosePath
    simp only [hn, hlk, hflip, if_neg h10]
    simp [exTask, exKnown]
  have hproj : project t (wrap 270) 10 (segments [0, 1000]) 0 { mindist := -1, proj := t, stop := 0, start := 0 } =
      { mindist := -1, proj := t, stop := 0, start := 0 } := by
    rcases project_spec (t := t) (h := wrap 270) (speed := 10) (segments [0, 1000]) 0 { mindist := -1, proj := t, stop := 0, start := 0 }
      (Or.inl (by norm_num)) with ⟨h, -⟩ | ⟨j, hj, -, h, -⟩
    · exact h
    · exfalso
      have : j = 0 := by simp [segments] at hj; exact hj
      subst this
      rcases (counts_iff (a := 0) (b := 1000) (by norm_num)).1 h with h | h
      · norm_num at h
      · rw [compass270] at h; simp [dot] at h; norm_num at h
  have hn2 : ‖t‖ ^ 2 = 250100 := by rw [normSq_def, ht]; simp; norm_num
  have hn : 500 < ‖t‖ ∧ ‖t‖ < 501 := by
    constructor <;> nlinarith [norm_nonneg t]
  have htn : (‖t‖ : ℂ) ≠ 0 := by
    rw [ofReal_ne_zero]; linarith [hn.1]
  refine ⟨0 + (((‖t‖ - 100) / ‖t‖ : ℝ) : ℂ) * (t - 0), ?_, ?_⟩
  · unfold targetPoint
    rw [if_neg (by simp only [exTask]; norm_num [abs_lt])]
    simp only
    rw [hpath, if_neg (by simp), hproj, if_neg (by simp only [exTask]; norm_num)]
    simp only [zero_add, List.take_succ_cons, List.take_zero, List.reverse_cons, List.reverse_nil, List.nil_append]
    rw [show |exTask.standoff| = 100 by simp [exTask]]
    simp only [place, walk, settle, sub_zero, zero_sub, norm_neg]
    rw [if_pos (by linarith [hn.1]), if_pos ⟨by norm_num; linarith [hn.1], by linarith⟩, zero_add]
  · have e : 0 + (((‖t‖ - 100) / ‖t‖ : ℝ) : ℂ) * (t - 0) - t = ((-(100 / ‖t‖) : ℝ) : ℂ) * t := by
      push_cast; field_simp; ring
    rw [e]
    constructor
    · rw [norm_mul, norm_real, norm_neg, Real.norm_of_nonneg (by positivity)]
      rw [div_mul_cancel₀ _ (by linarith [hn.1])]
    · rw [compass270]
      simp only [dot, mul_re, ofReal_re, ofReal_im, zero_mul, sub_zero, add_zero]
      rw [show t.re = 500 by rw [ht]; simp]
      rw [show -1 * (-(100 / ‖t‖) * 500) = 50000 / ‖t‖ by ring, lt_div_iff₀ (by linarith [hn.1])]
      linarith [hn.2]

/-- **C145, violated**: for a vehicle at rest a line with one segment is always reversed, wherever the vehicle is: each
segment is counted twice, and the one it is beside in full. -/
theorem C145_rest_violated {a b t : ℂ} (hab : 1 ≤ ‖b - a‖) (hta : t ≠ a) : restFlip t [a, b] = true := by
  have h1 : 0 < ‖a - t‖ := norm_pos_iff.2 (sub_ne_zero.2 (Ne.symm hta))
  unfold restFlip
  simp only [segments, List.tail_cons, List.zip_cons_cons, List.zip_nil_right, restLoop]
  rw [if_pos (Or.inl (by norm_num))]
  rw [decide_eq_true_iff]
  simp only
  refine ⟨by linarith, ?_⟩
  rw [lt_div_iff₀ (by linarith)]
  norm_num
  linarith [h1]

/-- C145, violated: the vehicle stands 100 m from the start and 900 m from the end of its line. -/
example : restFlip 100 [0, 1000] = true := C145_rest_violated (by norm_num) (by norm_num)

theorem closest_on : closestPoint 0 1000 500 = 500 := by
  have hf : foot 0 1000 500 = 500 := by
    simp only [foot, dot]
    norm_num
  unfold closestPoint
  rw [intersect_foot, if_neg (by norm_num), hf]
  have hs : swathSide 0 1000 500 = 0 := by
    rw [swathSide_spec, if_neg (by norm_num [dot]), if_pos (by norm_num [dot])]
  simp [hs]

/-- **C145, violated**: a vehicle that is exactly on the only line of interest is taken to follow none, and its escort is put
onto it instead of 100 m away. -/
theorem C145_on_line_violated (heading speed : ℝ) :
    choosePath exKnown exTask 500 heading speed = [] ∧ targetPoint exKnown exTask 500 heading speed = some 500 := by
  have h : choosePath exKnown exTask 500 heading speed = [] := by
    rcases C145_nearest_partial (k := exKnown) (task := exTask) (t := 500) (heading := heading) (speed := speed)
      (by simp [exKnown, exLines]) (by simp [exKnown, exLines]) rfl rfl rfl with ⟨h, -⟩ | ⟨l, hl, -, h, -⟩
    · exact h
    · exfalso
      simp [exKnown, exLines] at hl
      subst hl
      obtain ⟨⟨s, hs, h'⟩, -⟩ := (C145_distance 500 [0, 1000]).2 (by simp [segments])
      simp [segments] at hs
      subst hs
      rw [h'] at h
      simp [distTo, closest_on] at h
  exact ⟨h, C144_none (Or.inr h)⟩

end Verif.Escort
