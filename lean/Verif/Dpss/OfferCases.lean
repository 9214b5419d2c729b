import Verif.Dpss.Offer

/-!
# A line to the east, looked at from above (C169)
-/

namespace Verif.Dpss

open Complex
open Verif.Stare (len len_nil len_single len_cons len_nonneg)

theorem beside_zero (a b p : Pt) (th : ℝ) (h : 1e-10 < ‖b.at_ - a.at_‖) : beside a b p th 0 = p := by
  have hv : 1e-10 < ‖rotate th (b.at_ - a.at_)‖ := by
    have e : rotate th (b.at_ - a.at_) = (b.at_ - a.at_) * exp (th * I) := by
      rw [exp_mul_I, ← ofReal_cos, ← ofReal_sin]
      apply Complex.ext <;> simp [rotate, cos_ofReal_re, sin_ofReal_re, -ofReal_cos, -ofReal_sin] <;> ring
    rw [e, norm_mul, norm_exp_ofReal_mul_I, mul_one]; exact h
  unfold beside
  simp only [if_pos hv, zero_div, ofReal_zero, mul_zero, zero_add]

/-- Looking straight down. -/
noncomputable def down : Look := ⟨0, Real.pi / 2, 100⟩

theorem reach_down (i : Bool) : reach down i = 0 := by
  unfold reach down
  rw [if_pos]
  right
  simp only
  have := Real.pi_pos
  linarith

/-- 1 km to the east. -/
noncomputable def east : List Pt := [pt 0 0, pt 0 1000]

theorem east_norm : ‖(pt 0 1000).at_ - (pt 0 0).at_‖ = 1000 ∧ ‖(pt 0 0).at_ - (pt 0 1000).at_‖ = 1000 := by
  have h : ‖(pt 0 1000).at_ - (pt 0 0).at_‖ = 1000 := norm_of_im 1000 (by norm_num) (by apply Complex.ext <;> simp [pt])
  exact ⟨h, by rw [norm_sub_rev]; exact h⟩

theorem east_apart : east.IsChain Apart ∧ east.reverse.IsChain Apart := by
  have h := abs_im_le_norm ((pt 0 1000).at_ - (⟨(pt 0 0).at_.im, (pt 0 0).at_.im⟩ : ℂ))
  have h' := abs_im_le_norm ((pt 0 0).at_ - (⟨(pt 0 1000).at_.im, (pt 0 1000).at_.im⟩ : ℂ))
  simp [pt] at h h'
  constructor <;> refine List.isChain_cons_cons.2 ⟨?_, by simp⟩ <;> unfold Apart <;> simp only [pt]
  · refine le_trans (by norm_num) h
  · refine le_trans (by norm_num) h'

theorem east_raw : forwardRaw down east = east ∧ reverseRaw down false east = east.reverse := by
  obtain ⟨n1, n2⟩ := east_norm
  have hd : ({ down with azimuth := down.azimuth } : Look) = down := rfl
  constructor
  · unfold east
    rw [forwardRaw, besideFrom, reach_down, beside_zero _ _ _ _ (by rw [n1]; norm_num), beside_zero _ _ _ _ (by rw [n1]; norm_num)]
  · unfold reverseRaw
    simp only [Bool.false_eq_true, if_false]
    rw [hd]
    unfold east
    simp only [List.reverse_cons, List.reverse_nil, List.nil_append, List.cons_append]
    rw [forwardRaw, besideFrom, reach_down, beside_zero _ _ _ _ (by rw [n2]; norm_num), beside_zero _ _ _ _ (by rw [n2]; norm_num)]

theorem east_chosen (step : ℝ) : preProcess east = east ∧ chosen step east = east := by
  have h1 : preProcess east = east := by simp [east, preProcess, straighten]
  refine ⟨h1, ?_⟩
  unfold chosen
  rw [h1]
  apply (C165_plan east _).2.2.2.2.1
  simp [east]

theorem clean_two (r : ℂ) (road : List ℂ) (a b : Pt) : cleanUp (r :: road) [a, b] = .ok [a, b] := rfl

theorem east_plan : planFor down 50 east = .ok east ∧ planBack down 50 east = .ok east.reverse := by
  obtain ⟨p1, c1⟩ := east_chosen 50
  obtain ⟨a1, a2⟩ := east_apart
  obtain ⟨r1, r2⟩ := east_raw
  have z1 := (C166_removed_partial east).2.2.2 a1
  have z2 := (C166_removed_partial east.reverse).2.2.2 a2
  constructor
  · unfold planFor offsetForward
    rw [c1, p1, z1]
    show (cleanUp _ (removeZero (forwardRaw down east))).bind _ = _
    rw [r1, z1]
    show (cleanUp [(pt 0 0).at_, (pt 0 1000).at_] [pt 0 0, pt 0 1000]).bind _ = _
    rw [clean_two, Outcome.bind_ok]
    show Outcome.ok (removeZero east) = _
    rw [z1]
  · unfold planBack offsetReverse
    rw [c1, p1, z1, z1]
    show (cleanUp _ (removeZero (reverseRaw down false east)).reverse).bind _ = _
    rw [r2, z2, List.reverse_reverse]
    show (cleanUp [(pt 0 0).at_, (pt 0 1000).at_] [pt 0 0, pt 0 1000]).bind _ = _
    rw [clean_two, Outcome.bind_ok]
    show Outcome.ok (removeZero east.reverse) = _
    rw [z2]

/-- **C169, what fails.**  Searching a line of 1 km to the east from above: the route is the line, it ends heading 90 degrees, and the
option says 0. -/
theorem C169_east_violated : ∃ o o', impact down 20 true east = .ok ([o, o'], true) ∧ o.route = east ∧ o'.route = east.reverse ∧
    o.startHeading = 90 ∧ o.endHeading = 0 ∧ o.cost = 50000 := by
  obtain ⟨p1, p2⟩ := east_plan
  obtain ⟨o, ho⟩ := (C169_some true 20 east).2 (by simp [east])
  obtain ⟨o', ho'⟩ := (C169_some true 20 east.reverse).2 (by simp [east])
  have hi : impact down 20 true east = .ok ([o, o'], true) := by
    unfold impact
    rw [if_neg (by simp [east]), p1, Outcome.bind_ok, p2, Outcome.bind_ok, ho, ho']
    rfl
  obtain ⟨_, h2, _, _, h5, _, h7, _⟩ := C169_says_partial ho
  refine ⟨o, o', hi, h2, (C169_says_partial ho').2.1, ?_, C169_straight_violated hi o (by simp), ?_⟩
  · rw [h5 (pt 0 0) (pt 0 1000) [] rfl]
    have e : (pt 0 1000).at_ - (pt 0 0).at_ = ((1000 : ℝ) : ℂ) * I := by apply Complex.ext <;> simp [pt]
    rw [e, arg_real_mul I (by norm_num), arg_I]
    have := Real.pi_pos
    field_simp; norm_num
  · obtain ⟨g1, g2⟩ := h7 (by norm_num)
    have e : len (east.map (·.at_)) = 1000 := by
      unfold east
      rw [List.map_cons, List.map_cons, List.map_nil, len_cons, len_single, east_norm.1]; norm_num
    rw [e] at g1 g2
    norm_num at g1 g2
    have g3 : (50000 : ℤ) < o.cost + 1 := by exact_mod_cast g2
    have g4 : o.cost ≤ (50000 : ℤ) := by exact_mod_cast g1
    omega

/-- The same line has an option with the right heading in the other task. -/
example : ∃ os, cmasi down 20 true east = .ok (os, true) ∧ os.length = 2 := by
  obtain ⟨p1, c1⟩ := east_chosen 200
  obtain ⟨a1, a2⟩ := east_apart
  obtain ⟨r1, r2⟩ := east_raw
  have z1 := (C166_removed_partial east).2.2.2 a1
  have z2 := (C166_removed_partial east.reverse).2.2.2 a2
  obtain ⟨p, p', hp, hp', os, d, h, hd, hos, _⟩ := C169_cmasi (k := down) (speed := 20) (both := true) (road := east) (by simp [east])
  have e1 : p.length = 2 := by
    unfold planFor offsetForward at hp
    rw [c1, p1, z1] at hp
    change (cleanUp _ (removeZero (forwardRaw down east))).bind _ = _ at hp
    rw [r1, z1] at hp
    change (cleanUp [(pt 0 0).at_, (pt 0 1000).at_] [pt 0 0, pt 0 1000]).bind _ = _ at hp
    rw [clean_two, Outcome.bind_ok] at hp
    change Outcome.ok (removeZero east) = _ at hp
    rw [z1, Outcome.ok.injEq] at hp
    rw [← hp]; rfl
  have e2 : p'.length = 2 := by
    have p3 : preProcess east.reverse = east.reverse := by simp [east, preProcess, straighten]
    have c3 : chosen 200 east.reverse = east.reverse := by
      unfold chosen
      rw [p3]
      apply (C165_plan east.reverse _).2.2.2.2.1
      simp [east]
    have r3 : forwardRaw down east.reverse = east.reverse := by
      unfold reverseRaw at r2
      simpa only [Bool.false_eq_true, if_false] using r2
    unfold planFor offsetForward at hp'
    rw [c3, p3, z2] at hp'
    change (cleanUp _ (removeZero (forwardRaw down east.reverse))).bind _ = _ at hp'
    rw [r3, z2] at hp'
    change (cleanUp [(pt 0 1000).at_, (pt 0 0).at_] [pt 0 1000, pt 0 0]).bind _ = _ at hp'
    rw [clean_two, Outcome.bind_ok] at hp'
    change Outcome.ok (removeZero east.reverse) = _ at hp'
    rw [z2, Outcome.ok.injEq] at hp'
    rw [← hp']; rfl
  have hd' : d = true := hd.2 ⟨by omega, fun _ => by omega⟩
  subst hd'
  refine ⟨os, h, ?_⟩
  have := congrArg List.length (hos rfl)
  simpa using this

end Verif.Dpss
