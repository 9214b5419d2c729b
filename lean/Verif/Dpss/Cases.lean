import Verif.Dpss.Wrong
import Verif.Dpss.Quick

/-!
# Flying back, and a road round a corner (C167)
-/

namespace Verif.Dpss

open Complex
open Verif.Escort (dot normSq_def swathSide_spec intersectPoint side swathSide)

/-- **C167.**  Flying back, the road is seen from the end it starts at, and at the end from there, as it is when it is flown forward
in the other direction; on the same side with the negative azimuth. -/
theorem C167_reverse_partial {k : Look} {s : Bool} {r : ℂ} {road : List ℂ} {l : List Pt} (h : l.IsChain Apart)
    (hw : (reverseRaw k s l).IsChain Apart)
    (hc : (looks (reverseRaw k s l).reverse r road).IsChain fun r s => ¬ crosses r s) (h2 : 2 ≤ l.length)
    (e1 : 1 * (Real.pi / 180) ≤ k.elevation) (e2 : k.elevation ≤ 89 * (Real.pi / 180)) :
    ∃ p, offsetReverse k s (r :: road) l = .ok p ∧ p.length = l.length ∧
      (∀ a b l', l = l' ++ [b, a] → 1e-10 < ‖b.at_ - a.at_‖ → ∃ w, p.head? = some w ∧
        a.at_ - w.at_ = ((k.altitude / Real.tan k.elevation : ℝ) : ℂ) *
          (course a.at_ b.at_ * exp (-(((if s then -k.azimuth else k.azimuth : ℝ) : ℂ) * I)))) ∧
      (∀ a b l', l = b :: a :: l' → 1e-10 < ‖b.at_ - a.at_‖ → ∃ w, p.getLast? = some w ∧
        b.at_ - w.at_ = ((k.altitude / Real.tan k.elevation : ℝ) : ℂ) *
          (course a.at_ b.at_ * exp (-(((if s then -k.azimuth else k.azimuth : ℝ) : ℂ) * I)))) := by
  set k' : Look := { k with azimuth := if s then -k.azimuth else k.azimuth } with hk'
  have hraw : reverseRaw k s l = forwardRaw k' l.reverse := rfl
  have hlen : (reverseRaw k s l).length = l.length := by rw [hraw, forwardRaw_length, List.length_reverse]
  have hr : reach k' false = k.altitude / Real.tan k.elevation := by
    unfold reach
    rw [if_neg (by rintro (h | h) <;> simp only [hk'] at h <;> linarith)]
    rfl
  have hp : offsetReverse k s (r :: road) l = .ok (reverseRaw k s l) := by
    unfold offsetReverse
    rw [(C166_removed_partial l).2.2.2 h]
    match l, h2 with
    | a :: b :: l, _ =>
        simp only
        rw [(C166_removed_partial _).2.2.2 hw]
        obtain ⟨p, hp, -, -, -, -, he⟩ := C167_clean (r := r) (road := road) (l := (reverseRaw k s (a :: b :: l)).reverse) (by
          rw [List.length_reverse, hlen]; simp)
        rw [hp, Outcome.bind_ok, he hc, List.reverse_reverse, (C166_removed_partial _).2.2.2 hw]
  refine ⟨_, hp, hlen, ?_, ?_⟩
  · rintro a b l' rfl hl
    rw [hraw, List.reverse_append]
    refine ⟨_, (forwardRaw_get k').1 a b l'.reverse, ?_⟩
    rw [← hr]
    exact beside_end (by simpa using hl) k' a
  · rintro a b l' rfl hl
    rw [hraw]
    have e : (b :: a :: l').reverse = l'.reverse ++ [a, b] := by simp
    rw [e]
    refine ⟨_, (forwardRaw_get k').2.2 l'.reverse a b, ?_⟩
    rw [← hr]
    exact beside_end hl k' b

/-! ### A corner -/

/-- The coordinate of a bend waypoint 100 m out. -/
noncomputable def h45 : ℝ := 100 * (√2 / 2)

theorem h45_sq : h45 * h45 = 5000 := by
  unfold h45
  have : √2 * √2 = 2 := Real.mul_self_sqrt (by norm_num)
  nlinarith

theorem h45_range : 70 < h45 ∧ h45 < 71 := by
  have h := h45_sq
  have h0 : 0 ≤ h45 := by unfold h45; positivity
  constructor <;> nlinarith

theorem right45_inner : reach right45 true = 100 := by
  have := (reach_far (k := right45) (by have := Real.pi_pos; simp only [right45]; linarith)
    (by have := Real.pi_pos; simp only [right45]; linarith)).2
  rw [this, right45_reach]; simp [right45]

/-- North, then west. -/
noncomputable def corner : List Pt := [pt 0 0, pt 1000 0, pt 1000 (-1000)]

theorem corner_separation : (separation (pt 0 0).at_ (pt 1000 0).at_ (pt 1000 (-1000)).at_).1 = Real.pi / 2 := by
  have hp := Real.pi_pos
  have d1 : (pt 1000 0).at_ - (pt 0 0).at_ = ((1000 : ℝ) : ℂ) := by apply Complex.ext <;> simp [pt]
  have d2 : (pt 1000 (-1000)).at_ - (pt 1000 0).at_ = ((1000 : ℝ) : ℂ) * -I := by apply Complex.ext <;> simp [pt]
  unfold separation
  simp only
  rw [d1, d2]
  have n1 : ¬ ‖((1000 : ℝ) : ℂ)‖ < 1e-6 := by rw [norm_real]; norm_num
  have n2 : ¬ ‖((1000 : ℝ) : ℂ) * -I‖ < 1e-6 := by rw [norm_mul, norm_real, norm_neg, norm_I]; norm_num
  rw [if_neg n1, if_neg n2, arg_ofReal_of_nonneg (by norm_num), arg_real_mul _ (by norm_num), arg_neg_I]
  simp only
  rw [if_neg (show ¬ 0 - -(Real.pi / 2) < -Real.pi by linarith), if_neg (by linarith)]
  ring

theorem corner_raw : forwardRaw right45 corner = [pt 0 100, pt (1000 + h45) h45, pt 1100 (-1000)] := by
  have d1 : (pt 1000 0).at_ - (pt 0 0).at_ = ((1000 : ℝ) : ℂ) := by apply Complex.ext <;> simp [pt]
  have d2 : (pt 1000 (-1000)).at_ - (pt 1000 0).at_ = ((1000 : ℝ) : ℂ) * -I := by apply Complex.ext <;> simp [pt]
  have l1 : (1e-10 : ℝ) < ‖(pt 1000 0).at_ - (pt 0 0).at_‖ := by rw [d1, norm_real]; norm_num
  have l2 : (1e-10 : ℝ) < ‖(pt 1000 (-1000)).at_ - (pt 1000 0).at_‖ := by
    rw [d2, norm_mul, norm_real, norm_neg, norm_I]; norm_num
  have c1 : course (pt 0 0).at_ (pt 1000 0).at_ = 1 := by
    unfold course; rw [d1, norm_real]; norm_num
  have c2 : course (pt 1000 0).at_ (pt 1000 (-1000)).at_ = -I := by
    unfold course; rw [d2, norm_mul, norm_real, norm_neg, norm_I]; norm_num; ring
  have he : exp (-((right45.azimuth : ℂ) * I)) = -I := by
    have : -((right45.azimuth : ℂ) * I) = -(Real.pi / 2 * I) := by simp [right45]
    rw [this, Complex.exp_neg, exp_pi_div_two_mul_I, inv_I]
  have w1 := beside_end l1 right45 (pt 0 0)
  have w3 := beside_end l2 right45 (pt 1000 (-1000))
  have w2 := beside_inner (c := pt 1000 (-1000)) l1 right45
  rw [c1, he, right45_reach] at w1
  rw [c2, he, right45_reach] at w3
  rw [c1, right45_inner] at w2
  have e2 : exp (-(((((separation (pt 0 0).at_ (pt 1000 0).at_ (pt 1000 (-1000)).at_).1 / 2 : ℝ)) : ℂ) * I)) * I = ⟨√2 / 2, √2 / 2⟩ := by
    rw [corner_separation]
    have e : -(((Real.pi / 2 / 2 : ℝ) : ℂ) * I) = ((-(Real.pi / 4) : ℝ) : ℂ) * I := by push_cast; ring
    rw [e, exp_mul_I, ← ofReal_cos, ← ofReal_sin, Real.cos_neg, Real.sin_neg, Real.cos_pi_div_four, Real.sin_pi_div_four]
    apply Complex.ext <;> simp
  rw [one_mul, e2] at w2
  rw [corner, forwardRaw, besideFrom, besideFrom]
  congr 1
  · apply Pt.ext
    · rw [right45_reach]; rw [← sub_eq_zero, ← neg_eq_zero, neg_sub]
      have : (pt 0 100).at_ = (pt 0 0).at_ + 100 * I := by apply Complex.ext <;> simp [pt]
      rw [this]; push_cast at w1; linear_combination w1
    · simp [beside, pt]
    · rfl
  · congr 1
    · apply Pt.ext
      · have : (pt (1000 + h45) h45).at_ = (pt 1000 0).at_ + 100 * ⟨√2 / 2, √2 / 2⟩ := by
          apply Complex.ext <;> simp [pt, h45]
        rw [this, right45_inner]; push_cast at w2; linear_combination w2
      · simp [beside, pt]
      · rfl
    · congr 1
      apply Pt.ext
      · have : (pt 1100 (-1000)).at_ = (pt 1000 (-1000)).at_ + 100 := by apply Complex.ext <;> simp [pt]; norm_num
        rw [this, right45_reach]; push_cast at w3; linear_combination -w3 - 100 * I_mul_I
      · simp [beside, pt]
      · rfl

theorem corner_apart : corner.IsChain Apart := by
  refine List.isChain_cons_cons.2 ⟨?_, List.isChain_cons_cons.2 ⟨?_, by simp⟩⟩
  · refine le_trans ?_ (abs_re_le_norm _)
    simp [pt]; norm_num
  · refine le_trans ?_ (abs_re_le_norm _)
    simp [pt]; norm_num

theorem corner_raw_apart : (forwardRaw right45 corner).IsChain Apart := by
  obtain ⟨h1, h2⟩ := h45_range
  rw [corner_raw]
  refine List.isChain_cons_cons.2 ⟨?_, List.isChain_cons_cons.2 ⟨?_, by simp⟩⟩
  · refine le_trans ?_ (abs_re_le_norm _)
    simp only [pt, sub_re]; rw [abs_of_pos (by linarith)]; norm_num; linarith
  · refine le_trans ?_ (abs_re_le_norm _)
    simp only [pt, sub_re]; rw [abs_of_pos (by linarith)]; norm_num; linarith

theorem corner_looks : looks (forwardRaw right45 corner) 0 [⟨1000, 0⟩, ⟨1000, -1000⟩] =
    [(⟨0, 100⟩, 0), (⟨1000 + h45, h45⟩, ⟨1000, 0⟩), (⟨1100, -1000⟩, ⟨1000, -1000⟩)] := by
  have hn : ‖(⟨1100, -1000⟩ : ℂ) - ⟨1000 + h45, h45⟩‖ = ‖(⟨1000 + h45, h45⟩ : ℂ) - ⟨0, 100⟩‖ := by
    rw [← sq_eq_sq₀ (norm_nonneg _) (norm_nonneg _), normSq_def, normSq_def]
    simp only [sub_re, sub_im]
    ring
  have hpos : 0 < ‖(⟨1000 + h45, h45⟩ : ℂ) - ⟨0, 100⟩‖ := by
    refine lt_of_lt_of_le ?_ (abs_re_le_norm _)
    have := h45_range.1
    simp only [sub_re]
    rw [abs_of_pos] <;> linarith
  have d1 : ‖(⟨1000, 0⟩ : ℂ) - 0‖ = 1000 := by
    rw [show (⟨1000, 0⟩ : ℂ) - 0 = ((1000 : ℝ) : ℂ) by apply Complex.ext <;> simp, norm_real]; norm_num
  have d2 : ‖(⟨1000, -1000⟩ : ℂ) - ⟨1000, 0⟩‖ = 1000 := by rw [norm_upright]; norm_num
  rw [corner_raw]
  unfold looks
  simp only [List.map_cons, List.map_nil]
  rw [show (pt 0 100).at_ = ⟨0, 100⟩ from rfl, show (pt (1000 + h45) h45).at_ = ⟨1000 + h45, h45⟩ from rfl,
    show (pt 1100 (-1000)).at_ = ⟨1100, -1000⟩ from rfl]
  simp only [stares, staresFrom, lengthOf, d1, d2]
  set x := ‖(⟨1000 + h45, h45⟩ : ℂ) - ⟨0, 100⟩‖ with hx
  rw [hn, if_neg (by linarith)]
  have ht : (0 + x) / (x + (x + 0)) * (1000 + (1000 + 0)) = 1000 := by field_simp; ring
  rw [ht]
  simp only [stareFrom, d1, d2]
  norm_num

theorem corner_clear : (looks (forwardRaw right45 corner) 0 [⟨1000, 0⟩, ⟨1000, -1000⟩]).IsChain fun r s => ¬ crosses r s := by
  obtain ⟨h1, h2⟩ := h45_range
  have hs := h45_sq
  have hne : h45 ≠ 0 := by linarith
  rw [corner_looks]
  have i1 : intersectPoint ⟨1000 + h45, h45⟩ ⟨1000, 0⟩ ⟨0, 100⟩ 0 = some ⟨0, -1000⟩ := by
    unfold intersectPoint
    simp only [zero_re, zero_im]
    rw [if_neg]
    · congr 1
      apply Complex.ext
      · simp
      · simp only; field_simp; ring
    · rw [not_lt]
      refine le_trans ?_ (le_abs_self _)
      norm_num
      linarith
  have i2 : intersectPoint ⟨1100, -1000⟩ ⟨1000, -1000⟩ ⟨1000 + h45, h45⟩ ⟨1000, 0⟩ = some ⟨0, -1000⟩ := by
    unfold intersectPoint
    rw [if_neg]
    · congr 1
      apply Complex.ext
      · simp only; field_simp; ring
      · simp only; field_simp; ring
    · rw [not_lt]
      refine le_trans ?_ (le_abs_self _)
      norm_num
      linarith
  refine List.isChain_cons_cons.2 ⟨?_, List.isChain_cons_cons.2 ⟨?_, by simp⟩⟩
  · rintro ⟨-, -, ⟨-, h⟩ | ⟨-, h⟩⟩
    · rw [i1] at h; simp at h
    · rw [i1, swathSide_spec] at h
      norm_num [dot] at h
  · rintro ⟨-, -, ⟨-, h⟩ | ⟨h, -⟩⟩
    · rw [i2] at h; simp at h
    · rw [i2, swathSide_spec] at h
      norm_num [dot] at h

/-- C167_all, C167_ends_partial and C167_bend_partial: flown with 100 m, the bend 100 m away from the corner, which is 71 m from both
legs. -/
example : offsetForward right45 [0, ⟨1000, 0⟩, ⟨1000, -1000⟩] corner = .ok [pt 0 100, pt (1000 + h45) h45, pt 1100 (-1000)] := by
  rw [C167_all corner_apart corner_raw_apart corner_clear, corner_raw]

/-! ### Back along a straight road -/

theorem back_raw : reverseRaw right45 true [pt 0 10, pt 1000 10] = [pt 1000 110, pt 0 110] := by
  have hl : (1e-10 : ℝ) < ‖(pt 0 10).at_ - (pt 1000 10).at_‖ := by
    simp only [pt]; rw [norm_level]; norm_num
  have hc : course (pt 1000 10).at_ (pt 0 10).at_ = -1 := by
    unfold course
    have e : (pt 0 10).at_ - (pt 1000 10).at_ = ((-1000 : ℝ) : ℂ) := by apply Complex.ext <;> simp [pt]
    rw [e, norm_real]; norm_num
  set k : Look := { right45 with azimuth := -right45.azimuth } with hk
  have hr : reach k false = 100 := right45_reach
  have he : exp (-((k.azimuth : ℂ) * I)) = I := by
    have : -((k.azimuth : ℂ) * I) = Real.pi / 2 * I := by simp [hk, right45]
    rw [this, exp_pi_div_two_mul_I]
  have hat : ∀ p : Pt, (beside (pt 1000 10) (pt 0 10) p (Real.pi - k.azimuth) (reach k false)).at_ = p.at_ + 100 * I := by
    intro p
    have := beside_end hl k p
    rw [hc, he, hr] at this
    push_cast at this
    rw [hr]
    linear_combination -this
  have hz : ∀ p : Pt, (beside (pt 1000 10) (pt 0 10) p (Real.pi - k.azimuth) (reach k false)).z = p.z := by
    intro p
    simp [beside, pt]
  change forwardRaw k [pt 1000 10, pt 0 10] = _
  rw [forwardRaw, besideFrom]
  congr 1
  · apply Pt.ext
    · rw [hat]; apply Complex.ext <;> simp [pt]; norm_num
    · rw [hz]; rfl
    · rfl
  · congr 1
    apply Pt.ext
    · rw [hat]; apply Complex.ext <;> simp [pt]; norm_num
    · rw [hz]; rfl
    · rfl

/-- C167_reverse_partial: there and back on the same side. -/
example : ∃ p, offsetReverse right45 true [⟨0, 10⟩, ⟨1000, 10⟩] [pt 0 10, pt 1000 10] = .ok p ∧ p.length = 2 := by
  have hp := Real.pi_pos
  have a1 : [pt 0 10, pt 1000 10].IsChain Apart := by
    refine List.isChain_cons_cons.2 ⟨?_, by simp⟩
    refine le_trans ?_ (abs_re_le_norm _)
    simp [pt]; norm_num [abs_of_pos]
  have a2 : (reverseRaw right45 true [pt 0 10, pt 1000 10]).IsChain Apart := by
    rw [back_raw]
    refine List.isChain_cons_cons.2 ⟨?_, by simp⟩
    refine le_trans ?_ (abs_re_le_norm _)
    simp only [pt, sub_re]; norm_num
  have a3 : (looks (reverseRaw right45 true [pt 0 10, pt 1000 10]).reverse ⟨0, 10⟩ [⟨1000, 10⟩]).IsChain fun r s => ¬ crosses r s := by
    rw [back_raw]
    have hi : intersectPoint ⟨1000, 110⟩ ⟨1000, 10⟩ ⟨0, 110⟩ ⟨0, 10⟩ = none := by
      unfold intersectPoint
      norm_num
    have hl : looks [pt 0 110, pt 1000 110] ⟨0, 10⟩ [⟨1000, 10⟩] = [(⟨0, 110⟩, ⟨0, 10⟩), (⟨1000, 110⟩, ⟨1000, 10⟩)] := rfl
    change (looks [pt 0 110, pt 1000 110] _ _).IsChain _
    rw [hl]
    refine List.isChain_cons_cons.2 ⟨?_, by simp⟩
    rintro ⟨-, -, ⟨h, -⟩ | ⟨h, -⟩⟩
    · unfold intersects side at h
      norm_num [abs_of_neg] at h
    · rw [hi, swathSide_spec] at h
      norm_num [dot] at h
  obtain ⟨p, h1, h2, -⟩ := C167_reverse_partial a1 a2 a3 (by simp) (by simp only [right45]; linarith)
    (by simp only [right45]; linarith)
  exact ⟨p, h1, h2⟩

/-! ### C165, C166 -/

/-- C165_near_partial: a point of a road. -/
example : OnLine ⟨500, 0⟩ (corner.map (·.at_)) := by
  refine Or.inl ⟨[], _, _, [⟨1000, -1000⟩], rfl, ⟨1 / 2, 1 / 2, by norm_num, by norm_num, by norm_num, ?_⟩⟩
  apply Complex.ext <;> norm_num [pt]

/-- C166_twice_violated. -/
example : removeZero [pt 5 7, pt 5 7] = [pt 5 7, pt 5 7] := C166_twice_violated (by norm_num [pt])

/-- C166_plan_violated: no second waypoint, so no line search. -/
example : offsetForward right45 [⟨0, 400⟩, ⟨400, 400⟩] [⟨⟨0, 400⟩, 0, false⟩, ⟨⟨400, 400⟩, 0, false⟩] = .ok [⟨⟨0, 400⟩, 0, false⟩] :=
  C166_plan_violated _ _ _ _ _ _

end Verif.Dpss
