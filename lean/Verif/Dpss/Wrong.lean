import Verif.Dpss.Beside
import Verif.Dpss.Drift

/-!
# Where waypoints should not be (C167)
-/

namespace Verif.Dpss

open Complex
open Verif.Escort (dot normSq_def swathSide_spec intersectPoint side swathSide)

theorem norm_level (x x' y : ℝ) : ‖(⟨x, y⟩ : ℂ) - ⟨x', y⟩‖ = |x - x'| := by
  have e : (⟨x, y⟩ : ℂ) - ⟨x', y⟩ = ((x - x' : ℝ) : ℂ) := by apply Complex.ext <;> simp
  rw [e, norm_real, Real.norm_eq_abs]

theorem norm_upright (x y y' : ℝ) : ‖(⟨x, y⟩ : ℂ) - ⟨x, y'⟩‖ = |y - y'| := by
  have e : (⟨x, y⟩ : ℂ) - ⟨x, y'⟩ = ((y - y' : ℝ) : ℂ) * I := by apply Complex.ext <;> simp
  rw [e, norm_mul, norm_I, mul_one, norm_real, Real.norm_eq_abs]

/-- Looking to the right, 45 degrees down, from 100 m. -/
noncomputable def right45 : Look := ⟨Real.pi / 2, Real.pi / 4, 100⟩

theorem right45_reach : reach right45 false = 100 := by
  have hp := Real.pi_pos
  unfold reach right45
  rw [if_neg (by rintro (h | h) <;> simp only at h <;> linarith)]
  simp

theorem right45_plan : forwardRaw right45 [pt 0 10, pt 1000 10] = [pt 0 110, pt 1000 110] := by
  have hl : (1e-10 : ℝ) < ‖(pt 1000 10).at_ - (pt 0 10).at_‖ := by
    simp only [pt]; rw [norm_level]; norm_num
  have hc : course (pt 0 10).at_ (pt 1000 10).at_ = 1 := by
    unfold course
    have e : (pt 1000 10).at_ - (pt 0 10).at_ = ((1000 : ℝ) : ℂ) := by apply Complex.ext <;> simp [pt]
    rw [e, norm_real]; norm_num
  have he : exp (-((right45.azimuth : ℂ) * I)) = -I := by
    have : -((right45.azimuth : ℂ) * I) = -(Real.pi / 2 * I) := by simp [right45]
    rw [this, Complex.exp_neg, exp_pi_div_two_mul_I, inv_I]
  have hat : ∀ p : Pt, (beside (pt 0 10) (pt 1000 10) p (Real.pi - right45.azimuth) (reach right45 false)).at_ = p.at_ + 100 * I := by
    intro p
    have := beside_end hl right45 p
    rw [hc, he, right45_reach] at this
    push_cast at this
    rw [right45_reach]
    linear_combination -this
  have hz : ∀ p : Pt, (beside (pt 0 10) (pt 1000 10) p (Real.pi - right45.azimuth) (reach right45 false)).z = p.z := by
    intro p
    simp [beside, pt]
  rw [forwardRaw, besideFrom]
  congr 1
  · apply Pt.ext
    · rw [hat]; apply Complex.ext <;> simp [pt]; norm_num
    · rw [hz]; rfl
    · rfl
  · congr 1
    apply Pt.ext
    · rw [hat]; apply Complex.ext <;> simp [pt]; norm_num
    · rw [hz]; rfl
    · rfl

/-- **C167, violated.**  A line search hands over points with north first and east second.  A road to the north that is to be looked
at to the right is flown east of it, so it is to the left. -/
theorem C167_side_violated (r : ℂ) (road : List ℂ) :
    offsetForward right45 (r :: road) [pt 0 10, pt 1000 10] = .ok [pt 0 110, pt 1000 110] := by
  have h1 : [pt 0 10, pt 1000 10].IsChain Apart := by
    refine List.isChain_cons_cons.2 ⟨?_, by simp⟩
    unfold Apart
    simp only [pt]
    rw [norm_level]; norm_num [abs_of_pos]
  have h2 : [pt 0 110, pt 1000 110].IsChain Apart := by
    refine List.isChain_cons_cons.2 ⟨?_, by simp⟩
    unfold Apart
    simp only [pt]
    rw [norm_level]; norm_num [abs_of_pos]
  unfold offsetForward
  rw [(C166_removed_partial _).2.2.2 h1]
  simp only
  rw [right45_plan, (C166_removed_partial _).2.2.2 h2]
  change Outcome.ok (removeZero [_, _]) = _
  rw [(C166_removed_partial _).2.2.2 h2]

/-- **C167, violated.**  Looks that are parallel count as crossing when the origin of the coordinates is between the road and
the plan: waypoints are taken away and the first one is moved, here by half a leg. -/
theorem C167_parallel_violated :
    cleanUp [⟨0, -50⟩, ⟨200, -50⟩] [pt 0 50, pt 100 50, pt 200 50] = .ok [pt 50 50, pt 200 50] := by
  have hs : stares [⟨0, 50⟩, ⟨100, 50⟩, ⟨200, 50⟩] ⟨0, -50⟩ [⟨200, -50⟩] = [⟨0, -50⟩, ⟨100, -50⟩, ⟨200, -50⟩] := by
    simp only [stares, staresFrom, lengthOf, stareFrom, norm_level]
    norm_num
    apply Complex.ext <;> simp
    norm_num
  have hx : intersectPoint ⟨100, 50⟩ ⟨100, -50⟩ ⟨0, 50⟩ ⟨0, -50⟩ = none := by
    unfold intersectPoint
    norm_num
  have hc : crosses (⟨0, 50⟩, ⟨0, -50⟩) (⟨100, 50⟩, ⟨100, -50⟩) := by
    refine ⟨?_, ?_, Or.inr ?_⟩
    · simp only [norm_upright]; norm_num
    · simp only [norm_upright]; norm_num
    · rw [hx]
      simp only [Option.getD_none]
      rw [swathSide_spec, swathSide_spec]
      constructor <;> norm_num [dot]
  unfold cleanUp
  simp only [List.length_cons, List.length_nil]
  rw [show 0 + 1 + 1 + 1 - 2 = 0 + 1 from rfl, cleanLoop]
  simp only [List.map_cons, List.map_nil]
  rw [show (pt 0 50).at_ = ⟨0, 50⟩ from rfl, show (pt 100 50).at_ = ⟨100, 50⟩ from rfl, show (pt 200 50).at_ = ⟨200, 50⟩ from rfl, hs]
  simp only [List.zip_cons_cons, List.zip_nil_left]
  rw [firstCross, if_pos hc]
  simp only [List.length_cons, List.length_nil]
  norm_num
  rw [cleanLoop, merge]
  congr 1
  unfold mid
  apply Pt.ext
  · apply Complex.ext <;> simp [pt] <;> norm_num
  · simp [pt]
  · rfl

end Verif.Dpss
