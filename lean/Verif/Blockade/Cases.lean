import Verif.Blockade.Wall

/-!
# Cases of C146, and where the code falls short of it
-/

namespace Verif.Blockade

open Complex Verif.Escort

theorem dir_east {e : ℝ} (h : 0 ≤ e) : dir 0 (e : ℂ) = 1 := by
  unfold dir; rw [sub_zero, arg_ofReal_of_nonneg h]; simp

/-- C146: the enemy is 10 km east of the base and the vehicle 3 km north of it, so the hypotheses are met; it is sent to a place
that is as far from it as from the point in front of the enemy, to within 1.2 m. -/
example : ∃ ell : ℝ, (centre (some (3000 * I)) 10000 (some 0) 1000).1 = (ell : ℂ) ∧ 0 ≤ ell ∧ ell ≤ 9000 ∧
    |‖(ell : ℂ) - 3000 * I‖ - ‖(ell : ℂ) - 9000‖| ≤ 1.2 := by
  obtain ⟨ell, h1, -, -, h2⟩ := C146_meet_partial (v := 3000 * I) (target := 10000) (base := 0) (standoff := 1000) (by norm_num)
  have hd : dir 0 10000 = 1 := by exact_mod_cast dir_east (e := 10000) (by norm_num)
  rw [hd] at h1 h2
  have hfar : 10 ≤ ‖(3000 * I : ℂ) - 9000‖ := by
    have := abs_im_le_norm ((3000 * I : ℂ) - 9000)
    simp at this; linarith
  have hn : ‖(10000 : ℂ) - 0‖ - 1000 = 9000 := by norm_num
  rw [hn] at h2
  simp only [mul_one, zero_add, sub_zero] at h1 h2
  push_cast at h2
  obtain ⟨a, b, c⟩ := h2 (by norm_num) hfar (by norm_num)
  refine ⟨ell, h1, a, b, le_trans c ?_⟩
  norm_num

/-- C146: three vehicles on the task. -/
example : 500 ≤ ‖wallPlace [4, 7, 9] 7 (some 0) 10000 (some 0) 500 - wallPlace [4, 7, 9] 9 (some 100) 10000 (some 0) 500‖ :=
  C146_apart _ _ (by norm_num) (by simp) (by simp) (by norm_num)

/-! ### Where the code falls short -/

/-- **C146, violated**: the wall is not centred on the line of approach: a vehicle that blocks alone is put half the standoff
distance to the side of it. -/
theorem C146_alone_violated (id : ℤ) (veh : Option ℂ) (target base : ℂ) (standoff : ℝ) :
    lateral base target (wallPlace [id] id veh target (some base) standoff) = -(standoff / 2) := by
  rw [C146_lateral]; simp; ring

/-- **C146, violated**: however many vehicles there are, their mean distance to the side of the line of approach is half the
standoff distance, not zero.  Stated for the ranks, which are 0 to `n - 1`. -/
theorem C146_mean_violated (standoff : ℝ) (n : ℕ) :
    ((List.range n).map (fun (i : ℕ) => standoff * ((i : ℝ) - (n : ℝ) / 2))).sum = -(standoff / 2) * n := by
  have h : ∀ m : ℕ, ((List.range m).map (fun (i : ℕ) => standoff * ((i : ℝ) - (n : ℝ) / 2))).sum =
      standoff * ((m : ℝ) * (m - 1) / 2 - m * n / 2) := by
    intro m
    induction m with
    | zero => simp
    | succ m ih => rw [List.range_succ, List.map_append, List.sum_append, ih]; simp; ring
  rw [h]; ring

/-- **C146, violated**: a vehicle is placed before it is counted among those on the task.  Vehicle 1 blocks alone; when the
first state of vehicle 2 on the task is heard, it is sent into the same lane as vehicle 1. -/
theorem C146_first_violated (v₁ v₂ : Option ℂ) (target base : ℂ) (standoff : ℝ) :
    lateral base target (wallPlace [1] 2 v₂ target (some base) standoff) =
      lateral base target (wallPlace [1] 1 v₁ target (some base) standoff) := by
  rw [C146_lateral, C146_lateral]; simp

/-- Here even into the same place: both come from the side of the base away from the enemy. -/
example : wallPlace [1] 2 (some (-9500)) 10000 (some 0) 1000 = wallPlace [1] 1 (some (-9600)) 10000 (some 0) 1000 := by
  have h : ∀ x : ℝ, 9000 < x → (centre (some (-(x : ℂ))) 10000 (some 0) 1000).1 = 0 := by
    intro x hx
    obtain ⟨ell, h1, h2, -, -⟩ := C146_meet_partial (v := -(x : ℂ)) (target := 10000) (base := 0) (standoff := 1000) (by norm_num)
    rw [h1, h2 (by
      rw [sub_zero, sub_zero, norm_neg, norm_real, Real.norm_of_nonneg (by linarith)]; norm_num; linarith)]
    simp
  rw [wallPlace_eq, wallPlace_eq]
  have a := h 9500 (by norm_num)
  have b := h 9600 (by norm_num)
  push_cast at a b
  rw [a, b]
  simp [placement]

/-- **C146, violated**: an air vehicle is told to circle with a radius of 300 m whatever its speed, which at 42 m/s and more
takes a bank of more than the 25 degrees that the code allows for. -/
theorem C146_radius_violated {c : Config} (hk : c.kind = .air) (hs : 42 ≤ c.nominalSpeed) :
    (surveyRadius (some c)).1 < c.nominalSpeed ^ 2 / (9.80665 * Real.tan (25 * (Real.pi / 180))) := by
  have hpi := Real.pi_pos
  have ht0 : 0 < Real.tan (25 * (Real.pi / 180)) := Real.tan_pos_of_pos_of_lt_pi_div_two (by positivity) (by linarith)
  have ht : Real.tan (25 * (Real.pi / 180)) < 1 / √3 := by
    rw [← Real.tan_pi_div_six]
    exact Real.tan_lt_tan_of_nonneg_of_lt_pi_div_two (by positivity) (by linarith) (by linarith)
  have h3 : 1 / √3 ≤ 0.59 := by
    rw [div_le_iff₀ (by positivity)]
    have : (1.7 : ℝ) ≤ √3 := Real.le_sqrt_of_sq_le (by norm_num)
    norm_num at this ⊢; linarith
  simp only [surveyRadius, hk]
  rw [lt_div_iff₀ (by positivity)]
  have h4 := lt_of_lt_of_le ht h3
  norm_num at h4 ⊢
  nlinarith

/-- **C146.**  Air vehicles circle the place in the wall, ground and surface vehicles stop there; all actions are for the
task, at the altitude of the vehicle, and the sensors look at the blocked entity. -/
theorem C146_circles (k : Known) (c : Option Config) (s : State) (place blocked : ℂ) :
    ∃ speed radius hover stares, gimbalActions k c s place blocked =
        Action.loiter place s.altitude speed radius hover k.task :: stares ∧
      (hover = true ↔ ∃ x, c = some x ∧ (x.kind = .ground ∨ x.kind = .surface)) ∧
      (radius = 0 ↔ hover = true) ∧ 0 ≤ radius ∧
      ((∃ x, c = some x ∧ x.kind = .air) → radius = 300) ∧
      ∀ a ∈ stares, ∃ g x, c = some x ∧ (g, true) ∈ x.payloads ∧ a = Action.stare g blocked k.task := by
  refine ⟨_, _, _, _, rfl, ?_⟩
  cases c with
  | none => simp [surveyRadius]
  | some x =>
    refine ⟨?_, ?_, ?_, ?_, ?_⟩
    · cases h : x.kind <;> simp [surveyRadius, h]
    · cases h : x.kind <;> simp [surveyRadius, h]
    · cases h : x.kind <;> simp [surveyRadius, h]
    · rintro ⟨y, hy, hk⟩
      cases hy
      simp [surveyRadius, hk]
    · intro a ha
      simp only [List.mem_map, List.mem_filter] at ha
      obtain ⟨g, ⟨y, ⟨hy, h2⟩, rfl⟩, rfl⟩ := ha
      obtain ⟨g, b⟩ := y
      dsimp only at h2
      subst h2
      exact ⟨g, x, rfl, hy, rfl⟩

end Verif.Blockade
