import Verif.Blockade.Intercept

/-!
# The wall of vehicles and the command (C146)
-/

namespace Verif.Blockade

open Complex Verif.Escort

/-- How far a place is to the right of the line from the base to the enemy. -/
noncomputable def lateral (base enemy z : ℂ) : ℝ := dot (-I * dir base enemy) (z - base)

theorem centre_on_line (veh : Option ℂ) (target base : ℂ) (standoff : ℝ) :
    ∃ ell : ℝ, (centre veh target (some base) standoff).1 = base + (ell : ℂ) * dir base target := by
  cases veh with
  | none =>
      refine ⟨0.75 * ‖target - base‖, ?_⟩
      simp only [centre]
      conv_lhs => rw [dir_spec base target]
      push_cast; ring
  | some v =>
      rcases lt_or_ge standoff ‖target - base‖ with h | h
      · obtain ⟨ell, h, -⟩ := C146_meet_partial (v := v) h
        exact ⟨ell, h⟩
      · exact ⟨0, by rw [C146_close h]; simp⟩

theorem centre_direction (veh : Option ℂ) (target base : ℂ) (standoff : ℝ) :
    (centre veh target (some base) standoff).2 = (Real.pi / 2 - arg (target - base)) * (180 / Real.pi) := by
  cases veh with
  | none => rfl
  | some v => simp only [centre]; split_ifs <;> rfl

theorem wallPlace_eq (active : List ℤ) (id : ℤ) (veh : Option ℂ) (target base : ℂ) (standoff : ℝ) :
    wallPlace active id veh target (some base) standoff = (centre veh target (some base) standoff).1 +
      ((standoff * (placement active id - (active.length : ℝ) / 2) : ℝ) : ℂ) * (-I * dir base target) := by
  have hpi := Real.pi_ne_zero
  set off := standoff * (placement active id - (active.length : ℝ) / 2) with hoff
  have hth : Real.pi / 2 - ((centre veh target (some base) standoff).2 + 90) * (Real.pi / 180) = arg (target - base) - Real.pi / 2 := by
    rw [centre_direction]; field_simp; ring
  unfold wallPlace
  simp only
  rw [hth, Real.cos_sub_pi_div_two, Real.sin_sub_pi_div_two, ← hoff, dir, exp_mul_I, ← ofReal_cos, ← ofReal_sin]
  apply Complex.ext
  · simp only [add_re, mul_re, mul_im, neg_re, neg_im, I_re, I_im, ofReal_re, ofReal_im, add_im]; ring
  · simp only [add_re, mul_re, mul_im, neg_re, neg_im, I_re, I_im, ofReal_re, ofReal_im, add_im]; ring

/-- **C146.**  The vehicles of the wall are abreast: whatever its own position, each is at the multiple of the standoff distance
to the side of the line of approach that its rank gives. -/
theorem C146_lateral (active : List ℤ) (id : ℤ) (veh : Option ℂ) (target base : ℂ) (standoff : ℝ) :
    lateral base target (wallPlace active id veh target (some base) standoff) =
      standoff * (((active.filter (fun n => id < n)).length : ℝ) - (active.length : ℝ) / 2) := by
  obtain ⟨ell, h⟩ := centre_on_line veh target base standoff
  have hn : dot (dir base target) (dir base target) = 1 := by rw [dot_self, dir_norm]; norm_num
  rw [wallPlace_eq, h]
  unfold lateral
  simp only [dot, sub_re, sub_im, add_re, add_im, mul_re, mul_im, neg_re, neg_im, I_re, I_im, ofReal_re, ofReal_im, placement] at hn ⊢
  linear_combination (standoff * (((active.filter (fun n => decide (id < n))).length : ℝ) - (active.length : ℝ) / 2)) * hn

theorem lateral_le (base target z z' : ℂ) : |lateral base target z - lateral base target z'| ≤ ‖z - z'‖ := by
  have e : lateral base target z - lateral base target z' = dot (-I * dir base target) (z - z') := by
    simp only [lateral, dot, sub_re, sub_im]; ring
  have hn : ‖-I * dir base target‖ = 1 := by rw [norm_mul, dir_norm]; simp
  rw [e, abs_le]
  have h1 := dot_le (-I * dir base target) (z - z')
  have h2 := dot_le (-I * dir base target) (-(z - z'))
  rw [hn, one_mul] at h1
  rw [hn, one_mul, norm_neg] at h2
  have e2 : dot (-I * dir base target) (-(z - z')) = -dot (-I * dir base target) (z - z') := by
    simp only [dot, neg_re, neg_im]; ring
  constructor
  · linarith
  · exact h1

theorem placement_lt {active : List ℤ} {i j : ℤ} (hj : j ∈ active) (hij : i < j) : placement active j < placement active i := by
  unfold placement
  have hsub : (active.filter (fun n => decide (j < n))).Sublist (active.filter (fun n => decide (i < n))) :=
    List.monotone_filter_right _ (fun n h => by simp at h ⊢; omega)
  refine lt_of_le_of_ne hsub.length_le (fun h' => ?_)
  · have h := hsub.eq_of_length h'
    have : j ∈ active.filter (fun n => decide (i < n)) := List.mem_filter.2 ⟨hj, by simpa using hij⟩
    rw [← h] at this
    simp at this

/-- **C146.**  Two vehicles on the task, for the same position of the enemy and the same set of vehicles on the task, are sent to
places at least the standoff distance apart. -/
theorem C146_apart {active : List ℤ} {i j : ℤ} {target base : ℂ} {standoff : ℝ} (vi vj : Option ℂ) (hs : 0 ≤ standoff)
    (hi : i ∈ active) (hj : j ∈ active) (hij : i ≠ j) :
    standoff ≤ ‖wallPlace active i vi target (some base) standoff - wallPlace active j vj target (some base) standoff‖ := by
  refine le_trans ?_ (lateral_le base target _ _)
  rw [C146_lateral, C146_lateral]
  have key : (1 : ℝ) ≤ |((placement active i : ℕ) : ℝ) - (placement active j : ℕ)| := by
    rcases lt_or_gt_of_ne hij with h | h
    · have h1 : (placement active j : ℝ) + 1 ≤ placement active i := by exact_mod_cast placement_lt hj h
      rw [abs_of_nonneg (by linarith)]; linarith
    · have h1 : (placement active i : ℝ) + 1 ≤ placement active j := by exact_mod_cast placement_lt hi h
      rw [abs_of_nonpos (by linarith)]; linarith
  rw [← mul_sub, abs_mul, abs_of_nonneg hs, sub_sub_sub_cancel_right]
  calc standoff = standoff * 1 := (mul_one _).symm
    _ ≤ _ := mul_le_mul_of_nonneg_left key hs

/-- **C146.**  The mission that is sent: nothing before the blocked entity was heard of; else it is for the vehicle whose state
was heard, leads to its place in the wall and holds there: the last waypoint follows itself and carries a loiter around that
place and a stare at the enemy for every gimbal of the vehicle; all are marked with the task. -/
theorem C146_mission (k : Known) (c : Option Config) (s : State) :
    (k.blocked = none → activeEntityState k c s = none) ∧
    ∀ b, k.blocked = some b → ∃ m w₁ w₂, activeEntityState k c s = some m ∧ m.vehicle = s.id ∧ m.waypoints = [w₁, w₂] ∧
      m.first = w₁.number ∧ w₁.next = w₂.number ∧ w₁.number ≠ w₂.number ∧ w₂.next = w₂.number ∧
      w₁.place = wallPlace k.active s.id (some s.place) b k.protect k.standoff ∧ w₂.place = w₁.place ∧
      w₁.altitude = s.altitude ∧ w₂.altitude = s.altitude ∧ w₁.tasks = [k.task] ∧ w₂.tasks = [k.task] ∧
      (∀ c', c = some c' → w₁.speed = c'.nominalSpeed ∧ w₂.speed = c'.nominalSpeed) ∧
      w₁.actions = [] ∧
      (∃ sp r h rest, w₂.actions = Action.loiter w₁.place s.altitude sp r h k.task :: rest ∧
        (∀ c', c = some c' → sp = c'.nominalSpeed) ∧
        ∀ a, a ∈ rest ↔ ∃ c' p, c = some c' ∧ (p, true) ∈ c'.payloads ∧ a = Action.stare p b k.task) := by
  refine ⟨fun h => by simp [activeEntityState, h], fun b h => ?_⟩
  have e : ∃ m, activeEntityState k c s = some m := by simp only [activeEntityState, h]; exact ⟨_, rfl⟩
  obtain ⟨m, e⟩ := e
  have e' := e
  simp only [activeEntityState, h, Option.some.injEq] at e'
  subst e'
  refine ⟨_, _, _, e, rfl, rfl, rfl, rfl, by simp, rfl, rfl, rfl, rfl, rfl, rfl, rfl, ?_, rfl, ?_⟩
  · intro c' hc; subst hc; exact ⟨rfl, rfl⟩
  · refine ⟨_, _, _, _, rfl, ?_, ?_⟩
    · intro c' hc; subst hc; rfl
    · intro a
      cases c with
      | none => simp
      | some c =>
          simp only [List.mem_map, List.mem_filter, Prod.exists, Option.some.injEq, exists_eq_left']
          constructor
          · rintro ⟨g, ⟨p, t, ⟨hm, ht⟩, rfl⟩, rfl⟩
            subst ht
            exact ⟨c, p, rfl, hm, rfl⟩
          · rintro ⟨c', p, rfl, hm, rfl⟩
            exact ⟨p, ⟨p, true, ⟨hm, rfl⟩, rfl⟩, rfl⟩

end Verif.Blockade
