import Verif.Dubins.Cases

/-!
# Routes round corners (C191)

`CVisibilityGraph::errGenerateWaypoints` and `errSmoothPath` (`VisibilityGraph.cpp` 1306-1530, 1540-1974), with
`CTrajectory::CalculateTaskHeading` (`Trajectory.cpp` 261-373), for a path over corners of the zones.

Simplifications: those of `Verif.Dubins.Model`; the roundings of `vRound` to nine places are left out.  `isSmoothPath` is a local that is
always false (`VisibilityGraph.cpp` 1574), so everything in lines 1649-1934 is left out: it is never run.
-/

namespace Verif.Dubins

open Complex

/-- `Trajectory.cpp` 336-366: the heading away from the place at which the straight line comes to it that begins on the circle to one
side of the beginning. -/
noncomputable def tangentHeading (b : ℂ) (hb : ℝ) (f : ℂ) (r : ℝ) (dir : Dir) : ℝ :=
  let ang := bearing (b - f)
  let d := ‖b - f‖
  let dc := ‖(beside b hb r dir).c - f‖
  let diff := normal ((Real.pi / 2 - hb) - ang)
  let case : ℝ := if Real.pi / 2 < diff ∧ diff < 3 * Real.pi / 2 then 1 else -1
  let phi := dir.sign * (case * Real.arccos ((-r ^ 2 + dc ^ 2 + d ^ 2) / (2 * dc * d)) - Real.arcsin (r / dc))
  normal (Real.pi / 2 - (ang - phi))

/-- `Trajectory.cpp` 261-373: `CalculateTaskHeading` without a standoff, for a radius above 0.  With both centres nearer than the radius
the arcsine in lines 322-335 is not a number; `tangent_some` shows that this is never so. -/
noncomputable def taskHeading (b : ℂ) (hb : ℝ) (f : ℂ) (r : ℝ) : Option ℝ :=
  if ‖b - f‖ ≤ 1e-9 then some hb
  else
    let d1 := ‖(beside b hb r .cw).c - f‖
    let d2 := ‖(beside b hb r .ccw).c - f‖
    if d1 < r ∧ d2 < r then none
    else some (tangentHeading b hb f r (if (r ≤ d2 ∧ d2 < d1) ∨ (r ≤ d2 ∧ d1 < r) then .ccw else .cw))

/-- `VisibilityGraph.cpp` 1552-1560: the path without the second of the first two places that are less than a metre apart. -/
noncomputable def dropOne : List ℂ → Option (List ℂ)
  | p :: q :: rest => if ‖p - q‖ < 1 then some (p :: rest) else (dropOne (q :: rest)).map (p :: ·)
  | _ => none

theorem dropOne_length : ∀ {l l' : List ℂ}, dropOne l = some l' → l'.length < l.length
  | [], _, h => by simp [dropOne] at h
  | [_], _, h => by simp [dropOne] at h
  | p :: q :: rest, l', h => by
      unfold dropOne at h
      split at h
      · simp only [Option.some.injEq] at h; subst h; simp
      · cases hd : dropOne (q :: rest) with
        | none => rw [hd] at h; simp at h
        | some m =>
            rw [hd] at h
            simp only [Option.map_some, Option.some.injEq] at h
            have := dropOne_length hd
            subst h; simp only [List.length_cons] at *; omega

/-- `VisibilityGraph.cpp` 1546-1562: until there are no such places. -/
noncomputable def thin (l : List ℂ) : List ℂ :=
  match h : dropOne l with
  | none => l
  | some l' => thin l'
termination_by l.length
decreasing_by exact dropOne_length h

/-- `Assignment.h` 435-460: `dCalculateFinalHeading_rad` for waypoints without turns. -/
noncomputable def finalHeading (ps : List ℂ) : ℝ :=
  match ps with
  | p :: q :: rest =>
      let z := (q :: rest).getLast (by simp)
      let y := ((p :: q :: rest).reverse.find? (fun x => 10 < ‖z - x‖)).getD p
      Real.pi / 2 - bearing (z - y)
  | _ => 0

/-- `VisibilityGraph.cpp` 1425-1458: the places of the path: a corner that is the only one is there twice, as the first and as the last. -/
def overCorners (vs : List ℂ) (e : ℂ) : List ℂ :=
  match vs with
  | [v] => [v, v, e]
  | vs => vs ++ [e]

/-- `VisibilityGraph.cpp` 1576-1602, 1935-1951: the places that are kept, but not the last. -/
noncomputable def middle (path : List ℂ) : List ℂ := (thin path).take 1 ++ ((thin path).drop 1).dropLast

/-- `VisibilityGraph.cpp` 1357-1423: the way to the first corner. -/
noncomputable def toCorner (straight : Bool) (b : ℂ) (hb : ℝ) (v : ℂ) (r sep : ℝ) : Outcome (List ℂ) :=
  if straight = true ∨ r < 1 then .ok [b, v]
  else match taskHeading b hb v r with
    | none => .ub
    | some h => direct false b hb v (h + Real.pi) r sep

/-- `VisibilityGraph.cpp` 1306-1530: `errGenerateWaypoints`: the places of the waypoints of a path over corners `vs`.  Taking the last of
no waypoints is undefined (1423). -/
noncomputable def cornered (straight : Bool) (b : ℂ) (hb : ℝ) (vs : List ℂ) (e : ℂ) (he r sep : ℝ) : Outcome (List ℂ) :=
  match vs with
  | [] => direct straight b hb e he r sep
  | v :: vs =>
      (toCorner straight b hb v r sep).bind fun w1 =>
      if w1 = [] then .ub
      else
        let path := overCorners (v :: vs) e
        let ps := if straight then path else middle path
        let h := if straight then 0 else finalHeading ps
        (direct straight ((w1 ++ ps).getLastD b) h e he r sep).bind fun w3 => .ok (w1 ++ ps ++ w3)

/-! ### The heading at the first corner -/

theorem unit_arccos {z : ℂ} (h : ‖z‖ = 1) : (0 ≤ z.im → exp ((Real.arccos z.re : ℂ) * I) = z) ∧ (z.im ≤ 0 → exp (((-Real.arccos z.re : ℝ) : ℂ) * I) = z) := by
  have hs : z.re * z.re + z.im * z.im = 1 := by
    have := Complex.normSq_eq_norm_sq z
    rw [h, Complex.normSq_apply] at this
    linarith
  have h1 : -1 ≤ z.re := by nlinarith [mul_self_nonneg z.im]
  have h2 : z.re ≤ 1 := by nlinarith [mul_self_nonneg z.im]
  have hq : Real.sqrt (1 - z.re ^ 2) = |z.im| := by
    rw [show 1 - z.re ^ 2 = z.im ^ 2 by nlinarith, Real.sqrt_sq_eq_abs]
  constructor
  · intro hi
    apply Complex.ext
    · rw [Complex.exp_ofReal_mul_I_re, Real.cos_arccos h1 h2]
    · rw [Complex.exp_ofReal_mul_I_im, Real.sin_arccos, hq, abs_of_nonneg hi]
  · intro hi
    apply Complex.ext
    · rw [Complex.exp_ofReal_mul_I_re, Real.cos_neg, Real.cos_arccos h1 h2]
    · rw [Complex.exp_ofReal_mul_I_im, Real.sin_neg, Real.sin_arccos, hq, abs_of_nonpos hi, neg_neg]

/-- Every direction is reached by a turn of less than a full circle. -/
theorem turn_to {z : ℂ} (h : ‖z‖ = 1) (dir : Dir) : ∃ a : ℝ, 0 ≤ a ∧ a < 2 * Real.pi ∧ exp (((dir.sign * a : ℝ) : ℂ) * I) = z := by
  have key : ∀ {z : ℂ}, ‖z‖ = 1 → ∃ a : ℝ, 0 ≤ a ∧ a < 2 * Real.pi ∧ exp ((a : ℂ) * I) = z := by
    intro z h
    have e : exp ((arg z : ℂ) * I) = z := by
      have := Complex.norm_mul_exp_arg_mul_I z
      rwa [h, Complex.ofReal_one, one_mul] at this
    have h1 := Complex.neg_pi_lt_arg z
    have h2 := Complex.arg_le_pi z
    have hp := Real.pi_pos
    rcases le_or_gt 0 (arg z) with h0 | h0
    · exact ⟨arg z, h0, by linarith, e⟩
    · refine ⟨arg z + 2 * Real.pi, by linarith, by linarith, ?_⟩
      have := exp_turns (arg z) 1
      push_cast at this ⊢
      rw [mul_one] at this
      rw [this, e]
  cases dir with
  | ccw =>
      obtain ⟨a, h0, h1, e⟩ := key h
      exact ⟨a, h0, h1, by simpa [Dir.sign] using e⟩
  | cw =>
      have hz : z ≠ 0 := by rw [← norm_ne_zero_iff, h]; norm_num
      obtain ⟨a, h0, h1, e⟩ := key (z := z⁻¹) (by rw [norm_inv, h, inv_one])
      refine ⟨a, h0, h1, ?_⟩
      have := exp_inv a
      rw [e] at this
      simp only [Dir.sign, neg_mul, one_mul]
      field_simp at this
      exact this

theorem arcsin_exp {r D : ℝ} (hr : 0 ≤ r) (hD : r ≤ D) (h0 : 0 < D) (dir : Dir) :
    (D : ℂ) * exp (((-(dir.sign * Real.arcsin (r / D)) : ℝ) : ℂ) * I) = Real.sqrt (D ^ 2 - r ^ 2) - dir.sign * r * I := by
  have h1 : r / D ≤ 1 := by rw [div_le_one h0]; exact hD
  have h2 : -1 ≤ r / D := by have : 0 ≤ r / D := by positivity
                             linarith
  have hsin : Real.sin (dir.sign * Real.arcsin (r / D)) = dir.sign * (r / D) := by
    cases dir <;> simp [Dir.sign, Real.sin_arcsin h2 h1]
  have hcos : Real.cos (dir.sign * Real.arcsin (r / D)) = Real.sqrt (D ^ 2 - r ^ 2) / D := by
    have : Real.cos (dir.sign * Real.arcsin (r / D)) = Real.cos (Real.arcsin (r / D)) := by cases dir <;> simp [Dir.sign]
    rw [this, Real.cos_arcsin, show 1 - (r / D) ^ 2 = (D ^ 2 - r ^ 2) / D ^ 2 by field_simp, Real.sqrt_div' _ (by positivity), Real.sqrt_sq h0.le]
  rw [Complex.exp_mul_I, ← Complex.ofReal_cos, ← Complex.ofReal_sin, Real.cos_neg, Real.sin_neg, hsin, hcos]
  have : (D : ℂ) ≠ 0 := by exact_mod_cast h0.ne'
  push_cast
  field_simp
  ring

theorem normal_cos (x : ℝ) : Real.cos (normal x) = Real.cos x := by
  have := congrArg Complex.re (normal_exp x)
  rwa [Complex.exp_ofReal_mul_I_re, Complex.exp_ofReal_mul_I_re] at this

/-- The factor of line 339 is 1 if the place is ahead and -1 if it is not. -/
theorem case_cos (x : ℝ) : (Real.pi / 2 < normal x ∧ normal x < 3 * Real.pi / 2 → Real.cos x ≤ 0) ∧ (¬ (Real.pi / 2 < normal x ∧ normal x < 3 * Real.pi / 2) → 0 ≤ Real.cos x) := by
  have hp := Real.pi_gt_three
  obtain ⟨n1, n2⟩ := normal_range x
  norm_num at n1
  rw [← normal_cos x]
  constructor
  · rintro ⟨h1, h2⟩
    exact Real.cos_nonpos_of_pi_div_two_le_of_le h1.le (by linarith)
  · intro h
    rcases le_or_gt (normal x) (Real.pi / 2) with h1 | h1
    · exact Real.cos_nonneg_of_neg_pi_div_two_le_of_le (by linarith) h1
    · have h2 : 3 * Real.pi / 2 ≤ normal x := by by_contra hc; exact h ⟨h1, not_le.1 hc⟩
      rw [← Real.cos_sub_two_pi]
      exact Real.cos_nonneg_of_neg_pi_div_two_le_of_le (by linarith) (by linarith)

theorem toward_pi_add (h : ℝ) : toward (h + Real.pi) = -toward h := by
  unfold toward
  rw [show (((Real.pi / 2 - (h + Real.pi) : ℝ)) : ℂ) * I = ((Real.pi / 2 - h : ℝ) : ℂ) * I - Real.pi * I by push_cast; ring, Complex.exp_sub, Complex.exp_pi_mul_I]
  ring

theorem toward_normal (x : ℝ) : toward (normal (Real.pi / 2 - x)) = exp ((x : ℂ) * I) := by
  unfold toward
  obtain ⟨k, hk, _⟩ := normal_cases (Real.pi / 2 - x)
  rw [hk, show Real.pi / 2 - (Real.pi / 2 - x + 2 * Real.pi * k) = x + 2 * Real.pi * ((-k : ℤ) : ℝ) by push_cast; ring, exp_turns]

/-- With the heading chosen, the place is reached by a turn to the side and a straight line. -/
theorem tangent_flies {b f : ℂ} {hb r : ℝ} {dir : Dir} (hr : 0 < r) (hd : 0 < ‖b - f‖) (hD : r ≤ ‖(beside b hb r dir).c - f‖) :
    ∃ a : ℝ, (0 ≤ a ∧ a < 2 * Real.pi) ∧
      Pose.fly ⟨b, toward hb⟩ r [.turn dir a, .straight (Real.sqrt (‖(beside b hb r dir).c - f‖ ^ 2 - r ^ 2))] = ⟨f, toward (tangentHeading b hb f r dir + Real.pi)⟩ := by
  have hc : (beside b hb r dir).c = b + dir.sign * r * I * toward hb := rfl
  generalize hD' : ‖(beside b hb r dir).c - f‖ = D at hD
  have hD0 : 0 < D := by linarith
  have hu : b - f ≠ 0 := norm_pos_iff.1 hd
  have hnu : ‖toward hb‖ = 1 := toward_unit hb
  have hdC : ((‖b - f‖ : ℝ) : ℂ) ≠ 0 := by exact_mod_cast hd.ne'
  have hDC : (D : ℂ) ≠ 0 := by exact_mod_cast hD0.ne'
  -- the direction of the centre relative to that of the beginning
  obtain ⟨q, hq⟩ : ∃ q : ℂ, q = ((beside b hb r dir).c - f) / (b - f) * ((‖b - f‖ / D : ℝ) : ℂ) := ⟨_, rfl⟩
  have hqn : ‖q‖ = 1 := by
    rw [hq, norm_mul, norm_div, hD', Complex.norm_real, Real.norm_of_nonneg (by positivity)]
    field_simp
  have hk : ((beside b hb r dir).c - f) / (b - f) = 1 + dir.sign * r * I * (toward hb / (b - f)) := by
    rw [hc]; field_simp; ring
  have hqim : q.im = dir.sign * r * (toward hb / (b - f)).re * (‖b - f‖ / D) := by
    rw [hq, hk, Complex.im_mul_ofReal]
    simp
  have hqre : q.re = (-r ^ 2 + D ^ 2 + ‖b - f‖ ^ 2) / (2 * D * ‖b - f‖) := by
    have h1 : ‖((beside b hb r dir).c - f) - (b - f)‖ = r := by
      rw [hc, show b + dir.sign * r * I * toward hb - f - (b - f) = dir.sign * r * I * toward hb by ring]
      simp [hnu, dir.sign_abs, abs_of_pos hr]
    have h2 : ‖((beside b hb r dir).c - f) - (b - f)‖ ^ 2 = D ^ 2 + ‖b - f‖ ^ 2 - 2 * (((beside b hb r dir).c - f) * (starRingEnd ℂ) (b - f)).re := by
      rw [← Complex.normSq_eq_norm_sq, Complex.normSq_sub, Complex.normSq_eq_norm_sq, Complex.normSq_eq_norm_sq, hD']
    rw [h1] at h2
    have h3 : q = (((beside b hb r dir).c - f) * (starRingEnd ℂ) (b - f)) * ((1 / (‖b - f‖ * D) : ℝ) : ℂ) := by
      have h4 : (b - f) * (starRingEnd ℂ) (b - f) = ((‖b - f‖ ^ 2 : ℝ) : ℂ) := by rw [Complex.mul_conj, Complex.normSq_eq_norm_sq]
      rw [hq]
      push_cast at h4 ⊢
      field_simp
      linear_combination (-((beside b hb r dir).c - f)) * h4
    rw [h3, Complex.re_mul_ofReal]
    field_simp
    linarith
  -- the angle between the direction of flight and that from the place
  have hcos : Real.cos ((Real.pi / 2 - hb) - bearing (b - f)) = ‖b - f‖ * (toward hb / (b - f)).re := by
    have h1 : exp ((((Real.pi / 2 - hb) - bearing (b - f) : ℝ) : ℂ) * I) = ((‖b - f‖ : ℝ) : ℂ) * (toward hb / (b - f)) := by
      rw [Complex.ofReal_sub, sub_mul, Complex.exp_sub, bearing_unit hu]
      unfold toward
      field_simp
    have := congrArg Complex.re h1
    rwa [Complex.exp_ofReal_mul_I_re, Complex.re_ofReal_mul] at this
  obtain ⟨k, hk'⟩ : ∃ k : ℝ, k = if Real.pi / 2 < normal ((Real.pi / 2 - hb) - bearing (b - f)) ∧ normal ((Real.pi / 2 - hb) - bearing (b - f)) < 3 * Real.pi / 2 then (1 : ℝ) else -1 :=
    ⟨_, rfl⟩
  have hqe : exp (((-(dir.sign * (k * Real.arccos q.re)) : ℝ) : ℂ) * I) = q := by
    obtain ⟨c1, c2⟩ := case_cos ((Real.pi / 2 - hb) - bearing (b - f))
    rw [hcos] at c1 c2
    obtain ⟨u1, u2⟩ := unit_arccos hqn
    have hs : ∀ x : ℝ, 0 ≤ ‖b - f‖ * x → 0 ≤ x := fun x h => by by_contra hc; nlinarith
    have hs' : ∀ x : ℝ, ‖b - f‖ * x ≤ 0 → x ≤ 0 := fun x h => by by_contra hc; nlinarith
    have hpos : 0 < ‖b - f‖ / D := by positivity
    split at hk'
    · rename_i hcase
      have h1 := hs' _ (c1 hcase)
      have h2 : r * (toward hb / (b - f)).re * (‖b - f‖ / D) ≤ 0 := mul_nonpos_of_nonpos_of_nonneg (mul_nonpos_of_nonneg_of_nonpos hr.le h1) hpos.le
      subst hk'
      cases dir with
      | ccw =>
          have := u2 (by rw [hqim]; simp only [Dir.sign]; linarith)
          simpa [Dir.sign] using this
      | cw =>
          have := u1 (by rw [hqim]; simp only [Dir.sign]; linarith)
          simpa [Dir.sign] using this
    · rename_i hcase
      have h1 := hs _ (c2 hcase)
      have h2 : 0 ≤ r * (toward hb / (b - f)).re * (‖b - f‖ / D) := by positivity
      subst hk'
      cases dir with
      | ccw =>
          have := u1 (by rw [hqim]; simp only [Dir.sign]; linarith)
          simpa [Dir.sign] using this
      | cw =>
          have := u2 (by rw [hqim]; simp only [Dir.sign]; linarith)
          simpa [Dir.sign] using this
  -- the direction chosen
  have hH : toward (tangentHeading b hb f r dir) * (Real.sqrt (D ^ 2 - r ^ 2) - dir.sign * r * I) = (beside b hb r dir).c - f := by
    unfold tangentHeading
    simp only [hD', ← hk', ← hqre]
    rw [toward_normal, ← arcsin_exp hr.le hD hD0 dir]
    have h1 : exp (((bearing (b - f) - dir.sign * (k * Real.arccos q.re - Real.arcsin (r / D)) : ℝ) : ℂ) * I) =
        exp ((bearing (b - f) : ℂ) * I) * exp (((-(dir.sign * (k * Real.arccos q.re)) : ℝ) : ℂ) * I) * exp (((dir.sign * Real.arcsin (r / D) : ℝ) : ℂ) * I) := by
      rw [← Complex.exp_add, ← Complex.exp_add]
      congr 1
      push_cast
      ring
    rw [h1, hqe, bearing_unit hu, hq]
    have h2 := exp_inv (dir.sign * Real.arcsin (r / D))
    push_cast
    push_cast at h2
    simp only [neg_mul] at h2 ⊢
    field_simp
    linear_combination ((beside b hb r dir).c - f) * h2
  -- the turn to it
  obtain ⟨a, a0, a1, ha⟩ := turn_to (z := toward (tangentHeading b hb f r dir + Real.pi) / toward hb) (by rw [norm_div, hnu, toward_unit]; norm_num) dir
  have hw : toward hb * exp (((dir.sign * a : ℝ) : ℂ) * I) = toward (tangentHeading b hb f r dir + Real.pi) := by
    rw [ha]
    have : toward hb ≠ 0 := by rw [← norm_ne_zero_iff, hnu]; norm_num
    field_simp
  refine ⟨a, ⟨a0, a1⟩, ?_⟩
  simp only [Pose.fly, List.foldl_cons, List.foldl_nil, Pose.leg, Pose.on, Pose.turned]
  rw [mul_assoc (dir.sign * r * I : ℂ) (toward hb) (exp _), hw, toward_pi_add, Pose.ext_iff]
  refine ⟨?_, rfl⟩
  simp only
  rw [hc] at hH
  linear_combination -hH

/-- The place is not inside of both circles. -/
theorem tangent_some {b f : ℂ} {hb r : ℝ} (hr : 0 ≤ r) : ¬ (‖(beside b hb r .cw).c - f‖ < r ∧ ‖(beside b hb r .ccw).c - f‖ < r) := by
  rintro ⟨h1, h2⟩
  have hc : ∀ dir, (beside b hb r dir).c - f = (b - f) + dir.sign * r * I * toward hb := fun dir => by simp only [beside]; ring
  have hn : ‖(b - f) + (r * I * toward hb)‖ ^ 2 + ‖(b - f) - (r * I * toward hb)‖ ^ 2 = 2 * (‖b - f‖ ^ 2 + ‖(r * I * toward hb : ℂ)‖ ^ 2) := by
    generalize b - f = u
    generalize (r * I * toward hb : ℂ) = v
    simp only [← Complex.normSq_eq_norm_sq]
    rw [Complex.normSq_add, Complex.normSq_sub]
    ring
  have hv : ‖(r * I * toward hb : ℂ)‖ = r := by simp [toward_unit, abs_of_nonneg hr]
  rw [hc] at h1 h2
  simp only [Dir.sign] at h1 h2
  rw [show (b - f) + ((-1 : ℝ) : ℂ) * r * I * toward hb = (b - f) - (r * I * toward hb) by push_cast; ring] at h1
  rw [show (b - f) + ((1 : ℝ) : ℂ) * r * I * toward hb = (b - f) + (r * I * toward hb) by push_cast; ring] at h2
  rw [hv] at hn
  have n1 := norm_nonneg ((b - f) - (r * I * toward hb))
  have n2 := norm_nonneg ((b - f) + (r * I * toward hb))
  nlinarith [sq_nonneg ‖b - f‖]

end Verif.Dubins
