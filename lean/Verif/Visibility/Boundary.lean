import Verif.Dubins.Angles
import Mathlib.Analysis.Convex.Combination
import Mathlib.Analysis.Convex.Topology

/-!
# The boundary points of zones (C192)

`RoutePlannerVisibilityService::bFindPointsForAbstractGeometry` (`RoutePlannerVisibilityService.cpp` 460-544).

Simplifications: a place is a complex number, east plus `i` times north, in metres; the conversion of latitudes and longitudes is a parameter;
numbers are real and `dPi()` is π.  In doubles, with the constant of `Convert.h` 118, twenty steps of `dPi()/10` stay below `dTwoPi()`, so that a
circle has a twenty-first point within rounding of the first one.
-/

namespace Verif.Visibility.Boundary

open Complex Verif.Dubins

/-- mdms/CMASI.xml: `AbstractGeometry`.  Lengths in metres, the rotation in degrees. -/
inductive Geometry (α : Type) where
  | circle (centre : α) (radius : ℝ)
  | polygon (points : List α)
  | rectangle (centre : α) (width height rotation : ℝ)
  | unknown

/-- `Waypoint.h` 580-599: `RotateAboutOriginByHeading`, for a waypoint without a turn. -/
noncomputable def rotated (north east h : ℝ) : ℂ :=
  ⟨north * Real.sin h + east * Real.cos h, north * Real.cos h - east * Real.sin h⟩

/-- `RoutePlannerVisibilityService.cpp` 478-484: the angles of the loop: 0, and the increment more as long as it is below the limit. -/
noncomputable def angles : ℕ → ℝ → List ℝ
  | 0, _ => []
  | n + 1, a => if a < 2 * Real.pi then a :: angles n (a + Real.pi / 10) else []

/-- `RoutePlannerVisibilityService.cpp` 460-544: `bFindPointsForAbstractGeometry`; `none` for a geometry that is not known (536-540).  The loop
over the angles ends by itself before 1000 steps. -/
noncomputable def points {α : Type} (conv : α → ℂ) : Geometry α → Option (List ℂ)
  | .circle c r => some ((angles 1000 0).map fun a => ⟨r * Real.sin a + (conv c).re, r * Real.cos a + (conv c).im⟩)
  | .polygon ps => some (ps.map conv)
  | .rectangle c w h rot =>
      let a := rot * (Real.pi / 180)
      some ([(h / 2, w / 2), (h / 2, -w / 2), (-h / 2, -w / 2), (-h / 2, w / 2)].map fun x => rotated x.1 x.2 a + conv c)
  | .unknown => none

/-! ### Circles -/

theorem angles_eq : angles 1000 0 = (List.range 20).map (fun k : ℕ => (k : ℝ) * (Real.pi / 10)) := by
  have hp := Real.pi_pos
  have step : ∀ (m n k : ℕ), k + m = 20 → m ≤ n → angles (n + 1) ((k : ℝ) * (Real.pi / 10)) = (List.range' k m).map (fun j : ℕ => (j : ℝ) * (Real.pi / 10)) := by
    intro m
    induction m with
    | zero =>
        intro n k hk _
        have : k = 20 := by omega
        subst this
        unfold angles
        rw [if_neg (by push_cast; linarith)]
        rfl
    | succ m ih =>
        intro n k hk hn
        obtain ⟨n', rfl⟩ : ∃ n', n = n' + 1 := ⟨n - 1, by omega⟩
        have hlt : (k : ℝ) ≤ 19 := by exact_mod_cast (by omega : k ≤ 19)
        unfold angles
        rw [if_pos (by nlinarith), List.range'_succ, List.map_cons]
        congr 1
        rw [← ih n' (k + 1) (by omega) (by omega)]
        congr 1
        push_cast; ring
  have := step 20 999 0 rfl (by norm_num)
  simp only [Nat.cast_zero, zero_mul] at this
  rw [this, List.range_eq_range']

/-- The place in a direction. -/
theorem toward_parts (a : ℝ) : toward a = ⟨Real.sin a, Real.cos a⟩ := by
  unfold toward
  apply Complex.ext
  · rw [Complex.exp_ofReal_mul_I_re, Real.cos_pi_div_two_sub]
  · rw [Complex.exp_ofReal_mul_I_im, Real.sin_pi_div_two_sub]

theorem circle_points {α : Type} (conv : α → ℂ) (c : α) (r : ℝ) :
    points conv (.circle c r) = some ((List.range 20).map fun k : ℕ => conv c + r * toward (k * (Real.pi / 10))) := by
  show some _ = some _
  rw [angles_eq, List.map_map]
  congr 1
  apply List.map_congr_left
  intro k _
  simp only [Function.comp, toward_parts]
  apply Complex.ext <;> simp <;> ring

/-- The part of a vector in a direction. -/
noncomputable def along (t : ℝ) (z : ℂ) : ℝ := z.re * Real.sin t + z.im * Real.cos t

theorem along_toward (t : ℝ) (r a : ℝ) : along t (r * toward a) = r * Real.cos (a - t) := by
  rw [toward_parts, Real.cos_sub]
  simp [along]
  ring

theorem along_le (t : ℝ) (z : ℂ) : along t z ≤ ‖z‖ := by
  have h1 : along t z ^ 2 ≤ ‖z‖ ^ 2 := by
    rw [← Complex.normSq_eq_norm_sq, Complex.normSq_apply]
    unfold along
    have := Real.sin_sq_add_cos_sq t
    nlinarith [sq_nonneg (z.re * Real.cos t - z.im * Real.sin t)]
  exact le_of_sq_le_sq h1 (norm_nonneg z)

theorem half_plane (t m : ℝ) (c : ℂ) : Convex ℝ {z : ℂ | along t (z - c) ≤ m} := by
  intro x hx y hy a b ha hb hab
  simp only [Set.mem_setOf_eq] at *
  have e : along t (a • x + b • y - c) = a * along t (x - c) + b * along t (y - c) := by
    have hb' : b = 1 - a := by linarith
    subst hb'
    simp [along]
    ring
  rw [e]
  have h1 := mul_le_mul_of_nonneg_left hx ha
  have h2 := mul_le_mul_of_nonneg_left hy hb
  have h3 : a * m + b * m = m := by rw [← add_mul, hab, one_mul]
  linarith

/-- No point of the circle is farther in the direction between two points than these. -/
theorem cos_between {k : ℕ} (hk : k < 20) : Real.cos (k * (Real.pi / 10) - Real.pi / 20) ≤ Real.cos (Real.pi / 20) := by
  have hp := Real.pi_pos
  rcases Nat.eq_zero_or_pos k with rfl | h0
  · simp
  · have h1 : (1 : ℝ) ≤ k := by exact_mod_cast h0
    have h2 : (k : ℝ) ≤ 19 := by exact_mod_cast (by omega : k ≤ 19)
    rcases le_or_gt (k * (Real.pi / 10) - Real.pi / 20) Real.pi with h | h
    · exact Real.cos_le_cos_of_nonneg_of_le_pi (by positivity) h (by nlinarith)
    · rw [← Real.cos_two_pi_sub (k * (Real.pi / 10) - Real.pi / 20)]
      exact Real.cos_le_cos_of_nonneg_of_le_pi (by positivity) (by linarith) (by nlinarith)

/-- **C192.**  The points of a circle are on it, 18 degrees apart from north to east, and the polygon they span is within the circle and covers
all of it that is farther than `r (1 - cos 9°)` from its edge. -/
theorem C192_circle_partial {α : Type} (conv : α → ℂ) (c : α) {r : ℝ} (hr : 0 ≤ r) :
    ∃ ps, points conv (.circle c r) = some ps ∧ ps.length = 20 ∧ (∀ p ∈ ps, ‖p - conv c‖ = r) ∧
      (∀ k (h : k < ps.length), ps[k] = conv c + r * ⟨Real.sin (k * (Real.pi / 10)), Real.cos (k * (Real.pi / 10))⟩) ∧
      (∀ z ∈ convexHull ℝ {p | p ∈ ps}, ‖z - conv c‖ ≤ r) ∧
      ∀ z, ‖z - conv c‖ ≤ r * Real.cos (Real.pi / 20) → z ∈ convexHull ℝ {p | p ∈ ps} := by
  have hp := Real.pi_pos
  refine ⟨_, circle_points conv c r, by simp, ?_, ?_, ?_, ?_⟩
  · intro p hpm
    simp only [List.mem_map] at hpm
    obtain ⟨k, _, rfl⟩ := hpm
    simp [toward_unit, abs_of_nonneg hr]
  · intro k h
    simp [toward_parts]
  · intro z hz
    have : convexHull ℝ {p | p ∈ (List.range 20).map fun k : ℕ => conv c + r * toward (k * (Real.pi / 10))} ⊆ Metric.closedBall (conv c) r := by
      apply convexHull_min _ (convex_closedBall _ _)
      intro p hpm
      simp only [Set.mem_setOf_eq, List.mem_map] at hpm
      obtain ⟨k, _, rfl⟩ := hpm
      rw [Metric.mem_closedBall, Complex.dist_eq]
      simp [toward_unit, abs_of_nonneg hr]
    have := this hz
    rwa [Metric.mem_closedBall, Complex.dist_eq] at this
  · intro z hz
    have hmem : ∀ k : ℕ, k ≤ 20 → conv c + r * toward (k * (Real.pi / 10)) ∈ convexHull ℝ {p | p ∈ (List.range 20).map fun k : ℕ => conv c + r * toward (k * (Real.pi / 10))} := by
      intro k hk
      apply subset_convexHull
      simp only [Set.mem_setOf_eq, List.mem_map, List.mem_range]
      rcases Nat.lt_or_ge k 20 with h | h
      · exact ⟨k, h, rfl⟩
      · obtain rfl : k = 20 := by omega
        refine ⟨0, by norm_num, ?_⟩
        rw [show ((20 : ℕ) : ℝ) * (Real.pi / 10) = 2 * Real.pi by push_cast; ring, toward_parts, toward_parts]
        simp
    have hcen : conv c ∈ convexHull ℝ {p | p ∈ (List.range 20).map fun k : ℕ => conv c + r * toward (k * (Real.pi / 10))} := by
      have := (convex_convexHull ℝ _) (hmem 0 (by norm_num)) (hmem 10 (by norm_num)) (a := 1 / 2) (b := 1 / 2) (by norm_num) (by norm_num) (by norm_num)
      convert this using 1
      rw [show ((10 : ℕ) : ℝ) * (Real.pi / 10) = Real.pi by push_cast; ring, toward_parts, toward_parts]
      apply Complex.ext <;> simp <;> ring
    -- polar coordinates
    obtain ⟨θ, h0, h1, hθ⟩ : ∃ θ : ℝ, 0 ≤ θ ∧ θ < 2 * Real.pi ∧ z - conv c = ‖z - conv c‖ * toward θ := by
      rcases eq_or_ne (z - conv c) 0 with he | he
      · exact ⟨0, le_rfl, by linarith, by rw [he]; simp⟩
      · have e : (‖z - conv c‖ : ℂ) * exp ((arg (z - conv c) : ℂ) * I) = z - conv c := Complex.norm_mul_exp_arg_mul_I _
        have a1 := Complex.neg_pi_lt_arg (z - conv c)
        have a2 := Complex.arg_le_pi (z - conv c)
        rcases le_or_gt (arg (z - conv c)) (Real.pi / 2) with h | h
        · refine ⟨Real.pi / 2 - arg (z - conv c), by linarith, by linarith, ?_⟩
          unfold toward
          rw [sub_sub_cancel, e]
        · refine ⟨Real.pi / 2 - arg (z - conv c) + 2 * Real.pi, by linarith, by linarith, ?_⟩
          have e2 : toward (Real.pi / 2 - arg (z - conv c) + 2 * Real.pi) = exp ((arg (z - conv c) : ℂ) * I) := by
            unfold toward
            rw [show Real.pi / 2 - (Real.pi / 2 - arg (z - conv c) + 2 * Real.pi) = arg (z - conv c) + 2 * Real.pi * ((-1 : ℤ) : ℝ) by push_cast; ring, exp_turns]
          rw [e2, e]
    generalize hρ : ‖z - conv c‖ = ρ at hz hθ
    have hρ0 : 0 ≤ ρ := by rw [← hρ]; exact norm_nonneg _
    have hz' : z = conv c + ρ * toward θ := by rw [← hθ]; ring
    obtain ⟨k, hk⟩ : ∃ k : ℕ, k = ⌊θ / (Real.pi / 10)⌋₊ := ⟨_, rfl⟩
    have f1 : (k : ℝ) ≤ θ / (Real.pi / 10) := by rw [hk]; exact Nat.floor_le (by positivity)
    have f2 : θ / (Real.pi / 10) < k + 1 := by rw [hk]; exact Nat.lt_floor_add_one _
    rw [le_div_iff₀ (by positivity)] at f1
    rw [div_lt_iff₀ (by positivity)] at f2
    have hk20 : k < 20 := by
      have : (k : ℝ) < 20 := by nlinarith
      exact_mod_cast this
    obtain ⟨t, ht⟩ : ∃ t : ℝ, t = θ - k * (Real.pi / 10) := ⟨_, rfl⟩
    have t0 : 0 ≤ t := by linarith
    have t1 : t ≤ Real.pi / 10 := by nlinarith
    have hsd : 0 < Real.sin (Real.pi / 10) := Real.sin_pos_of_pos_of_lt_pi (by positivity) (by linarith)
    have hch : 0 < Real.cos (Real.pi / 20) := Real.cos_pos_of_mem_Ioo ⟨by linarith, by linarith⟩
    rcases hr.eq_or_lt with hr0 | hr0
    · have : ρ = 0 := by rw [← hr0, zero_mul] at hz; linarith
      rw [hz', this]
      simpa using hcen
    · -- weights
      have hα : 0 ≤ ρ * Real.sin (Real.pi / 10 - t) / (r * Real.sin (Real.pi / 10)) := by
        have := Real.sin_nonneg_of_nonneg_of_le_pi (x := Real.pi / 10 - t) (by linarith) (by linarith)
        positivity
      have hβ : 0 ≤ ρ * Real.sin t / (r * Real.sin (Real.pi / 10)) := by
        have := Real.sin_nonneg_of_nonneg_of_le_pi (x := t) t0 (by linarith)
        positivity
      have hsum : ρ * Real.sin (Real.pi / 10 - t) / (r * Real.sin (Real.pi / 10)) + ρ * Real.sin t / (r * Real.sin (Real.pi / 10)) ≤ 1 := by
        have e1 : Real.sin (Real.pi / 10 - t) + Real.sin t = 2 * Real.sin (Real.pi / 20) * Real.cos (t - Real.pi / 20) := by
          rw [show Real.pi / 10 - t = Real.pi / 20 - (t - Real.pi / 20) by ring]
          conv => lhs; rw [show Real.sin t = Real.sin (Real.pi / 20 + (t - Real.pi / 20)) by ring_nf]
          rw [Real.sin_sub, Real.sin_add]
          ring
        have e2 : Real.sin (Real.pi / 10) = 2 * Real.sin (Real.pi / 20) * Real.cos (Real.pi / 20) := by
          rw [← Real.sin_two_mul]; ring_nf
        have hs20 : 0 < Real.sin (Real.pi / 20) := Real.sin_pos_of_pos_of_lt_pi (by positivity) (by linarith)
        rw [← add_div, ← mul_add, e1, e2, div_le_one (by positivity)]
        have := Real.cos_le_one (t - Real.pi / 20)
        have hρs : 0 ≤ ρ * (2 * Real.sin (Real.pi / 20)) := by positivity
        nlinarith
      generalize hA : ρ * Real.sin (Real.pi / 10 - t) / (r * Real.sin (Real.pi / 10)) = A at *
      generalize hB : ρ * Real.sin t / (r * Real.sin (Real.pi / 10)) = B at *
      have hA' : A * (r * Real.sin (Real.pi / 10)) = ρ * Real.sin (Real.pi / 10 - t) := by rw [← hA]; field_simp
      have hB' : B * (r * Real.sin (Real.pi / 10)) = ρ * Real.sin t := by rw [← hB]; field_simp
      have hcomb : (ρ : ℂ) * toward θ = A * (r * toward (k * (Real.pi / 10))) + B * (r * toward (((k + 1 : ℕ) : ℝ) * (Real.pi / 10))) := by
        have hθ' : θ = k * (Real.pi / 10) + t := by rw [ht]; ring
        have hk1 : ((k + 1 : ℕ) : ℝ) * (Real.pi / 10) = k * (Real.pi / 10) + Real.pi / 10 := by push_cast; ring
        rw [hθ', hk1]
        generalize (k : ℝ) * (Real.pi / 10) = x
        rw [toward_parts, toward_parts, toward_parts]
        have hs : ρ * Real.cos t = A * r + B * r * Real.cos (Real.pi / 10) := by
          apply mul_right_cancel₀ hsd.ne'
          rw [Real.sin_sub] at hA'
          linear_combination -hA' - Real.cos (Real.pi / 10) * hB'
        have hs2 : ρ * Real.sin t = B * r * Real.sin (Real.pi / 10) := by rw [← hB']; ring
        apply Complex.ext
        · simp only [Complex.mul_re, Complex.add_re, Complex.ofReal_re, Complex.ofReal_im, Complex.mul_im, zero_mul, mul_zero, sub_zero, add_zero, Real.sin_add]
          linear_combination Real.sin x * hs + Real.cos x * hs2
        · simp only [Complex.mul_im, Complex.add_im, Complex.ofReal_re, Complex.ofReal_im, zero_mul, mul_zero, add_zero, Real.cos_add]
          linear_combination Real.cos x * hs - Real.sin x * hs2
      -- the point is a combination of the centre and two points
      rcases hsum.eq_or_lt with h1' | hlt
      · have := (convex_convexHull ℝ _) (hmem k (by omega)) (hmem (k + 1) (by omega)) hα hβ h1'
        convert this using 1
        rw [hz', hcomb]
        have h1c : (A : ℂ) + B = 1 := by exact_mod_cast h1'
        simp only [real_smul]
        linear_combination (-conv c) * h1c
      · -- through the centre
        rcases eq_or_lt_of_le (add_nonneg hα hβ) with hz0 | hpos
        · have hA0 : A = 0 := by linarith
          have hB0 : B = 0 := by linarith
          rw [hz', hcomb, hA0, hB0]
          simpa using hcen
        · have m1 := (convex_convexHull ℝ _) (hmem k (by omega)) (hmem (k + 1) (by omega)) (a := A / (A + B)) (b := B / (A + B)) (by positivity) (by positivity)
            (by field_simp)
          have m2 := (convex_convexHull ℝ _) hcen m1 (a := 1 - (A + B)) (b := A + B) (by linarith) hpos.le (by ring)
          convert m2 using 1
          rw [hz', hcomb]
          have hne : (A : ℂ) + B ≠ 0 := by exact_mod_cast hpos.ne'
          simp only [real_smul]
          push_cast
          field_simp
          ring

/-- **C192.**  A circle is not covered: half way between two points, all that is farther from the centre than the line between these is outside of
the polygon, though it is in the zone. -/
theorem C192_circle_violated {α : Type} (conv : α → ℂ) (c : α) {r : ℝ} (hr : 0 < r) :
    ∃ ps, points conv (.circle c r) = some ps ∧ r * Real.cos (Real.pi / 20) < r ∧
      ∀ ρ : ℝ, r * Real.cos (Real.pi / 20) < ρ → ρ ≤ r → ∃ z, ‖z - conv c‖ = ρ ∧ z ∉ convexHull ℝ {p | p ∈ ps} := by
  have hp := Real.pi_pos
  refine ⟨_, circle_points conv c r, ?_, ?_⟩
  · have : Real.cos (Real.pi / 20) < 1 := by
      rw [← Real.cos_zero]
      exact Real.cos_lt_cos_of_nonneg_of_le_pi le_rfl (by linarith) (by positivity)
    nlinarith
  · intro ρ h1 h2
    have hch : 0 < Real.cos (Real.pi / 20) := Real.cos_pos_of_mem_Ioo ⟨by linarith, by linarith⟩
    have hρ : 0 < ρ := by nlinarith
    refine ⟨conv c + ρ * toward (Real.pi / 20), by simp [toward_unit, abs_of_pos hρ], ?_⟩
    intro hz
    have hsub : convexHull ℝ {p | p ∈ (List.range 20).map fun k : ℕ => conv c + r * toward (k * (Real.pi / 10))} ⊆ {z : ℂ | along (Real.pi / 20) (z - conv c) ≤ r * Real.cos (Real.pi / 20)} := by
      apply convexHull_min _ (half_plane _ _ _)
      intro p hpm
      simp only [Set.mem_setOf_eq, List.mem_map, List.mem_range] at hpm ⊢
      obtain ⟨k, hk, rfl⟩ := hpm
      rw [add_sub_cancel_left, along_toward]
      exact mul_le_mul_of_nonneg_left (cos_between hk) hr.le
    have := hsub hz
    rw [Set.mem_setOf_eq, add_sub_cancel_left, along_toward, sub_self, Real.cos_zero, mul_one] at this
    linarith

/-- **C192.**  Every place in a circle is at most `r (1 - cos 9°)` (1.3 % of the radius) from the polygon of its points, so that a padding of
this much covers the circle. -/
theorem C192_circle_near {α : Type} (conv : α → ℂ) (c : α) {r : ℝ} (hr : 0 ≤ r) :
    ∃ ps, points conv (.circle c r) = some ps ∧
      ∀ z, ‖z - conv c‖ ≤ r → ∃ q ∈ convexHull ℝ {p | p ∈ ps}, ‖z - q‖ ≤ r * (1 - Real.cos (Real.pi / 20)) := by
  have hp := Real.pi_pos
  obtain ⟨ps, h1, _, _, _, _, h2⟩ := C192_circle_partial conv c hr
  refine ⟨ps, h1, fun z hz => ?_⟩
  have hc0 : 0 ≤ Real.cos (Real.pi / 20) := Real.cos_nonneg_of_neg_pi_div_two_le_of_le (by linarith) (by linarith)
  have hc1 := Real.cos_le_one (Real.pi / 20)
  refine ⟨conv c + (Real.cos (Real.pi / 20) : ℂ) * (z - conv c), h2 _ ?_, ?_⟩
  · rw [add_sub_cancel_left, norm_mul, Complex.norm_real, Real.norm_of_nonneg hc0, mul_comm]
    exact mul_le_mul_of_nonneg_right hz hc0
  · have e : z - (conv c + (Real.cos (Real.pi / 20) : ℂ) * (z - conv c)) = ((1 - Real.cos (Real.pi / 20) : ℝ) : ℂ) * (z - conv c) := by
      push_cast; ring
    rw [e, norm_mul, Complex.norm_real, Real.norm_of_nonneg (by linarith), mul_comm]
    exact mul_le_mul_of_nonneg_right hz (by linarith)

/-- `VisibilityGraph.cpp` 107-121: by how much the polygon of a zone is grown before a region is built. -/
noncomputable def grown (keepIn : Bool) (padding : ℝ) : ℝ := if keepIn then 0 else if padding < 0 then 0 else padding

/-- **C192.**  A padding of 1.3 % of the radius makes up for the circle's polygon. -/
theorem C192_padding {α : Type} (conv : α → ℂ) (c : α) {r padding : ℝ} (hr : 0 ≤ r) (hpad : r * (1 - Real.cos (Real.pi / 20)) ≤ padding) :
    ∃ ps, points conv (.circle c r) = some ps ∧
      ∀ z, ‖z - conv c‖ ≤ r → ∃ q ∈ convexHull ℝ {p | p ∈ ps}, ‖z - q‖ ≤ grown false padding := by
  obtain ⟨ps, h1, h2⟩ := C192_circle_near conv c hr
  refine ⟨ps, h1, fun z hz => ?_⟩
  obtain ⟨q, hq, h⟩ := h2 z hz
  refine ⟨q, hq, h.trans (hpad.trans ?_)⟩
  unfold grown
  split_ifs <;> first | linarith | simp_all

/-! ### Polygons and rectangles -/

/-- **C192.**  A polygon has its own points, in their order. -/
theorem C192_polygon {α : Type} (conv : α → ℂ) (ps : List α) :
    ∃ qs, points conv (.polygon ps) = some qs ∧ ∃ hl : qs.length = ps.length, ∀ k (h : k < qs.length), qs[k] = conv (ps[k]'(hl ▸ h)) :=
  ⟨_, rfl, by simp, by intro k h; simp⟩

theorem rotated_eq (n e a : ℝ) : rotated n e a = (e + n * I) * exp (((-a : ℝ) : ℂ) * I) := by
  rw [Complex.exp_mul_I, ← Complex.ofReal_cos, ← Complex.ofReal_sin, Real.cos_neg, Real.sin_neg]
  apply Complex.ext <;>
    simp only [rotated, Complex.mul_re, Complex.mul_im, Complex.add_re, Complex.add_im, Complex.ofReal_re, Complex.ofReal_im, Complex.I_re, Complex.I_im] <;> ring

/-- **C192.**  The polygon of a rectangle is the rectangle: all places up to half the width and half the height from the centre along its sides,
which are turned clockwise by the rotation. -/
theorem C192_rectangle {α : Type} (conv : α → ℂ) (c : α) {w h : ℝ} (rot : ℝ) (hw : 0 < w) (hh : 0 < h) :
    ∃ ps, points conv (.rectangle c w h rot) = some ps ∧ ps.length = 4 ∧
      ∀ z, z ∈ convexHull ℝ {p | p ∈ ps} ↔ ∃ x y : ℝ, |x| ≤ w / 2 ∧ |y| ≤ h / 2 ∧ z = conv c + (x + y * I) * exp (((-(rot * Real.pi / 180) : ℝ) : ℂ) * I) := by
  refine ⟨_, rfl, by simp, ?_⟩
  intro z
  have ha : rot * (Real.pi / 180) = rot * Real.pi / 180 := by ring
  simp only [ha, rotated_eq, List.map_cons, List.map_nil, List.mem_cons, List.not_mem_nil, or_false]
  generalize hu : exp (((-(rot * Real.pi / 180) : ℝ) : ℂ) * I) = u
  have hun : ‖u‖ = 1 := by rw [← hu]; exact exp_unit _
  constructor
  · intro hz
    have hconv : Convex ℝ {z : ℂ | ∃ x y : ℝ, |x| ≤ w / 2 ∧ |y| ≤ h / 2 ∧ z = conv c + (x + y * I) * u} := by
      rintro _ ⟨x1, y1, hx1, hy1, rfl⟩ _ ⟨x2, y2, hx2, hy2, rfl⟩ a b h0 h1 hab
      rw [abs_le] at hx1 hx2 hy1 hy2
      refine ⟨a * x1 + b * x2, a * y1 + b * y2, ?_, ?_, ?_⟩
      · rw [abs_le]; constructor <;> nlinarith
      · rw [abs_le]; constructor <;> nlinarith
      · have habc : (a : ℂ) + b = 1 := by exact_mod_cast hab
        simp only [real_smul]
        push_cast
        linear_combination (conv c) * habc
    refine convexHull_min ?_ hconv hz
    intro p hp
    have h1 : |w / 2| ≤ w / 2 := by rw [abs_of_pos (by linarith)]
    have h2 : |h / 2| ≤ h / 2 := by rw [abs_of_pos (by linarith)]
    have h3 : |-w / 2| ≤ w / 2 := by rw [neg_div, abs_neg]; exact h1
    have h4 : |-h / 2| ≤ h / 2 := by rw [neg_div, abs_neg]; exact h2
    simp only [Set.mem_setOf_eq] at hp ⊢
    rcases hp with rfl | rfl | rfl | rfl
    · exact ⟨_, _, h1, h2, by ring⟩
    · exact ⟨_, _, h3, h2, by ring⟩
    · exact ⟨_, _, h3, h4, by ring⟩
    · exact ⟨_, _, h1, h4, by ring⟩
  · rintro ⟨x, y, hx, hy, rfl⟩
    rw [abs_le] at hx hy
    have k1 : 0 ≤ 1 / 2 + x / w := by rw [show 1 / 2 + x / w = (w / 2 + x) / w by field_simp]; exact div_nonneg (by linarith) hw.le
    have k2 : 0 ≤ 1 / 2 - x / w := by rw [show 1 / 2 - x / w = (w / 2 - x) / w by field_simp]; exact div_nonneg (by linarith) hw.le
    have k3 : 0 ≤ 1 / 2 + y / h := by rw [show 1 / 2 + y / h = (h / 2 + y) / h by field_simp]; exact div_nonneg (by linarith) hh.le
    have k4 : 0 ≤ 1 / 2 - y / h := by rw [show 1 / 2 - y / h = (h / 2 - y) / h by field_simp]; exact div_nonneg (by linarith) hh.le
    have top := (convex_convexHull ℝ {p : ℂ | p = (((w / 2 : ℝ) : ℂ) + ((h / 2 : ℝ) : ℂ) * I) * u + conv c ∨ p = (((-w / 2 : ℝ) : ℂ) + ((h / 2 : ℝ) : ℂ) * I) * u + conv c ∨
      p = (((-w / 2 : ℝ) : ℂ) + ((-h / 2 : ℝ) : ℂ) * I) * u + conv c ∨ p = (((w / 2 : ℝ) : ℂ) + ((-h / 2 : ℝ) : ℂ) * I) * u + conv c})
      (subset_convexHull ℝ _ (Or.inl rfl)) (subset_convexHull ℝ _ (Or.inr (Or.inl rfl))) k1 k2 (by ring)
    have bottom := (convex_convexHull ℝ {p : ℂ | p = (((w / 2 : ℝ) : ℂ) + ((h / 2 : ℝ) : ℂ) * I) * u + conv c ∨ p = (((-w / 2 : ℝ) : ℂ) + ((h / 2 : ℝ) : ℂ) * I) * u + conv c ∨
      p = (((-w / 2 : ℝ) : ℂ) + ((-h / 2 : ℝ) : ℂ) * I) * u + conv c ∨ p = (((w / 2 : ℝ) : ℂ) + ((-h / 2 : ℝ) : ℂ) * I) * u + conv c})
      (subset_convexHull ℝ _ (Or.inr (Or.inr (Or.inr rfl)))) (subset_convexHull ℝ _ (Or.inr (Or.inr (Or.inl rfl)))) k1 k2 (by ring)
    have all := (convex_convexHull ℝ _) top bottom k3 k4 (by ring)
    convert all using 1
    have hwc : (w : ℂ) ≠ 0 := by exact_mod_cast hw.ne'
    have hhc : (h : ℂ) ≠ 0 := by exact_mod_cast hh.ne'
    simp only [real_smul]
    push_cast
    field_simp
    ring

/-- **C192.**  Only a geometry of another kind has no points. -/
theorem C192_unknown {α : Type} (conv : α → ℂ) (g : Geometry α) : points conv g = none ↔ g = .unknown := by
  cases g <;> simp [points]

/-! ### A circle of 1000 m and a rectangle of 200 m by 100 m turned by 90 degrees -/

/-- `C192_circle_partial`, `C192_circle_violated`: the centre is covered, a place 1000 m away is not. -/
example : ∃ ps, points id (.circle (0 : ℂ) 1000) = some ps ∧ (0 : ℂ) ∈ convexHull ℝ {p | p ∈ ps} ∧ ∃ z, ‖z‖ = 1000 ∧ z ∉ convexHull ℝ {p | p ∈ ps} := by
  have hp := Real.pi_pos
  obtain ⟨ps, h1, _, _, _, _, h2⟩ := C192_circle_partial id (0 : ℂ) (r := 1000) (by norm_num)
  obtain ⟨ps', h3, h4, h5⟩ := C192_circle_violated id (0 : ℂ) (r := 1000) (by norm_num)
  rw [h1, Option.some.injEq] at h3
  subst h3
  have hc : 0 ≤ Real.cos (Real.pi / 20) := Real.cos_nonneg_of_neg_pi_div_two_le_of_le (by linarith) (by linarith)
  refine ⟨ps, h1, h2 0 (by simpa using hc), ?_⟩
  obtain ⟨z, hz, hn⟩ := h5 1000 h4 le_rfl
  exact ⟨z, by simpa using hz, hn⟩

/-- `C192_rectangle`: 90 m to the north is covered: the width is turned from the east to the south. -/
example : ∃ ps, points id (.rectangle (0 : ℂ) 200 100 90) = some ps ∧ 90 * I ∈ convexHull ℝ {p | p ∈ ps} := by
  obtain ⟨ps, h1, _, h2⟩ := C192_rectangle id (0 : ℂ) (w := 200) (h := 100) 90 (by norm_num) (by norm_num)
  refine ⟨ps, h1, (h2 _).2 ⟨-90, 0, by norm_num [abs_of_neg], by norm_num, ?_⟩⟩
  rw [show (-(90 * Real.pi / 180) : ℝ) = -(Real.pi / 2) by ring]
  push_cast
  rw [neg_mul, Complex.exp_neg, Complex.exp_pi_div_two_mul_I, Complex.inv_I]
  simp

end Verif.Visibility.Boundary
