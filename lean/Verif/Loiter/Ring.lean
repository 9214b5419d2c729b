import Verif.Loiter.Props
import Mathlib.Analysis.SpecialFunctions.Trigonometric.Bounds
import Mathlib.Topology.Connected.Clopen

/-!
C199: the polygon that stands for the circle of a loiter.
-/

namespace Verif.Loiter

open Verif.Visilib.Padding (cis cis_add cis_norm cis_re cis_im)

/-- A place of the circle and the place of the polygon with twenty corners beside it. -/
theorem ring_beside (p : ℂ) {r : ℝ} (hr : 0 ≤ r) {θ : ℝ} (h0 : 0 ≤ θ) (h1 : θ < 2 * Real.pi) :
    ∃ k < 20, ∃ x ∈ segment ℝ (ring p r k) (ring p r (k + 1)), ‖x - (p + (r : ℂ) * cis θ)‖ ≤ r * (1 - Real.cos (Real.pi / 20)) := by
  have hpi := Real.pi_pos
  obtain ⟨k, hk1, hk2⟩ : ∃ k : ℕ, (k : ℝ) * (Real.pi / 10) ≤ θ ∧ θ < (k + 1) * (Real.pi / 10) := by
    refine ⟨⌊θ / (Real.pi / 10)⌋₊, ?_, ?_⟩
    · have := Nat.floor_le (a := θ / (Real.pi / 10)) (by positivity)
      rwa [le_div_iff₀ (by positivity)] at this
    · have := Nat.lt_floor_add_one (θ / (Real.pi / 10))
      rwa [div_lt_iff₀ (by positivity)] at this
  have hk : k < 20 := by
    by_contra h
    have : (20 : ℝ) ≤ k := by exact_mod_cast not_lt.1 h
    nlinarith
  set a := Real.pi / 20 with ha
  set φ := θ - (k * (Real.pi / 10) + a) with hφ
  have hφ1 : -a ≤ φ := by rw [hφ, ha]; linarith
  have hφ2 : φ ≤ a := by
    rw [hφ, ha]
    linarith
  have ha2 : a ≤ Real.pi / 2 := by rw [ha]; linarith
  have hsin : 0 < Real.sin a := Real.sin_pos_of_pos_of_lt_pi (by positivity) (by rw [ha]; linarith)
  have hs1 : Real.sin φ ≤ Real.sin a := Real.sin_le_sin_of_le_of_le_pi_div_two (by linarith) ha2 hφ2
  have hs2 : -Real.sin a ≤ Real.sin φ := by
    rw [← Real.sin_neg]
    exact Real.sin_le_sin_of_le_of_le_pi_div_two (by linarith) (by linarith) hφ1
  have hc1 : Real.cos a ≤ Real.cos φ := by
    rw [← Real.cos_abs φ]
    exact Real.cos_le_cos_of_nonneg_of_le_pi (abs_nonneg _) (by linarith) (abs_le.2 ⟨hφ1, hφ2⟩)
  have hc2 := Real.cos_le_one φ
  set u := cis (k * (Real.pi / 10) + a) with hu
  have e1 : ring p r k = p + (r : ℂ) * (u * cis (-a)) := by
    rw [hu, ← cis_add]; unfold ring; congr 3; ring
  have e2 : ring p r (k + 1) = p + (r : ℂ) * (u * cis a) := by
    rw [hu, ← cis_add]; unfold ring; congr 3; rw [ha]; push_cast; ring
  have e3 : cis θ = u * cis φ := by rw [hu, ← cis_add]; congr 1; rw [hφ]; ring
  refine ⟨k, hk, p + (r : ℂ) * (u * ⟨Real.cos a, Real.sin φ⟩), ?_, ?_⟩
  · rw [e1, e2]
    refine ⟨(1 - Real.sin φ / Real.sin a) / 2, (1 + Real.sin φ / Real.sin a) / 2, ?_, ?_, by ring, ?_⟩
    · have : Real.sin φ / Real.sin a ≤ 1 := (div_le_one hsin).2 hs1
      linarith
    · have : -1 ≤ Real.sin φ / Real.sin a := by rw [le_div_iff₀ hsin]; linarith
      linarith
    · have hmid : ((((1 - Real.sin φ / Real.sin a) / 2 : ℝ) : ℂ)) * cis (-a) + (((1 + Real.sin φ / Real.sin a) / 2 : ℝ) : ℂ) * cis a =
          ⟨Real.cos a, Real.sin φ⟩ := by
        apply Complex.ext
        · simp only [Complex.add_re, Complex.mul_re, Complex.ofReal_re, Complex.ofReal_im, cis_re, cis_im, Real.cos_neg, zero_mul, sub_zero]
          ring
        · simp only [Complex.add_im, Complex.mul_im, Complex.ofReal_re, Complex.ofReal_im, cis_re, cis_im, Real.sin_neg, zero_mul, add_zero]
          field_simp
          ring
      rw [← hmid]
      simp only [Complex.real_smul]
      push_cast
      ring
  · rw [e3]
    have : p + (r : ℂ) * (u * ⟨Real.cos a, Real.sin φ⟩) - (p + (r : ℂ) * (u * cis φ)) = (r : ℂ) * (u * ((Real.cos a - Real.cos φ : ℝ) : ℂ)) := by
      have : (⟨Real.cos a, Real.sin φ⟩ : ℂ) = cis φ + ((Real.cos a - Real.cos φ : ℝ) : ℂ) := by
        apply Complex.ext
        · simp only [Complex.add_re, Complex.ofReal_re, cis_re]; ring
        · simp only [Complex.add_im, Complex.ofReal_im, cis_im, add_zero]
      rw [this]
      ring
    rw [this, norm_mul, norm_mul, hu, cis_norm, one_mul, Complex.norm_real, Complex.norm_real, Real.norm_eq_abs, Real.norm_eq_abs,
      abs_of_nonneg hr, abs_of_nonpos (by linarith)]
    exact mul_le_mul_of_nonneg_left (by linarith) hr

/-- **C199, in part.**  A loiter is noticed to be at a zone if its circle comes nearer to the boundary than 0.1 m less the distance between
the circle and a regular polygon with twenty corners in it. -/
theorem C199_circle_partial (z : Zone) (p : ℂ) {r : ℝ} (hr : 0 ≤ r) {θ : ℝ} (h0 : 0 ≤ θ) (h1 : θ < 2 * Real.pi) {y : ℂ}
    (hy : y ∈ frontier z.place) (hd : ‖p + (r : ℂ) * cis θ - y‖ + r * (1 - Real.cos (Real.pi / 20)) < 0.1) : touches z p r := by
  obtain ⟨k, hk, x, hx, hxd⟩ := ring_beside p hr h0 h1
  refine ⟨k, hk, x, hx, y, hy, lt_of_le_of_lt ?_ hd⟩
  calc ‖x - y‖ = ‖(x - (p + (r : ℂ) * cis θ)) + (p + (r : ℂ) * cis θ - y)‖ := by congr 1; ring
    _ ≤ _ := norm_add_le _ _
    _ ≤ _ := by linarith

/-- The polygon stays within the line through two corners that follow each other. -/
theorem ring_behind (k : ℕ) (hk : k ≤ 20) : Real.cos (k * (Real.pi / 10) - Real.pi / 20) ≤ Real.cos (Real.pi / 20) := by
  have hpi := Real.pi_pos
  rcases Nat.eq_zero_or_pos k with rfl | hp
  · rw [show ((0 : ℕ) : ℝ) * (Real.pi / 10) - Real.pi / 20 = -(Real.pi / 20) by push_cast; ring, Real.cos_neg]
  have h1 : (1 : ℝ) ≤ k := by exact_mod_cast hp
  by_cases h : k ≤ 10
  · have h2 : (k : ℝ) ≤ 10 := by exact_mod_cast h
    exact Real.cos_le_cos_of_nonneg_of_le_pi (by positivity) (by nlinarith) (by nlinarith)
  · have h2 : (11 : ℝ) ≤ k := by exact_mod_cast (by omega : 11 ≤ k)
    have h3 : (k : ℝ) ≤ 20 := by exact_mod_cast hk
    rw [← Real.cos_two_pi_sub]
    exact Real.cos_le_cos_of_nonneg_of_le_pi (by positivity) (by nlinarith) (by nlinarith)

/-- All there is beyond a line across the direction π/20. -/
def beyond (d : ℝ) : Set ℂ := {w | d ≤ w.re * Real.cos (Real.pi / 20) + w.im * Real.sin (Real.pi / 20)}

theorem beyond_convex (d : ℝ) : Convex ℝ (beyond d) := by
  intro a ha b hb s t hs ht hst
  simp only [beyond, Set.mem_ofPred_eq, Complex.add_re, Complex.add_im, Complex.real_smul, Complex.mul_re, Complex.mul_im,
    Complex.ofReal_re, Complex.ofReal_im, zero_mul, sub_zero, add_zero] at *
  have h1 := mul_le_mul_of_nonneg_left ha hs
  have h2 := mul_le_mul_of_nonneg_left hb ht
  have h3 : s * d + t * d = d := by rw [← add_mul, hst, one_mul]
  linarith

theorem beyond_closed (d : ℝ) : IsClosed (beyond d) := by
  apply isClosed_le continuous_const
  exact (Complex.continuous_re.mul continuous_const).add (Complex.continuous_im.mul continuous_const)

/-- There is a nearest place of the boundary. -/
theorem nearest_exists {K : Set ℂ} (hne : (frontier K).Nonempty) : ∃ f : ℂ → ℂ, (⟨K, f⟩ : Zone).Nearest := by
  have h : ∀ p, ∃ y ∈ frontier K, Metric.infDist p (frontier K) = dist p y :=
    fun p => isClosed_frontier.exists_infDist_eq_dist hne p
  choose f hf hd using h
  refine ⟨f, fun p => ⟨hf p, fun y hy => ?_⟩⟩
  have := Metric.infDist_le_dist_of_mem (x := p) hy
  rw [hd p, dist_eq_norm, dist_eq_norm] at this
  exact this

/-- **C199 is false.**  The circle of a loiter with a radius of a kilometre reaches more than four metres into a convex zone, and the
loiter is not moved. -/
theorem C199_polygon_violated : ∃ (z : Zone) (p : ℂ) (c : ℂ), Convex ℝ z.place ∧ IsClosed z.place ∧ z.Nearest ∧ p ∉ z.place ∧
    (∀ n, after [z] 1000 p n = p) ∧ ‖c - p‖ = 1000 ∧ ∀ y, ‖y - c‖ ≤ 4 → y ∈ z.place := by
  have hpi := Real.pi_pos
  have hcs := Real.sin_sq_add_cos_sq (Real.pi / 20)
  have hcos : Real.cos (Real.pi / 20) ≤ 1 - 1 / 200 := by
    have := Real.cos_le_one_sub_mul_cos_sq (x := Real.pi / 20) (by rw [abs_of_pos (by positivity)]; linarith)
    have e : 2 / Real.pi ^ 2 * (Real.pi / 20) ^ 2 = 1 / 200 := by field_simp; norm_num
    linarith
  have hpos : 0 < Real.cos (Real.pi / 20) := Real.cos_pos_of_mem_Ioo ⟨by linarith, by linarith⟩
  obtain ⟨d, hd⟩ : ∃ d, d = 1000 * Real.cos (Real.pi / 20) + 0.1 := ⟨_, rfl⟩
  have hdot : ∀ w : ℂ, w.re * Real.cos (Real.pi / 20) + w.im * Real.sin (Real.pi / 20) ≤ ‖w‖ := by
    intro w
    have h2 : ‖w‖ ^ 2 = w.re ^ 2 + w.im ^ 2 := by rw [← Complex.normSq_eq_norm_sq, Complex.normSq_apply]; ring
    refine abs_le_of_sq_le_sq' ?_ (norm_nonneg w) |>.2
    nlinarith [sq_nonneg (w.re * Real.sin (Real.pi / 20) - w.im * Real.cos (Real.pi / 20))]
  have hin : ∀ y : ℂ, ‖y - (1000 : ℝ) * cis (Real.pi / 20)‖ ≤ 4 → y ∈ beyond d := by
    intro y hy
    have h1 := hdot ((1000 : ℝ) * cis (Real.pi / 20) - y)
    rw [norm_sub_rev] at h1
    simp only [Complex.sub_re, Complex.sub_im, Complex.mul_re, Complex.mul_im, Complex.ofReal_re, Complex.ofReal_im, cis_re, cis_im,
      zero_mul, sub_zero, add_zero] at h1
    simp only [beyond, Set.mem_ofPred_eq]
    nlinarith
  have hout : (0 : ℂ) ∉ beyond d := by
    simp only [beyond, Set.mem_ofPred_eq, Complex.zero_re, Complex.zero_im, zero_mul, add_zero, not_le]
    linarith
  have hne : (frontier (beyond d)).Nonempty := by
    rw [Set.nonempty_iff_ne_empty]
    intro h
    rcases isClopen_iff.1 (isClopen_iff_frontier_eq_empty.2 h) with h | h
    · have := hin ((1000 : ℝ) * cis (Real.pi / 20)) (by simp)
      rw [h] at this
      exact this
    · rw [h] at hout
      exact hout trivial
  obtain ⟨f, hf⟩ := nearest_exists hne
  have hnot : ¬ touches ⟨beyond d, f⟩ 0 1000 := by
    rintro ⟨k, hk, x, ⟨s, t, hs, ht, hst, rfl⟩, y, hy, hxy⟩
    have hyin : y ∈ beyond d := (beyond_closed d).frontier_subset hy
    have hring : ∀ j ≤ 20, (ring 0 1000 j).re * Real.cos (Real.pi / 20) + (ring 0 1000 j).im * Real.sin (Real.pi / 20) ≤
        1000 * Real.cos (Real.pi / 20) := by
      intro j hj
      have := ring_behind j hj
      rw [Real.cos_sub] at this
      simp only [ring, Complex.add_re, Complex.add_im, Complex.zero_re, Complex.zero_im, Complex.mul_re, Complex.mul_im, Complex.ofReal_re,
        Complex.ofReal_im, cis_re, cis_im, zero_mul, sub_zero, add_zero, zero_add]
      nlinarith
    have h1 := hring k (by omega)
    have h2 := hring (k + 1) (by omega)
    rw [norm_sub_rev] at hxy
    have h3 := lt_of_le_of_lt (hdot (y - (s • ring 0 1000 k + t • ring 0 1000 (k + 1)))) hxy
    simp only [beyond, Set.mem_ofPred_eq] at hyin
    simp only [Complex.sub_re, Complex.sub_im, Complex.add_re, Complex.add_im, Complex.real_smul, Complex.mul_re, Complex.mul_im,
      Complex.ofReal_re, Complex.ofReal_im, zero_mul, sub_zero, add_zero] at h3
    have h4 := mul_le_mul_of_nonneg_left h1 hs
    have h5 := mul_le_mul_of_nonneg_left h2 ht
    have h6 : s * (1000 * Real.cos (Real.pi / 20)) + t * (1000 * Real.cos (Real.pi / 20)) = 1000 * Real.cos (Real.pi / 20) := by
      rw [← add_mul, hst, one_mul]
    linarith
  refine ⟨⟨beyond d, f⟩, 0, (1000 : ℝ) * cis (Real.pi / 20), beyond_convex d, beyond_closed d, hf, hout, ?_, ?_, hin⟩
  · intro n
    induction n with
    | zero => rfl
    | succ n ih =>
      simp only [after]
      rw [ih]
      simp only [move]
      rw [if_neg hout, if_neg hnot]
  · rw [sub_zero, norm_mul, cis_norm, Complex.norm_real]
    norm_num

/-- `C199_circle_partial`: a loiter with a radius of two metres beside a round zone is noticed. -/
example (f : ℂ → ℂ) : touches ⟨Metric.closedBall ((3 : ℝ) * cis (Real.pi / 20)) 1, f⟩ 0 2 := by
  have hpi := Real.pi_pos
  have hd : ((2 : ℝ) : ℂ) * cis (Real.pi / 20) ∈ frontier (Metric.closedBall (((3 : ℝ) : ℂ) * cis (Real.pi / 20)) 1) := by
    rw [frontier_closedBall _ one_ne_zero, mem_sphere_iff_norm, ← sub_mul, norm_mul, cis_norm, mul_one, ← Complex.ofReal_sub,
      Complex.norm_real]
    norm_num
  refine C199_circle_partial _ 0 (r := 2) (by norm_num) (θ := Real.pi / 20) (by positivity) (by linarith) hd ?_
  have h1 := Real.one_sub_sq_div_two_le_cos (x := Real.pi / 20)
  have h2 := Real.pi_le_four
  rw [zero_add, sub_self, norm_zero]
  nlinarith

end Verif.Loiter
