import Verif.Loiter.Ring

/-!
C199: how far the circle of a loiter that is left where it is can reach into a zone.
-/

namespace Verif.Loiter

open Verif.Visilib.Padding (cis cis_add cis_norm cis_re cis_im)

theorem cis_two_pi (x : ℝ) : cis (x + 2 * Real.pi) = cis x := by
  apply Complex.ext <;> simp

/-- The component of `y` in the direction `x`. -/
noncomputable def along (x : ℝ) (y : ℂ) : ℝ := y.re * Real.cos x + y.im * Real.sin x

theorem along_cis (x s θ : ℝ) : along x ((s : ℂ) * cis θ) = s * Real.cos (θ - x) := by
  rw [Real.cos_sub]
  simp only [along, Complex.mul_re, Complex.mul_im, Complex.ofReal_re, Complex.ofReal_im, cis_re, cis_im, zero_mul, sub_zero, add_zero]
  ring

theorem along_le (x : ℝ) (w : ℂ) : along x w ≤ ‖w‖ := by
  have h2 : ‖w‖ ^ 2 = w.re ^ 2 + w.im ^ 2 := by rw [← Complex.normSq_eq_norm_sq, Complex.normSq_apply]; ring
  have hcs := Real.sin_sq_add_cos_sq x
  refine abs_le_of_sq_le_sq' ?_ (norm_nonneg w) |>.2
  unfold along
  nlinarith [sq_nonneg (w.re * Real.sin x - w.im * Real.cos x)]

theorem along_two_pi (x : ℝ) (w : ℂ) : along (x + 2 * Real.pi) w = along x w := by
  simp [along]

theorem along_continuous (x : ℝ) (p : ℂ) : Continuous fun y => along x (y - p) := by
  unfold along
  exact ((Complex.continuous_re.comp (continuous_id.sub continuous_const)).mul continuous_const).add
    ((Complex.continuous_im.comp (continuous_id.sub continuous_const)).mul continuous_const)

/-- The direction across an edge of the polygon. -/
noncomputable def across (k : ℕ) : ℝ := k * (Real.pi / 10) + Real.pi / 20

theorem across_mod (k : ℕ) (w : ℂ) : along (across (k + 20)) w = along (across k) w := by
  rw [← along_two_pi (across k)]
  congr 1
  unfold across
  push_cast
  ring

theorem across_all {w : ℂ} {c : ℝ} (h : ∀ k < 20, along (across k) w ≤ c) (k : ℕ) : along (across k) w ≤ c := by
  induction k using Nat.strongRecOn with
  | ind k ih =>
    by_cases hk : k < 20
    · exact h k hk
    · obtain ⟨j, rfl⟩ : ∃ j, k = j + 20 := ⟨k - 20, by omega⟩
      rw [across_mod]
      exact ih j (by omega)

/-- A place on the line through an edge, behind the lines through its neighbours, is on the edge. -/
theorem on_edge {p y : ℂ} {r : ℝ} (hr : 0 < r) {k : ℕ} (h : along (across k) (y - p) = r * Real.cos (Real.pi / 20))
    (hall : ∀ j, along (across j) (y - p) ≤ r * Real.cos (Real.pi / 20)) : y ∈ segment ℝ (ring p r k) (ring p r (k + 1)) := by
  have hpi := Real.pi_pos
  obtain ⟨a, ha⟩ : ∃ a, a = Real.pi / 20 := ⟨_, rfl⟩
  rw [← ha] at h hall
  have hsin : 0 < Real.sin a := Real.sin_pos_of_pos_of_lt_pi (by rw [ha]; positivity) (by rw [ha]; linarith)
  have hcos : 0 < Real.cos a := Real.cos_pos_of_mem_Ioo ⟨by rw [ha]; linarith, by rw [ha]; linarith⟩
  have hcs := Real.sin_sq_add_cos_sq a
  obtain ⟨b, hb⟩ : ∃ b, b = across k := ⟨_, rfl⟩
  have hbs := Real.sin_sq_add_cos_sq b
  rw [← hb] at h
  obtain ⟨e, he⟩ : ∃ e, e = (y - p).im * Real.cos b - (y - p).re * Real.sin b := ⟨_, rfl⟩
  have hnext := hall (k + 1)
  have hprev := hall (k + 19)
  rw [show across (k + 1) = b + 2 * a by rw [hb, ha]; unfold across; push_cast; ring] at hnext
  rw [show across (k + 19) = b - 2 * a + 2 * Real.pi by rw [hb, ha]; unfold across; push_cast; ring, along_two_pi] at hprev
  have e1 : along (b + 2 * a) (y - p) = along b (y - p) * Real.cos (2 * a) + e * Real.sin (2 * a) := by
    rw [he]; unfold along; rw [Real.cos_add, Real.sin_add]; ring
  have e2 : along (b - 2 * a) (y - p) = along b (y - p) * Real.cos (2 * a) - e * Real.sin (2 * a) := by
    rw [he]; unfold along; rw [Real.cos_sub, Real.sin_sub]; ring
  rw [e1, h, Real.cos_two_mul, Real.sin_two_mul] at hnext
  rw [e2, h, Real.cos_two_mul, Real.sin_two_mul] at hprev
  have hu : e ≤ r * Real.sin a := by
    have : 2 * Real.sin a * Real.cos a * e ≤ 2 * Real.sin a * Real.cos a * (r * Real.sin a) := by
      have : 2 * Real.sin a * Real.cos a * (r * Real.sin a) = 2 * r * Real.cos a * (1 - Real.cos a ^ 2) := by
        linear_combination 2 * r * Real.cos a * hcs
      linarith
    exact le_of_mul_le_mul_left this (by positivity)
  have hl : -(r * Real.sin a) ≤ e := by
    have : 2 * Real.sin a * Real.cos a * (-e) ≤ 2 * Real.sin a * Real.cos a * (r * Real.sin a) := by
      have : 2 * Real.sin a * Real.cos a * (r * Real.sin a) = 2 * r * Real.cos a * (1 - Real.cos a ^ 2) := by
        linear_combination 2 * r * Real.cos a * hcs
      linarith
    have := le_of_mul_le_mul_left this (by positivity)
    linarith
  have hy : y = p + cis b * ⟨r * Real.cos a, e⟩ := by
    have hre : (y - p).re = r * Real.cos a * Real.cos b - e * Real.sin b := by
      rw [← h, he]; unfold along; linear_combination (y - p).re * (-hbs)
    have him : (y - p).im = r * Real.cos a * Real.sin b + e * Real.cos b := by
      rw [← h, he]; unfold along; linear_combination (y - p).im * (-hbs)
    have : y - p = cis b * ⟨r * Real.cos a, e⟩ := by
      apply Complex.ext
      · rw [hre]; simp only [Complex.mul_re, cis_re, cis_im]; ring
      · rw [him]; simp only [Complex.mul_im, cis_re, cis_im]; ring
    rw [← this]; ring
  have f1 : ring p r k = p + (r : ℂ) * (cis b * cis (-a)) := by
    rw [← cis_add]; unfold ring; congr 3; rw [hb, ha]; unfold across; ring
  have f2 : ring p r (k + 1) = p + (r : ℂ) * (cis b * cis a) := by
    rw [← cis_add]; unfold ring; congr 3; rw [hb, ha]; unfold across; push_cast; ring
  have hrs : 0 < r * Real.sin a := by positivity
  rw [f1, f2]
  refine ⟨(1 - e / (r * Real.sin a)) / 2, (1 + e / (r * Real.sin a)) / 2, ?_, ?_, by ring, ?_⟩
  · have : e / (r * Real.sin a) ≤ 1 := (div_le_one hrs).2 hu
    linarith
  · have : -1 ≤ e / (r * Real.sin a) := by rw [le_div_iff₀ hrs]; linarith
    linarith
  · have hmid : ((((1 - e / (r * Real.sin a)) / 2 : ℝ) : ℂ)) * cis (-a) + (((1 + e / (r * Real.sin a)) / 2 : ℝ) : ℂ) * cis a =
        ⟨Real.cos a, e / r⟩ := by
      apply Complex.ext
      · simp only [Complex.add_re, Complex.mul_re, Complex.ofReal_re, Complex.ofReal_im, cis_re, cis_im, Real.cos_neg, zero_mul, sub_zero]
        ring
      · simp only [Complex.add_im, Complex.mul_im, Complex.ofReal_re, Complex.ofReal_im, cis_re, cis_im, Real.sin_neg, zero_mul, add_zero]
        field_simp
        ring
    have hr' : (⟨r * Real.cos a, e⟩ : ℂ) = (r : ℂ) * ⟨Real.cos a, e / r⟩ := by
      apply Complex.ext
      · simp
      · simp; field_simp
    rw [hy, hr', ← hmid]
    simp only [Complex.real_smul]
    push_cast
    ring

/-- A place that is behind all edges is within the circle. -/
theorem within_circle {p y : ℂ} {r : ℝ} (h : ∀ k < 20, along (across k) (y - p) < r * Real.cos (Real.pi / 20)) : ‖y - p‖ < r := by
  have hpi := Real.pi_pos
  have hcos : 0 < Real.cos (Real.pi / 20) := Real.cos_pos_of_mem_Ioo ⟨by linarith, by linarith⟩
  obtain ⟨θ, h0, h1, hθ⟩ : ∃ θ : ℝ, 0 ≤ θ ∧ θ < 2 * Real.pi ∧ y - p = (‖y - p‖ : ℂ) * cis θ := by
    have e : y - p = (‖y - p‖ : ℂ) * cis (Complex.arg (y - p)) := by
      apply Complex.ext
      · simp only [Complex.mul_re, Complex.ofReal_re, Complex.ofReal_im, cis_re, cis_im, zero_mul, sub_zero]
        exact (Complex.norm_mul_cos_arg _).symm
      · simp only [Complex.mul_im, Complex.ofReal_re, Complex.ofReal_im, cis_re, cis_im, zero_mul, add_zero]
        exact (Complex.norm_mul_sin_arg _).symm
    have g1 := Complex.neg_pi_lt_arg (y - p)
    have g2 := Complex.arg_le_pi (y - p)
    by_cases hn : 0 ≤ Complex.arg (y - p)
    · exact ⟨_, hn, by linarith, e⟩
    · exact ⟨Complex.arg (y - p) + 2 * Real.pi, by linarith, by linarith, by rw [cis_two_pi]; exact e⟩
  obtain ⟨k, hk1, hk2⟩ : ∃ k : ℕ, (k : ℝ) * (Real.pi / 10) ≤ θ ∧ θ < (k + 1) * (Real.pi / 10) := by
    refine ⟨⌊θ / (Real.pi / 10)⌋₊, ?_, ?_⟩
    · have := Nat.floor_le (a := θ / (Real.pi / 10)) (by positivity)
      rwa [le_div_iff₀ (by positivity)] at this
    · have := Nat.lt_floor_add_one (θ / (Real.pi / 10))
      rwa [div_lt_iff₀ (by positivity)] at this
  have hk : k < 20 := by
    by_contra h
    have : (20 : ℝ) ≤ k := by exact_mod_cast not_lt.1 h
    nlinarith
  have h2 := h k hk
  rw [hθ, along_cis] at h2
  have h3 : Real.cos (Real.pi / 20) ≤ Real.cos (θ - across k) := by
    rw [← Real.cos_abs (θ - across k)]
    refine Real.cos_le_cos_of_nonneg_of_le_pi (abs_nonneg _) (by linarith) (abs_le.2 ⟨?_, ?_⟩)
    · unfold across; linarith
    · unfold across; linarith
  have h4 := mul_le_mul_of_nonneg_left h3 (norm_nonneg (y - p))
  exact lt_of_mul_lt_mul_right (lt_of_le_of_lt h4 h2) hcos.le

/-- What is connected, and partly in a set and partly not, meets its boundary. -/
theorem meets_frontier {s K : Set ℂ} (hs : IsPreconnected s) {x w : ℂ} (hx : x ∈ s) (hxK : x ∈ K) (hw : w ∈ s) (hwK : w ∉ K) :
    (s ∩ frontier K).Nonempty := by
  by_contra h
  have hno : ∀ v ∈ s, v ∉ frontier K := fun v hv hf => h ⟨v, hv, hf⟩
  have hcov : s ⊆ interior K ∪ (closure K)ᶜ := by
    intro v hv
    by_cases hi : v ∈ interior K
    · exact .inl hi
    · exact .inr fun hc => hno v hv ⟨hc, hi⟩
  have hdis : Disjoint (interior K) (closure K)ᶜ := by
    rw [Set.disjoint_left]
    exact fun v hv hc => hc (subset_closure (interior_subset hv))
  rcases hs.subset_or_subset isOpen_interior isClosed_closure.isOpen_compl hdis hcov with h' | h'
  · exact hwK (interior_subset (h' hw))
  · exact h' hx (subset_closure hxK)

/-- A loiter that is not noticed to be at a convex zone, from outside: none of its edges meets the zone. -/
theorem edges_out {z : Zone} (hK : Convex ℝ z.place) {p : ℂ} {r : ℝ} (hp : p ∉ z.place) (ht : ¬ touches z p r) :
    ∀ k < 20, ∀ x ∈ segment ℝ (ring p r k) (ring p r (k + 1)), x ∉ z.place := by
  have hpi := Real.pi_pos
  have hedge : ∀ k < 20, ∀ x ∈ segment ℝ (ring p r k) (ring p r (k + 1)), x ∈ z.place →
      segment ℝ (ring p r k) (ring p r (k + 1)) ⊆ z.place := by
    intro k hk x hx hxz w hw
    by_contra hwz
    have hpre : IsPreconnected (segment ℝ (ring p r k) (ring p r (k + 1))) := (convex_segment _ _).isPreconnected
    obtain ⟨v, hv, hvf⟩ : (segment ℝ (ring p r k) (ring p r (k + 1)) ∩ frontier z.place).Nonempty :=
      meets_frontier hpre hx hxz hw hwz
    exact ht ⟨k, hk, v, hv, v, hvf, by rw [sub_self, norm_zero]; norm_num⟩
  have hstep : ∀ k < 20, ring p r k ∈ z.place → ring p r (k + 1) ∈ z.place := fun k hk h =>
    hedge k hk _ (left_mem_segment ℝ _ _) h (right_mem_segment ℝ _ _)
  have hup : ∀ n k, k + n ≤ 20 → ring p r k ∈ z.place → ring p r (k + n) ∈ z.place := by
    intro n
    induction n with
    | zero => exact fun k _ h => h
    | succ n ih => exact fun k hk h => hstep (k + n) (by omega) (ih k (by omega) h)
  have h20 : ring p r 20 = ring p r 0 := by
    unfold ring
    rw [show ((20 : ℕ) : ℝ) * (Real.pi / 10) = ((0 : ℕ) : ℝ) * (Real.pi / 10) + 2 * Real.pi by push_cast; ring, cis_two_pi]
  intro k hk x hx hxz
  have h1 : ring p r k ∈ z.place := hedge k hk x hx hxz (left_mem_segment ℝ _ _)
  have h2 := hup (20 - k) k (by omega) h1
  rw [show k + (20 - k) = 20 by omega, h20] at h2
  have h3 := hup 10 0 (by omega) h2
  apply hp
  have := hK h2 h3 (a := 1 / 2) (b := 1 / 2) (by norm_num) (by norm_num) (by norm_num)
  rw [show (1 / 2 : ℝ) • ring p r 0 + (1 / 2 : ℝ) • ring p r (0 + 10) = p by
    unfold ring
    apply Complex.ext <;> simp <;> ring_nf <;> simp] at this
  exact this

/-- **C199, in part.**  If a loiter is left where it is beside a convex zone, then either the zone is within its circle altogether, or the
circle reaches into the zone by no more than the distance between the circle and a regular polygon with twenty corners in it, 1.3 percent
of the radius. -/
theorem C199_depth_partial {z : Zone} (hK : Convex ℝ z.place) {p : ℂ} {r : ℝ} (hr : 0 < r) (hp : p ∉ z.place) (ht : ¬ touches z p r) :
    (∀ y ∈ z.place, ‖y - p‖ < r) ∨ ∀ y ∈ z.place, r * Real.cos (Real.pi / 20) < ‖y - p‖ := by
  have hout := edges_out hK hp ht
  have h1 : IsOpen {y : ℂ | ∀ k < 20, along (across k) (y - p) < r * Real.cos (Real.pi / 20)} := by
    have : {y : ℂ | ∀ k < 20, along (across k) (y - p) < r * Real.cos (Real.pi / 20)} =
        ⋂ k ∈ Finset.range 20, {y : ℂ | along (across k) (y - p) < r * Real.cos (Real.pi / 20)} := by
      ext y; simp
    rw [this]
    exact isOpen_biInter_finset fun k _ => isOpen_lt (along_continuous _ _) continuous_const
  have h2 : IsOpen {y : ℂ | ∃ k < 20, r * Real.cos (Real.pi / 20) < along (across k) (y - p)} := by
    have : {y : ℂ | ∃ k < 20, r * Real.cos (Real.pi / 20) < along (across k) (y - p)} =
        ⋃ k ∈ Finset.range 20, {y : ℂ | r * Real.cos (Real.pi / 20) < along (across k) (y - p)} := by
      ext y; simp
    rw [this]
    exact isOpen_biUnion fun k _ => isOpen_lt continuous_const (along_continuous _ _)
  have hdis : Disjoint {y : ℂ | ∀ k < 20, along (across k) (y - p) < r * Real.cos (Real.pi / 20)}
      {y : ℂ | ∃ k < 20, r * Real.cos (Real.pi / 20) < along (across k) (y - p)} := by
    rw [Set.disjoint_left]
    rintro y hy ⟨k, hk, h⟩
    exact lt_asymm h (hy k hk)
  have hcov : z.place ⊆ {y : ℂ | ∀ k < 20, along (across k) (y - p) < r * Real.cos (Real.pi / 20)} ∪
      {y : ℂ | ∃ k < 20, r * Real.cos (Real.pi / 20) < along (across k) (y - p)} := by
    intro y hy
    by_cases h : ∃ k < 20, r * Real.cos (Real.pi / 20) < along (across k) (y - p)
    · exact .inr h
    · left
      intro k hk
      have hle : ∀ j < 20, along (across j) (y - p) ≤ r * Real.cos (Real.pi / 20) := fun j hj => by
        by_contra hc
        exact h ⟨j, hj, not_le.1 hc⟩
      refine lt_of_le_of_ne (hle k hk) fun he => ?_
      exact hout k hk y (on_edge hr he (across_all hle)) hy
  rcases hK.isPreconnected.subset_or_subset h1 h2 hdis hcov with h | h
  · exact .inl fun y hy => within_circle (h hy)
  · right
    intro y hy
    obtain ⟨k, -, hk⟩ := h hy
    exact lt_of_lt_of_le hk (along_le _ _)

/-- `C199_depth_partial`: a round zone eight metres from a loiter with a radius of two metres. -/
example (f : ℂ → ℂ) : (∀ y ∈ Metric.closedBall ((10 : ℝ) : ℂ) 1, ‖y - 0‖ < 2) ∨
    ∀ y ∈ Metric.closedBall ((10 : ℝ) : ℂ) 1, 2 * Real.cos (Real.pi / 20) < ‖y - 0‖ := by
  have hfar : ∀ y ∈ Metric.closedBall ((10 : ℝ) : ℂ) 1, 9 ≤ ‖y‖ := by
    intro y hy
    rw [mem_closedBall_iff_norm, norm_sub_rev] at hy
    have h1 := norm_sub_norm_le ((10 : ℝ) : ℂ) y
    rw [Complex.norm_real, Real.norm_eq_abs, abs_of_pos (by norm_num)] at h1
    linarith
  refine C199_depth_partial (z := ⟨Metric.closedBall ((10 : ℝ) : ℂ) 1, f⟩) (convex_closedBall _ _) (by norm_num) (fun h => ?_) ?_
  · have := hfar 0 h
    rw [norm_zero] at this
    norm_num at this
  · rintro ⟨k, -, x, hx, y, hy, hxy⟩
    have h1 := ring_near (by norm_num) hx
    have h2 := hfar y (Metric.isClosed_closedBall.frontier_subset hy)
    rw [sub_zero] at h1
    have h3 := norm_sub_norm_le y x
    rw [norm_sub_rev] at hxy
    have : ‖y‖ - ‖x‖ < 0.1 := lt_of_le_of_lt h3 hxy
    norm_num at this
    linarith

end Verif.Loiter
