import Verif.Loiter.Model
import Mathlib.Analysis.InnerProductSpace.Projection.Minimal

/-!
C199: a point search does not loiter in a zone to be kept out of.
-/

namespace Verif.Loiter

open Verif.Visilib.Padding (cis normalize_eq cis_norm)
open scoped RealInnerProductSpace

/-- From a point inside a convex zone, the zone ends at the nearest point of its boundary. -/
theorem support_inside {K : Set ℂ} (hK : Convex ℝ K) {p b : ℂ} (hp : p ∈ K) (hb : b ∈ frontier K)
    (hn : ∀ y ∈ frontier K, ‖p - b‖ ≤ ‖p - y‖) : ∀ k ∈ K, ⟪k - b, b - p⟫ ≤ 0 := by
  intro k hk
  by_contra hpos
  push Not at hpos
  have hr : 0 < ‖p - b‖ := by
    rw [norm_pos_iff]
    intro e
    rw [← neg_sub p b, e] at hpos
    simp at hpos
  have hmem : ∀ x ∈ Metric.ball p ‖p - b‖, x ∉ frontier K := by
    intro x hx hf
    rw [Metric.mem_ball, dist_comm, dist_eq_norm] at hx
    exact absurd (hn x hf) (not_le.2 hx)
  have hball : Metric.ball p ‖p - b‖ ⊆ interior K := by
    refine IsPreconnected.subset_left_of_subset_union isOpen_interior (v := (closure K)ᶜ) isClosed_closure.isOpen_compl ?_ ?_ ?_
      (convex_ball p _).isPreconnected
    · exact Set.disjoint_left.2 fun x h1 h2 => h2 (subset_closure (interior_subset h1))
    · intro x hx
      by_cases hi : x ∈ interior K
      · exact .inl hi
      · exact .inr fun hc => hmem x hx ⟨hc, hi⟩
    · refine ⟨p, Metric.mem_ball_self hr, ?_⟩
      by_contra hi
      exact hmem p (Metric.mem_ball_self hr) ⟨subset_closure hp, hi⟩
  have hkb : 0 < ‖k - b‖ ^ 2 := by
    have : k - b ≠ 0 := by
      intro e
      rw [e, inner_zero_left] at hpos
      exact lt_irrefl _ hpos
    positivity
  obtain ⟨t, ht0, ht⟩ : ∃ t : ℝ, 0 < t ∧ t * ‖k - b‖ ^ 2 = ⟪k - b, b - p⟫ := ⟨⟪k - b, b - p⟫ / ‖k - b‖ ^ 2, by positivity, div_mul_cancel₀ _ hkb.ne'⟩
  have hq : b - (t : ℝ) • (k - b) ∈ Metric.ball p ‖p - b‖ := by
    rw [Metric.mem_ball, dist_eq_norm, show b - t • (k - b) - p = (b - p) - t • (k - b) by abel, norm_sub_rev p b]
    refine (sq_lt_sq₀ (norm_nonneg _) (norm_nonneg _)).1 ?_
    rw [norm_sub_sq_real, real_inner_smul_right, real_inner_comm, norm_smul, mul_pow, Real.norm_eq_abs, sq_abs]
    nlinarith
  have hbi : b ∈ interior K := by
    refine hK.openSegment_interior_self_subset_interior (hball hq) hk ?_
    refine ⟨1 / (1 + t), t / (1 + t), by positivity, by positivity, by field_simp, ?_⟩
    have h1 : (1 + t : ℝ) ≠ 0 := by positivity
    rw [smul_sub, smul_smul, smul_sub]
    have : (1 / (1 + t)) • b - (1 / (1 + t) * t) • k + (1 / (1 + t) * t) • b + (t / (1 + t)) • k = b := by
      rw [show t / (1 + t) = 1 / (1 + t) * t by ring]
      rw [show (1 / (1 + t)) • b - (1 / (1 + t) * t) • k + (1 / (1 + t) * t) • b + (1 / (1 + t) * t) • k =
        (1 / (1 + t)) • b + (1 / (1 + t) * t) • b by abel, ← add_smul, show 1 / (1 + t) + 1 / (1 + t) * t = 1 by field_simp, one_smul]
    rw [← sub_add]
    exact this
  exact hb.2 hbi

/-- From a point outside of a convex zone, the zone begins at the nearest point of its boundary. -/
theorem support_outside {K : Set ℂ} (hK : Convex ℝ K) (hc : IsClosed K) {p b : ℂ} (hp : p ∉ K) (hb : b ∈ frontier K)
    (hn : ∀ y ∈ frontier K, ‖p - b‖ ≤ ‖p - y‖) : ∀ k ∈ K, ⟪k - b, p - b⟫ ≤ 0 := by
  have hbK : b ∈ K := hc.frontier_subset hb
  have hmin : ∀ k ∈ K, ‖p - b‖ ≤ ‖p - k‖ := by
    intro k hk
    by_contra hlt
    push Not at hlt
    have hsub : segment ℝ p k ⊆ Kᶜ := by
      refine IsPreconnected.subset_left_of_subset_union hc.isOpen_compl (isOpen_interior (s := K)) ?_ ?_ ?_
        (convex_segment p k).isPreconnected
      · exact Set.disjoint_left.2 fun x h1 h2 => h1 (interior_subset h2)
      · intro x hx
        by_cases hxK : x ∈ K
        · right
          by_contra hi
          have h1 := hn x ⟨subset_closure hxK, hi⟩
          have h2 : ‖p - x‖ ≤ ‖p - k‖ := by
            rw [norm_sub_rev p x, norm_sub_rev p k]
            rw [segment_eq_image'] at hx
            obtain ⟨t, ⟨t0, t1⟩, rfl⟩ := hx
            dsimp only
            rw [add_sub_cancel_left, norm_smul, Real.norm_of_nonneg t0]
            exact mul_le_of_le_one_left (norm_nonneg _) t1
          linarith
        · exact .inl hxK
      · exact ⟨p, left_mem_segment ℝ p k, hp⟩
    exact hsub (right_mem_segment ℝ p k) hk
  intro k hk
  rw [real_inner_comm]
  refine (norm_eq_iInf_iff_real_inner_le_zero hK hbK).1 ?_ k hk
  have : Nonempty K := ⟨⟨b, hbK⟩⟩
  apply le_antisymm
  · exact le_ciInf fun w => hmin w w.2
  · exact ciInf_le ⟨0, by rintro _ ⟨w, rfl⟩; exact norm_nonneg _⟩ (⟨b, hbK⟩ : K)

/-- On the outer side of a zone, as far from it as from its boundary. -/
theorem clear_of {K : Set ℂ} {b u : ℂ} (hu : ‖u‖ = 1) (h : ∀ k ∈ K, ⟪k - b, u⟫ ≤ 0) {s : ℝ} {x : ℂ} (hx : x = b + s • u) :
    ∀ k ∈ K, s ≤ ‖x - k‖ := by
  intro k hk
  have h1 : ⟪x - k, u⟫ = s - ⟪k - b, u⟫ := by
    rw [hx, show b + s • u - k = s • u - (k - b) by abel, inner_sub_left, real_inner_smul_left, real_inner_self_eq_norm_sq, hu]
    ring
  have h2 := real_inner_le_norm (x - k) u
  rw [hu, mul_one, h1] at h2
  linarith [h k hk]

theorem normalize_smul (v : ℂ) (r : ℝ) : Visilib.Padding.normalize v * (r : ℂ) * (1.5 : ℝ) = (1.5 * r) • (v / (‖v‖ : ℝ)) := by
  rw [normalize_eq, Complex.real_smul]
  push_cast
  ring

/-- A zone in which or at which the loiter is. -/
def Conflict (z : Zone) (p : ℂ) (r : ℝ) : Prop := p ∈ z.place ∨ touches z p r

/-- A zone moves a loiter that is not on its boundary by one and a half radii from the boundary. -/
theorem moved_spec {z : Zone} (hK : Convex ℝ z.place) (hc : IsClosed z.place) (hn : z.Nearest) {p : ℂ} (hp : p ∉ frontier z.place)
    {r : ℝ} (hr : 0 ≤ r) (h : Conflict z p r) :
    (∀ k ∈ z.place, 1.5 * r ≤ ‖move r p [z] - k‖) ∧ ‖move r p [z] - z.project p‖ ≤ 1.5 * r := by
  obtain ⟨hb, hmin⟩ := hn p
  have near : ∀ v : ℂ, ‖(1.5 * r) • (v / (‖v‖ : ℝ))‖ ≤ 1.5 * r := by
    intro v
    rw [norm_smul, Real.norm_of_nonneg (by positivity), norm_div, Complex.norm_real, norm_norm]
    exact mul_le_of_le_one_right (by positivity) (div_self_le_one _)
  have unit : ∀ v : ℂ, v ≠ 0 → ‖v / (‖v‖ : ℝ)‖ = 1 := by
    intro v hv
    rw [norm_div, Complex.norm_real, norm_norm, div_self (norm_ne_zero_iff.2 hv)]
  have scaled : ∀ v w : ℂ, v ≠ 0 → ⟪w, v⟫ ≤ 0 → ⟪w, v / (‖v‖ : ℝ)⟫ ≤ 0 := by
    intro v w hv h
    rw [show v / ((‖v‖ : ℝ) : ℂ) = (‖v‖⁻¹ : ℝ) • v by rw [Complex.real_smul, Complex.ofReal_inv]; field_simp, real_inner_smul_right]
    exact mul_nonpos_of_nonneg_of_nonpos (by positivity) h
  unfold move
  by_cases hin : p ∈ z.place
  · rw [if_pos hin, normalize_smul]
    have hv : z.project p - p ≠ 0 := by
      intro e
      rw [sub_eq_zero] at e
      rw [e] at hb
      exact hp hb
    refine ⟨clear_of (unit _ hv) (fun k hk => scaled _ _ hv (support_inside hK hin hb hmin k hk)) rfl, ?_⟩
    rw [add_sub_cancel_left]
    exact near _
  · have ht : touches z p r := h.resolve_left hin
    rw [if_neg hin, if_pos ht, normalize_smul]
    have hv : p - z.project p ≠ 0 := by
      intro e
      rw [sub_eq_zero] at e
      rw [← e] at hb
      exact hp hb
    refine ⟨clear_of (unit _ hv) (fun k hk => scaled _ _ hv (support_outside hK hc hin hb hmin k hk)) rfl, ?_⟩
    rw [add_sub_cancel_left]
    exact near _

/-- The places of the polygon for the loiter are within its radius. -/
theorem ring_near {p : ℂ} {r : ℝ} (hr : 0 ≤ r) {k : ℕ} {x : ℂ} (hx : x ∈ segment ℝ (ring p r k) (ring p r (k + 1))) : ‖x - p‖ ≤ r := by
  have hm : ∀ j, ring p r j ∈ Metric.closedBall p r := by
    intro j
    rw [Metric.mem_closedBall, dist_eq_norm]
    unfold ring
    rw [add_sub_cancel_left, norm_mul, cis_norm, mul_one, Complex.norm_real, Real.norm_of_nonneg hr]
  have := (convex_closedBall p r).segment_subset (hm k) (hm (k + 1)) hx
  rwa [Metric.mem_closedBall, dist_eq_norm] at this

/-- Far enough from a zone there is no conflict. -/
theorem far_clear {z : Zone} (hc : IsClosed z.place) {p : ℂ} {r : ℝ} (hr : 0 ≤ r) (h : ∀ k ∈ z.place, r + 0.1 ≤ ‖p - k‖) : ¬ Conflict z p r := by
  rintro (hin | ⟨k, -, x, hx, y, hy, hlt⟩)
  · have := h p hin
    rw [sub_self, norm_zero] at this
    linarith
  · have h1 := ring_near hr hx
    have h2 := h y (hc.frontier_subset hy)
    have h3 : ‖p - y‖ ≤ ‖x - p‖ + ‖x - y‖ := by
      rw [norm_sub_rev x p]
      calc ‖p - y‖ = ‖(p - x) + (x - y)‖ := by congr 1; ring
        _ ≤ _ := norm_add_le _ _
    linarith

/-- The first zone in conflict decides. -/
theorem move_cases (r : ℝ) (p : ℂ) : ∀ zs : List Zone,
    ((∀ z ∈ zs, ¬ Conflict z p r) ∧ move r p zs = p) ∨
    ∃ pre z post, zs = pre ++ z :: post ∧ (∀ y ∈ pre, ¬ Conflict y p r) ∧ Conflict z p r ∧ move r p zs = move r p [z]
  | [] => .inl ⟨by simp, rfl⟩
  | z :: zs => by
    by_cases hz : Conflict z p r
    · refine .inr ⟨[], z, zs, rfl, by simp, hz, ?_⟩
      rcases hz with h | h
      · simp only [move, if_pos h]
      · by_cases h' : p ∈ z.place
        · simp only [move, if_pos h']
        · simp only [move, if_neg h', if_pos h]
    · have hm : move r p (z :: zs) = move r p zs := by
        rw [Conflict, not_or] at hz
        conv_lhs => unfold move
        rw [if_neg hz.1, if_neg hz.2]
      rcases move_cases r p zs with ⟨h1, h2⟩ | ⟨pre, y, post, rfl, h2, h3, h4⟩
      · exact .inl ⟨by simpa [hz] using h1, hm.trans h2⟩
      · exact .inr ⟨z :: pre, y, post, rfl, by simpa [hz] using h2, h3, hm.trans h4⟩

/-- **C199, in part.**  If the zones are convex and further than two and a half radii from each other, and the point is on the
boundary of none, then the loiter is moved once at most, and is then in no zone and at none; what is missing is that this holds for
any zones and points, which is false. -/
theorem C199_apart_partial (zs : List Zone) (hz : ∀ z ∈ zs, Convex ℝ z.place ∧ IsClosed z.place ∧ z.Nearest) (r : ℝ) (hr : 0.2 ≤ r)
    (hapart : zs.Pairwise fun y z => ∀ a ∈ y.place, ∀ b ∈ z.place, 2.5 * r + 0.1 ≤ ‖a - b‖)
    (p : ℂ) (hp : ∀ z ∈ zs, p ∉ frontier z.place) (n : ℕ) (hn : n ≠ 0) :
    after zs r p n = after zs r p 1 ∧ ∀ z ∈ zs, after zs r p n ∉ z.place ∧ ¬ touches z (after zs r p n) r := by
  have hr0 : 0 ≤ r := by linarith
  have h1 : ∀ z ∈ zs, ¬ Conflict z (move r p zs) r := by
    rcases move_cases r p zs with ⟨h1, h2⟩ | ⟨pre, z, post, rfl, h2, h3, h4⟩
    · rw [h2]; exact h1
    · rw [h4]
      have hzm : z ∈ pre ++ z :: post := by simp
      obtain ⟨hK, hc, hnear⟩ := hz z hzm
      obtain ⟨hfar, hclose⟩ := moved_spec hK hc hnear (hp z hzm) hr0 h3
      have hb : z.project p ∈ z.place := hc.frontier_subset (hnear p).1
      rw [List.pairwise_append, List.pairwise_cons] at hapart
      have other : ∀ y : Zone, IsClosed y.place → (∀ a ∈ y.place, 2.5 * r + 0.1 ≤ ‖z.project p - a‖) → ¬ Conflict y (move r p [z]) r := by
        intro y hy hd
        refine far_clear hy hr0 fun k hk => ?_
        have e1 := hd k hk
        have e2 : ‖z.project p - k‖ ≤ ‖move r p [z] - z.project p‖ + ‖move r p [z] - k‖ := by
          rw [norm_sub_rev (move r p [z]) (z.project p)]
          calc ‖z.project p - k‖ = ‖(z.project p - move r p [z]) + (move r p [z] - k)‖ := by congr 1; ring
            _ ≤ _ := norm_add_le _ _
        linarith
      intro y hy
      rcases List.mem_append.1 hy with hy' | hy'
      · exact other y (hz y hy).2.1 fun a ha => by
          rw [norm_sub_rev]; exact hapart.2.2 y hy' z (by simp) a ha _ hb
      · rcases List.mem_cons.1 hy' with rfl | hy'
        · exact far_clear hc hr0 fun k hk => by linarith [hfar k hk]
        · exact other y (hz y hy).2.1 fun a ha => hapart.2.1.1 y hy' _ hb a ha
  have settled : ∀ q : ℂ, (∀ z ∈ zs, ¬ Conflict z q r) → move r q zs = q := by
    intro q hq
    rcases move_cases r q zs with ⟨-, h⟩ | ⟨pre, z, post, rfl, -, h, -⟩
    · exact h
    · exact absurd h (hq z (by simp))
  have hall : ∀ m, after zs r p (m + 1) = move r p zs := by
    intro m
    induction m with
    | zero => rfl
    | succ m ih =>
      show move r (after zs r p (m + 1)) zs = _
      rw [ih]
      exact settled _ h1
  obtain ⟨m, rfl⟩ := Nat.exists_eq_succ_of_ne_zero hn
  rw [Nat.succ_eq_add_one, hall m]
  exact ⟨rfl, fun z hz' => not_or.1 (h1 z hz')⟩

/-- **C199, in part.**  A loiter that is moved has, for any zones, at least half a radius to the first zone it was in or at. -/
theorem C199_first_partial (zs : List Zone) (hz : ∀ z ∈ zs, Convex ℝ z.place ∧ IsClosed z.place ∧ z.Nearest) (r : ℝ) (hr : 0 ≤ r)
    (p : ℂ) (hp : ∀ z ∈ zs, p ∉ frontier z.place) :
    (move r p zs = p ∧ ∀ z ∈ zs, p ∉ z.place ∧ ¬ touches z p r) ∨
    ∃ z ∈ zs, (p ∈ z.place ∨ touches z p r) ∧ ∀ x, ‖x - move r p zs‖ ≤ r → ∀ k ∈ z.place, r / 2 ≤ ‖x - k‖ := by
  rcases move_cases r p zs with ⟨h1, h2⟩ | ⟨pre, z, post, rfl, h2, h3, h4⟩
  · exact .inl ⟨h2, fun z hz' => not_or.1 (h1 z hz')⟩
  · right
    have hzm : z ∈ pre ++ z :: post := by simp
    obtain ⟨hK, hc, hnear⟩ := hz z hzm
    obtain ⟨hfar, -⟩ := moved_spec hK hc hnear (hp z hzm) hr h3
    refine ⟨z, hzm, h3, fun x hx k hk => ?_⟩
    rw [h4] at hx
    have e1 := hfar k hk
    have e2 : ‖move r p [z] - k‖ ≤ ‖x - move r p [z]‖ + ‖x - k‖ := by
      rw [norm_sub_rev x]
      calc ‖move r p [z] - k‖ = ‖(move r p [z] - x) + (x - k)‖ := by congr 1; ring
        _ ≤ _ := norm_add_le _ _
    linarith

/-- **C199 is false.**  A loiter around a point on the boundary of a zone is never moved. -/
theorem C199_boundary_violated (z : Zone) (hc : IsClosed z.place) (hn : z.Nearest) (r : ℝ) (p : ℂ) (hp : p ∈ frontier z.place) (n : ℕ) :
    after [z] r p n = p ∧ p ∈ z.place := by
  have hin := hc.frontier_subset hp
  have hproj : z.project p = p := by
    have := (hn p).2 p hp
    rw [sub_self, norm_zero] at this
    exact (sub_eq_zero.1 (norm_le_zero_iff.1 this)).symm
  refine ⟨?_, hin⟩
  induction n with
  | zero => rfl
  | succ n ih =>
    show move r (after [z] r p n) [z] = p
    rw [ih]
    unfold move
    rw [if_pos hin, normalize_smul, hproj]
    simp

/-! ### Two zones side by side -/

/-- A rectangle, 200 m from south to north. -/
def box (a b : ℝ) : Set ℂ := Set.Icc a b ×ℂ Set.Icc (-100) 100

theorem box_frontier {a b : ℝ} (h : a ≤ b) (y : ℂ) (hy : y ∈ frontier (box a b)) :
    a ≤ y.re ∧ y.re ≤ b ∧ -100 ≤ y.im ∧ y.im ≤ 100 ∧ (y.re = a ∨ y.re = b ∨ y.im = -100 ∨ y.im = 100) := by
  unfold box at hy
  rw [Complex.frontier_reProdIm, closure_Icc, closure_Icc, frontier_Icc h, frontier_Icc (by norm_num)] at hy
  rcases hy with hy | hy
  · obtain ⟨⟨h1, h2⟩, h3⟩ := hy
    rcases h3 with h3 | h3
    · have h3 : y.im = -100 := h3
      exact ⟨h1, h2, by linarith, by linarith, .inr (.inr (.inl h3))⟩
    · have h3 : y.im = 100 := h3
      exact ⟨h1, h2, by linarith, by linarith, .inr (.inr (.inr h3))⟩
  · obtain ⟨h3, h1, h2⟩ := hy
    rcases h3 with h3 | h3
    · have h3 : y.re = a := h3
      exact ⟨by linarith, by linarith, h1, h2, .inl h3⟩
    · have h3 : y.re = b := h3
      exact ⟨by linarith, by linarith, h1, h2, .inr (.inl h3)⟩

theorem box_corner {a b : ℝ} (h : a ≤ b) (x : ℝ) (hx : x = a ∨ x = b) : (x : ℂ) ∈ frontier (box a b) := by
  unfold box
  rw [Complex.frontier_reProdIm, closure_Icc, closure_Icc, frontier_Icc h, frontier_Icc (by norm_num)]
  right
  refine ⟨?_, by simp⟩
  rcases hx with rfl | rfl <;> simp

theorem box_closed (a b : ℝ) : IsClosed (box a b) := isClosed_Icc.reProdIm isClosed_Icc

theorem box_convex (a b : ℝ) : Convex ℝ (box a b) :=
  ((convex_Icc a b).linear_preimage Complex.reLm).inter ((convex_Icc _ _).linear_preimage Complex.imLm)

theorem box_mem {a b : ℝ} {x : ℝ} (h1 : a ≤ x) (h2 : x ≤ b) : (x : ℂ) ∈ box a b :=
  ⟨⟨by simpa using h1, by simpa using h2⟩, by simp⟩

theorem box_nearest {a b : ℝ} (h : a ≤ b) (p : ℂ) : ∃ q ∈ frontier (box a b), ∀ y ∈ frontier (box a b), ‖p - q‖ ≤ ‖p - y‖ := by
  have hcomp : IsCompact (frontier (box a b)) :=
    (isCompact_Icc.reProdIm isCompact_Icc).of_isClosed_subset isClosed_frontier (box_closed a b).frontier_subset
  obtain ⟨q, hq, hmin⟩ := hcomp.exists_isMinOn ⟨_, box_corner h a (.inl rfl)⟩
    (f := fun y => ‖p - y‖) (by fun_prop)
  exact ⟨q, hq, fun y hy => hmin hy⟩

/-- The rectangle as a zone. -/
noncomputable def boxZone (a b : ℝ) (h : a ≤ b) : Zone := ⟨box a b, fun p => (box_nearest h p).choose⟩

theorem boxZone_nearest {a b : ℝ} (h : a ≤ b) : (boxZone a b h).Nearest := fun p => (box_nearest h p).choose_spec

/-- From a point nearer to one side than to the others, that side is the nearest. -/
theorem boxZone_side {a b : ℝ} (h : a ≤ b) (x s : ℝ) (hs : s = a ∨ s = b) (h1 : |x - s| < 100)
    (h2 : ∀ t, t = a ∨ t = b → t ≠ s → |x - s| < |x - t|) : (boxZone a b h).project x = s := by
  obtain ⟨hf, hmin⟩ := boxZone_nearest h (x : ℂ)
  set q := (boxZone a b h).project (x : ℂ) with hq
  have hle := hmin s (box_corner h s hs)
  rw [← Complex.ofReal_sub, Complex.norm_real, Real.norm_eq_abs] at hle
  have hre : |x - q.re| ≤ ‖(x : ℂ) - q‖ := by simpa using Complex.abs_re_le_norm ((x : ℂ) - q)
  have him : |q.im| ≤ ‖(x : ℂ) - q‖ := by simpa using Complex.abs_im_le_norm ((x : ℂ) - q)
  obtain ⟨b1, b2, b3, b4, b5⟩ := box_frontier h q hf
  have hres : q.re = s := by
    rcases b5 with e | e | e | e
    · by_contra hne
      have := h2 a (.inl rfl) (by rw [← e]; exact hne)
      rw [e] at hre
      linarith
    · by_contra hne
      have := h2 b (.inr rfl) (by rw [← e]; exact hne)
      rw [e] at hre
      linarith
    · rw [e] at him; norm_num at him; linarith
    · rw [e] at him; norm_num at him; linarith
  have hims : q.im = 0 := by
    have hsq : ‖(x : ℂ) - q‖ ^ 2 ≤ |x - s| ^ 2 := by
      have := abs_nonneg (x - s)
      exact pow_le_pow_left₀ (norm_nonneg _) hle 2
    rw [← Complex.normSq_eq_norm_sq, Complex.normSq_apply, sq_abs] at hsq
    simp only [Complex.sub_re, Complex.ofReal_re, Complex.sub_im, Complex.ofReal_im, hres] at hsq
    nlinarith
  exact Complex.ext (by simpa using hres) (by simpa using hims)

/-- The zone in which the point is. -/
noncomputable def west : Zone := boxZone (-10) 10 (by norm_num)
/-- The zone half a metre east of it. -/
noncomputable def east : Zone := boxZone 10.5 30 (by norm_num)

theorem step_east (x : ℝ) (h1 : 5 ≤ x) (h2 : x < 10) : move 2 (x : ℂ) [west, east] = ((13 : ℝ) : ℂ) := by
  have hin : (x : ℂ) ∈ west.place := box_mem (by linarith) h2.le
  have hp : west.project x = ((10 : ℝ) : ℂ) := by
    refine boxZone_side _ x 10 (.inr rfl) (by rw [abs_lt]; constructor <;> linarith) ?_
    rintro t (rfl | rfl) hne
    · rw [abs_of_neg (by linarith), abs_of_pos (by linarith)]; linarith
    · exact absurd rfl hne
  unfold move
  rw [if_pos hin, normalize_smul, hp, ← Complex.ofReal_sub, Complex.norm_real, Real.norm_of_nonneg (by linarith), ← Complex.ofReal_div,
    div_self (by linarith), Complex.real_smul, Complex.ofReal_one]
  push_cast
  norm_num

theorem step_west : move 2 ((13 : ℝ) : ℂ) [west, east] = ((7.5 : ℝ) : ℂ) := by
  have hout : ((13 : ℝ) : ℂ) ∉ west.place := by
    rintro ⟨⟨-, h⟩, -⟩
    norm_num at h
  have hno : ¬ touches west ((13 : ℝ) : ℂ) 2 := by
    rintro ⟨k, -, x, hx, y, hy, hlt⟩
    have h1 := ring_near (by norm_num) hx
    have h2 := (box_frontier (by norm_num) y hy).2.1
    have h3 : |x.re - 13| ≤ 2 := le_trans (by simpa using Complex.abs_re_le_norm (x - ((13 : ℝ) : ℂ))) h1
    have h4 : |x.re - y.re| < 0.1 := lt_of_le_of_lt (by simpa using Complex.abs_re_le_norm (x - y)) hlt
    rw [abs_le] at h3
    rw [abs_lt] at h4
    linarith [h3.1, h4.2]
  have hin : ((13 : ℝ) : ℂ) ∈ east.place := box_mem (by norm_num) (by norm_num)
  have hp : east.project ((13 : ℝ) : ℂ) = ((10.5 : ℝ) : ℂ) := by
    refine boxZone_side _ 13 10.5 (.inl rfl) (by norm_num [abs_lt]) ?_
    rintro t (rfl | rfl) hne
    · exact absurd rfl hne
    · norm_num [abs_of_neg, abs_of_pos]
  unfold move
  rw [if_neg hout, if_neg hno]
  unfold move
  rw [if_pos hin, normalize_smul, hp, ← Complex.ofReal_sub, Complex.norm_real, ← Complex.ofReal_div, Complex.real_smul,
    ← Complex.ofReal_mul, ← Complex.ofReal_add]
  congr 1
  norm_num [abs_of_neg]

/-- **C199 is false.**  Between two convex zones half a metre apart the loiter is moved to and fro: after any number of calls its
centre is in one of them. -/
theorem C199_between_violated : ∃ (zs : List Zone) (p : ℂ), (∀ z ∈ zs, Convex ℝ z.place ∧ IsClosed z.place ∧ z.Nearest) ∧
    (∀ z ∈ zs, p ∉ frontier z.place) ∧ ∀ n, ∃ z ∈ zs, after zs 2 p n ∈ z.place := by
  have key : ∀ n, after [west, east] 2 ((9 : ℝ) : ℂ) n = ((13 : ℝ) : ℂ) ∨
      ∃ x : ℝ, 5 ≤ x ∧ x < 10 ∧ after [west, east] 2 ((9 : ℝ) : ℂ) n = (x : ℂ) := by
    intro n
    induction n with
    | zero => exact .inr ⟨9, by norm_num, by norm_num, rfl⟩
    | succ n ih =>
      rcases ih with h | ⟨x, h1, h2, h⟩
      · refine .inr ⟨7.5, by norm_num, by norm_num, ?_⟩
        show move 2 (after _ 2 _ n) _ = _
        rw [h, step_west]
      · left
        show move 2 (after _ 2 _ n) _ = _
        rw [h, step_east x h1 h2]
  refine ⟨[west, east], ((9 : ℝ) : ℂ), ?_, ?_, fun n => ?_⟩
  · intro z hz
    simp only [List.mem_cons, List.not_mem_nil, or_false] at hz
    rcases hz with rfl | rfl
    · exact ⟨box_convex _ _, box_closed _ _, boxZone_nearest _⟩
    · exact ⟨box_convex _ _, box_closed _ _, boxZone_nearest _⟩
  · intro z hz hf
    simp only [List.mem_cons, List.not_mem_nil, or_false] at hz
    rcases hz with rfl | rfl
    · obtain ⟨-, -, -, -, h⟩ := box_frontier (by norm_num) _ hf
      norm_num at h
    · obtain ⟨h, -⟩ := box_frontier (by norm_num) _ hf
      norm_num at h
  · rcases key n with h | ⟨x, h1, h2, h⟩
    · exact ⟨east, by simp, by rw [h]; exact box_mem (by norm_num) (by norm_num)⟩
    · exact ⟨west, by simp, by rw [h]; exact box_mem (by linarith) h2.le⟩

/-- The hypotheses of `C199_apart_partial` are met: from nine metres east of the middle of the western zone alone, the loiter is moved
to thirteen, whatever the number of headings. -/
example (n : ℕ) (hn : n ≠ 0) : after [west] 2 ((9 : ℝ) : ℂ) n = after [west] 2 ((9 : ℝ) : ℂ) 1 ∧
    after [west] 2 ((9 : ℝ) : ℂ) n ∉ west.place := by
  obtain ⟨h1, h2⟩ := C199_apart_partial [west] (by simpa using ⟨box_convex _ _, box_closed _ _, boxZone_nearest _⟩) 2 (by norm_num)
    (by simp) ((9 : ℝ) : ℂ) (by
      intro z hz hf
      rw [List.mem_singleton] at hz
      subst hz
      obtain ⟨-, -, -, -, h⟩ := box_frontier (by norm_num) _ hf
      norm_num at h) n hn
  exact ⟨h1, (h2 west (by simp)).1⟩

/-- The hypotheses of `C199_boundary_violated` are met. -/
example (n : ℕ) : after [west] 2 ((10 : ℝ) : ℂ) n = ((10 : ℝ) : ℂ) :=
  (C199_boundary_violated west (box_closed _ _) (boxZone_nearest _) 2 _ (box_corner (by norm_num) 10 (.inr rfl)) n).1

end Verif.Loiter
