import Verif.Dynamic.Pace
import Mathlib.Analysis.InnerProductSpace.Projection.Minimal
import Mathlib.Analysis.Convex.Topology
import Mathlib.Analysis.Normed.Module.Convex
import Mathlib.Analysis.SpecialFunctions.Trigonometric.Bounds

/-!
# Moving a place off the keep-out zones (C150)
-/

namespace Verif.Dynamic

open Complex

/-- The corners of the polygon that stands for the circle around a place. -/
noncomputable def corner (p : ℂ) (r : ℝ) (k : ℕ) : ℂ :=
  p + r * (Real.cos (k * (Real.pi / 10)) + Real.sin (k * (Real.pi / 10)) * I)

/-- Its boundary. -/
def Ring (p : ℂ) (r : ℝ) : Set ℂ := {a | ∃ k < 20, a ∈ segment ℝ (corner p r k) (corner p r (k + 1))}

/-- What the service computes of a zone with ideal arithmetic: whether a place is in it, a nearest point of its boundary, and
whether the boundary of the polygon around the place comes within 0.1 m of its boundary. -/
structure Zone.Is (z : Zone) (Z : Set ℂ) : Prop where
  inside : ∀ p, z.inside p ↔ p ∈ Z
  project : ∀ p, z.project p ∈ frontier Z ∧ ∀ q ∈ frontier Z, ‖p - z.project p‖ ≤ ‖p - q‖
  touches : ∀ p r, z.touches p r ↔ ∃ a ∈ Ring p r, ∃ b ∈ frontier Z, ‖a - b‖ < 0.1

/-- The inner product of the plane. -/
theorem inner_re (a b : ℂ) : inner ℝ a b = a.re * b.re + a.im * b.im := by
  rw [Complex.inner]; simp [Complex.mul_re]; ring

theorem norm_sq (a : ℂ) : ‖a‖ ^ 2 = a.re ^ 2 + a.im ^ 2 := by
  rw [Complex.sq_norm, Complex.normSq_apply]; ring

/-- A place beyond a line, by an amount, is that far from all that is on the other side. -/
theorem far_of_side {u b q : ℂ} {off : ℝ} (hu : ‖u‖ = 1) (h : inner ℝ (q - b) u ≤ 0) : off ≤ ‖b + u * off - q‖ := by
  have h1 : inner ℝ (b + u * off - q) u ≤ ‖b + u * off - q‖ * ‖u‖ := real_inner_le_norm _ _
  have h2 : inner ℝ (b + u * off - q) u = off * ‖u‖ ^ 2 - inner ℝ (q - b) u := by
    rw [inner_re, inner_re, norm_sq]; simp; ring
  rw [h2, hu] at h1
  linarith

/-- A connected set that is partly in a set and partly not meets its boundary. -/
theorem meets_frontier {t s : Set ℂ} (ht : IsPreconnected t) (h1 : (t ∩ s).Nonempty) (h2 : (t ∩ sᶜ).Nonempty) :
    (t ∩ frontier s).Nonempty := by
  by_contra hne
  have hn : ∀ x ∈ t, x ∉ frontier s := fun x hx hf => hne ⟨x, hx, hf⟩
  obtain ⟨x, hx, hxs⟩ := h1
  obtain ⟨y, hy, hys⟩ := h2
  have hcase : ∀ x ∈ t, x ∈ interior s ∨ x ∈ (closure s)ᶜ := by
    intro x hx
    by_contra hc
    push Not at hc
    exact hn x hx ⟨by simpa using hc.2, hc.1⟩
  have hx' : x ∈ interior s := (hcase x hx).resolve_right (fun h => h (subset_closure hxs))
  have hy' : y ∈ (closure s)ᶜ := (hcase y hy).resolve_left (fun h => hys (interior_subset h))
  obtain ⟨z, _, hz1, hz2⟩ := ht (interior s) (closure s)ᶜ isOpen_interior isClosed_closure.isOpen_compl hcase ⟨x, hx, hx'⟩ ⟨y, hy, hy'⟩
  exact hz2 (subset_closure (interior_subset hz1))

theorem ball_sub {Z : Set ℂ} {p : ℂ} {R : ℝ} (hp : p ∈ Z) (h : ∀ q ∈ frontier Z, R ≤ ‖p - q‖) : Metric.ball p R ⊆ Z := by
  intro x hx
  by_contra hxZ
  have hR : 0 < R := lt_of_le_of_lt dist_nonneg (Metric.mem_ball.1 hx)
  have hb : IsPreconnected (Metric.ball p R) := (convex_ball p R).isPreconnected
  obtain ⟨f, hf1, hf2⟩ := meets_frontier hb ⟨p, Metric.mem_ball_self hR, hp⟩ ⟨x, hx, hxZ⟩
  have := h f hf2
  rw [Metric.mem_ball, dist_comm, Complex.dist_eq] at hf1
  linarith

/-- All of a convex zone lies on one side of the line through the boundary point nearest to an inner point. -/
theorem side_inside {Z : Set ℂ} (hZ : Convex ℝ Z) {p b : ℂ} (hp : p ∈ Z) (hb : b ∈ frontier Z) (hpb : p ≠ b)
    (hn : ∀ q ∈ frontier Z, ‖p - b‖ ≤ ‖p - q‖) {q : ℂ} (hq : q ∈ Z) : inner ℝ (q - b) (b - p) ≤ 0 := by
  by_contra hpos
  push Not at hpos
  set d := inner ℝ (q - b) (b - p) with hd
  have hball := ball_sub hp hn
  have hN : 0 < ‖q - b‖ ^ 2 := by
    have : q ≠ b := by
      rintro rfl
      rw [hd, sub_self, inner_zero_left] at hpos
      exact lt_irrefl _ hpos
    have := norm_pos_iff.2 (sub_ne_zero.2 this)
    positivity
  -- the point from which `q` is seen through `b`
  set ε := d / ‖q - b‖ ^ 2 with hε
  have hεpos : 0 < ε := div_pos hpos hN
  have hεN : ε * ‖q - b‖ ^ 2 = d := div_mul_cancel₀ _ hN.ne'
  set c : ℂ := b + ε * (b - q) with hc
  have hcp : ‖p - c‖ ^ 2 < ‖p - b‖ ^ 2 := by
    have e : ‖p - c‖ ^ 2 = ‖p - b‖ ^ 2 - 2 * ε * d + ε * (ε * ‖q - b‖ ^ 2) := by
      rw [hd, inner_re, hc, norm_sq, norm_sq, norm_sq]; simp; ring
    rw [e, hεN]
    nlinarith
  have hcp' : ‖p - c‖ < ‖p - b‖ := lt_of_pow_lt_pow_left₀ 2 (norm_nonneg _) hcp
  have hcint : c ∈ interior Z := by
    refine interior_maximal hball Metric.isOpen_ball ?_
    rw [Metric.mem_ball, dist_comm, Complex.dist_eq]
    exact hcp'
  have hbseg : b ∈ openSegment ℝ c q := by
    refine ⟨1 / (1 + ε), ε / (1 + ε), by positivity, by positivity, by field_simp, ?_⟩
    have h1 : (1 + (ε : ℂ)) ≠ 0 := by
      have : (1 + ε) ≠ 0 := by positivity
      exact_mod_cast this
    rw [hc, Complex.real_smul, Complex.real_smul]
    push_cast
    field_simp
    ring
  have := hZ.openSegment_interior_self_subset_interior hcint hq hbseg
  exact hb.2 this

/-- From a place outside, a nearest boundary point is a nearest point. -/
theorem nearest_outside {Z : Set ℂ} {p b : ℂ} (hp : p ∉ Z) (hn : ∀ q ∈ frontier Z, ‖p - b‖ ≤ ‖p - q‖) {q : ℂ} (hq : q ∈ Z) :
    ‖p - b‖ ≤ ‖p - q‖ := by
  have hs : IsPreconnected (segment ℝ p q) := (convex_segment p q).isPreconnected
  obtain ⟨f, hf1, hf2⟩ := meets_frontier (s := Z) hs ⟨q, right_mem_segment ℝ p q, hq⟩ ⟨p, left_mem_segment ℝ p q, hp⟩
  refine (hn f hf2).trans ?_
  obtain ⟨a, c, ha, hc, hac, rfl⟩ := hf1
  have : p - (a • p + c • q) = c • (p - q) := by
    simp only [Complex.real_smul]
    have : (a : ℂ) + c = 1 := by exact_mod_cast hac
    linear_combination (-p) * this
  rw [this, norm_smul, Real.norm_of_nonneg hc]
  exact mul_le_of_le_one_left (norm_nonneg _) (by linarith)

/-- All of a convex zone lies on one side of the line through the boundary point nearest to an outer place. -/
theorem side_outside {Z : Set ℂ} (hZ : Convex ℝ Z) (hcl : IsClosed Z) {p b : ℂ} (hp : p ∉ Z) (hb : b ∈ frontier Z)
    (hn : ∀ q ∈ frontier Z, ‖p - b‖ ≤ ‖p - q‖) {q : ℂ} (hq : q ∈ Z) : inner ℝ (q - b) (p - b) ≤ 0 := by
  by_contra hpos
  push Not at hpos
  have hbZ : b ∈ Z := hcl.frontier_subset hb
  set d := inner ℝ (q - b) (p - b) with hd
  have hN : 0 < ‖q - b‖ ^ 2 := by
    have : q ≠ b := by
      rintro rfl
      rw [hd, sub_self, inner_zero_left] at hpos
      exact lt_irrefl _ hpos
    have := norm_pos_iff.2 (sub_ne_zero.2 this)
    positivity
  set ε := min 1 (d / ‖q - b‖ ^ 2) with hε
  have hεpos : 0 < ε := lt_min one_pos (div_pos hpos hN)
  have hε1 : ε ≤ 1 := min_le_left _ _
  have hεN : ε * ‖q - b‖ ^ 2 ≤ d := by
    have : ε ≤ d / ‖q - b‖ ^ 2 := min_le_right _ _
    rwa [le_div_iff₀ hN] at this
  have hx : b + ε * (q - b) ∈ Z := by
    have := hZ hbZ hq (a := 1 - ε) (b := ε) (by linarith) hεpos.le (by ring)
    rw [Complex.real_smul, Complex.real_smul] at this
    convert this using 1
    push_cast; ring
  have h1 := nearest_outside hp hn hx
  have e : ‖p - (b + ε * (q - b))‖ ^ 2 = ‖p - b‖ ^ 2 - 2 * ε * d + ε * (ε * ‖q - b‖ ^ 2) := by
    rw [hd, inner_re, norm_sq, norm_sq, norm_sq]; simp; ring
  have h2 : ‖p - b‖ ^ 2 ≤ ‖p - (b + ε * (q - b))‖ ^ 2 := pow_le_pow_left₀ (norm_nonneg _) h1 2
  rw [e] at h2
  nlinarith

/-- **C150.**  A place in a convex keep-out zone, off its boundary, is moved to one that is the whole distance away from it. -/
theorem C150_inside {z : Zone} {Z : Set ℂ} (hz : z.Is Z) (hZ : Convex ℝ Z) {p : ℂ} (hp : p ∈ interior Z) (zones : ℤ → Option Zone)
    {i : ℤ} (hi : zones i = some z) (is : List ℤ) (off : ℝ) {q : ℂ} (hq : q ∈ Z) : off ≤ ‖moveOff zones p off (i :: is) - q‖ := by
  have hpZ := interior_subset hp
  unfold moveOff
  simp only [hi]
  rw [if_pos ((hz.inside p).2 hpZ)]
  obtain ⟨hb, hn⟩ := hz.project p
  have hpb : p ≠ z.project p := fun h => hb.2 (h ▸ hp)
  have hne : z.project p - p ≠ 0 := sub_ne_zero.2 hpb.symm
  have hR : 0 < ‖z.project p - p‖ := norm_pos_iff.2 hne
  have hs := side_inside hZ hpZ hb hpb hn hq
  refine far_of_side (normalize_norm hne) ?_
  rw [normalize_eq]
  have : inner ℝ (q - z.project p) ((z.project p - p) / (‖z.project p - p‖ : ℂ)) =
      inner ℝ (q - z.project p) (z.project p - p) / ‖z.project p - p‖ := by
    rw [inner_re, inner_re, Complex.div_ofReal_re, Complex.div_ofReal_im]; ring
  rw [this]
  exact div_nonpos_of_nonpos_of_nonneg hs hR.le

/-- **C150.**  A place outside, around which the polygon touches the boundary of the zone, is moved to the whole distance from
it. -/
theorem C150_near {z : Zone} {Z : Set ℂ} (hz : z.Is Z) (hZ : Convex ℝ Z) (hcl : IsClosed Z) {p : ℂ} (hp : p ∉ Z)
    (zones : ℤ → Option Zone) {i : ℤ} (hi : zones i = some z) (is : List ℤ) (off : ℝ)
    (ht : ∃ a ∈ Ring p off, ∃ b ∈ frontier Z, ‖a - b‖ < 0.1) {q : ℂ} (hq : q ∈ Z) :
    off ≤ ‖moveOff zones p off (i :: is) - q‖ := by
  unfold moveOff
  simp only [hi]
  rw [if_neg (fun h => hp ((hz.inside p).1 h)), if_pos ((hz.touches p off).2 ht)]
  obtain ⟨hb, hn⟩ := hz.project p
  have hne : p - z.project p ≠ 0 := sub_ne_zero.2 (fun h => hp (h ▸ hcl.frontier_subset hb))
  have hR : 0 < ‖p - z.project p‖ := norm_pos_iff.2 hne
  have hs := side_outside hZ hcl hp hb hn hq
  refine far_of_side (normalize_norm hne) ?_
  rw [normalize_eq]
  have : inner ℝ (q - z.project p) ((p - z.project p) / (‖p - z.project p‖ : ℂ)) =
      inner ℝ (q - z.project p) (p - z.project p) / ‖p - z.project p‖ := by
    rw [inner_re, inner_re, Complex.div_ofReal_re, Complex.div_ofReal_im]; ring
  rw [this]
  exact div_nonpos_of_nonpos_of_nonneg hs hR.le

end Verif.Dynamic
