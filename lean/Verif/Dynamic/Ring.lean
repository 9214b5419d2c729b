import Verif.Dynamic.Zones

/-!
# The polygon around a place (C150)
-/

namespace Verif.Dynamic

open Complex

/-- The direction to the middle of an edge of the polygon. -/
noncomputable def ang (k : ℕ) : ℝ := (k + 1 / 2) * (Real.pi / 10)

/-- How far a place is in that direction. -/
noncomputable def along (p q : ℂ) (k : ℕ) : ℝ := (q - p).re * Real.cos (ang k) + (q - p).im * Real.sin (ang k)

/-- The polygon. -/
def Poly (p : ℂ) (c : ℝ) : Set ℂ := {q | ∀ k < 20, along p q k ≤ c}

theorem along_period (p q : ℂ) (k : ℕ) : along p q (k + 20) = along p q k := by
  have e : ang (k + 20) = ang k + 2 * Real.pi := by unfold ang; push_cast; ring
  unfold along
  rw [e, Real.cos_add_two_pi, Real.sin_add_two_pi]

theorem poly_all {p q : ℂ} {c : ℝ} (h : q ∈ Poly p c) (k : ℕ) : along p q k ≤ c := by
  induction k using Nat.strong_induction_on with
  | _ k ih =>
      by_cases hk : k < 20
      · exact h k hk
      · have e : k = (k - 20) + 20 := by omega
        rw [e, along_period]
        exact ih _ (by omega)

theorem along_cont (p : ℂ) (k : ℕ) : Continuous (fun q => along p q k) := by
  unfold along
  fun_prop

theorem poly_closed (p : ℂ) (c : ℝ) : IsClosed (Poly p c) := by
  have : Poly p c = ⋂ k : ℕ, ⋂ _ : k < 20, {q | along p q k ≤ c} := by
    ext q; simp [Poly]
  rw [this]
  exact isClosed_iInter fun k => isClosed_iInter fun _ => isClosed_le (along_cont p k) continuous_const

/-- On the boundary of the polygon, one of the constraints is met with equality. -/
theorem poly_frontier {p : ℂ} {c : ℝ} {q : ℂ} (h : q ∈ frontier (Poly p c)) : q ∈ Poly p c ∧ ∃ k < 20, along p q k = c := by
  have hq : q ∈ Poly p c := (poly_closed p c).frontier_subset h
  refine ⟨hq, ?_⟩
  by_contra hne
  push Not at hne
  have hlt : ∀ k < 20, along p q k < c := fun k hk => lt_of_le_of_ne (hq k hk) (hne k hk)
  refine h.2 (mem_interior.2 ⟨⋂ k ∈ Finset.range 20, {q | along p q k < c}, ?_, ?_, ?_⟩)
  · intro x hx k hk
    have := Set.mem_iInter₂.1 hx k (Finset.mem_range.2 hk)
    exact le_of_lt this
  · exact isOpen_biInter_finset fun k _ => isOpen_lt (along_cont p k) continuous_const
  · exact Set.mem_iInter₂.2 fun k hk => hlt k (Finset.mem_range.1 hk)

theorem sin20_pos : 0 < Real.sin (Real.pi / 20) :=
  Real.sin_pos_of_pos_of_lt_pi (by positivity) (by linarith [Real.pi_pos])

theorem cos20_pos : 0 < Real.cos (Real.pi / 20) :=
  Real.cos_pos_of_mem_Ioo ⟨by linarith [Real.pi_pos], by linarith [Real.pi_pos]⟩

/-- Its boundary is the ring of segments between the corners. -/
theorem frontier_ring {p : ℂ} {r : ℝ} (hr : 0 ≤ r) {q : ℂ} (h : q ∈ frontier (Poly p (r * Real.cos (Real.pi / 20)))) :
    q ∈ Ring p r := by
  obtain ⟨hq, k, hk, he⟩ := poly_frontier h
  have h1 := poly_all hq (k + 1)
  have h2 := poly_all hq (k + 19)
  set S := Real.sin (Real.pi / 20) with hS
  set C := Real.cos (Real.pi / 20) with hC
  have hSp : 0 < S := sin20_pos
  have hCp : 0 < C := cos20_pos
  have hSC : S ^ 2 + C ^ 2 = 1 := Real.sin_sq_add_cos_sq _
  have hs10 : Real.sin (Real.pi / 10) = 2 * S * C := by
    rw [show Real.pi / 10 = 2 * (Real.pi / 20) by ring, Real.sin_two_mul]
  have hc10 : Real.cos (Real.pi / 10) = 1 - 2 * S ^ 2 := by
    rw [show Real.pi / 10 = 2 * (Real.pi / 20) by ring, Real.cos_two_mul, ← hC]; linarith
  set φ := ang k with hφ
  set a := Real.cos φ with ha
  set b := Real.sin φ with hb
  have hab : b ^ 2 + a ^ 2 = 1 := Real.sin_sq_add_cos_sq _
  have e1 : ang (k + 1) = φ + Real.pi / 10 := by rw [hφ]; unfold ang; push_cast; ring
  have e2 : ang (k + 19) = φ - Real.pi / 10 + 2 * Real.pi := by rw [hφ]; unfold ang; push_cast; ring
  unfold along at he h1 h2
  rw [e1, Real.cos_add, Real.sin_add, hs10, hc10, ← ha, ← hb] at h1
  rw [e2, Real.cos_add_two_pi, Real.sin_add_two_pi, Real.cos_sub, Real.sin_sub, hs10, hc10, ← ha, ← hb] at h2
  rw [← ha, ← hb] at he
  set x := (q - p).re with hx
  set y := (q - p).im with hy
  set t := y * a - x * b with ht
  have ex : x = r * C * a - t * b := by rw [ht]; linear_combination a * he - x * hab
  have ey : y = r * C * b + t * a := by rw [ht]; linear_combination b * he - y * hab
  have ht1 : t ≤ r * S := by
    have : t * (2 * S * C) ≤ r * S * (2 * S * C) := by rw [ht]; nlinarith
    exact le_of_mul_le_mul_right this (by positivity)
  have ht2 : -(r * S) ≤ t := by
    have : -t * (2 * S * C) ≤ r * S * (2 * S * C) := by rw [ht]; nlinarith
    have := le_of_mul_le_mul_right this (by positivity)
    linarith
  refine ⟨k, hk, ?_⟩
  have c1 : corner p r k = p + ((r * C * a + r * S * b : ℝ) + (r * C * b - r * S * a : ℝ) * I) := by
    unfold corner
    rw [show (k : ℝ) * (Real.pi / 10) = φ - Real.pi / 20 by rw [hφ]; unfold ang; ring, Real.cos_sub, Real.sin_sub, ← ha, ← hb, ← hS, ← hC]
    push_cast; ring
  have c2 : corner p r (k + 1) = p + ((r * C * a - r * S * b : ℝ) + (r * C * b + r * S * a : ℝ) * I) := by
    unfold corner
    rw [show ((k + 1 : ℕ) : ℝ) * (Real.pi / 10) = φ + Real.pi / 20 by rw [hφ]; unfold ang; push_cast; ring, Real.cos_add,
      Real.sin_add, ← ha, ← hb, ← hS, ← hC]
    push_cast; ring
  rcases hr.eq_or_lt with h0 | hpos
  · have ht0 : t = 0 := by rw [← h0] at ht1 ht2; linarith
    have hqp : q = p := by
      apply Complex.ext
      · have : x = 0 := by rw [ex, ht0, ← h0]; ring
        rw [hx, Complex.sub_re] at this; linarith
      · have : y = 0 := by rw [ey, ht0, ← h0]; ring
        rw [hy, Complex.sub_im] at this; linarith
    have c0 : corner p r k = p := by unfold corner; rw [← h0]; simp
    have h' := left_mem_segment ℝ (corner p r k) (corner p r (k + 1))
    rw [hqp]
    have e : ∀ x, corner p r k = x → x ∈ segment ℝ (corner p r k) (corner p r (k + 1)) := fun x hx => hx ▸ h'
    exact e p c0
  · have hrS : 0 < r * S := by positivity
    obtain ⟨l₁, hl₁⟩ : ∃ l, l = (r * S - t) / (2 * (r * S)) := ⟨_, rfl⟩
    obtain ⟨l₂, hl₂⟩ : ∃ l, l = (r * S + t) / (2 * (r * S)) := ⟨_, rfl⟩
    have hs1 : l₁ + l₂ = 1 := by rw [hl₁, hl₂]; field_simp; ring
    have hs2 : (l₂ - l₁) * (r * S) = t := by rw [hl₁, hl₂]; field_simp; ring
    refine ⟨l₁, l₂, hl₁ ▸ div_nonneg (by linarith) (by positivity), hl₂ ▸ div_nonneg (by linarith) (by positivity), hs1, ?_⟩
    have hqe : q = p + ((r * C * a - t * b : ℝ) + (r * C * b + t * a : ℝ) * I) := by
      rw [← ex, ← ey, Complex.re_add_im]; ring
    have hs1' : (l₁ : ℂ) + l₂ = 1 := by exact_mod_cast hs1
    have hs2' : ((l₂ : ℂ) - l₁) * (r * S) = t := by exact_mod_cast hs2
    rw [c1, c2, hqe, Complex.real_smul, Complex.real_smul]
    push_cast
    linear_combination (p + r * C * a + r * C * b * I) * hs1' - ((b : ℂ) - a * I) * hs2'

/-- The polygon lies within the circle. -/
theorem poly_le {p q : ℂ} {r : ℝ} (h : q ∈ Poly p (r * Real.cos (Real.pi / 20))) : ‖q - p‖ ≤ r := by
  have hpi := Real.pi_pos
  set z := q - p with hz
  set θ := z.arg + 2 * Real.pi with hθ
  have h1 := Complex.neg_pi_lt_arg z
  have hθ0 : 0 ≤ θ := by rw [hθ]; linarith
  set k := ⌊θ / (Real.pi / 10)⌋₊ with hk
  have hk1 : (k : ℝ) * (Real.pi / 10) ≤ θ := by
    rw [← le_div_iff₀ (by positivity)]; exact Nat.floor_le (by positivity)
  have hk2 : θ < (k + 1) * (Real.pi / 10) := by
    rw [← div_lt_iff₀ (by positivity)]; exact Nat.lt_floor_add_one _
  have h2 := poly_all h k
  have e : along p q k = ‖z‖ * Real.cos (θ - ang k) := by
    unfold along
    rw [Real.cos_sub, hθ, Real.cos_add_two_pi, Real.sin_add_two_pi, ← hz]
    have e1 : z.re = ‖z‖ * Real.cos z.arg := (Complex.norm_mul_cos_arg z).symm
    have e2 : z.im = ‖z‖ * Real.sin z.arg := (Complex.norm_mul_sin_arg z).symm
    rw [e1, e2]
    have n1 : ‖z‖ * Real.cos z.arg = z.re := Complex.norm_mul_cos_arg z
    have n2 : ‖z‖ * Real.sin z.arg = z.im := Complex.norm_mul_sin_arg z
    rw [n1, n2]
    linear_combination (- Real.cos (ang k)) * n1 - (Real.sin (ang k)) * n2
  have hcos : Real.cos (Real.pi / 20) ≤ Real.cos (θ - ang k) := by
    rw [← Real.cos_abs (θ - ang k)]
    refine Real.cos_le_cos_of_nonneg_of_le_pi (abs_nonneg _) (by linarith) ?_
    rw [abs_le]
    unfold ang
    constructor <;> nlinarith
  rw [e] at h2
  have h3 := mul_le_mul_of_nonneg_left hcos (norm_nonneg z)
  have : ‖z‖ * Real.cos (Real.pi / 20) ≤ r * Real.cos (Real.pi / 20) := h3.trans h2
  exact le_of_mul_le_mul_right this cos20_pos

/-- What is not in the polygon is far away. -/
theorem poly_far {p q : ℂ} {c : ℝ} (h : q ∉ Poly p c) : c < ‖q - p‖ := by
  unfold Poly at h
  simp only [Set.mem_ofPred_eq, not_forall, not_le] at h
  obtain ⟨k, _, hk⟩ := h
  refine hk.trans_le ?_
  have h1 := real_inner_le_norm (q - p) (⟨Real.cos (ang k), Real.sin (ang k)⟩ : ℂ)
  have h2 : ‖(⟨Real.cos (ang k), Real.sin (ang k)⟩ : ℂ)‖ = 1 := by
    have := norm_sq (⟨Real.cos (ang k), Real.sin (ang k)⟩ : ℂ)
    simp only [Real.cos_sq_add_sin_sq] at this
    have h0 := norm_nonneg (⟨Real.cos (ang k), Real.sin (ang k)⟩ : ℂ)
    nlinarith
  rw [h2, mul_one, inner_re] at h1
  exact h1

theorem ring_connected (p : ℂ) (r : ℝ) : IsPreconnected (Ring p r) := by
  have : Ring p r = ⋃ k ∈ Set.Iio (20 : ℕ), segment ℝ (corner p r k) (corner p r (k + 1)) := by
    ext a; simp [Ring]
  rw [this]
  refine IsPreconnected.biUnion_of_chain Set.ordConnected_Iio (fun n _ => (convex_segment _ _).isPreconnected) ?_
  intro n _ _
  exact ⟨corner p r (n + 1), right_mem_segment ℝ _ _, left_mem_segment ℝ _ _⟩

/-- **C150.**  A place outside of a convex zone that the polygon does not touch is left where it is by this zone; then the zone
is at nearly the whole distance from it, or all of it is within this distance of the place, inside the polygon. -/
theorem C150_free {z : Zone} {Z : Set ℂ} (hz : z.Is Z) (hZ : Convex ℝ Z) {p : ℂ} (hp : p ∉ Z) (zones : ℤ → Option Zone)
    {i : ℤ} (hi : zones i = some z) (is : List ℤ) {off : ℝ} (hoff : 0 ≤ off)
    (ht : ¬ ∃ a ∈ Ring p off, ∃ b ∈ frontier Z, ‖a - b‖ < 0.1) :
    moveOff zones p off (i :: is) = moveOff zones p off is ∧
    ((∀ q ∈ Z, off * Real.cos (Real.pi / 20) < ‖q - p‖) ∨ (∀ q ∈ Z, ‖q - p‖ ≤ off)) := by
  constructor
  · conv_lhs => unfold moveOff
    simp only [hi]
    rw [if_neg (fun h => hp ((hz.inside p).1 h)), if_neg (fun h => ht ((hz.touches p off).1 h))]
  · -- the ring does not meet the zone
    have hdis : ∀ a ∈ Ring p off, a ∉ Z := by
      intro a ha haZ
      by_cases hsub : Ring p off ⊆ Z
      · -- then the middle is in the zone, too
        have h0 : corner p off 0 ∈ Z := hsub ⟨0, by norm_num, left_mem_segment ℝ _ _⟩
        have h10 : corner p off 10 ∈ Z := hsub ⟨10, by norm_num, left_mem_segment ℝ _ _⟩
        have := hZ h0 h10 (a := 1 / 2) (b := 1 / 2) (by norm_num) (by norm_num) (by norm_num)
        apply hp
        convert this using 1
        unfold corner
        rw [show ((10 : ℕ) : ℝ) * (Real.pi / 10) = Real.pi by push_cast; ring, show ((0 : ℕ) : ℝ) * (Real.pi / 10) = 0 by push_cast; ring,
          Real.cos_pi, Real.sin_pi, Real.cos_zero, Real.sin_zero, Complex.real_smul, Complex.real_smul]
        push_cast; ring
      · obtain ⟨x, hx, hxZ⟩ := Set.not_subset.1 hsub
        obtain ⟨f, hf1, hf2⟩ := meets_frontier (ring_connected p off) ⟨a, ha, haZ⟩ ⟨x, hx, hxZ⟩
        exact ht ⟨f, hf1, f, hf2, by rw [sub_self, norm_zero]; norm_num⟩
    by_cases hin : ∃ q ∈ Z, q ∈ Poly p (off * Real.cos (Real.pi / 20))
    · right
      intro q hq
      apply poly_le
      by_contra hqP
      obtain ⟨q', hq', hqP'⟩ := hin
      obtain ⟨f, hf1, hf2⟩ := meets_frontier hZ.isPreconnected ⟨q', hq', hqP'⟩ ⟨q, hq, hqP⟩
      exact hdis f (frontier_ring hoff hf2) hf1
    · left
      push Not at hin
      exact fun q hq => poly_far (hin q hq)

end Verif.Dynamic
