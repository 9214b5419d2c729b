import Mathlib.Analysis.SpecialFunctions.Trigonometric.Bounds
import Verif.Search.Rect
import Verif.Pattern.Model

/-!
# Sector searches (C141)
-/

namespace Verif.Pattern

open Verif.Search

/-- The point `d` ahead of `c` on a course. -/
noncomputable def ahead (h : ℝ) (c : Pos) (d : ℝ) : Pos := ⟨c.n + d * Real.cos h, c.e + d * Real.sin h⟩

/-! ### The loop -/

theorem sectorFrom_spec {c : Pos} {E lead trail step stop : ℝ} : ∀ {k : ℕ} {θ : ℝ} {up : Bool} {ls : List Line},
    sectorFrom c E lead trail step stop k θ up = some ls →
    (∀ i (hi : i < ls.length), ls[i] = sectorLeg c E lead trail (θ + i * step) (upAt up i) ∧ θ + i * step < stop) ∧
    ¬ θ + ls.length * step < stop
  | 0, _, _, _, h => by simp [sectorFrom] at h
  | k + 1, θ, up, ls, h => by
      simp only [sectorFrom] at h
      by_cases hθ : θ < stop
      · rw [if_pos hθ, Option.map_eq_some_iff] at h
        obtain ⟨ls', h', rfl⟩ := h
        obtain ⟨h1, h2⟩ := sectorFrom_spec h'
        refine ⟨?_, ?_⟩
        · intro i hi
          cases i with
          | zero => simp [upAt, hθ]
          | succ j =>
              have := h1 j (by simpa using hi)
              simp only [List.getElem_cons_succ]
              have e : θ + ((j + 1 : ℕ) : ℝ) * step = θ + step + j * step := by push_cast; ring
              rw [e, ← upAt_succ]
              exact this
        · have e : θ + ((sectorLeg c E lead trail θ up :: ls').length : ℝ) * step =
              θ + step + ls'.length * step := by simp only [List.length_cons]; push_cast; ring
          rw [e]; exact h2
      · rw [if_neg hθ] at h
        obtain rfl := (Option.some.inj h).symm
        refine ⟨by simp, by simpa using hθ⟩

theorem sectorFrom_ends {c : Pos} {E lead trail step stop : ℝ} (hs : 0 < step) : ∀ {n : ℕ} {θ : ℝ} {up : Bool},
    stop ≤ θ + n * step → ∃ ls, sectorFrom c E lead trail step stop (n + 1) θ up = some ls
  | 0, θ, up, h => ⟨[], by rw [sectorFrom, if_neg (by push_cast at h; linarith)]⟩
  | n + 1, θ, up, h => by
      rw [sectorFrom]
      by_cases hθ : θ < stop
      · obtain ⟨ls, hl⟩ := sectorFrom_ends (c := c) (E := E) (lead := lead) (trail := trail) (stop := stop) hs
          (n := n) (θ := θ + step) (up := !up) (by push_cast at h; linarith)
        exact ⟨_, by rw [if_pos hθ, hl]; rfl⟩
      · exact ⟨[], by rw [if_neg hθ]⟩

theorem sectorFrom_never {c : Pos} {E lead trail step stop : ℝ} (hs : step ≤ 0) : ∀ {k : ℕ} {θ : ℝ} {up : Bool},
    θ < stop → sectorFrom c E lead trail step stop k θ up = none
  | 0, _, _, _ => rfl
  | k + 1, θ, up, h => by
      rw [sectorFrom, if_pos h, sectorFrom_never hs (by linarith)]; rfl

/-- **C141.**  The computation ends for every extent that is not negative; for a negative one it does not. -/
theorem C141_ends {c : Pos} {E s lead trail : ℝ} (hs : 0 < s) :
    (0 ≤ E → ∃ rounds legs, sector rounds c E s lead trail = some legs) ∧
    (E < 0 → ∀ rounds, sector rounds c E s lead trail = none) := by
  constructor
  · intro hE
    rcases hE.eq_or_lt with rfl | hE
    · exact ⟨0, [], by rw [sector, if_pos rfl]⟩
    · have hd : 0 < s / E := by positivity
      obtain ⟨ls, hl⟩ := sectorFrom_ends (c := c) (E := E) (lead := lead) (trail := trail)
        (stop := Real.pi - s / E / 2) hd (n := ⌈Real.pi / (s / E)⌉₊) (θ := 0) (up := true) (by
          have h1 := Nat.le_ceil (Real.pi / (s / E))
          have h2 := mul_le_mul_of_nonneg_right h1 hd.le
          rw [div_mul_cancel₀ _ hd.ne'] at h2
          linarith)
      exact ⟨_, ls, by rw [sector, if_neg hE.ne']; exact hl⟩
  · intro hE rounds
    rw [sector, if_neg hE.ne]
    have hd : s / E < 0 := div_neg_of_pos_of_neg hs hE
    exact sectorFrom_never hd.le (by linarith [Real.pi_pos])

/-! ### The legs -/

theorem wrapRad_cos_sin (x : ℝ) : Real.cos (wrapRad x) = Real.cos x ∧ Real.sin (wrapRad x) = Real.sin x := by
  have e : wrapRad x = x - (⌊x / (2 * Real.pi)⌋ : ℤ) * (2 * Real.pi) := by unfold wrapRad; ring
  rw [e]
  exact ⟨Real.cos_sub_int_mul_two_pi _ _, Real.sin_sub_int_mul_two_pi _ _⟩

theorem wrapDeg_range (x : ℝ) : 0 ≤ wrapDeg x ∧ wrapDeg x < 360 := by
  unfold wrapDeg
  have h1 := Int.floor_le (x / 360)
  have h2 := Int.lt_floor_add_one (x / 360)
  rw [le_div_iff₀ (by norm_num)] at h1
  rw [div_lt_iff₀ (by norm_num)] at h2
  constructor <;> linarith

theorem course_wrap (x : ℝ) : Real.cos (course (wrapDeg (x * (180 / Real.pi)))) = Real.cos x ∧
    Real.sin (course (wrapDeg (x * (180 / Real.pi)))) = Real.sin x := by
  have hpi := Real.pi_ne_zero
  have e : course (wrapDeg (x * (180 / Real.pi))) = x - (⌊x * (180 / Real.pi) / 360⌋ : ℤ) * (2 * Real.pi) := by
    simp only [course, wrapDeg]; field_simp; ring
  rw [e]
  exact ⟨Real.cos_sub_int_mul_two_pi _ _, Real.sin_sub_int_mul_two_pi _ _⟩

theorem angleAt_spec {p v : Pos} {R α : ℝ} (hR : 0 < R) (he : p.e - v.e = R * Real.cos α)
    (hn : p.n - v.n = R * Real.sin α) : Real.cos (angleAt p v) = Real.cos α ∧ Real.sin (angleAt p v) = Real.sin α := by
  have hnorm : ‖(⟨p.e - v.e, p.n - v.n⟩ : ℂ)‖ = R := by
    rw [Complex.norm_def, Complex.normSq_mk, he, hn]
    have : R * Real.cos α * (R * Real.cos α) + R * Real.sin α * (R * Real.sin α) = R ^ 2 := by
      have := Real.sin_sq_add_cos_sq α
      linear_combination R ^ 2 * this
    rw [this, Real.sqrt_sq hR.le]
  have h0 : (⟨p.e - v.e, p.n - v.n⟩ : ℂ) ≠ 0 := by
    intro h; rw [h, norm_zero] at hnorm; exact hR.ne hnorm
  obtain ⟨w1, w2⟩ := wrapRad_cos_sin (Complex.arg ⟨p.e - v.e, p.n - v.n⟩)
  simp only [angleAt]
  rw [w1, w2, Complex.cos_arg h0, Complex.sin_arg, hnorm]
  simp only
  rw [he, hn]
  constructor <;> field_simp

/-- What a leg is: the course is the true one, and it goes through the centre. -/
theorem sectorLeg_spec {c : Pos} {E lead trail θ : ℝ} {up : Bool} (hR : 0 < 2 * E + lead - trail) :
    let l := sectorLeg c E lead trail θ up
    0 ≤ l.heading ∧ l.heading < 360 ∧
    Real.cos (course l.heading) = (if up then 1 else -1) * Real.sin θ ∧
    Real.sin (course l.heading) = (if up then 1 else -1) * Real.cos θ ∧
    l.start = ahead (course l.heading) c (-(E + lead)) ∧ l.stop = ahead (course l.heading) c (E - trail) := by
  have c1 : ∀ x : ℝ, Real.cos (Real.pi + Real.pi / 2 - x) = -Real.sin x := by
    intro x
    rw [show Real.pi + Real.pi / 2 - x = (Real.pi / 2 - x) + Real.pi by ring, Real.cos_add_pi, Real.cos_pi_div_two_sub]
  have c2 : ∀ x : ℝ, Real.sin (Real.pi + Real.pi / 2 - x) = -Real.cos x := by
    intro x
    rw [show Real.pi + Real.pi / 2 - x = (Real.pi / 2 - x) + Real.pi by ring, Real.sin_add_pi, Real.sin_pi_div_two_sub]
  cases up with
  | true =>
      simp only [sectorLeg, if_true, one_mul]
      set p₁ : Pos := ⟨c.n - (E + lead) * Real.sin θ, c.e - (E + lead) * Real.cos θ⟩ with hp₁
      set p₂ : Pos := ⟨c.n + (E - trail) * Real.sin θ, c.e + (E - trail) * Real.cos θ⟩ with hp₂
      obtain ⟨a1, a2⟩ := angleAt_spec (p := p₁) (v := p₂) (α := θ + Real.pi) hR
        (by rw [Real.cos_add_pi, hp₁, hp₂]; ring) (by rw [Real.sin_add_pi, hp₁, hp₂]; ring)
      obtain ⟨w1, w2⟩ := course_wrap (Real.pi + Real.pi / 2 - angleAt p₁ p₂)
      rw [c1, a2, Real.sin_add_pi, neg_neg] at w1
      rw [c2, a1, Real.cos_add_pi, neg_neg] at w2
      refine ⟨(wrapDeg_range _).1, (wrapDeg_range _).2, w1, w2, ?_, ?_⟩
      · simp only [ahead]; rw [w1, w2, hp₁]; ext <;> simp only <;> ring
      · simp only [ahead]; rw [w1, w2]
  | false =>
      simp only [sectorLeg, Bool.false_eq_true, if_false]
      set p₁ : Pos := ⟨c.n - (E + -trail) * Real.sin θ, c.e - (E + -trail) * Real.cos θ⟩ with hp₁
      set p₂ : Pos := ⟨c.n + (E - -lead) * Real.sin θ, c.e + (E - -lead) * Real.cos θ⟩ with hp₂
      obtain ⟨a1, a2⟩ := angleAt_spec (p := p₂) (v := p₁) (α := θ) hR
        (by rw [hp₁, hp₂]; ring) (by rw [hp₁, hp₂]; ring)
      obtain ⟨w1, w2⟩ := course_wrap (Real.pi + Real.pi / 2 - angleAt p₂ p₁)
      rw [c1, a2] at w1
      rw [c2, a1] at w2
      refine ⟨(wrapDeg_range _).1, (wrapDeg_range _).2, by rw [w1]; ring, by rw [w2]; ring, ?_, ?_⟩
      · simp only [ahead]; rw [w1, w2, hp₂]; ext <;> simp only <;> ring
      · simp only [ahead]; rw [w1, w2, hp₁]; ext <;> simp only <;> ring

theorem sign_upAt (i : ℕ) : (if upAt true i then (1 : ℝ) else -1) = (-1) ^ i := by
  rcases Nat.mod_two_eq_zero_or_one i with h | h
  · have hu : upAt true i = true := by simp [upAt, h]
    simp [hu, (Nat.even_iff.2 h).neg_one_pow]
  · have hu : upAt true i = false := by simp [upAt, h]
    simp [hu, (Nat.odd_iff.2 h).neg_one_pow]

theorem sector_inv {rounds : ℕ} {c : Pos} {E s lead trail : ℝ} {legs : List Line} (hE : E ≠ 0)
    (h : sector rounds c E s lead trail = some legs) :
    (∀ i (hi : i < legs.length), legs[i] = sectorLeg c E lead trail (i * (s / E)) (upAt true i) ∧
      i * (s / E) < Real.pi - s / E / 2) ∧ Real.pi - s / E / 2 ≤ legs.length * (s / E) := by
  rw [sector, if_neg hE] at h
  obtain ⟨h1, h2⟩ := sectorFrom_spec h
  refine ⟨fun i hi => ?_, ?_⟩
  · have := h1 i hi; rwa [zero_add] at this
  · rw [zero_add] at h2; exact not_lt.1 h2

/-- **C141.**  The legs go straight through the centre, each turned by the lane spacing at the rim from the one before and
flown the other way; the headings are the true courses.  The leg starts before the disc and ends where the sensor has
passed over it.  There are as many as fill half a turn, up to half a step. -/
theorem C141_legs {rounds : ℕ} {c : Pos} {E s lead trail : ℝ} {legs : List Line} (hE : 0 < E) (hs : 0 < s)
    (hR : 0 < 2 * E + lead - trail) (h : sector rounds c E s lead trail = some legs) :
    (∀ i (hi : i < legs.length),
      0 ≤ legs[i].heading ∧ legs[i].heading < 360 ∧
      (∃ m : ℤ, course legs[i].heading = Real.pi / 2 - i * (s / E) + i * Real.pi + m * (2 * Real.pi)) ∧
      legs[i].start = ahead (course legs[i].heading) c (-(E + lead)) ∧
      legs[i].stop = ahead (course legs[i].heading) c (E - trail)) ∧
    Real.pi - s / E / 2 ≤ legs.length * (s / E) ∧ (legs ≠ [] → legs.length * (s / E) < Real.pi + s / E / 2) := by
  obtain ⟨h1, h2⟩ := sector_inv hE.ne' h
  refine ⟨fun i hi => ?_, h2, fun hne => ?_⟩
  · obtain ⟨e, -⟩ := h1 i hi
    obtain ⟨r1, r2, r3, r4, r5, r6⟩ := sectorLeg_spec (c := c) (θ := i * (s / E)) (up := upAt true i) hR
    rw [← e] at r1 r2 r3 r4 r5 r6
    refine ⟨r1, r2, ?_, r5, r6⟩
    have hcos : Real.cos (course legs[i].heading) = Real.cos (Real.pi / 2 - i * (s / E) + i * Real.pi) := by
      rw [r3, Real.cos_add_nat_mul_pi, Real.cos_pi_div_two_sub, sign_upAt]
    have hsin : Real.sin (course legs[i].heading) = Real.sin (Real.pi / 2 - i * (s / E) + i * Real.pi) := by
      rw [r4, Real.sin_add_nat_mul_pi, Real.sin_pi_div_two_sub, sign_upAt]
    have := (Real.Angle.cos_sin_inj hcos hsin)
    obtain ⟨m, hm⟩ := Real.Angle.angle_eq_iff_two_pi_dvd_sub.1 this
    exact ⟨m, by linarith⟩
  · have hl : 0 < legs.length := List.length_pos_iff.2 hne
    have := (h1 (legs.length - 1) (by omega)).2
    rw [Nat.cast_sub hl] at this
    push_cast at this
    linarith

end Verif.Pattern
