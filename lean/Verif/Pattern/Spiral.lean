import Mathlib.Analysis.Real.Pi.Bounds
import Verif.Pattern.SectorSeen

/-!
# Spiral searches (C142)
-/

namespace Verif.Pattern

open Verif.Search

/-- The spiral: the radius at an angle. -/
noncomputable def arm (s θ : ℝ) : ℝ := 0.45 * s * (1 + θ / Real.pi)

theorem arm_pos {s θ : ℝ} (hs : 0 < s) (hθ : 0 ≤ θ) : 0.45 * s ≤ arm s θ := by
  unfold arm
  have : 0 ≤ θ / Real.pi := div_nonneg hθ Real.pi_pos.le
  have := mul_nonneg (show 0 ≤ 0.45 * s by linarith) this
  linarith

theorem arm_sub (s θ θ' : ℝ) : arm s θ - arm s θ' = 0.45 * s / Real.pi * (θ - θ') := by
  unfold arm; ring

/-- The angles of the points from a given one on, each 50 m along the circle from the one before. -/
noncomputable def angles (s θ : ℝ) : ℕ → ℝ
  | 0 => θ
  | i + 1 => angles s θ i + 50 / arm s (angles s θ i)

theorem angles_succ (s θ : ℝ) : ∀ i, angles s (θ + 50 / arm s θ) i = angles s θ (i + 1)
  | 0 => rfl
  | i + 1 => by rw [angles, angles_succ s θ i]; rfl

theorem angles_nonneg {s θ : ℝ} (hs : 0 < s) (hθ : 0 ≤ θ) : ∀ i, 0 ≤ angles s θ i
  | 0 => hθ
  | i + 1 => by
      have h := angles_nonneg hs hθ i
      have := arm_pos hs h
      have : 0 ≤ 50 / arm s (angles s θ i) := div_nonneg (by norm_num) (by linarith)
      rw [angles]; linarith

/-- The radius before each round. -/
noncomputable def before (s θ radius : ℝ) : ℕ → ℝ
  | 0 => radius
  | i + 1 => arm s (angles s θ i)

theorem before_succ (s θ radius : ℝ) : ∀ i, before s (θ + 50 / arm s θ) (arm s θ) i = before s θ radius (i + 1)
  | 0 => rfl
  | i + 1 => by simp only [before]; rw [angles_succ]

theorem spiralFrom_spec {c : Pos} {s bound centre : ℝ} (hs : 0 < s) : ∀ {k : ℕ} {θ radius : ℝ} {ls : List Turn}, 0 ≤ θ →
    spiralFrom c s bound centre k θ radius false = some ls →
    (∀ i (hi : i < ls.length), ls[i] = { road := polar c (arm s (angles s θ i)) (angles s θ i)
                                         vehicle := polar c (vehicleRadius centre (arm s (angles s θ i))) (angles s θ i) } ∧
      before s θ radius i ≤ bound) ∧ bound < before s θ radius ls.length
  | 0, _, _, _, _, h => by simp [spiralFrom] at h
  | k + 1, θ, radius, ls, hθ, h => by
      have harm := arm_pos hs hθ
      have hr : spiralRadius s θ false = arm s θ := rfl
      simp only [spiralFrom, hr, if_pos (show 0 < arm s θ by linarith), waypointSpacing] at h
      by_cases hb : radius ≤ bound
      · rw [if_pos hb, Option.map_eq_some_iff] at h
        obtain ⟨ls', h', rfl⟩ := h
        have hθ' : 0 ≤ θ + 50 / arm s θ := by
          have : 0 ≤ 50 / arm s θ := div_nonneg (by norm_num) (by linarith)
          linarith
        obtain ⟨h1, h2⟩ := spiralFrom_spec hs hθ' h'
        refine ⟨?_, ?_⟩
        · intro i hi
          cases i with
          | zero => exact ⟨rfl, hb⟩
          | succ j =>
              have := h1 j (by simpa using hi)
              rw [angles_succ, before_succ s θ radius] at this
              exact this
        · rw [before_succ s θ radius] at h2; exact h2
      · rw [if_neg hb] at h
        obtain rfl := (Option.some.inj h).symm
        exact ⟨by simp, not_le.1 hb⟩

theorem spiralFrom_stop {c : Pos} {s bound centre θ radius : ℝ} {first : Bool} (k : ℕ) (h : ¬ radius ≤ bound) :
    spiralFrom c s bound centre (k + 1) θ radius first = some [] := by
  simp only [spiralFrom, if_neg h]

theorem spiralFrom_go {c : Pos} {s bound centre θ radius : ℝ} {first : Bool} (k : ℕ) (h : radius ≤ bound)
    (hr : 0 < spiralRadius s θ first) :
    spiralFrom c s bound centre (k + 1) θ radius first =
      (spiralFrom c s bound centre k (θ + 50 / spiralRadius s θ first) (spiralRadius s θ first) false).map
        ({ road := polar c (spiralRadius s θ first) θ
           vehicle := polar c (vehicleRadius centre (spiralRadius s θ first)) θ } :: ·) := by
  simp only [spiralFrom, if_pos h, if_pos hr, waypointSpacing]

theorem spiralFrom_ends {c : Pos} {s bound centre : ℝ} (hs : 0 < s) : ∀ {n : ℕ} {θ radius : ℝ}, 0 ≤ θ →
    bound < arm s (θ + n * (50 / bound)) → ∃ ls, spiralFrom c s bound centre (n + 2) θ radius false = some ls
  | 0, θ, radius, hθ, h => by
      have hr : spiralRadius s θ false = arm s θ := rfl
      push_cast at h
      rw [zero_mul, add_zero] at h
      by_cases hb : radius ≤ bound
      · exact ⟨_, by rw [spiralFrom_go 1 hb (by rw [hr]; have := arm_pos hs hθ; linarith), hr,
          spiralFrom_stop 0 (not_le.2 h), Option.map_some]⟩
      · exact ⟨[], spiralFrom_stop _ hb⟩
  | n + 1, θ, radius, hθ, h => by
      have harm := arm_pos hs hθ
      have hr : spiralRadius s θ false = arm s θ := rfl
      by_cases hb : radius ≤ bound
      · by_cases hc : arm s θ ≤ bound
        · have h0 : 0 < arm s θ := by linarith
          have hθ' : 0 ≤ θ + 50 / arm s θ := by positivity
          have hd : 50 / bound ≤ 50 / arm s θ := div_le_div_of_nonneg_left (by norm_num) h0 hc
          obtain ⟨ls, hl⟩ := spiralFrom_ends (c := c) (centre := centre) hs (n := n) (θ := θ + 50 / arm s θ)
            (radius := arm s θ) hθ' (by
              refine lt_of_lt_of_le h ?_
              have := arm_sub s (θ + 50 / arm s θ + n * (50 / bound)) (θ + ((n + 1 : ℕ) : ℝ) * (50 / bound))
              have e : θ + 50 / arm s θ + n * (50 / bound) - (θ + ((n + 1 : ℕ) : ℝ) * (50 / bound)) =
                50 / arm s θ - 50 / bound := by push_cast; ring
              rw [e] at this
              have : 0 ≤ 0.45 * s / Real.pi * (50 / arm s θ - 50 / bound) :=
                mul_nonneg (div_nonneg (by linarith) Real.pi_pos.le) (by linarith)
              linarith)
          exact ⟨_, by rw [spiralFrom_go (n + 2) hb (by rw [hr]; exact h0), hr, hl, Option.map_some]⟩
        · exact ⟨_, by rw [spiralFrom_go (n + 2) hb (by rw [hr]; linarith), hr, spiralFrom_stop (n + 1) hc,
            Option.map_some]⟩
      · exact ⟨[], spiralFrom_stop _ hb⟩

/-- **C142.**  The computation of the spiral ends. -/
theorem C142_ends {c : Pos} {E s centre : ℝ} (hs : 0 < s) : ∃ rounds turns, spiral rounds c E s centre = some turns := by
  set bound := E + 0.55 * s with hbd
  rcases lt_or_ge bound 0 with hb | hb
  · exact ⟨1, [], by rw [spiral, spiralFrom_stop 0 (by linarith)]⟩
  have hr : spiralRadius s 0 true = 50 := rfl
  have hpi := Real.pi_pos
  rcases hb.eq_or_lt with hb0 | hb0
  · exact ⟨2, _, by rw [spiral, spiralFrom_go 1 (by linarith) (by rw [hr]; norm_num), hr,
      spiralFrom_stop 0 (by linarith), Option.map_some]⟩
  obtain ⟨n, hn⟩ := exists_nat_gt (Real.pi * bound / (0.45 * s) / (50 / bound))
  obtain ⟨ls, hl⟩ := spiralFrom_ends (c := c) (s := s) (bound := bound) (centre := centre) hs (n := n) (θ := 0 + 50 / 50)
    (radius := 50) (by norm_num) (by
      rw [div_lt_iff₀ (by positivity)] at hn
      have h1 : bound = 0.45 * s / Real.pi * (Real.pi * bound / (0.45 * s)) := by
        have h0 : 0.45 * s ≠ 0 := by positivity
        field_simp
      have h2 : 0.45 * s / Real.pi * (Real.pi * bound / (0.45 * s)) < 0.45 * s / Real.pi * (n * (50 / bound)) :=
        mul_lt_mul_of_pos_left hn (by positivity)
      have h3 : arm s (0 + 50 / 50 + n * (50 / bound)) =
        0.45 * s / Real.pi * (n * (50 / bound)) + 0.45 * s * (1 + 1 / Real.pi) := by unfold arm; ring
      rw [h3]
      have : 0 < 0.45 * s * (1 + 1 / Real.pi) := by positivity
      linarith)
  exact ⟨n + 3, _, by rw [spiral, ← hbd, spiralFrom_go (n + 2) hb (by rw [hr]; norm_num), hr, hl, Option.map_some]⟩

theorem spiral_inv {rounds : ℕ} {c : Pos} {E s centre : ℝ} {turns : List Turn} (hs : 0 < s) (hb : 0 ≤ E + 0.55 * s)
    (h : spiral rounds c E s centre = some turns) :
    ∃ ls, turns = { road := polar c 50 0, vehicle := polar c (vehicleRadius centre 50) 0 } :: ls ∧
      (∀ i (hi : i < ls.length), ls[i] = { road := polar c (arm s (angles s 1 i)) (angles s 1 i)
                                           vehicle := polar c (vehicleRadius centre (arm s (angles s 1 i))) (angles s 1 i) } ∧
      before s 1 50 i ≤ E + 0.55 * s) ∧ E + 0.55 * s < before s 1 50 ls.length := by
  have hr : spiralRadius s 0 true = 50 := rfl
  cases rounds with
  | zero => simp [spiral, spiralFrom] at h
  | succ k =>
      rw [spiral, spiralFrom_go k hb (by rw [hr]; norm_num), hr, Option.map_eq_some_iff] at h
      obtain ⟨ls, hl, rfl⟩ := h
      rw [show (0 : ℝ) + 50 / 50 = 1 by norm_num] at hl
      exact ⟨ls, rfl, spiralFrom_spec hs (by norm_num) hl⟩

/-- **C142.**  The points to look at lie on a spiral whose turns are nine tenths of a lane spacing apart, 50 m of arc from
one to the next, the first 50 m from the centre; they go on until the spiral is more than 0.55 lane spacings outside of the
disc.  The waypoints are at the same bearings, at least the configured radius from the centre. -/
theorem C142_points {rounds : ℕ} {c : Pos} {E s centre : ℝ} {turns : List Turn} (hs : 0 < s) (hb : 0 ≤ E + 0.55 * s)
    (h : spiral rounds c E s centre = some turns) :
    ∃ θ r : ℕ → ℝ, θ 0 = 0 ∧ r 0 = 50 ∧ (∀ i, θ (i + 1) = θ i + 50 / r i) ∧
      (∀ i, r (i + 1) = 0.45 * s + 0.9 * s * (θ (i + 1) / (2 * Real.pi))) ∧
      (∀ i (hi : i < turns.length),
        turns[i].road = ⟨c.n + r i * Real.sin (θ i), c.e + r i * Real.cos (θ i)⟩ ∧
        turns[i].vehicle = ⟨c.n + max centre (r i) * Real.sin (θ i), c.e + max centre (r i) * Real.cos (θ i)⟩) ∧
      (∀ i, i + 1 < turns.length → r i ≤ E + 0.55 * s) ∧ 0 < turns.length ∧ E + 0.55 * s < r (turns.length - 1) := by
  obtain ⟨ls, rfl, h1, h2⟩ := spiral_inv hs hb h
  have hv : ∀ r : ℝ, vehicleRadius centre r = max centre r := by
    intro r
    unfold vehicleRadius
    rcases lt_or_ge r centre with h | h
    · rw [if_pos h, max_eq_left h.le]
    · rw [if_neg (not_lt.2 h), max_eq_right h]
  refine ⟨fun i => match i with | 0 => 0 | i + 1 => angles s 1 i, before s 1 50, rfl, rfl, ?_, ?_, ?_, ?_, by simp, ?_⟩
  · intro i
    cases i with
    | zero => simp [angles, before]
    | succ j => rfl
  · intro i
    simp only [before, arm]
    have := Real.pi_ne_zero
    field_simp; ring
  · intro i hi
    cases i with
    | zero => simp [polar, hv, before, add_comm]
    | succ j =>
        have := (h1 j (by simpa using hi)).1
        simp only [List.getElem_cons_succ, this, polar, hv, before]
        exact ⟨by rw [add_comm _ c.n, add_comm _ c.e], by rw [add_comm _ c.n, add_comm _ c.e]⟩
  · intro i hi
    exact (h1 i (by simpa using hi)).2
  · simpa using h2

/-! ### How near the spiral comes -/

/-- The distance of points given by radius and angle. -/
theorem polar_apart {a b α β : ℝ} (ha : 0 ≤ a) (hb : 0 ≤ b) (c : Pos) :
    apart (polar c a α) (polar c b β) ≤ |a - b| + b * |α - β| := by
  unfold apart
  apply Real.sqrt_le_iff.2
  refine ⟨add_nonneg (abs_nonneg _) (mul_nonneg hb (abs_nonneg _)), ?_⟩
  set y := 2 * |Real.sin ((α - β) / 2)| with hy
  have y0 : 0 ≤ y := by positivity
  have y2 : y ≤ 2 := by
    have := Real.abs_sin_le_one ((α - β) / 2)
    linarith
  have yx : y ≤ |α - β| := by
    have := Real.abs_sin_le_abs (x := (α - β) / 2)
    rw [abs_div, abs_of_pos (show (0 : ℝ) < 2 by norm_num)] at this
    linarith
  have hcos : Real.cos (α - β) = 1 - y ^ 2 / 2 := by
    rw [hy, mul_pow, sq_abs]
    have h1 := Real.cos_sq' ((α - β) / 2)
    have h2 := Real.cos_two_mul ((α - β) / 2)
    rw [show 2 * ((α - β) / 2) = α - β by ring] at h2
    rw [h2, h1]; ring
  have e : (polar c b β).n - (polar c a α).n = b * Real.sin β - a * Real.sin α := by simp only [polar]; ring
  have e' : (polar c b β).e - (polar c a α).e = b * Real.cos β - a * Real.cos α := by simp only [polar]; ring
  rw [e, e']
  have h1 := Real.sin_sq_add_cos_sq α
  have h2 := Real.sin_sq_add_cos_sq β
  have hd : (b * Real.sin β - a * Real.sin α) ^ 2 + (b * Real.cos β - a * Real.cos α) ^ 2 = (a - b) ^ 2 + a * b * y ^ 2 := by
    rw [Real.cos_sub] at hcos
    linear_combination b ^ 2 * h2 + a ^ 2 * h1 - 2 * a * b * hcos
  rw [hd]
  have hab : a * b * y ^ 2 ≤ 2 * |a - b| * (b * y) + (b * y) ^ 2 := by
    have hby : 0 ≤ b * y := mul_nonneg hb y0
    have h3 : (a - b) * (b * y) * y ≤ |a - b| * (b * y) * 2 :=
      mul_le_mul (mul_le_mul_of_nonneg_right (le_abs_self _) hby) y2 y0 (mul_nonneg (abs_nonneg _) hby)
    nlinarith
  have hbx : b * y ≤ b * |α - β| := mul_le_mul_of_nonneg_left yx hb
  have h4 : (|a - b| + b * y) ^ 2 ≤ (|a - b| + b * |α - β|) ^ 2 :=
    pow_le_pow_left₀ (add_nonneg (abs_nonneg _) (mul_nonneg hb y0)) (by linarith) 2
  have h5 := sq_abs (a - b)
  nlinarith

/-- **C142**, near enough: every point of the disc that is not within 1.1 lane spacings of the centre is within 0.45 lane
spacings and 66 m of a point to look at.  Missing from the full claim: the centre. -/
theorem C142_near_partial {rounds : ℕ} {c z : Pos} {E s centre : ℝ} {turns : List Turn} (hs : 0 < s) (hE : 50 ≤ E)
    (h : spiral rounds c E s centre = some turns) (hz : (z.n - c.n) ^ 2 + (z.e - c.e) ^ 2 ≤ E ^ 2)
    (hz' : (1.1 * s) ^ 2 ≤ (z.n - c.n) ^ 2 + (z.e - c.e) ^ 2) :
    ∃ t ∈ turns, √((t.road.n - z.n) ^ 2 + (t.road.e - z.e) ^ 2) ≤ 0.45 * s + 66 := by
  have hpi := Real.pi_pos
  have hp3 := Real.pi_gt_three
  obtain ⟨ls, rfl, h1, h2⟩ := spiral_inv hs (by linarith) h
  obtain ⟨ρ, φ', r0, re, rn, rr⟩ := exists_polar c z
  have hρE : ρ ≤ E := by apply le_of_sq_le_sq _ (by linarith); rw [rr]; exact hz
  have hρs : 1.1 * s ≤ ρ := by apply le_of_sq_le_sq _ r0; rw [rr]; exact hz'
  -- the angle in one turn
  obtain ⟨φ, f0, f1, fc, fs⟩ : ∃ φ, 0 ≤ φ ∧ φ < 2 * Real.pi ∧ Real.cos φ = Real.cos φ' ∧ Real.sin φ = Real.sin φ' := by
    refine ⟨wrapRad φ', ?_, ?_, (wrapRad_cos_sin φ').1, (wrapRad_cos_sin φ').2⟩
    · have := Int.floor_le (φ' / (2 * Real.pi))
      rw [le_div_iff₀ (by positivity)] at this
      unfold wrapRad; linarith
    · have := Int.lt_floor_add_one (φ' / (2 * Real.pi))
      rw [div_lt_iff₀ (by positivity)] at this
      unfold wrapRad; linarith
  -- the turn
  have hq : 0.45 * s * (φ / Real.pi) < 0.9 * s := by
    have : φ / Real.pi < 2 := (div_lt_iff₀ hpi).2 f1
    have := mul_lt_mul_of_pos_left this (show 0 < 0.45 * s by linarith)
    linarith
  have hs9 : 0 < 0.9 * s := by linarith
  obtain ⟨k, hk⟩ : ∃ k : ℕ, k = ⌊(ρ - 0.45 * s * (φ / Real.pi)) / (0.9 * s)⌋₊ := ⟨_, rfl⟩
  have k1 := Nat.floor_le (div_nonneg (show 0 ≤ ρ - 0.45 * s * (φ / Real.pi) by linarith) hs9.le)
  have k2 := Nat.lt_floor_add_one ((ρ - 0.45 * s * (φ / Real.pi)) / (0.9 * s))
  rw [← hk, le_div_iff₀ hs9] at k1
  rw [← hk, div_lt_iff₀ hs9] at k2
  set Φ := φ + k * (2 * Real.pi) with hΦ
  have harmΦ : arm s Φ = 0.45 * s + 0.45 * s * (φ / Real.pi) + 0.9 * s * k := by
    unfold arm; rw [hΦ]; field_simp; ring
  have near : |ρ - arm s Φ| ≤ 0.45 * s := by rw [harmΦ]; apply abs_le.2; constructor <;> linarith
  have hk0 : (0 : ℝ) ≤ k := Nat.cast_nonneg k
  have hΦ1 : 1 ≤ Φ := by
    rcases Nat.eq_zero_or_pos k with k0 | kp
    · by_contra hc
      have hφ1 : φ < 1 := by rw [hΦ, k0] at hc; push_cast at hc; linarith
      have : φ / Real.pi < 1 / 3 := by
        rw [div_lt_iff₀ hpi]; linarith
      have := mul_lt_mul_of_pos_left this (show 0 < 0.45 * s by linarith)
      rw [k0] at k2; push_cast at k2
      linarith
    · have : (1 : ℝ) ≤ k := by exact_mod_cast kp
      have := mul_le_mul_of_nonneg_right this (show 0 ≤ 2 * Real.pi by positivity)
      rw [hΦ]; linarith
  have hlt : arm s Φ < E + 0.55 * s := by
    have := (abs_le.1 near).1
    linarith
  -- the points on either side of it
  have hfind : ∀ n, arm s Φ < before s 1 50 n → 50 ≤ E + 0.55 * s → (E + 0.55 * s < before s 1 50 n) → ∃ i < n, angles s 1 i ≤ Φ ∧
      Φ < angles s 1 (i + 1) := by
    intro n hn h50 hbn
    cases n with
    | zero => simp only [before] at hbn; linarith
    | succ m =>
        have hm : Φ < angles s 1 m := by
          simp only [before] at hn
          by_contra hc
          have := arm_sub s Φ (angles s 1 m)
          have h0 : 0 ≤ 0.45 * s / Real.pi * (Φ - angles s 1 m) :=
            mul_nonneg (div_nonneg (by linarith) hpi.le) (by linarith)
          linarith
        clear hn hbn
        induction m with
        | zero => simp only [angles] at hm; linarith
        | succ m ih =>
            rcases lt_or_ge Φ (angles s 1 m) with hc | hc
            · obtain ⟨i, hi, hh⟩ := ih hc
              exact ⟨i, by omega, hh⟩
            · exact ⟨m, by omega, hc, hm⟩
  obtain ⟨i, hi, a1, a2⟩ := hfind ls.length (by linarith) (by linarith) h2
  refine ⟨_, List.mem_cons_of_mem _ (List.getElem_mem hi), ?_⟩
  rw [(h1 i hi).1]
  have hz2 : z = polar c ρ Φ := by
    have hc : Real.cos Φ = Real.cos φ := by rw [hΦ, Real.cos_add_nat_mul_two_pi]
    have hsn : Real.sin Φ = Real.sin φ := by rw [hΦ, Real.sin_add_nat_mul_two_pi]
    ext
    · simp only [polar]; rw [hsn, fs]; linarith
    · simp only [polar]; rw [hc, fc]; linarith
  have hA := angles_nonneg hs (θ := 1) (by norm_num) i
  have harm := arm_pos hs hA
  set α := angles s 1 i with hα
  have hap := polar_apart (a := ρ) (b := arm s α) (α := Φ) (β := α) r0 (by linarith) c
  rw [← hz2] at hap
  have hstep : Φ - α ≤ 50 / arm s α := by
    rw [angles, ← hα] at a2; linarith
  have hpos : 0 < arm s α := by linarith
  have t1 : arm s α * |Φ - α| ≤ 50 := by
    rw [abs_of_nonneg (by linarith)]
    have := mul_le_mul_of_nonneg_left hstep hpos.le
    rwa [mul_div_cancel₀ _ hpos.ne'] at this
  have t2 : |ρ - arm s α| ≤ 0.45 * s + 16 := by
    have e := arm_sub s Φ α
    have b1 : 0.45 * s / Real.pi * (Φ - α) ≤ 0.45 * s / Real.pi * (50 / arm s α) :=
      mul_le_mul_of_nonneg_left hstep (by positivity)
    have b2 : 0.45 * s / Real.pi * (50 / arm s α) ≤ 50 / 3 * 1 := by
      have e2 : 0.45 * s / Real.pi * (50 / arm s α) = 50 / Real.pi * (0.45 * s / arm s α) := by field_simp
      rw [e2]
      exact mul_le_mul (div_le_div_of_nonneg_left (by norm_num) (by norm_num) hp3.le)
        ((div_le_one hpos).2 harm) (by positivity) (by norm_num)
    have b2' : 0.45 * s / Real.pi * (50 / arm s α) ≤ 16 := by
      have e2 : 0.45 * s / Real.pi * (50 / arm s α) = 50 / Real.pi * (0.45 * s / arm s α) := by field_simp
      rw [e2]
      have hpd := Real.pi_gt_d2
      have : 50 / Real.pi ≤ 16 := by rw [div_le_iff₀ hpi]; linarith
      calc 50 / Real.pi * (0.45 * s / arm s α) ≤ 16 * 1 :=
            mul_le_mul this ((div_le_one hpos).2 harm) (by positivity) (by norm_num)
        _ = 16 := by norm_num
    have b3 : 0 ≤ 0.45 * s / Real.pi * (Φ - α) := mul_nonneg (by positivity) (by linarith)
    obtain ⟨n1, n2⟩ := abs_le.1 near
    apply abs_le.2; constructor <;> linarith
  have : √((( polar c (arm s α) α).n - z.n) ^ 2 + ((polar c (arm s α) α).e - z.e) ^ 2) =
    apart z (polar c (arm s α) α) := rfl
  simp only
  rw [this]
  linarith

end Verif.Pattern
