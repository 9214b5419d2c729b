import Verif.Dpss.SteerNear

/-!
# The point of a road that corresponds to a place beside a plan (C183)

`src/cpp/DPSS/SegmentMap.cpp`: `SnapToSegment` and the two functions `CalculateStarePoint`, that with the plan and the road as its
arguments and that of an object made for them.  Points are complex numbers, as in `Verif.Escort.Segment`; the third coordinate is left out.
-/

namespace Verif.Dpss

open Complex
open Verif.Escort (closestPoint distTo along C143_closest)
open Verif.Stare (len len_nil len_single len_cons len_nonneg len_take_le along_zero along_step along_lip' along_between)

/-- SegmentMap.cpp 77-86: the loop of `SnapToSegment`: `n` is the number of the segment from `p` on, the other arguments those of the
nearest so far. -/
noncomputable def snapFrom (pos : ℂ) : ℕ → ℕ → ℂ → ℝ → ℂ → List ℂ → ℕ × ℂ
  | _, best, at_, _, _, [] => (best, at_)
  | n, best, at_, dist, p, q :: l =>
      if distTo p q pos < dist then snapFrom pos (n + 1) n (closestPoint p q pos) (distTo p q pos) q l
      else snapFrom pos (n + 1) best at_ dist q l

/-- SegmentMap.cpp 63-88: `SnapToSegment`: the nearest segment and the point of it. -/
noncomputable def snap (pos : ℂ) : List ℂ → ℕ × ℂ
  | a :: b :: l => snapFrom pos 1 0 (closestPoint a b pos) (distTo a b pos) b l
  | l => (0, l.headD 0)

/-- SegmentMap.cpp 105-119 and 179-189: the share of the plan that is behind. -/
noncomputable def share (plan : List ℂ) (pos : ℂ) : ℝ :=
  let s := snap pos plan
  (lengthOf (plan.take (s.1 + 1)) + ‖s.2 - plan.getD s.1 0‖) / lengthOf plan

/-- SegmentMap.cpp 191-208: the point of a road of length `total` for the share `f`; `c` is the distance of the point `p`. -/
noncomputable def walkTo (f total : ℝ) : ℝ → ℂ → List ℂ → ℂ
  | _, p, [] => p
  | c, p, q :: l =>
      if f ≤ (c + ‖q - p‖) / total then
        if ‖q - p‖ < 1e-6 then p else p + (q - p) * ((1 / ‖q - p‖ : ℝ) : ℂ) * ((f * total - c : ℝ) : ℂ)
      else walkTo f total (c + ‖q - p‖) q l

/-- SegmentMap.cpp 143-208: `CalculateStarePoint` with a plan and a road. -/
noncomputable def stareAt (plan road : List ℂ) (pos : ℂ) : ℂ :=
  match road with
  | [] => 0
  | r :: l =>
      if l = [] ∨ plan.length < 2 then r
      else if lengthOf plan < 1e-6 ∨ lengthOf (r :: l) < 1e-6 then r
      else walkTo (share plan pos) (lengthOf (r :: l)) 0 r l

/-- SegmentMap.cpp 46-54 and 121-136: the point of a road of an object.  The last of the shares of the points is 1 (54), the others are
the distance by the length of the road (52-53). -/
noncomputable def walkShares (f total : ℝ) : ℝ → ℂ → List ℂ → ℂ
  | _, p, [] => p
  | c, p, q :: l =>
      if f ≤ (if l = [] then 1 else (c + ‖q - p‖) / total) then
        if ‖q - p‖ < 1e-6 then p else p + (q - p) * ((1 / ‖q - p‖ : ℝ) : ℂ) * ((f * total - c / total : ℝ) : ℂ)
      else walkShares f total (c + ‖q - p‖) q l

/-- SegmentMap.cpp 20-61 and 90-137: an object is made of a plan and a road, and asked for a point.  Of an empty plan or road the
points are looked at from the first to that with the number 2^64 - 1 (46, 56): undefined. -/
noncomputable def stareOf (plan road : List ℂ) (pos : ℂ) : Outcome ℂ :=
  match plan, road with
  | [], _ => .ub
  | _, [] => .ub
  | _ :: _, r :: l =>
      .ok <|
        if l = [] ∨ plan.length < 2 then r
        else if lengthOf plan < 1e-6 ∨ lengthOf (r :: l) < 1e-6 then r
        else walkShares (share plan pos) (lengthOf (r :: l)) 0 r l

/-! ### The nearest segment -/

/-- The distance to the segment that starts at the point `k`, as it is computed. -/
noncomputable def partDist (pos : ℂ) (W : List ℂ) (k : ℕ) : ℝ := distTo (W.getD k 0) (W.getD (k + 1) 0) pos

theorem snapFrom_spec (pos : ℂ) (W : List ℂ) : ∀ (l : List ℂ) (n best : ℕ) (p : ℂ), W.drop n = p :: l → best < n →
    (∀ j, j < n → partDist pos W best ≤ partDist pos W j) →
    let r := snapFrom pos n best (closestPoint (W.getD best 0) (W.getD (best + 1) 0) pos) (partDist pos W best) p l
    r.1 + 1 < W.length ∧ r.2 = closestPoint (W.getD r.1 0) (W.getD (r.1 + 1) 0) pos ∧
      ∀ j, j + 1 < W.length → partDist pos W r.1 ≤ partDist pos W j
  | [], n, best, p, hW, hb, hmin => by
      have hlen := congrArg List.length hW
      simp only [List.length_drop, List.length_singleton] at hlen
      rw [snapFrom]
      exact ⟨by omega, rfl, fun j hj => hmin j (by omega)⟩
  | x :: l, n, best, p, hW, hb, hmin => by
      have hlen := congrArg List.length hW
      simp only [List.length_drop, List.length_cons] at hlen
      have hp : W.getD n 0 = p := by
        have := congrArg (fun l => l.getD 0 0) hW
        simpa [List.getD_eq_getElem?_getD] using this
      have hx : W.getD (n + 1) 0 = x := by
        have := congrArg (fun l => l.getD 1 0) hW
        simpa [List.getD_eq_getElem?_getD, List.getElem?_drop] using this
      have hd : W.drop (n + 1) = x :: l := by
        have := congrArg List.tail hW
        rw [List.tail_drop] at this
        simpa using this
      have e : distTo p x pos = partDist pos W n := by rw [partDist, hp, hx]
      have e' : closestPoint p x pos = closestPoint (W.getD n 0) (W.getD (n + 1) 0) pos := by rw [hp, hx]
      rw [snapFrom, e, e']
      split
      · rename_i h
        refine snapFrom_spec pos W l (n + 1) n x hd (by omega) ?_
        intro j hj
        rcases Nat.lt_or_ge j n with hj' | hj'
        · exact h.le.trans (hmin j hj')
        · obtain rfl : j = n := by omega
          exact le_refl _
      · rename_i h
        refine snapFrom_spec pos W l (n + 1) best x hd (by omega) ?_
        intro j hj
        rcases Nat.lt_or_ge j n with hj' | hj'
        · exact hmin j hj'
        · obtain rfl : j = n := by omega
          exact not_lt.1 h

theorem snap_spec (pos : ℂ) {W : List ℂ} (hW : 2 ≤ W.length) :
    (snap pos W).1 + 1 < W.length ∧
    (snap pos W).2 = closestPoint (W.getD (snap pos W).1 0) (W.getD ((snap pos W).1 + 1) 0) pos ∧
    ∀ j, j + 1 < W.length → partDist pos W (snap pos W).1 ≤ partDist pos W j := by
  match W, hW with
  | a :: b :: l, _ =>
      refine snapFrom_spec pos (a :: b :: l) l 1 0 b rfl (by omega) ?_
      intro j hj
      obtain rfl : j = 0 := by omega
      exact le_refl _

/-- Where on the plan the vehicle is taken to be. -/
theorem share_spec (pos : ℂ) {W : List ℂ} (hW : 2 ≤ W.length) (hL : 0 < len W) :
    0 ≤ share W pos ∧ ∃ d, 0 ≤ d ∧ d ≤ len W ∧ (∀ e, 0 ≤ e → e ≤ len W → ‖along W d - pos‖ ≤ ‖along W e - pos‖ + 2e-5) ∧
      |share W pos * len W - d| ≤ 1e-5 := by
  obtain ⟨k1, k2, kmin⟩ := snap_spec pos hW
  unfold share
  simp only [lengthOf_eq]
  set k := (snap pos W).1 with hk
  rw [k2]
  set a := W.getD k 0 with ha
  set b := W.getD (k + 1) 0 with hb
  obtain ⟨⟨l, l0, l1, hl⟩, hcl⟩ := C143_closest a b pos
  have hc : cum W (k + 1) = cum W k + ‖b - a‖ := cum_succ W k1
  have hba := norm_nonneg (b - a)
  have hk0 : 0 ≤ len (W.take (k + 1)) := len_nonneg _
  refine ⟨by positivity, cum W k + l * ‖b - a‖, by have := cum_nonneg W k; positivity, ?_, ?_, ?_⟩
  · have := cum_le W (k + 1)
    rw [hc] at this
    nlinarith
  · intro e e0 e1
    have hp : along W (cum W k + l * ‖b - a‖) = a + (l : ℂ) * (b - a) := by
      have := along_between W k k1 l l0 l1
      have e1 : W[k + 1] = b := by
        rw [hb, List.getD_eq_getElem?_getD, List.getElem?_eq_getElem k1]; rfl
      have e2 : W[k]'(by omega) = a := by
        rw [ha, List.getD_eq_getElem?_getD, List.getElem?_eq_getElem (by omega)]; rfl
      rw [e1, e2] at this
      exact this
    rw [hp]
    obtain ⟨j, j1, j2, f, f0, f1, hj⟩ := along_seg W e hW e0 e1
    rw [hj]
    have s1 := kmin (j - 1) (by omega)
    unfold partDist at s1
    rw [show j - 1 + 1 = j by omega] at s1
    have s2 := (C143_closest (W.getD (j - 1) 0) (W.getD j 0) pos).2 f f0 f1
    have s5 := norm_sub_le_norm_sub_add_norm_sub (a + (l : ℂ) * (b - a)) (closestPoint a b pos) pos
    rw [norm_sub_rev (a + (l : ℂ) * (b - a)) (closestPoint a b pos)] at s5
    have s6 : distTo a b pos = ‖closestPoint a b pos - pos‖ := rfl
    rw [← ha, ← hb] at s1
    linarith
  · rw [div_mul_cancel₀ _ hL.ne']
    have e : ‖(l : ℂ) * (b - a)‖ = l * ‖b - a‖ := by rw [norm_mul, norm_real, Real.norm_eq_abs, abs_of_nonneg l0]
    have e' : closestPoint a b pos - (a + (l : ℂ) * (b - a)) = (closestPoint a b pos - a) - (l : ℂ) * (b - a) := by ring
    rw [e'] at hl
    have h1 := norm_sub_norm_le (closestPoint a b pos - a) ((l : ℂ) * (b - a))
    have h2 := norm_sub_norm_le ((l : ℂ) * (b - a)) (closestPoint a b pos - a)
    rw [norm_sub_rev ((l : ℂ) * (b - a))] at h2
    rw [e] at h1 h2
    unfold cum
    rw [abs_le]
    constructor <;> linarith

/-! ### The point of the road -/

theorem walkTo_spec {f T : ℝ} (hT : 0 < T) : ∀ (l : List ℂ) (c : ℝ) (p : ℂ), c ≤ f * T →
    ‖walkTo f T c p l - along (p :: l) (f * T - c)‖ ≤ 1e-6
  | [], c, p, _ => by rw [walkTo, along, sub_self, norm_zero]; norm_num
  | q :: l, c, p, hc => by
      have hn := norm_nonneg (q - p)
      rw [walkTo]
      by_cases h : f ≤ (c + ‖q - p‖) / T
      · rw [if_pos h]
        rw [le_div_iff₀ hT] at h
        have ha : along (p :: q :: l) (f * T - c) = p + (((f * T - c) / ‖q - p‖ : ℝ) : ℂ) * (q - p) := by
          rw [along, if_pos (by linarith)]
        rw [ha]
        have hd : 0 ≤ f * T - c := by linarith
        by_cases hs : ‖q - p‖ < 1e-6
        · rw [if_pos hs]
          have e : p - (p + (((f * T - c) / ‖q - p‖ : ℝ) : ℂ) * (q - p)) = -((((f * T - c) / ‖q - p‖ : ℝ) : ℂ) * (q - p)) := by ring
          rw [e, norm_neg, norm_mul, norm_real, Real.norm_eq_abs, abs_of_nonneg (div_nonneg hd hn)]
          have h1 : (f * T - c) / ‖q - p‖ ≤ 1 := div_le_one_of_le₀ (by linarith) hn
          have h2 := mul_le_mul_of_nonneg_right h1 hn
          rw [one_mul] at h2
          exact h2.trans hs.le
        · rw [if_neg hs]
          have e : p + (q - p) * ((1 / ‖q - p‖ : ℝ) : ℂ) * ((f * T - c : ℝ) : ℂ) = p + (((f * T - c) / ‖q - p‖ : ℝ) : ℂ) * (q - p) := by
            push_cast; ring
          rw [e, sub_self, norm_zero]
          norm_num
      · rw [if_neg h]
        rw [not_le, div_lt_iff₀ hT] at h
        rw [along_step p q l (by linarith)]
        have := walkTo_spec hT l (c + ‖q - p‖) q h.le
        rwa [show f * T - c - ‖q - p‖ = f * T - (c + ‖q - p‖) by ring]

/-- **C183.**  The point that corresponds to a place: it is where the same share of the road is behind as is of the plan at a point of
the plan that is nearest to the place, up to hundredths of a millimetre (times the ratio of the lengths). -/
theorem C183_point {plan road : List ℂ} (hp : 1e-6 ≤ len plan) (hr : 1e-6 ≤ len road) (pos : ℂ) :
    ∃ d, 0 ≤ d ∧ d ≤ len plan ∧ (∀ e, 0 ≤ e → e ≤ len plan → ‖along plan d - pos‖ ≤ ‖along plan e - pos‖ + 2e-5) ∧
      ‖stareAt plan road pos - along road (d / len plan * len road)‖ ≤ 1e-6 + 1e-5 * (len road / len plan) := by
  have hp0 : 0 < len plan := lt_of_lt_of_le (by norm_num) hp
  have hr0 : 0 < len road := lt_of_lt_of_le (by norm_num) hr
  have h2 := len_pos_two hp0.ne'
  have h3 := len_pos_two hr0.ne'
  match road, h3 with
  | r :: q :: l, _ =>
      unfold stareAt
      simp only [lengthOf_eq]
      rw [if_neg (by simp; omega), if_neg (by push Not; exact ⟨hp, hr⟩)]
      obtain ⟨s0, d, d0, d1, dn, ds⟩ := share_spec pos h2 hp0
      refine ⟨d, d0, d1, dn, ?_⟩
      have w := walkTo_spec (f := share plan pos) hr0 (q :: l) 0 r (by positivity)
      rw [sub_zero] at w
      have lip := along_lip' (r :: q :: l) (d := d / len plan * len (r :: q :: l)) (e := share plan pos * len (r :: q :: l))
        (by positivity) (by positivity)
      have eq : |share plan pos * len (r :: q :: l) - d / len plan * len (r :: q :: l)| =
          |share plan pos * len plan - d| * (len (r :: q :: l) / len plan) := by
        have : share plan pos * len (r :: q :: l) - d / len plan * len (r :: q :: l) =
            (share plan pos * len plan - d) * (len (r :: q :: l) / len plan) := by field_simp
        rw [this, abs_mul, abs_of_nonneg (div_nonneg hr0.le hp0.le)]
      rw [eq] at lip
      have m := mul_le_mul_of_nonneg_right ds (div_nonneg hr0.le hp0.le)
      have t := norm_sub_le_norm_sub_add_norm_sub (walkTo (share plan pos) (len (r :: q :: l)) 0 r (q :: l))
        (along (r :: q :: l) (share plan pos * len (r :: q :: l))) (along (r :: q :: l) (d / len plan * len (r :: q :: l)))
      linarith

/-- **C183.**  Where there is no length to share, it is the start of the road. -/
theorem C183_short {plan : List ℂ} {r : ℂ} {l : List ℂ} (h : len plan < 1e-6 ∨ len (r :: l) < 1e-6) (pos : ℂ) :
    stareAt plan (r :: l) pos = r := by
  unfold stareAt
  simp only [lengthOf_eq]
  by_cases h' : l = [] ∨ plan.length < 2
  · rw [if_pos h']
  · rw [if_neg h', if_pos h]

/-- **C183.**  An object gives the same point where this is on the first segment of the road. -/
theorem C183_object_partial {plan : List ℂ} (hp : 2 ≤ plan.length) {r q : ℂ} {l : List ℂ} (hr : 1e-6 ≤ len (r :: q :: l)) (pos : ℂ)
    (h : share plan pos * len (r :: q :: l) ≤ ‖q - r‖) : stareOf plan (r :: q :: l) pos = .ok (stareAt plan (r :: q :: l) pos) := by
  have hr0 : 0 < len (r :: q :: l) := lt_of_lt_of_le (by norm_num) hr
  have hle : ‖q - r‖ ≤ len (r :: q :: l) := by rw [len_cons]; have := len_nonneg (q :: l); linarith
  match plan, hp with
  | a :: b :: m, _ =>
      unfold stareOf stareAt
      simp only [lengthOf_eq]
      congr 1
      split
      · rfl
      split
      · rfl
      rw [walkShares, walkTo, zero_add, zero_div]
      have h1 : share (a :: b :: m) pos ≤ ‖q - r‖ / len (r :: q :: l) := by rwa [le_div_iff₀ hr0]
      rw [if_pos h1, if_pos]
      split
      · refine h1.trans ((div_le_one hr0).2 hle)
      · exact h1

/-- A plan and a road along the same line: 200 m with a point in the middle. -/
noncomputable def exLine : List ℂ := [0, 100, 200]

theorem exLine_len : len exLine = 200 := by
  have h1 : ‖(100 : ℂ)‖ = 100 := by norm_num
  have h2 : ‖(200 - 100 : ℂ)‖ = 100 := by norm_num
  simp only [exLine, len_cons, len_single, sub_zero, h1, h2]; norm_num

example : 1e-6 ≤ len exLine := by rw [exLine_len]; norm_num

theorem exLine_along {e : ℝ} (h0 : 0 ≤ e) : along exLine e = ((min e 200 : ℝ) : ℂ) := by
  have h1 : ‖(100 : ℂ) - 0‖ = 100 := by norm_num
  have h2 : ‖(200 : ℂ) - 100‖ = 100 := by norm_num
  unfold exLine
  rw [along, along, h1, h2]
  by_cases a : e ≤ 100
  · rw [if_pos a, min_eq_left (by linarith)]; push_cast; ring
  · rw [if_neg a]
    by_cases b : e - 100 ≤ 100
    · rw [if_pos b, min_eq_left (by linarith)]; push_cast; ring
    · rw [if_neg b, min_eq_right (by linarith)]; simp [along]

/-- A vehicle at 50 m meets what `C183_object_partial` asks for. -/
example : stareOf exLine exLine 50 = .ok (stareAt exLine exLine 50) := by
  refine C183_object_partial (by simp [exLine]) (by rw [← exLine, exLine_len]; norm_num) 50 ?_
  rw [← exLine, exLine_len]
  obtain ⟨-, d, d0, d1, dn, ds⟩ := share_spec 50 (W := exLine) (by simp [exLine]) (by rw [exLine_len]; norm_num)
  rw [exLine_len] at d1 ds
  have hd := dn 50 (by norm_num) (by rw [exLine_len]; norm_num)
  rw [exLine_along d0, exLine_along (by norm_num), min_eq_left d1, min_eq_left (by norm_num)] at hd
  have e1 : ((d : ℂ) - 50) = ((d - 50 : ℝ) : ℂ) := by push_cast; rfl
  have e2 : (((50 : ℝ) : ℂ) - 50) = 0 := by push_cast; ring
  rw [e1, e2, norm_real, Real.norm_eq_abs, norm_zero, zero_add, abs_le] at hd
  rw [abs_le] at ds
  have h1 : ‖(100 : ℂ) - 0‖ = 100 := by norm_num
  rw [h1]
  linarith [ds.2, hd.2]

/-- **C183, what fails.**  On the other segments of the road the object takes the share of the road that is behind for a distance, so
that it points too far: for a vehicle at 150 m of 200 m along the road itself, to 249.5 m, some fifty metres beyond the end. -/
theorem C183_object_violated : ∃ z, stareOf exLine exLine 150 = .ok z ∧ ‖z - 249.5‖ ≤ 0.001 ∧ (∀ e, 0 ≤ e → 49 ≤ ‖along exLine e - z‖) ∧
    ‖stareAt exLine exLine 150 - 150‖ ≤ 0.001 := by
  have h1 : ‖(100 : ℂ) - 0‖ = 100 := by norm_num
  have h2 : ‖(200 : ℂ) - 100‖ = 100 := by norm_num
  have hl : lengthOf exLine = 200 := by rw [lengthOf_eq, exLine_len]
  obtain ⟨s0, d, d0, d1, dn, ds⟩ := share_spec 150 (W := exLine) (by simp [exLine]) (by rw [exLine_len]; norm_num)
  rw [exLine_len] at d1 ds
  have hd := dn 150 (by norm_num) (by rw [exLine_len]; norm_num)
  rw [exLine_along d0, exLine_along (by norm_num), min_eq_left d1, min_eq_left (by norm_num)] at hd
  have hd' : |d - 150| ≤ 2e-5 := by
    have e1 : ((d : ℂ) - 150) = ((d - 150 : ℝ) : ℂ) := by push_cast; rfl
    have e2 : (((150 : ℝ) : ℂ) - 150) = 0 := by push_cast; ring
    rw [e1, e2, norm_real, Real.norm_eq_abs, norm_zero, zero_add] at hd
    exact hd
  set f := share exLine 150 with hf
  rw [abs_le] at ds hd'
  have f0 : 149.999 ≤ f * 200 := by linarith [ds.1, hd'.1]
  have f1 : f * 200 ≤ 150.001 := by linarith [ds.2, hd'.2]
  have e : stareOf exLine exLine 150 = .ok (walkShares f 200 0 0 [100, 200]) := by
    rw [← hl, hf]
    unfold stareOf exLine
    simp only []
    rw [if_neg (by simp), if_neg]
    rw [show ([0, 100, 200] : List ℂ) = exLine from rfl, hl]
    norm_num
  have e' : stareAt exLine exLine 150 = walkTo f 200 0 0 [100, 200] := by
    rw [← hl, hf]
    unfold stareAt exLine
    simp only []
    rw [if_neg (by simp), if_neg]
    rw [show ([0, 100, 200] : List ℂ) = exLine from rfl, hl]
    norm_num
  have w : walkShares f 200 0 0 [100, 200] = ((100 + (f * 200 - 0.5) : ℝ) : ℂ) := by
    rw [walkShares, walkShares, h1, h2, if_neg (by simp; linarith), if_pos (by simp; linarith), if_neg (by norm_num)]
    push_cast; ring
  have w' : walkTo f 200 0 0 [100, 200] = ((f * 200 : ℝ) : ℂ) := by
    rw [walkTo, walkTo, h1, h2, if_neg (by norm_num; linarith), if_pos (by norm_num; linarith), if_neg (by norm_num)]
    push_cast; ring
  refine ⟨_, e, ?_, ?_, ?_⟩
  · rw [w, show (249.5 : ℂ) = ((249.5 : ℝ) : ℂ) by push_cast; rfl, ← ofReal_sub, norm_real, Real.norm_eq_abs, abs_le]
    constructor <;> linarith
  · intro x hx
    rw [w, exLine_along hx, ← ofReal_sub, norm_real, Real.norm_eq_abs, abs_sub_comm]
    have := min_le_right x 200
    exact le_trans (by linarith) (le_abs_self _)
  · rw [e', w', show (150 : ℂ) = ((150 : ℝ) : ℂ) by push_cast; rfl, ← ofReal_sub, norm_real, Real.norm_eq_abs, abs_le]
    constructor <;> linarith

/-- **C183, what fails.**  An object for an empty road or plan. -/
theorem C183_empty_violated (l : List ℂ) (pos : ℂ) : stareOf l [] pos = .ub ∧ stareOf [] l pos = .ub ∧ stareAt l [] pos = 0 := by
  refine ⟨?_, ?_, ?_⟩
  · cases l <;> rfl
  · cases l <;> rfl
  · rfl

end Verif.Dpss
