import Mathlib.Analysis.SpecialFunctions.Complex.Arg
import Mathlib.Analysis.Convex.Combination
import Mathlib.Analysis.Convex.Topology
import Mathlib.Analysis.Complex.Convex

/-!
The padding of zones (C197): the pieces that `Polygon::offset_polygons` (`src/cpp/VisilibityLib/visilibity.cpp` 1801-2008)
puts around the edges and corners of a polygon before all are merged.

Simplifications: a point is a complex number, numbers are real.  A piece is given by its corners; the place it covers is
taken as the convex hull of these, as all pieces are convex (rectangles, triangles, kites and pentagons) with their corners
in order.
-/

namespace Verif.Visilib.Padding

open Complex

/-! ### Model -/

/-- visilibity.cpp 1122-1131: `Angle(double)`, which brings an angle into [0, 2π) by `fmod`. -/
noncomputable def wrap (x : ℝ) : ℝ := x - 2 * Real.pi * ⌊x / (2 * Real.pi)⌋

/-- visilibity.cpp 358-363: `Point::angle_separation`. -/
noncomputable def angleSep (a b c : ℂ) : ℝ := wrap (arg (c - b) - arg (b - a) + Real.pi)

/-- visilibity.cpp 366-369: `Point::rotate`. -/
noncomputable def rotate (p : ℂ) (th : ℝ) : ℂ :=
  ⟨Real.cos th * p.re - Real.sin th * p.im, Real.sin th * p.re + Real.cos th * p.im⟩

/-- visilibity.cpp 372-378: `Point::normalize`. -/
noncomputable def normalize (p : ℂ) : ℂ :=
  if Real.sqrt (p.re * p.re + p.im * p.im) ≠ 0 then
    ⟨p.re / Real.sqrt (p.re * p.re + p.im * p.im), p.im / Real.sqrt (p.re * p.re + p.im * p.im)⟩
  else 0

/-- visilibity.cpp 1070-1094: `intersection_infinite` of the lines through two segments; none if one of them is a point
(665-679), or if they are parallel up to a tolerance. -/
noncomputable def crossing (q1 q2 r1 r2 : ℂ) (eps : ℝ) : Option ℂ :=
  if ‖q1 - q2‖ ≤ eps ∨ ‖r1 - r2‖ ≤ eps then none
  else
    let a1 := q2.im - q1.im
    let b1 := q1.re - q2.re
    let c1 := q2.re * q1.im - q1.re * q2.im
    let a2 := r2.im - r1.im
    let b2 := r1.re - r2.re
    let c2 := r2.re * r1.im - r1.re * r2.im
    let denom := a1 * b2 - a2 * b1
    if |denom| < 1e-12 ∨ |denom| < |eps| then none
    else some ⟨(b1 * c2 - b2 * c1) / denom, (a2 * c1 - a1 * c2) / denom⟩

/-- visilibity.cpp 1849-1851: `fuzz`. -/
noncomputable def fuzz (eps : ℝ) : ℝ := if |eps| / 2 < 1e-11 then 1e-11 else |eps| / 2

/-- visilibity.cpp 1874-1883: the rectangle around the edge from `b` to `c`. -/
noncomputable def rect (eps d : ℝ) (b c : ℂ) : List ℂ :=
  let p1 := normalize (rotate (c - b) (-Real.pi / 2)) * (|d| : ℝ) + b
  let p2 := normalize (rotate (c - b) (-Real.pi / 2)) * (|d| : ℝ) + c
  let p3 := normalize (rotate (c - b) (Real.pi / 2)) * (|d| : ℝ) + c
  let p4 := normalize (rotate (c - b) (Real.pi / 2)) * (|d| : ℝ) + b
  [p1 + normalize (b - c) * (fuzz eps : ℝ), p2 + normalize (c - b) * (fuzz eps : ℝ),
    p3 + normalize (c - b) * (fuzz eps : ℝ), p4 + normalize (b - c) * (fuzz eps : ℝ)]

/-- visilibity.cpp 1897-1921 and 1926-1950: the piece at a corner between the places `p` and `q` at the ends of two
rectangles whose sides cross in `x`. -/
noncomputable def wedge (d gamma : ℝ) (b p q : ℂ) (x : Option ℂ) : List ℂ :=
  match x with
  | some x =>
    if gamma > 45 / 180 * Real.pi then
      [b, p, normalize (x - p) * (Real.tan (gamma / 4) * |d| : ℝ) + p, normalize (x - q) * (Real.tan (gamma / 4) * |d| : ℝ) + q, q]
    else [b, p, x, q]
  | none => [b, p, q]

/-- visilibity.cpp 1869-1952: the piece at the corner `b`. -/
noncomputable def corner (eps d : ℝ) (a b c : ℂ) : List ℂ :=
  let p1 := normalize (rotate (c - b) (-Real.pi / 2)) * (|d| : ℝ) + b
  let p2 := normalize (rotate (c - b) (-Real.pi / 2)) * (|d| : ℝ) + c
  let p3 := normalize (rotate (c - b) (Real.pi / 2)) * (|d| : ℝ) + c
  let p4 := normalize (rotate (c - b) (Real.pi / 2)) * (|d| : ℝ) + b
  let p5 := normalize (rotate (b - a) (-Real.pi / 2)) * (|d| : ℝ) + b
  let p6 := normalize (rotate (b - a) (-Real.pi / 2)) * (|d| : ℝ) + a
  let p7 := normalize (rotate (b - a) (Real.pi / 2)) * (|d| : ℝ) + a
  let p8 := normalize (rotate (b - a) (Real.pi / 2)) * (|d| : ℝ) + b
  if angleSep a b c < Real.pi then
    wedge d (angleSep p4 b p8) b p4 p8 (crossing p3 p4 p7 p8 eps)
  else
    wedge d (angleSep p5 b p1) b p5 p1 (crossing p2 p1 p6 p5 eps)

/-- Corner number `k` of a polygon, counted round (`polygonList[k][(n+1)%N]`). -/
def vertex (ps : List ℂ) (k : ℕ) : ℂ := ps.getD (k % ps.length) 0

/-- visilibity.cpp 1865-1953: the pieces around a polygon. -/
noncomputable def pieces (eps d : ℝ) (ps : List ℂ) : List (List ℂ) :=
  (List.range ps.length).flatMap fun n =>
    [rect eps d (vertex ps (n + 1)) (vertex ps (n + 2)), corner eps d (vertex ps n) (vertex ps (n + 1)) (vertex ps (n + 2))]

/-- visilibity.cpp 1857-1954: what is merged when zones are expanded: each polygon and, unless its padding is zero up to the
tolerance, the pieces around it. -/
noncomputable def toMerge (eps : ℝ) (zs : List (List ℂ × ℝ)) : List (List ℂ) :=
  zs.flatMap fun z => z.1 :: if |z.2| < eps then [] else pieces eps z.2 z.1

/-- The place of a piece. -/
def area (ps : List ℂ) : Set ℂ := convexHull ℝ {x | x ∈ ps}

/-! ### Angles and unit vectors -/

/-- The unit vector at an angle. -/
noncomputable def cis (x : ℝ) : ℂ := ⟨Real.cos x, Real.sin x⟩

@[simp] theorem cis_re (x : ℝ) : (cis x).re = Real.cos x := rfl
@[simp] theorem cis_im (x : ℝ) : (cis x).im = Real.sin x := rfl

theorem cis_add (x y : ℝ) : cis (x + y) = cis x * cis y := by
  apply Complex.ext <;> simp [Real.cos_add, Real.sin_add]
  ring

theorem cis_norm (x : ℝ) : ‖cis x‖ = 1 := by
  have h : normSq (cis x) = 1 := by
    rw [normSq_apply]; simp only [cis_re, cis_im]
    nlinarith [Real.sin_sq_add_cos_sq x]
  have := Complex.normSq_eq_norm_sq (cis x)
  rw [h] at this
  nlinarith [norm_nonneg (cis x), sq_nonneg (‖cis x‖ - 1)]

theorem cis_ne (x : ℝ) : cis x ≠ 0 := by
  intro h
  have := cis_norm x
  rw [h] at this
  simp at this

theorem cis_pi : cis Real.pi = -1 := by apply Complex.ext <;> simp

theorem cis_arg {z : ℂ} : z = (‖z‖ : ℂ) * cis (arg z) := by
  apply Complex.ext
  · simp
  · simp

theorem arg_cis (r x : ℝ) (hr : 0 < r) : (arg ((r : ℂ) * cis x) : Real.Angle) = (x : Real.Angle) := by
  have := arg_mul_cos_add_sin_mul_I_coe_angle hr (x : Real.Angle)
  have e : (cis x : ℂ) = (Real.Angle.cos (x : Real.Angle) : ℂ) + (Real.Angle.sin (x : Real.Angle) : ℂ) * I := by
    apply Complex.ext <;> simp [cis, -Complex.ofReal_cos, -Complex.ofReal_sin, -Complex.ofReal_tan]
  rw [e]
  exact this

theorem wrap_eq {x y : ℝ} (h0 : 0 ≤ y) (h1 : y < 2 * Real.pi) (k : ℤ) (h : x = y + 2 * Real.pi * k) : wrap x = y := by
  have hp : 0 < 2 * Real.pi := by have := Real.pi_pos; linarith
  have : ⌊x / (2 * Real.pi)⌋ = k := by
    rw [Int.floor_eq_iff]
    constructor
    · rw [le_div_iff₀ hp]; linarith
    · rw [div_lt_iff₀ hp]; linarith
  unfold wrap
  rw [this, h]
  ring

theorem angleSep_of {a b c : ℂ} {r y : ℝ} (hr : 0 < r) (h0 : 0 ≤ y) (h1 : y < 2 * Real.pi) (hab : b - a ≠ 0)
    (h : c - b = (r : ℂ) * cis (y - Real.pi) * (b - a)) : angleSep a b c = y := by
  have hne : (r : ℂ) * cis (y - Real.pi) ≠ 0 := mul_ne_zero (by exact_mod_cast hr.ne') (cis_ne _)
  have e : (arg (c - b) : Real.Angle) = ((y - Real.pi + arg (b - a) : ℝ) : Real.Angle) := by
    rw [h, arg_mul_coe_angle hne hab, arg_cis _ _ hr, ← Real.Angle.coe_add]
  obtain ⟨k, hk⟩ := Real.Angle.angle_eq_iff_two_pi_dvd_sub.1 e
  exact wrap_eq h0 h1 k (by linarith)

theorem sqrt_norm (p : ℂ) : Real.sqrt (p.re * p.re + p.im * p.im) = ‖p‖ := by
  rw [← normSq_apply, Complex.normSq_eq_norm_sq, Real.sqrt_sq (norm_nonneg _)]

theorem normalize_eq {p : ℂ} : normalize p = p / ‖p‖ := by
  unfold normalize
  rw [sqrt_norm]
  by_cases h : ‖p‖ = 0
  · rw [if_neg (by simpa using h), h]; simp
  · rw [if_pos h]
    apply Complex.ext
    · simp [Complex.div_ofReal_re]
    · simp [Complex.div_ofReal_im]

theorem normalize_pos {n : ℂ} (hn : ‖n‖ = 1) {s : ℝ} (hs : 0 < s) : normalize ((s : ℂ) * n) = n := by
  rw [normalize_eq, norm_mul, hn, mul_one, Complex.norm_of_nonneg hs.le]
  have : (s : ℂ) ≠ 0 := by exact_mod_cast hs.ne'
  field_simp

theorem rotate_right (p : ℂ) : rotate p (-Real.pi / 2) = -I * p := by
  have h1 : Real.cos (-Real.pi / 2) = 0 := by rw [neg_div, Real.cos_neg, Real.cos_pi_div_two]
  have h2 : Real.sin (-Real.pi / 2) = -1 := by rw [neg_div, Real.sin_neg, Real.sin_pi_div_two]
  apply Complex.ext <;> simp [rotate, h1, h2]

theorem rotate_left (p : ℂ) : rotate p (Real.pi / 2) = I * p := by
  apply Complex.ext <;> simp [rotate]

/-! ### Crossing lines -/

/-- Lines that are not parallel cross in the one place that is on both. -/
theorem crossing_eq {q1 q2 r1 r2 x : ℂ} {eps s t : ℝ} (hq : eps < ‖q1 - q2‖) (hr : eps < ‖r1 - r2‖)
    (hd : max 1e-12 |eps| ≤ |(q2.im - q1.im) * (r1.re - r2.re) - (r2.im - r1.im) * (q1.re - q2.re)|)
    (h1 : x = q1 + s * (q2 - q1)) (h2 : x = r1 + t * (r2 - r1)) : crossing q1 q2 r1 r2 eps = some x := by
  unfold crossing
  rw [if_neg (by push Not; exact ⟨hq, hr⟩)]
  dsimp only
  have hd1 := le_trans (le_max_left _ _) hd
  have hd2 := le_trans (le_max_right _ _) hd
  rw [if_neg (by push Not; exact ⟨hd1, hd2⟩)]
  set den := (q2.im - q1.im) * (r1.re - r2.re) - (r2.im - r1.im) * (q1.re - q2.re) with hden
  have hne : den ≠ 0 := by
    intro e
    rw [e] at hd1
    norm_num at hd1
  have x1 := congrArg Complex.re h1
  have y1 := congrArg Complex.im h1
  have x2 := congrArg Complex.re h2
  have y2 := congrArg Complex.im h2
  simp at x1 y1 x2 y2
  have l1 : (q2.im - q1.im) * x.re + (q1.re - q2.re) * x.im + (q2.re * q1.im - q1.re * q2.im) = 0 := by
    rw [x1, y1]; ring
  have l2 : (r2.im - r1.im) * x.re + (r1.re - r2.re) * x.im + (r2.re * r1.im - r1.re * r2.im) = 0 := by
    rw [x2, y2]; ring
  congr 1
  apply Complex.ext
  · show _ / den = x.re
    rw [div_eq_iff hne, hden]
    linear_combination (-(r1.re - r2.re)) * l1 + (q1.re - q2.re) * l2
  · show _ / den = x.im
    rw [div_eq_iff hne, hden]
    linear_combination (r2.im - r1.im) * l1 - (q2.im - q1.im) * l2

/-! ### A corner -/

theorem comb3 {S : Set ℂ} (hS : Convex ℝ S) {o x y : ℂ} (ho : o ∈ S) (hx : x ∈ S) (hy : y ∈ S) {l m : ℝ} (hl : 0 ≤ l) (hm : 0 ≤ m)
    (hlm : l + m ≤ 1) : o + (l : ℂ) * (x - o) + (m : ℂ) * (y - o) ∈ S := by
  have := hS.sum_mem (t := (Finset.univ : Finset (Fin 3))) (w := ![1 - l - m, l, m]) (z := ![o, x, y])
    (by intro i _; fin_cases i <;> simp <;> linarith) (by simp [Fin.sum_univ_three]; ring)
    (by intro i _; fin_cases i <;> simp [ho, hx, hy])
  simp only [Fin.sum_univ_three, Matrix.cons_val_zero, Matrix.cons_val_one, Matrix.cons_val, Complex.real_smul] at this
  convert this using 1
  push_cast
  ring

/-- `1 + i tan(φ/2)` and its mirror image at the bisector. -/
theorem tangent_eq {x : ℝ} (h : Real.cos (x / 2) ≠ 0) :
    cis x * (1 - I * (Real.tan (x / 2) : ℝ)) = 1 + I * (Real.tan (x / 2) : ℝ) := by
  have hc : ((Real.cos (x / 2) : ℝ) : ℂ) ≠ 0 := by exact_mod_cast h
  have ht : ((Real.tan (x / 2) : ℝ) : ℂ) * (Real.cos (x / 2) : ℝ) = (Real.sin (x / 2) : ℝ) := by
    rw [← Complex.ofReal_mul, Real.tan_mul_cos h]
  have e1 : (1 + I * (Real.tan (x / 2) : ℝ)) * (Real.cos (x / 2) : ℝ) = cis (x / 2) := by
    rw [add_mul, mul_assoc, ht]
    apply Complex.ext <;> simp [-Complex.ofReal_cos, -Complex.ofReal_sin, -Complex.ofReal_tan]
  have e2 : (1 - I * (Real.tan (x / 2) : ℝ)) * (Real.cos (x / 2) : ℝ) = cis (-(x / 2)) := by
    rw [sub_mul, mul_assoc, ht]
    apply Complex.ext <;> simp [-Complex.ofReal_cos, -Complex.ofReal_sin, -Complex.ofReal_tan]
  apply mul_right_cancel₀ hc
  rw [mul_assoc, e2, e1, ← cis_add]
  congr 1
  ring

/-- The place where the tangents at two unit vectors meet. -/
theorem tangent_sum {x : ℝ} (h2 : Real.cos (x / 2) ≠ 0) :
    (1 + I * (Real.tan (x / 2) : ℝ)) * ((1 + Real.cos x : ℝ) : ℂ) = 1 + cis x := by
  have hcos : 1 + Real.cos x = 2 * Real.cos (x / 2) ^ 2 := by
    have := Real.cos_sq (x / 2)
    rw [show 2 * (x / 2) = x by ring] at this
    linarith
  have hsin : Real.sin x = 2 * Real.sin (x / 2) * Real.cos (x / 2) := by
    rw [← Real.sin_two_mul]; ring_nf
  have ht := Real.tan_mul_cos h2
  apply Complex.ext
  · simp [-Complex.ofReal_cos, -Complex.ofReal_sin, -Complex.ofReal_tan]
  · simp [-Complex.ofReal_cos, -Complex.ofReal_sin, -Complex.ofReal_tan]
    rw [hcos, hsin]
    linear_combination 2 * Real.cos (x / 2) * ht

/-- What is seen from a corner beyond the two rectangles. -/
theorem kite {n w : ℂ} {x d : ℝ} (hn : ‖n‖ = 1) (hx0 : 0 < x) (hx1 : x < Real.pi) (hd : 0 < d) (hw : ‖w‖ ≤ d)
    (h1 : 0 ≤ (w * (starRingEnd ℂ) (I * n)).re) (h2 : (w * (starRingEnd ℂ) (I * (n * cis x))).re ≤ 0) {S : Set ℂ}
    (hS : Convex ℝ S) {b : ℂ} (hb : b ∈ S) (hs1 : b + d * n ∈ S) (hs2 : b + d * (n * (1 + I * (Real.tan (x / 2) : ℝ))) ∈ S)
    (hs3 : b + d * (n * cis x) ∈ S) : b + w ∈ S := by
  have hsin : 0 < Real.sin x := Real.sin_pos_of_pos_of_lt_pi hx0 hx1
  have hc2 : 0 < Real.cos (x / 2) := Real.cos_pos_of_mem_Ioo ⟨by linarith [Real.pi_pos], by linarith⟩
  have hc1 : 0 < 1 + Real.cos x := by
    have := Real.cos_sq (x / 2)
    rw [show 2 * (x / 2) = x by ring] at this
    nlinarith
  have hnn : n * (starRingEnd ℂ) n = 1 := by
    rw [Complex.mul_conj, Complex.normSq_eq_norm_sq, hn]; norm_num
  -- the coordinates of `w`
  obtain ⟨z, hz⟩ : ∃ z, w = z * n := ⟨w * (starRingEnd ℂ) n, by rw [mul_assoc, mul_comm ((starRingEnd ℂ) n), hnn, mul_one]⟩
  have hzw : ‖z‖ ≤ d := by rw [hz, norm_mul, hn, mul_one] at hw; exact hw
  have e1 : (w * (starRingEnd ℂ) (I * n)).re = z.im := by
    rw [hz, map_mul, conj_I, show z * n * (-I * (starRingEnd ℂ) n) = z * -I * (n * (starRingEnd ℂ) n) by ring, hnn]
    simp
  have e2 : (w * (starRingEnd ℂ) (I * (n * cis x))).re = -z.re * Real.sin x + z.im * Real.cos x := by
    rw [hz, map_mul, map_mul, conj_I, show z * n * (-I * ((starRingEnd ℂ) n * (starRingEnd ℂ) (cis x))) =
      z * -I * (starRingEnd ℂ) (cis x) * (n * (starRingEnd ℂ) n) by ring, hnn]
    simp
  rw [e1] at h1
  rw [e2] at h2
  set be := z.im / Real.sin x with hbe
  set al := z.re - be * Real.cos x with hal
  have hbe0 : 0 ≤ be := div_nonneg h1 hsin.le
  have hzi : z.im = be * Real.sin x := by rw [hbe]; field_simp
  have hal0 : 0 ≤ al := by
    have : al * Real.sin x = z.re * Real.sin x - z.im * Real.cos x := by rw [hal, hzi]; ring
    by_contra hneg
    push Not at hneg
    nlinarith
  have hzr : z.re = al + be * Real.cos x := by rw [hal]; ring
  have hzz : z = al + be * cis x := by
    apply Complex.ext
    · simp [hzr]
    · simp [hzi]
  have hsum := tangent_sum hc2.ne'
  have hdc : (d : ℂ) ≠ 0 := by exact_mod_cast hd.ne'
  have hre : z.re ≤ d := (Complex.re_le_norm z).trans hzw
  have hre2 : al * Real.cos x + be ≤ d := by
    have h3 : (z * (starRingEnd ℂ) (cis x)).re ≤ ‖z * (starRingEnd ℂ) (cis x)‖ := Complex.re_le_norm _
    rw [norm_mul, Complex.norm_conj, cis_norm, mul_one] at h3
    have h4 : (z * (starRingEnd ℂ) (cis x)).re = al * Real.cos x + be := by
      simp only [mul_re, conj_re, conj_im, cis_re, cis_im, hzr, hzi]
      have := Real.sin_sq_add_cos_sq x
      linear_combination be * this
    linarith
  rcases le_total be al with hle | hle
  · have := comb3 hS hb hs1 hs2 (l := (al - be) / d) (m := be * (1 + Real.cos x) / d) (by
      apply div_nonneg <;> linarith) (by positivity) (by
      rw [← add_div, div_le_one hd]
      nlinarith)
    convert this using 1
    rw [hz, hzz]
    have hsum' : (1 + I * (Real.tan (x / 2) : ℝ)) * (1 + (Real.cos x : ℝ)) = 1 + cis x := by
      rw [← hsum]; push_cast; ring
    generalize ((Real.tan (x / 2) : ℝ) : ℂ) = T at hsum' ⊢
    have e5 : (((al - be) / d : ℝ) : ℂ) = (al - be) / d := by push_cast; rfl
    have e6 : ((be * (1 + Real.cos x) / d : ℝ) : ℂ) = be * (1 + (Real.cos x : ℝ)) / d := by push_cast; ring
    rw [e5, e6]
    generalize ((Real.cos x : ℝ) : ℂ) = C at hsum' ⊢
    field_simp
    linear_combination (-be * n * d) * hsum'
  · have := comb3 hS hb hs3 hs2 (l := (be - al) / d) (m := al * (1 + Real.cos x) / d) (by
      apply div_nonneg <;> linarith) (by positivity) (by
      rw [← add_div, div_le_one hd]
      nlinarith)
    convert this using 1
    rw [hz, hzz]
    have hsum' : (1 + I * (Real.tan (x / 2) : ℝ)) * (1 + (Real.cos x : ℝ)) = 1 + cis x := by
      rw [← hsum]; push_cast; ring
    generalize ((Real.tan (x / 2) : ℝ) : ℂ) = T at hsum' ⊢
    have e5 : (((be - al) / d : ℝ) : ℂ) = (be - al) / d := by push_cast; rfl
    have e6 : ((al * (1 + Real.cos x) / d : ℝ) : ℂ) = al * (1 + (Real.cos x : ℝ)) / d := by push_cast; ring
    rw [e5, e6]
    generalize ((Real.cos x : ℝ) : ℂ) = C at hsum' ⊢
    field_simp
    linear_combination (-al * n * d) * hsum'

/-- The same with the corner cut off by a tangent at the bisector. -/
theorem pentagon {n w : ℂ} {x d : ℝ} (hn : ‖n‖ = 1) (hx0 : 0 < x) (hx1 : x < Real.pi) (hd : 0 < d) (hw : ‖w‖ ≤ d)
    (h1 : 0 ≤ (w * (starRingEnd ℂ) (I * n)).re) (h2 : (w * (starRingEnd ℂ) (I * (n * cis x))).re ≤ 0) {S : Set ℂ}
    (hS : Convex ℝ S) {b : ℂ} (hb : b ∈ S) (hs1 : b + d * n ∈ S) (hs2 : b + d * (n * (1 + I * (Real.tan (x / 4) : ℝ))) ∈ S)
    (hs3 : b + d * (n * cis x * (1 - I * (Real.tan (x / 4) : ℝ))) ∈ S) (hs4 : b + d * (n * cis x) ∈ S) : b + w ∈ S := by
  have hc2 : 0 < Real.cos (x / 2 / 2) := Real.cos_pos_of_mem_Ioo ⟨by linarith [Real.pi_pos], by linarith⟩
  have hq : x / 4 = x / 2 / 2 := by ring
  rw [hq] at hs2 hs3
  have hcc : cis x = cis (x / 2) * cis (x / 2) := by rw [← cis_add]; congr 1; ring
  have ht := tangent_eq (x := x / 2) hc2.ne'
  have hn' : ‖n * cis (x / 2)‖ = 1 := by rw [norm_mul, hn, cis_norm, mul_one]
  have hs5 : b + d * (n * cis (x / 2) * (1 + I * (Real.tan (x / 2 / 2) : ℝ))) ∈ S := by
    have e : n * cis (x / 2) * (1 + I * (Real.tan (x / 2 / 2) : ℝ)) = n * cis x * (1 - I * (Real.tan (x / 2 / 2) : ℝ)) := by
      rw [← ht, hcc]; ring
    rw [e]; exact hs3
  have hm : b + d * (n * cis (x / 2)) ∈ S := by
    have := comb3 hS hb hs2 hs5 (l := 1 / 2) (m := 1 / 2) (by norm_num) (by norm_num) (by norm_num)
    convert this using 1
    rw [show ((1 / 2 : ℝ) : ℂ) = 1 / 2 by push_cast; ring]
    linear_combination ((d : ℂ) * n / 2) * ht
  by_cases hside : (w * (starRingEnd ℂ) (I * (n * cis (x / 2)))).re ≤ 0
  · exact kite hn (by linarith) (by linarith) hd hw h1 hside hS hb hs1 hs2 hm
  · refine kite hn' (by linarith) (by linarith) hd hw (le_of_lt (not_le.1 hside)) ?_ hS hb hm hs5 ?_
    · rw [mul_assoc n, ← hcc]; exact h2
    · rw [mul_assoc n, ← hcc]; exact hs4

/-! ### The corner piece of the code -/

/-- The sides of two edges, as one wedge. -/
theorem wedge_cover {d : ℝ} {b n w : ℂ} {x : ℝ} (hn : ‖n‖ = 1) (hx0 : 0 < x) (hx1 : x < Real.pi) (hd : 0 < |d|)
    (hw : ‖w‖ ≤ |d|) (h1 : 0 ≤ (w * (starRingEnd ℂ) (I * n)).re) (h2 : (w * (starRingEnd ℂ) (I * (n * cis x))).re ≤ 0)
    (g : ℝ) (hg : g = x) (X : Option ℂ)
    (hX : X = some (b + (|d| : ℝ) * (n * (1 + I * (Real.tan (x / 2) : ℝ))))) :
    b + w ∈ area (wedge d g b (n * (|d| : ℝ) + b) (n * cis x * (|d| : ℝ) + b) X) := by
  rw [hg, hX]
  have ht2 : 0 < Real.tan (x / 2) := Real.tan_pos_of_pos_of_lt_pi_div_two (by linarith) (by linarith)
  have hc2 : 0 < Real.cos (x / 2) := Real.cos_pos_of_mem_Ioo ⟨by linarith [Real.pi_pos], by linarith⟩
  have hIn : ‖I * n‖ = 1 := by rw [norm_mul, norm_I, hn, mul_one]
  have hIk : ‖-I * (n * cis x)‖ = 1 := by rw [norm_mul, norm_neg, norm_I, norm_mul, hn, cis_norm]; norm_num
  have hm : ∀ (l : List ℂ) (y : ℂ), y ∈ l → y ∈ area l := fun l y hy => subset_convexHull ℝ _ hy
  unfold wedge
  dsimp only
  split
  · have e1 : normalize (b + (|d| : ℝ) * (n * (1 + I * (Real.tan (x / 2) : ℝ))) - (n * (|d| : ℝ) + b)) = I * n := by
      rw [show b + (|d| : ℝ) * (n * (1 + I * (Real.tan (x / 2) : ℝ))) - (n * (|d| : ℝ) + b) =
        ((|d| * Real.tan (x / 2) : ℝ) : ℂ) * (I * n) by push_cast; ring]
      exact normalize_pos hIn (by positivity)
    have e2 : normalize (b + (|d| : ℝ) * (n * (1 + I * (Real.tan (x / 2) : ℝ))) - (n * cis x * (|d| : ℝ) + b)) = -I * (n * cis x) := by
      rw [show b + (|d| : ℝ) * (n * (1 + I * (Real.tan (x / 2) : ℝ))) - (n * cis x * (|d| : ℝ) + b) =
        ((|d| * Real.tan (x / 2) : ℝ) : ℂ) * (-I * (n * cis x)) by
          rw [← tangent_eq hc2.ne']; push_cast; ring]
      exact normalize_pos hIk (by positivity)
    rw [e1, e2]
    have f1 : b + (|d| : ℝ) * n = n * (|d| : ℝ) + b := by ring
    have f2 : b + (|d| : ℝ) * (n * (1 + I * (Real.tan (x / 4) : ℝ))) = I * n * (Real.tan (x / 4) * |d| : ℝ) + (n * (|d| : ℝ) + b) := by
      rw [Complex.ofReal_mul]; ring
    have f3 : b + (|d| : ℝ) * (n * cis x * (1 - I * (Real.tan (x / 4) : ℝ))) =
        -I * (n * cis x) * (Real.tan (x / 4) * |d| : ℝ) + (n * cis x * (|d| : ℝ) + b) := by
      rw [Complex.ofReal_mul]; ring
    have f4 : b + (|d| : ℝ) * (n * cis x) = n * cis x * (|d| : ℝ) + b := by ring
    refine pentagon hn hx0 hx1 hd hw h1 h2 (convex_convexHull ℝ _) (hm _ _ (by simp)) ?_ ?_ ?_ ?_
    · rw [f1]; exact hm _ _ (by simp)
    · rw [f2]; exact hm _ _ (by simp)
    · rw [f3]; exact hm _ _ (by simp)
    · rw [f4]; exact hm _ _ (by simp)
  · have f1 : b + (|d| : ℝ) * n = n * (|d| : ℝ) + b := by ring
    have f4 : b + (|d| : ℝ) * (n * cis x) = n * cis x * (|d| : ℝ) + b := by ring
    refine kite hn hx0 hx1 hd hw h1 h2 (convex_convexHull ℝ _) (hm _ _ (by simp)) ?_ (hm _ _ (by simp)) ?_
    · rw [f1]; exact hm _ _ (by simp)
    · rw [f4]; exact hm _ _ (by simp)

end Verif.Visilib.Padding
