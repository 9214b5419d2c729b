import Verif.Steering.Limits
import Mathlib.Analysis.SpecialFunctions.Trigonometric.Bounds

/-!
# C133: the headings commanded

The heading a vehicle is told to fly, as a direction in the plane, against the leg or the orbit it should be on.
-/

namespace Verif.Steering

open Real

/-! ## Specification -/

/-- The unit vector (north, east) of a heading in degrees. -/
noncomputable def direction (h : ℝ) : Pt := (cos (π / 180 * h), sin (π / 180 * h))

/-- Length of a vector. -/
noncomputable def len (p : Pt) : ℝ := √(p.1 ^ 2 + p.2 ^ 2)

/-- The component of `h` along the vector `p`. -/
noncomputable def alongOf (p h : Pt) : ℝ := (p.1 * h.1 + p.2 * h.2) / len p

/-- The component of `h` to the right of the vector `p` (clockwise, seen from above). -/
noncomputable def rightOf (p h : Pt) : ℝ := (p.1 * h.2 - p.2 * h.1) / len p

/-! ## Lemmas -/

theorem normalizeDeg_spec (x : ℝ) : (∃ k : ℤ, normalizeDeg x = x + 360 * k) ∧
    -180 - 1 / 1000000000 ≤ normalizeDeg x ∧ normalizeDeg x < 180 := by
  unfold normalizeDeg
  set k : ℤ := trunc (x / 360) with hk
  have hm : -360 < x - 360 * k ∧ x - 360 * k < 360 := by
    rw [hk]
    unfold trunc
    split
    · have h1 := Int.floor_le (x / 360)
      have h2 := Int.lt_floor_add_one (x / 360)
      constructor <;> linarith
    · have h1 := Int.le_ceil (x / 360)
      have h2 := Int.ceil_lt_add_one (x / 360)
      constructor <;> linarith
  simp only
  by_cases h1 : x - 360 * (k : ℝ) < -180
  · rw [if_pos h1]
    exact ⟨⟨1 - k, by push_cast; ring⟩, by linarith, by linarith⟩
  · rw [if_neg h1]
    by_cases h2 : 180 < x - 360 * (k : ℝ) ∨ |x - 360 * (k : ℝ) - 180| ≤ 1 / 1000000000
    · rw [if_pos h2]
      refine ⟨⟨-1 - k, by push_cast; ring⟩, ?_, by linarith⟩
      rcases h2 with h2 | h2
      · linarith
      · have := (abs_le.mp h2).1
        linarith
    · rw [if_neg h2]
      rw [not_or] at h2
      refine ⟨⟨-k, by push_cast; ring⟩, by linarith, ?_⟩
      rcases lt_or_eq_of_le (not_lt.mp h2.1) with h | h
      · exact h
      · exfalso
        apply h2.2
        rw [h]; norm_num

theorem direction_normalize (c : ℝ) : direction (normalizeDeg (toDegrees c)) = (cos c, sin c) := by
  obtain ⟨⟨k, hk⟩, _⟩ := normalizeDeg_spec (toDegrees c)
  have h : π / 180 * normalizeDeg (toDegrees c) = c + k * (2 * π) := by
    rw [hk]
    unfold toDegrees
    have := Real.pi_ne_zero
    field_simp
    ring
  unfold direction
  rw [h, cos_add_int_mul_two_pi, sin_add_int_mul_two_pi]

theorem len_pos {p : Pt} (h : p ≠ (0, 0)) : 0 < len p := by
  unfold len
  apply Real.sqrt_pos.mpr
  by_contra hn
  have h1 := sq_nonneg p.1
  have h2 := sq_nonneg p.2
  have h3 : p.1 ^ 2 = 0 := by linarith
  have h4 : p.2 ^ 2 = 0 := by linarith
  exact h (Prod.ext (pow_eq_zero_iff (two_ne_zero) |>.mp h3) (pow_eq_zero_iff (two_ne_zero) |>.mp h4))

theorem len_sq (p : Pt) : len p * len p = p.1 ^ 2 + p.2 ^ 2 := by
  unfold len
  exact Real.mul_self_sqrt (by positivity)

theorem mag_eq (p : Pt) : mag p = len p := by
  unfold mag len
  rw [sq, sq]

theorem cos_atan2 {p : Pt} (h : p ≠ (0, 0)) : cos (atan2 p) = p.1 / len p ∧ sin (atan2 p) = p.2 / len p := by
  have hz : (⟨p.1, p.2⟩ : ℂ) ≠ 0 := by
    intro hh
    apply h
    have h1 := congrArg Complex.re hh
    have h2 := congrArg Complex.im hh
    simp at h1 h2
    exact Prod.ext h1 h2
  have hn : ‖(⟨p.1, p.2⟩ : ℂ)‖ = len p := by
    rw [Complex.norm_def, Complex.normSq_apply]
    unfold len
    rw [sq, sq]
  unfold atan2
  rw [Complex.cos_arg hz, Complex.sin_arg, hn]
  exact ⟨rfl, rfl⟩

/-- Components of a direction turned by `c` from the direction of a vector. -/
theorem components {p : Pt} (h : p ≠ (0, 0)) (c : ℝ) :
    alongOf p (cos (c + atan2 p), sin (c + atan2 p)) = cos c ∧
    rightOf p (cos (c + atan2 p), sin (c + atan2 p)) = sin c := by
  obtain ⟨h1, h2⟩ := cos_atan2 h
  have hl := len_pos h
  have hs := len_sq p
  have hl' := hl.ne'
  unfold alongOf rightOf
  simp only
  rw [cos_add, sin_add, h1, h2]
  constructor
  · field_simp
    linear_combination (- cos c) * hs
  · field_simp
    linear_combination (- sin c) * hs

theorem normalize_eq {p : Pt} (h : p ≠ (0, 0)) : normalize p = (p.1 / len p, p.2 / len p) := by
  have hl := len_pos h
  unfold normalize
  have e : √(p.1 * p.1 + p.2 * p.2) = len p := by unfold len; rw [sq, sq]
  simp only [e]
  rw [if_pos hl.ne']

theorem rotate_right (p : Pt) : rotate p (π / 2) = (-p.2, p.1) := by
  unfold rotate; simp

/-- The distance to the right of the leg, as the code computes it. -/
theorem crossTrack {p c : Pt} (h : c - p ≠ (0, 0)) :
    dot (rotate (normalize (c - p)) (π / 2)) ((0, 0) - p) = rightOf (c - p) ((0, 0) - p) := by
  rw [normalize_eq h, rotate_right]
  unfold dot rightOf
  simp only [Prod.fst_sub, Prod.snd_sub]
  ring

theorem lineCourse_eq (χ k : ℝ) {p c : Pt} (h : c - p ≠ (0, 0)) :
    lineCourse χ k false (0, 0) p c =
      -(2 * χ / π) * arctan (k * rightOf (c - p) ((0, 0) - p)) + atan2 (c - p) := by
  unfold lineCourse
  simp only [Bool.false_eq_true, if_false]
  rw [crossTrack h]
  ring

/-- The turn towards the leg: less than the largest course angle, and towards it. -/
theorem turn_facts (k : ℝ) {χ y : ℝ} (h0 : 0 < χ) (h1 : χ ≤ π / 2) :
    |-(2 * χ / π) * arctan (k * y)| < χ ∧ |-(2 * χ / π) * arctan (k * y)| ≤ |arctan (k * y)| := by
  have hp := Real.pi_pos
  have ha : |arctan (k * y)| < π / 2 := abs_lt.mpr ⟨neg_pi_div_two_lt_arctan _, arctan_lt_pi_div_two _⟩
  have hc : 0 < 2 * χ / π := by positivity
  rw [abs_mul, abs_neg, abs_of_pos hc]
  constructor
  · calc 2 * χ / π * |arctan (k * y)| < 2 * χ / π * (π / 2) := mul_lt_mul_of_pos_left ha hc
      _ = χ := by field_simp
  · have : 2 * χ / π ≤ 1 := by rw [div_le_one hp]; linarith
    calc 2 * χ / π * |arctan (k * y)| ≤ 1 * |arctan (k * y)| := mul_le_mul_of_nonneg_right this (abs_nonneg _)
      _ = _ := one_mul _

theorem abs_sin_eq {c : ℝ} (h : |c| ≤ π / 2) : |sin c| = sin |c| := by
  rcases abs_cases c with ⟨h1, h2⟩ | ⟨h1, h2⟩
  · rw [h1, abs_of_nonneg (sin_nonneg_of_nonneg_of_le_pi h2 (by rw [h1] at h; linarith [Real.pi_pos]))]
  · rw [h1, sin_neg, abs_of_nonpos]
    have := sin_nonneg_of_nonneg_of_le_pi (x := -c) (by linarith) (by rw [h1] at h; linarith [Real.pi_pos])
    rw [sin_neg] at this
    linarith

theorem sin_arctan_le (x : ℝ) : |sin (arctan x)| ≤ |x| := by
  rw [sin_arctan, abs_div]
  have h1 : 1 ≤ √(1 + x ^ 2) := by
    rw [Real.one_le_sqrt]; nlinarith [sq_nonneg x]
  rw [abs_of_pos (by linarith : 0 < √(1 + x ^ 2))]
  exact div_le_self (abs_nonneg _) h1

theorem arctan_sign (x : ℝ) : (0 < x → 0 < arctan x) ∧ (x < 0 → arctan x < 0) := by
  exact ⟨fun h => by simpa using arctan_strictMono h, fun h => by simpa using arctan_strictMono h⟩

/-- What `configure` can give. -/
theorem configure_pos (entity : ℤ) (x : Xml) : 0 < (configure entity x).courseInf ∧
    (configure entity x).courseInf ≤ π / 2 ∧ 0 < (configure entity x).kLine ∧ 0 < (configure entity x).kOrbit := by
  have hp : ∀ g : Option ℝ, 0 < ifPositive g (1 / 100) := by
    intro g
    unfold ifPositive
    cases g with
    | none => norm_num
    | some v =>
      simp only
      split
      · assumption
      · norm_num
  have hpi := Real.pi_pos
  refine ⟨?_, ?_, hp _, hp _⟩
  · simp only [configure]
    cases x.maxCourse with
    | none => simp only; linarith
    | some d =>
      simp only
      split
      · next h => exact h.1
      · linarith
  · simp only [configure]
    cases x.maxCourse with
    | none => simp only; linarith
    | some d =>
      simp only
      split
      · next h => exact h.2
      · linarith

/-! ## C133 -/

/-- **C133.**  Headings are between -180 and 180 degrees (down to a billionth of a degree below -180), whatever is flown. -/
theorem C133_range (cfg : Config) (o : Option ℝ) (l : Bool) (p q c : Pt) (w : Wp) :
    -180 - 1 / 1000000000 ≤ (guidance cfg o l p q c w).1 ∧ (guidance cfg o l p q c w).1 < 180 := by
  unfold guidance
  cases w.loiter with
  | none => exact (normalizeDeg_spec _).2
  | some lo => exact (normalizeDeg_spec _).2

/-- **C133.**  On a leg from `p` to `c` (seen from the vehicle), the heading makes progress along the leg, by more than the
cosine of the largest course angle; it points towards the leg from either side, and along it on the leg. -/
theorem C133_line (entity : ℤ) (x : Xml) (o : Option ℝ) {p c : Pt} (h : c - p ≠ (0, 0)) {w : Wp} (hw : w.loiter = none) :
    let hd := direction (guidance (configure entity x) o false (0, 0) p c w).1
    let y := rightOf (c - p) ((0, 0) - p)
    cos (configure entity x).courseInf < alongOf (c - p) hd ∧ 0 < alongOf (c - p) hd ∧
    (0 < y → rightOf (c - p) hd < 0) ∧ (y < 0 → 0 < rightOf (c - p) hd) ∧ (y = 0 → alongOf (c - p) hd = 1) := by
  obtain ⟨hχ, hχ2, hk, _⟩ := configure_pos entity x
  simp only [guidance, hw, direction_normalize]
  rw [lineCourse_eq _ _ h]
  set y := rightOf (c - p) ((0, 0) - p)
  set t := -(2 * (configure entity x).courseInf / π) * arctan ((configure entity x).kLine * y) with ht
  obtain ⟨f1, f2⟩ := turn_facts (configure entity x).kLine (y := y) hχ hχ2
  rw [← ht] at f1 f2
  obtain ⟨c1, c2⟩ := components h t
  rw [c1, c2]
  have hp := Real.pi_pos
  have hcpos : 0 < 2 * (configure entity x).courseInf / π := by positivity
  have hlt : |t| < π / 2 := lt_of_lt_of_le f1 hχ2
  obtain ⟨ha, hb⟩ := abs_lt.mp hlt
  have hcos : cos (configure entity x).courseInf < cos t := by
    rw [← cos_abs t]
    exact cos_lt_cos_of_nonneg_of_le_pi (abs_nonneg _) (by linarith) f1
  refine ⟨hcos, ?_, fun hy => ?_, fun hy => ?_, fun hy => ?_⟩
  · exact cos_pos_of_mem_Ioo ⟨ha, hb⟩
  · have : t < 0 := by
      have := (arctan_sign ((configure entity x).kLine * y)).1 (by positivity)
      rw [ht]; nlinarith
    exact sin_neg_of_neg_of_neg_pi_lt this (by linarith)
  · have : 0 < t := by
      have := (arctan_sign ((configure entity x).kLine * y)).2 (by nlinarith)
      rw [ht]; nlinarith
    exact sin_pos_of_pos_of_lt_pi this (by linarith)
  · rw [ht, hy]; simp

/-- **C133.**  Holding the heading brings the vehicle nearer to the leg without crossing it, as long as it is held for no
more than the distance 1/k: 100 m unless configured otherwise. -/
theorem C133_settles (entity : ℤ) (x : Xml) (o : Option ℝ) {p c : Pt} (h : c - p ≠ (0, 0)) {w : Wp} (hw : w.loiter = none)
    {s : ℝ} (h0 : 0 < s) (h1 : s * (configure entity x).kLine ≤ 1) :
    let hd := direction (guidance (configure entity x) o false (0, 0) p c w).1
    let y := rightOf (c - p) ((0, 0) - p)
    let y' := rightOf (c - p) ((s * hd.1, s * hd.2) - p)
    (0 < y → 0 ≤ y' ∧ y' < y) ∧ (y < 0 → y < y' ∧ y' ≤ 0) ∧ (y = 0 → y' = 0) := by
  intro hd y y'
  obtain ⟨hχ, hχ2, hk, _⟩ := configure_pos entity x
  obtain ⟨_, _, g1, g2, g3⟩ := C133_line entity x o h hw
  have hy' : y' = y + s * rightOf (c - p) hd := by
    show rightOf _ _ = rightOf _ _ + s * rightOf _ _
    unfold rightOf
    simp only [Prod.fst_sub, Prod.snd_sub]
    ring
  have hb : |rightOf (c - p) hd| ≤ (configure entity x).kLine * |y| := by
    have e : hd = (cos (lineCourse (configure entity x).courseInf (configure entity x).kLine false (0, 0) p c),
        sin (lineCourse (configure entity x).courseInf (configure entity x).kLine false (0, 0) p c)) := by
      show direction _ = _
      simp only [guidance, hw, direction_normalize]
    rw [lineCourse_eq _ _ h] at e
    rw [e]
    obtain ⟨f1, f2⟩ := turn_facts (configure entity x).kLine (y := y) hχ hχ2
    set t := -(2 * (configure entity x).courseInf / π) * arctan ((configure entity x).kLine * y) with ht
    rw [(components h t).2]
    have ha : |arctan ((configure entity x).kLine * y)| ≤ π / 2 :=
      (abs_lt.mpr ⟨neg_pi_div_two_lt_arctan _, arctan_lt_pi_div_two _⟩).le
    rw [abs_sin_eq (le_trans f2 ha)]
    calc sin |t| ≤ sin |arctan ((configure entity x).kLine * y)| :=
          sin_le_sin_of_le_of_le_pi_div_two (by linarith [abs_nonneg t, Real.pi_pos]) ha f2
      _ = |sin (arctan ((configure entity x).kLine * y))| := (abs_sin_eq ha).symm
      _ ≤ |(configure entity x).kLine * y| := sin_arctan_le _
      _ = _ := by rw [abs_mul, abs_of_pos hk]
  have hs : s * |rightOf (c - p) hd| ≤ |y| := by
    calc s * |rightOf (c - p) hd| ≤ s * ((configure entity x).kLine * |y|) := mul_le_mul_of_nonneg_left hb h0.le
      _ = s * (configure entity x).kLine * |y| := by ring
      _ ≤ 1 * |y| := mul_le_mul_of_nonneg_right h1 (abs_nonneg _)
      _ = |y| := one_mul _
  refine ⟨fun hy => ?_, fun hy => ?_, fun hy => ?_⟩
  · have hn := g1 hy
    rw [abs_of_neg hn, abs_of_pos hy] at hs
    rw [hy']
    have := mul_neg_of_pos_of_neg h0 hn
    constructor <;> linarith
  · have hn := g2 hy
    rw [abs_of_pos hn, abs_of_neg hy] at hs
    rw [hy']
    have := mul_pos h0 hn
    constructor <;> linarith
  · rw [hy, abs_zero] at hs
    have hz : s * |rightOf (c - p) hd| = 0 := le_antisymm hs (by positivity)
    have : rightOf (c - p) hd = 0 := by
      rcases mul_eq_zero.mp hz with h | h
      · exact absurd h h0.ne'
      · exact abs_eq_zero.mp h
    rw [hy', hy, this]; ring

/-- **C133.**  With the largest course angle not configured, the heading leads to the leg with a slope proportional to the
distance: over the distance flown along the leg the distance to it decays exponentially, at rate `k`. -/
theorem C133_slope (entity : ℤ) (x : Xml) (hx : x.maxCourse = none) (o : Option ℝ) {p c : Pt} (h : c - p ≠ (0, 0)) {w : Wp}
    (hw : w.loiter = none) :
    let hd := direction (guidance (configure entity x) o false (0, 0) p c w).1
    rightOf (c - p) hd = -(configure entity x).kLine * rightOf (c - p) ((0, 0) - p) * alongOf (c - p) hd := by
  simp only [guidance, hw, direction_normalize]
  rw [lineCourse_eq _ _ h]
  have hχ : (configure entity x).courseInf = π / 2 := by simp [configure, hx]
  obtain ⟨c1, c2⟩ := components h (-(2 * (configure entity x).courseInf / π) *
    arctan ((configure entity x).kLine * rightOf (c - p) ((0, 0) - p)))
  rw [c1, c2, hχ]
  have e : -(2 * (π / 2) / π) = (-1 : ℝ) := by
    have := Real.pi_ne_zero
    field_simp
  rw [e, neg_one_mul, sin_neg, cos_neg, sin_arctan, cos_arctan]
  ring

/-- **C133.**  At the end of the route, and on the way to a first waypoint to which nothing leads, the heading points straight
at the waypoint. -/
theorem C133_straight (cfg : Config) (o : Option ℝ) (l : Bool) {p c : Pt} (hl : l = true ∨ p = (0, 0)) (h : c ≠ (0, 0)) {w : Wp}
    (hw : w.loiter = none) :
    direction (guidance cfg o l (0, 0) p c w).1 = (c.1 / len c, c.2 / len c) := by
  have e : lineCourse cfg.courseInf cfg.kLine l (0, 0) p c = atan2 c := by
    have hp : (if l = true then ((0, 0) : Pt) else p) = (0, 0) := by
      rcases hl with rfl | rfl
      · simp
      · split <;> rfl
    unfold lineCourse
    simp only [hp]
    have h0 : c - ((0, 0) : Pt) = c := by ext <;> simp
    have h1 : ((0, 0) : Pt) - ((0, 0) : Pt) = (0, 0) := by ext <;> simp
    rw [h0, h1]
    simp [dot]
  simp only [guidance, hw, direction_normalize, e]
  obtain ⟨h1, h2⟩ := cos_atan2 h
  rw [h1, h2]

theorem orbit_components {r : Pt} (h : r ≠ (0, 0)) (a : ℝ) :
    (alongOf r (cos (atan2 r + π / 2 + a), sin (atan2 r + π / 2 + a)) = -sin a ∧
      rightOf r (cos (atan2 r + π / 2 + a), sin (atan2 r + π / 2 + a)) = cos a) ∧
    (alongOf r (cos (atan2 r - π / 2 - a), sin (atan2 r - π / 2 - a)) = -sin a ∧
      rightOf r (cos (atan2 r - π / 2 - a), sin (atan2 r - π / 2 - a)) = -cos a) := by
  have h1 := components h (a + π / 2)
  have h2 := components h (-(a + π / 2))
  rw [show a + π / 2 + atan2 r = atan2 r + π / 2 + a by ring, cos_add_pi_div_two, sin_add_pi_div_two] at h1
  rw [show -(a + π / 2) + atan2 r = atan2 r - π / 2 - a by ring, cos_neg, sin_neg, cos_add_pi_div_two,
    sin_add_pi_div_two] at h2
  exact ⟨h1, h2⟩

/-- **C133.**  On an orbit of positive radius the heading leads round the centre in the direction asked for (every direction
but clockwise is taken as counter-clockwise), outwards inside the orbit, inwards outside, and along the circle on it; `r` is
where the vehicle is, seen from the centre. -/
theorem C133_orbit (entity : ℤ) (x : Xml) (o : Option ℝ) (l : Bool) {p c : Pt} (h : c ≠ (0, 0)) {w : Wp} {lo : Loiter}
    (hw : w.loiter = some lo) (hr : 0 < lo.radius) :
    let hd := direction (guidance (configure entity x) o l (0, 0) p c w).1
    let r := (0, 0) - c
    (lo.dir = .clockwise → 0 < rightOf r hd) ∧ (lo.dir ≠ .clockwise → rightOf r hd < 0) ∧
    (lo.radius < len r → alongOf r hd < 0) ∧ (len r < lo.radius → 0 < alongOf r hd) ∧
    (len r = lo.radius → alongOf r hd = 0) ∧
    lo.radius * alongOf r hd = -(configure entity x).kOrbit * (len r - lo.radius) * |rightOf r hd| := by
  obtain ⟨_, _, _, hk⟩ := configure_pos entity x
  simp only [guidance, hw, direction_normalize]
  set r : Pt := (0, 0) - c with hrd
  have hr0 : r ≠ (0, 0) := by
    intro hh
    apply h
    rw [hrd] at hh
    have h1 := congrArg Prod.fst hh
    have h2 := congrArg Prod.snd hh
    simp at h1 h2
    exact Prod.ext h1 h2
  set a := arctan ((configure entity x).kOrbit * (len r - lo.radius) / lo.radius) with ha
  have hcos : 0 < cos a := cos_arctan_pos _
  have key : alongOf r (cos (orbitCourse (configure entity x).kOrbit lo (0, 0) c),
        sin (orbitCourse (configure entity x).kOrbit lo (0, 0) c)) = -sin a ∧
      ((lo.dir = .clockwise → rightOf r (cos (orbitCourse (configure entity x).kOrbit lo (0, 0) c),
        sin (orbitCourse (configure entity x).kOrbit lo (0, 0) c)) = cos a) ∧
      (lo.dir ≠ .clockwise → rightOf r (cos (orbitCourse (configure entity x).kOrbit lo (0, 0) c),
        sin (orbitCourse (configure entity x).kOrbit lo (0, 0) c)) = -cos a)) := by
    obtain ⟨⟨c1, c2⟩, c3, c4⟩ := orbit_components hr0 a
    have ht : orbitTurn (configure entity x).kOrbit (mag r) lo.radius = a := by
      unfold orbitTurn
      rw [if_neg hr.ne', mag_eq]
    unfold orbitCourse
    simp only
    rw [← hrd, ht]
    cases lo.dir with
    | clockwise => exact ⟨c1, fun _ => c2, fun hh => absurd rfl hh⟩
    | counterClockwise => exact ⟨c3, (fun hh => by cases hh), fun _ => c4⟩
    | vehicleDefault => exact ⟨c3, (fun hh => by cases hh), fun _ => c4⟩
  obtain ⟨k1, k2, k3⟩ := key
  rw [k1]
  have hpi := Real.pi_pos
  have hlo := neg_pi_div_two_lt_arctan ((configure entity x).kOrbit * (len r - lo.radius) / lo.radius)
  have hhi := arctan_lt_pi_div_two ((configure entity x).kOrbit * (len r - lo.radius) / lo.radius)
  rw [← ha] at hlo hhi
  refine ⟨fun hd => by rw [k2 hd]; exact hcos, fun hd => by rw [k3 hd]; linarith, fun hh => ?_, fun hh => ?_, fun hh => ?_, ?_⟩
  · have : 0 < a := (arctan_sign _).1 (by
      apply div_pos _ hr
      exact mul_pos hk (by linarith))
    have := sin_pos_of_pos_of_lt_pi this (by linarith)
    linarith
  · have : a < 0 := (arctan_sign _).2 (by
      apply div_neg_of_neg_of_pos _ hr
      exact mul_neg_of_pos_of_neg hk (by linarith))
    have := sin_neg_of_neg_of_neg_pi_lt this (by linarith)
    linarith
  · rw [ha, hh]; simp
  · have habs : |rightOf r (cos (orbitCourse (configure entity x).kOrbit lo (0, 0) c),
        sin (orbitCourse (configure entity x).kOrbit lo (0, 0) c))| = cos a := by
      by_cases hd : lo.dir = .clockwise
      · rw [k2 hd, abs_of_pos hcos]
      · rw [k3 hd, abs_neg, abs_of_pos hcos]
    rw [habs]
    have hsin : sin a = (configure entity x).kOrbit * (len r - lo.radius) / lo.radius * cos a := by
      rw [ha, sin_arctan, cos_arctan]; ring
    rw [hsin]
    field_simp

/-- **C133.**  A loiter of radius 0 is flown straight at its centre. -/
theorem C133_point (cfg : Config) (o : Option ℝ) (l : Bool) {p c : Pt} (h : c ≠ (0, 0)) {w : Wp} {lo : Loiter}
    (hw : w.loiter = some lo) (hr : lo.radius = 0) :
    alongOf ((0, 0) - c) (direction (guidance cfg o l (0, 0) p c w).1) = -1 := by
  simp only [guidance, hw, direction_normalize]
  have hr0 : (0, 0) - c ≠ (0, 0) := by
    intro hh
    apply h
    have h1 := congrArg Prod.fst hh
    have h2 := congrArg Prod.snd hh
    simp at h1 h2
    exact Prod.ext h1 h2
  obtain ⟨⟨c1, _⟩, c3, _⟩ := orbit_components hr0 (π / 2)
  unfold orbitCourse orbitTurn
  simp only [if_pos hr]
  cases lo.dir with
  | clockwise => simp only; rw [c1, sin_pi_div_two]
  | counterClockwise => simp only; rw [c3, sin_pi_div_two]
  | vehicleDefault => simp only; rw [c3, sin_pi_div_two]

/-- **C133 is violated** for a negative radius: wherever the vehicle is, the heading leads away from the centre. -/
theorem C133_radius_violated (entity : ℤ) (x : Xml) (o : Option ℝ) (l : Bool) {p c : Pt} (h : c ≠ (0, 0)) {w : Wp}
    {lo : Loiter} (hw : w.loiter = some lo) (hr : lo.radius < 0) :
    0 < alongOf ((0, 0) - c) (direction (guidance (configure entity x) o l (0, 0) p c w).1) := by
  obtain ⟨_, _, _, hk⟩ := configure_pos entity x
  simp only [guidance, hw, direction_normalize]
  have hr0 : (0, 0) - c ≠ (0, 0) := by
    intro hh
    apply h
    have h1 := congrArg Prod.fst hh
    have h2 := congrArg Prod.snd hh
    simp at h1 h2
    exact Prod.ext h1 h2
  have hl0 := len_pos hr0
  set a := arctan ((configure entity x).kOrbit * (len ((0, 0) - c) - lo.radius) / lo.radius) with ha
  have hneg : a < 0 := (arctan_sign _).2 (by
    apply div_neg_of_pos_of_neg _ hr
    exact mul_pos hk (by linarith))
  have hlo := neg_pi_div_two_lt_arctan ((configure entity x).kOrbit * (len ((0, 0) - c) - lo.radius) / lo.radius)
  rw [← ha] at hlo
  have hs := sin_neg_of_neg_of_neg_pi_lt hneg (by linarith [Real.pi_pos])
  obtain ⟨⟨c1, _⟩, c3, _⟩ := orbit_components hr0 a
  have ht : orbitTurn (configure entity x).kOrbit (mag ((0, 0) - c)) lo.radius = a := by
    unfold orbitTurn
    rw [if_neg hr.ne, mag_eq]
  unfold orbitCourse
  simp only
  rw [ht]
  cases lo.dir with
  | clockwise => simp only; rw [c1]; linarith
  | counterClockwise => simp only; rw [c3]; linarith
  | vehicleDefault => simp only; rw [c3]; linarith

end Verif.Steering
