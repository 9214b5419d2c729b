import Verif.Earth.Model
import Mathlib.Analysis.SpecialFunctions.Sqrt
import Mathlib.Analysis.SpecialFunctions.Trigonometric.Deriv

/-!
# C127: north and east

What the conversions between latitude/longitude and north/east compute, after any history of calls.
-/

namespace Verif.Earth

open Real

/-! ## Specification -/

/-- Radius of the parallel at geodetic latitude `φ` of an ellipsoid with equatorial radius `R` and squared eccentricity `E`. -/
noncomputable def parallel (R E φ : ℝ) : ℝ := R * cos φ / √(1 - E * sin φ * sin φ)

/-- Height above the plane of the equator. -/
noncomputable def height (R E φ : ℝ) : ℝ := R * (1 - E) * sin φ / √(1 - E * sin φ * sin φ)

/-- Radius of curvature of the meridian. -/
noncomputable def meridian (R E φ : ℝ) : ℝ :=
  R * (1 - E) / (√(1 - E * sin φ * sin φ) * √(1 - E * sin φ * sin φ) * √(1 - E * sin φ * sin φ))

/-- Radians in an angle given in the unit. -/
noncomputable def radians (a : Angle) (x : ℝ) : ℝ :=
  match a with
  | .rad => x
  | .deg => x * (1745329251994 / 100000000000000)

/-- The position a call brings, in radians, if it brings one. -/
noncomputable def brings : Call → Option (ℝ × ℝ)
  | .setOrigin lat lon => some (lat, lon)
  | .toNorthEast a _ p => some (radians a p.1, radians a p.2)
  | .toLatLong _ _ _ => none
  | .distance a p _ => some (radians a p.1, radians a p.2)

/-- The first position brought. -/
noncomputable def origin (cs : List Call) : Option (ℝ × ℝ) := cs.findSome? brings

/-! ## Lemmas -/

theorem toRad_eq (a : Angle) (x : ℝ) : a.toRad x = radians a x := by
  cases a <;> simp [Angle.toRad, radians, degToRad]

/-- The quantity below the root. -/
noncomputable def under (φ : ℝ) : ℝ := 1 - ecc2 * sin φ * sin φ

theorem flat_eq (φ : ℝ) : flat φ = under φ := by
  unfold flat under
  rw [Real.rpow_two]; ring

theorem under_pos (φ : ℝ) : 0 < under φ := by
  unfold under ecc2
  have := sin_sq_add_cos_sq φ
  have h2 := sq_nonneg (cos φ)
  nlinarith

theorem half_eq (x : ℝ) : x ^ ((1 : ℝ) / 2) = √x := (Real.sqrt_eq_rpow x).symm

theorem threeHalves_eq {x : ℝ} (h : 0 < x) : x ^ ((3 : ℝ) / 2) = √x * √x * √x := by
  have : (3 : ℝ) / 2 = 1 + 1 / 2 := by norm_num
  rw [this, Real.rpow_add h, Real.rpow_one, half_eq, Real.mul_self_sqrt h.le]

/-- The state with a given origin. -/
noncomputable def at_ (o : ℝ × ℝ) : Earth :=
  { lat0 := o.1, lon0 := o.2, meridional := meridian radiusEquatorial ecc2 o.1,
    transverse := radiusEquatorial / √(under o.1), small := parallel radiusEquatorial ecc2 o.1, init := true }

theorem initialize_new (asserts : Bool) (lat lon : ℝ) :
    ({} : Earth).initialize asserts lat lon = .ok (at_ (lat, lon)) := by
  have h := under_pos lat
  have hs : 0 < √(under lat) := Real.sqrt_pos.mpr h
  unfold Earth.initialize
  simp only [flat_eq, threeHalves_eq h, half_eq, quot]
  have h3 : 0 < √(under lat) * √(under lat) * √(under lat) := by positivity
  rw [if_neg (by simp), if_neg (by rintro ⟨_, h' | h'⟩ <;> linarith), if_neg (not_le.mpr h3), if_neg (not_le.mpr hs)]
  simp only [at_, meridian, parallel, under]
  congr 2
  ring

theorem initialize_at (asserts : Bool) (o : ℝ × ℝ) (lat lon : ℝ) :
    (at_ o).initialize asserts lat lon = .ok (at_ o) := by
  have h : (at_ o).init = true := rfl
  unfold Earth.initialize
  rw [if_pos h]

theorem toNorthEast_at (asserts : Bool) (a : Angle) (l : Length) (o p : ℝ × ℝ) :
    (at_ o).toNorthEast asserts a l p =
      .ok (at_ o, l.ofM (meridian radiusEquatorial ecc2 o.1 * (radians a p.1 - o.1)),
        l.ofM (parallel radiusEquatorial ecc2 o.1 * (radians a p.2 - o.2))) := by
  unfold Earth.toNorthEast
  simp only [initialize_at, Outcome.bind_ok, toRad_eq]
  rfl

theorem toNorthEast_new (asserts : Bool) (a : Angle) (l : Length) (p : ℝ × ℝ) :
    ({} : Earth).toNorthEast asserts a l p =
      (at_ (radians a p.1, radians a p.2)).toNorthEast asserts a l p := by
  rw [toNorthEast_at]
  unfold Earth.toNorthEast
  simp only [initialize_new, Outcome.bind_ok, toRad_eq]
  rfl

theorem toNorthEast_fst {asserts : Bool} {a : Angle} {l : Length} {o p : ℝ × ℝ} {r : Earth × ℝ × ℝ}
    (h : (at_ o).toNorthEast asserts a l p = .ok r) : r.1 = at_ o := by
  rw [toNorthEast_at] at h
  cases h; rfl

theorem distance_at (asserts : Bool) (a : Angle) (o p q : ℝ × ℝ) :
    (at_ o).distance asserts a p q =
      .ok (at_ o, √((meridian radiusEquatorial ecc2 o.1 * (radians a q.1 - radians a p.1)) ^ 2
        + (parallel radiusEquatorial ecc2 o.1 * (radians a q.2 - radians a p.2)) ^ 2)) := by
  unfold Earth.distance
  simp only [toNorthEast_at, Outcome.bind_ok, Length.ofM, half_eq, Real.rpow_two]
  congr 4 <;> ring

theorem distance_new (asserts : Bool) (a : Angle) (p q : ℝ × ℝ) :
    ({} : Earth).distance asserts a p q = (at_ (radians a p.1, radians a p.2)).distance asserts a p q := by
  unfold Earth.distance
  rw [toNorthEast_new]

theorem after_at {asserts : Bool} {o : ℝ × ℝ} {c : Call} {e : Earth} (h : (at_ o).after asserts c = .ok e) :
    e = at_ o := by
  cases c with
  | setOrigin lat lon =>
    simp only [Earth.after, initialize_at] at h
    cases h; rfl
  | toNorthEast a l p =>
    simp only [Earth.after, toNorthEast_at, Outcome.bind_ok] at h
    cases h; rfl
  | toLatLong l a q =>
    obtain ⟨_, _, h⟩ := Outcome.bind_eq_ok.mp h
    cases h; rfl
  | distance a p q =>
    simp only [Earth.after, distance_at, Outcome.bind_ok] at h
    cases h; rfl

theorem after_new {asserts : Bool} {c : Call} {e : Earth} (h : ({} : Earth).after asserts c = .ok e) :
    e = match brings c with
      | none => {}
      | some o => at_ o := by
  cases c with
  | setOrigin lat lon =>
    simp only [Earth.after, initialize_new] at h
    cases h; rfl
  | toNorthEast a l p =>
    simp only [Earth.after, toNorthEast_new, toNorthEast_at, Outcome.bind_ok] at h
    cases h; rfl
  | toLatLong l a q =>
    obtain ⟨_, _, h⟩ := Outcome.bind_eq_ok.mp h
    cases h; rfl
  | distance a p q =>
    simp only [Earth.after, distance_new, distance_at, Outcome.bind_ok] at h
    cases h; rfl

theorem run_at {asserts : Bool} {o : ℝ × ℝ} : ∀ {cs : List Call} {e : Earth},
    run asserts cs (at_ o) = .ok e → e = at_ o
  | [], _, h => by cases h; rfl
  | c :: cs, e, h => by
    obtain ⟨e1, h1, h2⟩ := Outcome.bind_eq_ok.mp h
    rw [after_at h1] at h2
    exact run_at h2

theorem run_new {asserts : Bool} : ∀ {cs : List Call} {e : Earth}, run asserts cs {} = .ok e →
    e = match origin cs with
      | none => {}
      | some o => at_ o
  | [], _, h => by cases h; rfl
  | c :: cs, e, h => by
    obtain ⟨e1, h1, h2⟩ := Outcome.bind_eq_ok.mp h
    have h3 := after_new h1
    unfold origin
    rw [List.findSome?_cons]
    cases hb : brings c with
    | none =>
      rw [hb] at h3
      subst h3
      exact run_new h2
    | some o =>
      rw [hb] at h3
      subst h3
      exact run_at h2

theorem meridian_pos (φ : ℝ) : 0 < meridian radiusEquatorial ecc2 φ := by
  have hs : 0 < √(under φ) := Real.sqrt_pos.mpr (under_pos φ)
  unfold meridian
  apply div_pos
  · unfold radiusEquatorial ecc2; norm_num
  · exact mul_pos (mul_pos hs hs) hs

theorem parallel_pos {φ : ℝ} (h : 0 < cos φ) : 0 < parallel radiusEquatorial ecc2 φ := by
  have hs : 0 < √(under φ) := Real.sqrt_pos.mpr (under_pos φ)
  unfold parallel
  apply div_pos _ hs
  unfold radiusEquatorial
  positivity

theorem toLatLong_at (asserts : Bool) (l : Length) (a : Angle) {o : ℝ × ℝ} (ho : 0 < cos o.1) (q : ℝ × ℝ) :
    (at_ o).toLatLong asserts l a q =
      .ok (a.ofRad (l.toM q.1 / meridian radiusEquatorial ecc2 o.1 + o.1),
        a.ofRad (l.toM q.2 / parallel radiusEquatorial ecc2 o.1 + o.2)) := by
  have h1 : 0 < (at_ o).meridional := meridian_pos o.1
  have h2 : 0 < (at_ o).small := parallel_pos ho
  unfold Earth.toLatLong back
  rw [if_neg (by rintro ⟨_, h' | h'⟩ <;> linarith), if_neg (not_le.mpr h1), if_neg (not_le.mpr h2)]
  rfl

/-! ## Theorems -/

/-- **C127.**  After any calls on a new object the origin is the first position given to it, by `Initialize`, by a
conversion or by a distance, and stays so whatever positions follow: north is the latitude beyond the origin's times the
radius of curvature of the meridian at the origin, east is the longitude beyond the origin's times the radius of the parallel
at the origin, in the unit asked for.  The conversion never fails and leaves the origin. -/
theorem C127_origin {asserts : Bool} {cs : List Call} {e : Earth} {o : ℝ × ℝ} (h : run asserts cs {} = .ok e)
    (ho : origin cs = some o) (a : Angle) (l : Length) (p : ℝ × ℝ) :
    let unit : ℝ := match l with
      | .m => 1
      | .ft => 3280839895 / 1000000000
    e.toNorthEast asserts a l p =
      .ok (e, meridian 6378135 (6694379990096503 / 10 ^ 18) o.1 * (radians a p.1 - o.1) * unit,
        parallel 6378135 (6694379990096503 / 10 ^ 18) o.1 * (radians a p.2 - o.2) * unit) := by
  have he := run_new h
  rw [ho] at he
  subst he
  rw [toNorthEast_at]
  have h1 : radiusEquatorial = 6378135 := rfl
  have h2 : ecc2 = 6694379990096503 / 10 ^ 18 := by unfold ecc2; norm_num
  rw [h1, h2]
  cases l <;> simp [Length.ofM, mToFt]

/-- **C127.**  The two radii are those of the ellipsoid of revolution with the given equatorial radius and eccentricity:
for every latitude `φ` the point at distance `parallel φ` from the axis and `height φ` above the equator lies on the
ellipse, the normal there makes the angle `φ` with the plane of the equator, and a change of latitude moves the point along
the meridian at the rate `meridian φ`, northwards. -/
theorem C127_ellipsoid {R E : ℝ} (hR : 0 < R) (h0 : 0 ≤ E) (h1 : E < 1) (φ : ℝ) :
    (parallel R E φ) ^ 2 / R ^ 2 + (height R E φ) ^ 2 / (R ^ 2 * (1 - E)) = 1 ∧
    parallel R E φ / R ^ 2 * sin φ = height R E φ / (R ^ 2 * (1 - E)) * cos φ ∧
    HasDerivAt (parallel R E) (meridian R E φ * -sin φ) φ ∧
    HasDerivAt (height R E) (meridian R E φ * cos φ) φ := by
  have hw : 0 < 1 - E * sin φ * sin φ := by
    have := sin_sq_add_cos_sq φ
    have h2 := sq_nonneg (cos φ)
    nlinarith
  have hs : 0 < √(1 - E * sin φ * sin φ) := Real.sqrt_pos.mpr hw
  have hsq : √(1 - E * sin φ * sin φ) ^ 2 = 1 - E * sin φ * sin φ := Real.sq_sqrt hw.le
  have hE : 0 < 1 - E := by linarith
  have hc := sin_sq_add_cos_sq φ
  have hd : HasDerivAt (fun φ => √(1 - E * sin φ * sin φ))
      (-(E * cos φ * sin φ + E * sin φ * cos φ) / (2 * √(1 - E * sin φ * sin φ))) φ := by
    have hi : HasDerivAt (fun φ => 1 - E * sin φ * sin φ) (-(E * cos φ * sin φ + E * sin φ * cos φ)) φ :=
      (((hasDerivAt_sin φ).const_mul E).mul (hasDerivAt_sin φ)).const_sub 1
    exact hi.sqrt hw.ne'
  have hp := ((hasDerivAt_cos φ).const_mul R).div hd hs.ne'
  have hh := ((hasDerivAt_sin φ).const_mul (R * (1 - E))).div hd hs.ne'
  refine ⟨?_, ?_, hp.congr_deriv ?_, hh.congr_deriv ?_⟩ <;> simp only [parallel, height, meridian] <;>
    generalize √(1 - E * sin φ * sin φ) = w at hs hsq <;> clear hd hp hh <;>
    generalize hx : cos φ = x at hc <;> generalize hy : sin φ = y at hw hsq hc
  · field_simp
    rw [hsq]
    linear_combination hc
  · field_simp
  · field_simp
    rw [hsq]
    linear_combination (2 * y * E) * hc
  · field_simp
    rw [hsq]
    ring

/-- **C127.**  In radians and metres the two conversions are each other's inverse, whatever calls came before, if the
origin is not at a pole (its latitude has a positive cosine).  With assertions or without, neither fails. -/
theorem C127_inverse {asserts : Bool} {cs : List Call} {e : Earth} {o : ℝ × ℝ} (h : run asserts cs {} = .ok e)
    (ho : origin cs = some o) (hpole : 0 < cos o.1) :
    (∀ p, ∃ q, e.toNorthEast asserts .rad .m p = .ok (e, q) ∧ e.toLatLong asserts .m .rad q = .ok p) ∧
    (∀ q, ∃ p, e.toLatLong asserts .m .rad q = .ok p ∧ e.toNorthEast asserts .rad .m p = .ok (e, q)) := by
  have he := run_new h
  rw [ho] at he
  subst he
  have hm := (meridian_pos o.1).ne'
  have hq := (parallel_pos hpole).ne'
  constructor
  · intro p
    refine ⟨_, toNorthEast_at .., ?_⟩
    rw [toLatLong_at _ _ _ hpole]
    simp only [Angle.ofRad, Length.toM, Length.ofM, radians, mul_div_cancel_left₀ _ hm, mul_div_cancel_left₀ _ hq,
      sub_add_cancel]
  · intro q
    refine ⟨_, toLatLong_at _ _ _ hpole q, ?_⟩
    rw [toNorthEast_at]
    simp only [Angle.ofRad, Length.toM, Length.ofM, radians, add_sub_cancel_right, mul_div_cancel₀ _ hm,
      mul_div_cancel₀ _ hq]

theorem back_error (a : Angle) (l : Length) {r : ℝ} (hr : r ≠ 0) (x o : ℝ) :
    |a.ofRad (l.toM (l.ofM (r * (radians a x - o))) / r + o) - x| ≤
      1 / 5000000000000 * |x| + 1 / 200000000000 * |a.ofRad (radians a x - o)| := by
  have h1 : l.toM (l.ofM (r * (radians a x - o))) / r + o
      = radians a x - (1 - l.toM (l.ofM 1)) * (radians a x - o) := by
    cases l
    · simp only [Length.toM, Length.ofM]
      field_simp
      ring
    · simp only [Length.toM, Length.ofM]
      field_simp
      ring
  have hk : |1 - l.toM (l.ofM 1)| ≤ 1 / 200000000000 := by
    cases l
    · simp [Length.toM, Length.ofM]
    · simp only [Length.toM, Length.ofM, mToFt, ftToM]
      rw [abs_le]
      constructor <;> norm_num
  have h2 : |a.ofRad (radians a x) - x| ≤ 1 / 5000000000000 * |x| := by
    cases a
    · simp only [Angle.ofRad, radians, sub_self, abs_zero]
      positivity
    · simp only [Angle.ofRad, radians, radToDeg]
      have : x * (1745329251994 / 100000000000000) * (5729577951308232 / 100000000000000) - x
          = -(1 - 1745329251994 / 100000000000000 * (5729577951308232 / 100000000000000)) * x := by ring
      rw [this, abs_mul, abs_neg]
      apply mul_le_mul_of_nonneg_right _ (abs_nonneg x)
      rw [abs_le]
      constructor <;> norm_num
  have h3 : a.ofRad (radians a x - (1 - l.toM (l.ofM 1)) * (radians a x - o))
      = a.ofRad (radians a x) - (1 - l.toM (l.ofM 1)) * a.ofRad (radians a x - o) := by
    cases a <;> simp only [Angle.ofRad] <;> ring
  rw [h1, h3]
  have h4 : a.ofRad (radians a x) - (1 - l.toM (l.ofM 1)) * a.ofRad (radians a x - o) - x
      = (a.ofRad (radians a x) - x) - (1 - l.toM (l.ofM 1)) * a.ofRad (radians a x - o) := by ring
  rw [h4]
  refine (abs_sub _ _).trans (add_le_add h2 ?_)
  rw [abs_mul]
  exact mul_le_mul_of_nonneg_right hk (abs_nonneg _)

/-- **C127.**  In any units, converting a position and converting it back changes each coordinate by at most 2 parts in
10^13 of it plus 5 parts in 10^12 of its distance from the origin, in the unit of the position: the constants for degrees
and for feet are each other's inverse only up to that. -/
theorem C127_units_partial {asserts : Bool} {cs : List Call} {e : Earth} {o : ℝ × ℝ} (h : run asserts cs {} = .ok e)
    (ho : origin cs = some o) (hpole : 0 < cos o.1) (a : Angle) (l : Length) (p : ℝ × ℝ) :
    ∃ q p', e.toNorthEast asserts a l p = .ok (e, q) ∧ e.toLatLong asserts l a q = .ok p' ∧
      |p'.1 - p.1| ≤ 1 / 5000000000000 * |p.1| + 1 / 200000000000 * |a.ofRad (radians a p.1 - o.1)| ∧
      |p'.2 - p.2| ≤ 1 / 5000000000000 * |p.2| + 1 / 200000000000 * |a.ofRad (radians a p.2 - o.2)| := by
  have he := run_new h
  rw [ho] at he
  subst he
  exact ⟨_, _, toNorthEast_at .., toLatLong_at _ _ _ hpole _,
    back_error a l (meridian_pos o.1).ne' _ _, back_error a l (parallel_pos hpole).ne' _ _⟩

/-- **C127.**  Before any position was given, converting north and east to a latitude and a longitude stops a program
compiled with assertions, and answers 0, 0 otherwise, whatever the arguments. -/
theorem C127_unset {asserts : Bool} {cs : List Call} {e : Earth} (h : run asserts cs {} = .ok e)
    (ho : origin cs = none) (l : Length) (a : Angle) (q : ℝ × ℝ) :
    e.toLatLong asserts l a q = if asserts then .throws else .ok (0, 0) := by
  have he := run_new h
  rw [ho] at he
  subst he
  unfold Earth.toLatLong back
  cases asserts <;> simp

/-- **C127.**  Once there is an origin, distances are a metric on latitudes and longitudes: the distance does not fail and
does not change the origin; it is never negative, zero exactly between equal positions, the same in both directions, and no
longer than the way over a third position. -/
theorem C127_metric {asserts : Bool} {cs : List Call} {e : Earth} {o : ℝ × ℝ} (h : run asserts cs {} = .ok e)
    (ho : origin cs = some o) (hpole : 0 < cos o.1) (a : Angle) :
    ∃ d : ℝ × ℝ → ℝ × ℝ → ℝ, (∀ p q, e.distance asserts a p q = .ok (e, d p q)) ∧
      (∀ p q, 0 ≤ d p q) ∧ (∀ p q, d p q = 0 ↔ p = q) ∧ (∀ p q, d p q = d q p) ∧
      (∀ p q r, d p r ≤ d p q + d q r) ∧
      (∀ p q, d p q ^ 2 = (meridian 6378135 (6694379990096503 / 10 ^ 18) o.1 * (radians a q.1 - radians a p.1)) ^ 2
        + (parallel 6378135 (6694379990096503 / 10 ^ 18) o.1 * (radians a q.2 - radians a p.2)) ^ 2) := by
  have he := run_new h
  rw [ho] at he
  subst he
  have hm := meridian_pos o.1
  have hp := parallel_pos hpole
  have e1 : radiusEquatorial = 6378135 := rfl
  have e2 : ecc2 = 6694379990096503 / 10 ^ 18 := by unfold ecc2; norm_num
  rw [e1, e2] at hm hp
  have hi : ∀ x y, radians a x = radians a y ↔ x = y := by
    intro x y
    cases a <;> simp [radians]
  refine ⟨_, fun p q => distance_at asserts a o p q, fun p q => Real.sqrt_nonneg _, ?_, ?_, ?_, ?_⟩
  all_goals rw [e1, e2]
  · intro p q
    rw [Real.sqrt_eq_zero (by positivity)]
    constructor
    · intro h0
      have h1 := sq_nonneg (meridian 6378135 (6694379990096503 / 10 ^ 18) o.1 * (radians a q.1 - radians a p.1))
      have h2 := sq_nonneg (parallel 6378135 (6694379990096503 / 10 ^ 18) o.1 * (radians a q.2 - radians a p.2))
      have h3 := pow_eq_zero_iff (two_ne_zero) |>.mp (show (meridian 6378135 (6694379990096503 / 10 ^ 18) o.1 *
        (radians a q.1 - radians a p.1)) ^ 2 = 0 by linarith)
      have h4 := pow_eq_zero_iff (two_ne_zero) |>.mp (show (parallel 6378135 (6694379990096503 / 10 ^ 18) o.1 *
        (radians a q.2 - radians a p.2)) ^ 2 = 0 by linarith)
      have h5 := (mul_eq_zero.mp h3).resolve_left hm.ne'
      have h6 := (mul_eq_zero.mp h4).resolve_left hp.ne'
      exact (Prod.ext ((hi _ _).mp (sub_eq_zero.mp h5)) ((hi _ _).mp (sub_eq_zero.mp h6))).symm
    · rintro rfl
      simp
  · intro p q
    congr 1
    ring
  · intro p q r
    apply Real.sqrt_le_iff.mpr
    refine ⟨by positivity, ?_⟩
    set M := meridian 6378135 (6694379990096503 / 10 ^ 18) o.1
    set P := parallel 6378135 (6694379990096503 / 10 ^ 18) o.1
    set x1 := M * (radians a q.1 - radians a p.1)
    set y1 := P * (radians a q.2 - radians a p.2)
    set x2 := M * (radians a r.1 - radians a q.1)
    set y2 := P * (radians a r.2 - radians a q.2)
    have hx : M * (radians a r.1 - radians a p.1) = x1 + x2 := by simp only [x1, x2]; ring
    have hy : P * (radians a r.2 - radians a p.2) = y1 + y2 := by simp only [y1, y2]; ring
    rw [hx, hy]
    have s1 : √(x1 ^ 2 + y1 ^ 2) ^ 2 = x1 ^ 2 + y1 ^ 2 := Real.sq_sqrt (by positivity)
    have s2 : √(x2 ^ 2 + y2 ^ 2) ^ 2 = x2 ^ 2 + y2 ^ 2 := Real.sq_sqrt (by positivity)
    have hcs : x1 * x2 + y1 * y2 ≤ √(x1 ^ 2 + y1 ^ 2) * √(x2 ^ 2 + y2 ^ 2) := by
      rw [← Real.sqrt_mul (by positivity)]
      apply Real.le_sqrt_of_sq_le
      nlinarith [sq_nonneg (x1 * y2 - x2 * y1)]
    nlinarith
  · intro p q
    exact Real.sq_sqrt (by positivity)

/-! ## What does not hold, and examples -/

theorem run_origin (asserts : Bool) (o : ℝ × ℝ) : run asserts [.setOrigin o.1 o.2] {} = .ok (at_ o) := by
  simp only [run, Earth.after, initialize_new, Outcome.bind_ok]

/-- Four calls: a distance sets the origin, later positions do not move it. -/
example : ∃ e, run true [.distance .rad (1, 2) (3, 4), .setOrigin 5 6, .toLatLong .ft .deg (1, 1),
    .toNorthEast .deg .ft (7, 8)] {} = .ok e ∧
    origin [.distance .rad (1, 2) (3, 4), .setOrigin 5 6, .toLatLong .ft .deg (1, 1), .toNorthEast .deg .ft (7, 8)]
      = some (1, 2) ∧ 0 < cos (1 : ℝ) := by
  refine ⟨at_ (1, 2), ?_, rfl, cos_one_pos⟩
  simp only [run, Earth.after, distance_new, distance_at, initialize_at, toNorthEast_at, radians, Outcome.bind_ok,
    toLatLong_at true .ft .deg (o := (1, 2)) cos_one_pos]

/-- A conversion before any position, without assertions. -/
example : run false [.toLatLong .m .rad (1, 1)] {} = .ok {} ∧ origin [.toLatLong .m .rad (1, 1)] = none := by
  constructor
  · simp [run, Earth.after, Earth.toLatLong]
  · rfl

/-- **C127.**  In degrees the round trip is not exact, even without rounding: the constants for degrees and radians are not
each other's inverse. -/
theorem C127_degrees_violated (asserts : Bool) : ∃ e q p', run asserts [.setOrigin 0 0] {} = .ok e ∧
    e.toNorthEast asserts .deg .m (45, 0) = .ok (e, q) ∧ e.toLatLong asserts .m .deg q = .ok p' ∧ p'.1 < 45 := by
  have hp : (0 : ℝ) < cos ((0 : ℝ), (0 : ℝ)).1 := by simp
  refine ⟨_, _, _, run_origin asserts (0, 0), toNorthEast_at .., toLatLong_at _ _ _ hp _, ?_⟩
  simp only [Length.toM, Length.ofM, Angle.ofRad, radians, sub_zero, add_zero, radToDeg,
    mul_div_cancel_left₀ _ (meridian_pos 0).ne']
  norm_num

/-- **C127.**  The distance between two positions depends on the first position ever given, however far away: with the
origin on the equator, positions one radian apart on the equator are 6378135 m apart; with the origin at 60 degrees north,
less than 3200000 m.  For `CUnitConversions` the first position given is that of any user in the process. -/
theorem C127_history_violated (asserts : Bool) :
    (∃ e, run asserts [.setOrigin 0 0] {} = .ok e ∧
      e.distance asserts .rad (0, 0) (0, 1) = .ok (e, 6378135)) ∧
    (∃ e d, run asserts [.setOrigin (π / 3) 0, .setOrigin 0 0] {} = .ok e ∧
      e.distance asserts .rad (0, 0) (0, 1) = .ok (e, d) ∧ d < 3200000) := by
  constructor
  · refine ⟨_, run_origin asserts (0, 0), ?_⟩
    rw [distance_at]
    simp [radians, parallel, radiusEquatorial]
  · refine ⟨at_ (π / 3, 0), _, ?_, distance_at .., ?_⟩
    · simp only [run, Earth.after, initialize_new, initialize_at, Outcome.bind_ok]
    · have hs : sin (π / 3) * sin (π / 3) = 3 / 4 := by
        rw [sin_pi_div_three]
        have := Real.mul_self_sqrt (show (0 : ℝ) ≤ 3 by norm_num)
        nlinarith
      have hw : (0.997 : ℝ) < √(1 - ecc2 * sin (π / 3) * sin (π / 3)) := by
        apply Real.lt_sqrt_of_sq_lt
        rw [mul_assoc, hs]
        unfold ecc2
        norm_num
      have hp : parallel radiusEquatorial ecc2 (π / 3) < 3200000 := by
        unfold parallel
        rw [cos_pi_div_three, div_lt_iff₀ (by linarith)]
        unfold radiusEquatorial
        linarith
      have hp0 : 0 < parallel radiusEquatorial ecc2 (π / 3) := parallel_pos (by rw [cos_pi_div_three]; norm_num)
      simp only [radians, sub_self, sub_zero, mul_zero, mul_one, ne_eq, OfNat.ofNat_ne_zero, not_false_eq_true,
        zero_pow, zero_add, Real.sqrt_sq hp0.le]
      exact hp

/-- **C127.**  Longitudes are not taken modulo a full turn: there are two positions with the same latitude, whose longitudes
have the same sine and cosine (the same place, on the antimeridian), at a distance above 0. -/
theorem C127_antimeridian_violated (asserts : Bool) : ∃ e d, run asserts [.setOrigin 0 π] {} = .ok e ∧
    sin π = sin (-π) ∧ cos π = cos (-π) ∧ e.distance asserts .rad (0, π) (0, -π) = .ok (e, d) ∧ 0 < d := by
  refine ⟨_, _, run_origin asserts (0, π), by simp, by simp, distance_at .., ?_⟩
  apply Real.sqrt_pos.mpr
  have hp : 0 < parallel radiusEquatorial ecc2 0 := parallel_pos (by simp)
  have : (parallel radiusEquatorial ecc2 0 * (radians .rad (-π) - radians .rad π)) ≠ 0 := by
    apply mul_ne_zero hp.ne'
    simp only [radians]
    have := pi_pos
    linarith
  positivity

end Verif.Earth
