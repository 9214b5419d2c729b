import Verif.Common
import Verif.Escort.Along
import Verif.Stare.SortedMap

/-!
# Which point of a road a sensor looks at

`SensorSteering` and `SensorSteeringSegments`, src/cpp/Utilities/SensorSteering.{h,cpp}: as a
vehicle flies along its waypoints, the sensor is to look at the point as far along a road.

The plane is that of `Verif.Escort.Segment`: a complex number, east its real and north its
imaginary part.  Simplified throughout: real arithmetic in place of doubles, positions in metres
(the conversion is that of C127).
-/

namespace Verif.Stare

open Complex

/-- A position with its altitude: `n_FrameworkLib::CPosition`, src/cpp/Plans/Position.h 45-284. -/
structure Spot where
  at_ : ℂ
  alt : ℝ

/-- SensorSteering.cpp 46-60 and 64-72: `m_cumulativeDistance_m` of the points after the one at `p`. -/
noncomputable def distsFrom : ℝ → ℂ → List ℂ → List ℝ
  | _, _, [] => []
  | c, p, q :: l => (c + ‖q - p‖) :: distsFrom (c + ‖q - p‖) q l

/-- SensorSteering.cpp 46-60 and 64-72: `m_cumulativeDistance_m` of all the points.  For the first of a road it is not set
but is 0 from the construction (SensorSteering.h 76). -/
noncomputable def dists : List ℂ → List ℝ
  | [] => []
  | p :: l => 0 :: distsFrom 0 p l

/-- SensorSteering.cpp 50 and 68: the length summed up by the loop over the points. -/
noncomputable def total (l : List ℂ) : ℝ := (dists l).getLastD 0

/-- `static_cast<int64_t>` of a number that is not too large for it. -/
noncomputable def toInt (x : ℝ) : ℤ := if 0 ≤ x then ⌊x⌋ else ⌈x⌉

/-- SensorSteering.cpp 76-80: the key of a point of the road at the distance `c`, in thousandths. -/
noncomputable def roadKey (length c : ℝ) : ℤ := if 0 < length then toInt (c / length * 1000) else 0

/-- SensorSteering.h 84-93: the members. -/
structure Steering where
  /-- `m_idVsWaypoint`, with the distances. -/
  wps : List (ℤ × ℂ × ℝ)
  /-- `m_normFactorVsRoadpoint`. -/
  road : List (ℤ × Spot)
  /-- `m_waypointsLength_m`. -/
  length : ℝ

/-- SensorSteering.cpp 37-83: `Initialize`. -/
noncomputable def Steering.init (wps : List (ℤ × ℂ)) (road : List Spot) : Steering :=
  { wps := build ((wps.zip (dists (wps.map (·.2)))).map fun x => (x.1.1, x.1.2, x.2))
    road := build ((road.zip (dists (road.map (·.at_)))).map fun x => (roadKey (total (road.map (·.at_))) x.2, x.1))
    length := total (wps.map (·.2)) }

/-- What becomes of the location that is to be filled in. -/
inductive Stare where
  /-- It is left as it was: SensorSteering.cpp 139-142. -/
  | untouched
  /-- Its latitude and longitude are set to 0: lines 131-136. -/
  | nowhere
  /-- Its latitude and longitude are set: lines 113-117 and 135-136. -/
  | onto (z : ℂ)
  /-- All of it is set: lines 118-130 and 135-136. -/
  | wholly (p : Spot)

/-- SensorSteering.cpp 85-107: the thousandths of the way that are behind a vehicle at `pos` on the way to a waypoint,
`prev` the entry before it.  With both at the same place 0 is divided by 0 (line 104) and, unless the whole way has no
length, the quotient is cast to an integer (line 108): undefined behaviour.  Simplified: `float` is as the reals. -/
noncomputable def progress (s : Steering) (prev : Option (ℤ × ℂ × ℝ)) (w : ℤ × ℂ × ℝ) (pos : ℂ) : Outcome ℤ :=
  match prev with
  | none => .ok 0
  | some v =>
      let ab := w.2.1 - v.2.1
      let ap := pos - v.2.1
      let lengthSqr := ab.im * ab.im + ab.re * ab.re
      if lengthSqr = 0 then (if 0 < s.length then .ub else .ok 1000)
      else
        let f := (ap.im * ab.im + ap.re * ab.re) / lengthSqr
        let f := if f < 0 then 0 else if 1 < f then 1 else f
        let d := f * (w.2.2 - v.2.2) + v.2.2
        .ok (if 0 < s.length then toInt (d / s.length * 1000) else 1000)

/-- SensorSteering.cpp 110-136: the point of the road for so many thousandths.  The altitude is that of the second of the
two points (src/cpp/Plans/Position.h 205-245: sums, differences and multiples keep the altitude on their left). -/
noncomputable def lookAt (road : List (ℤ × Spot)) (n : ℤ) : Stare :=
  match lowerBound n none road with
  | none => .nowhere
  | some (none, x) => .onto x.2.at_
  | some (some y, x) =>
      let delta : ℝ := ((x.1 - y.1 : ℤ) : ℝ)
      let new : ℝ := ((n - y.1 : ℤ) : ℝ)
      let f := if 0 < delta then new / delta else 0
      .wholly { at_ := (x.2.at_ - y.2.at_) * ((f : ℝ) : ℂ) + y.2.at_, alt := x.2.alt }

/-- SensorSteering.cpp 85-143: `SensorSteering::FindSensorStarePoint`.  The waypoint is found with `find` and the one before
it by stepping back. -/
noncomputable def Steering.find (s : Steering) (w : ℤ) (pos : ℂ) : Outcome Stare :=
  match lowerBound w none s.wps with
  | none => .ok .untouched
  | some (prev, x) =>
      if x.1 = w then (progress s prev x pos).bind fun n => .ok (lookAt s.road n)
      else .ok .untouched

/-- SensorSteering.cpp 146-158: `AddSegment`, for segments added in turn. -/
noncomputable def segments (l : List (List (ℤ × ℂ) × List Spot)) : List (ℤ × Steering) :=
  build (l.filterMap fun s => s.1.head?.map fun w => (w.1, Steering.init s.1 s.2))

/-- SensorSteering.cpp 160-189: `SensorSteeringSegments::FindSensorStarePoint`. -/
noncomputable def findIn (m : List (ℤ × Steering)) (w : ℤ) (pos : ℂ) : Outcome Stare :=
  match m.getLast? with
  | none => .ok .untouched
  | some last =>
      match lowerBound w none m with
      | some (none, x) => x.2.find w pos
      | some (some y, _) => y.2.find w pos
      | none => last.2.find w pos

/-! ### The distances -/

/-- The length of a broken line. -/
noncomputable def len (l : List ℂ) : ℝ := ((l.zip l.tail).map fun s => ‖s.2 - s.1‖).sum

@[simp] theorem len_nil : len [] = 0 := rfl

@[simp] theorem len_single (p : ℂ) : len [p] = 0 := rfl

theorem len_cons (p q : ℂ) (l : List ℂ) : len (p :: q :: l) = ‖q - p‖ + len (q :: l) := by simp [len]

theorem len_nonneg : ∀ l : List ℂ, 0 ≤ len l
  | [] => le_refl _
  | [_] => le_refl _
  | p :: q :: l => by rw [len_cons]; have := len_nonneg (q :: l); have := norm_nonneg (q - p); linarith

theorem distsFrom_length : ∀ (l : List ℂ) (c : ℝ) (p : ℂ), (distsFrom c p l).length = l.length
  | [], _, _ => rfl
  | q :: l, c, p => by simp [distsFrom, distsFrom_length l]

theorem distsFrom_get : ∀ (l : List ℂ) (c : ℝ) (p : ℂ) (i : ℕ) (h : i < (distsFrom c p l).length),
    (distsFrom c p l)[i] = c + len ((p :: l).take (i + 2))
  | [], _, _, _, h => by simp [distsFrom] at h
  | q :: l, c, p, 0, h => by simp [distsFrom, len_cons]
  | q :: l, c, p, i + 1, h => by
      simp only [distsFrom, List.getElem_cons_succ]
      rw [distsFrom_get l (c + ‖q - p‖) q i]
      simp only [List.take_succ_cons]
      rw [len_cons]; ring

theorem dists_length (l : List ℂ) : (dists l).length = l.length := by
  cases l with
  | nil => rfl
  | cons p l => simp [dists, distsFrom_length]

theorem dists_get (l : List ℂ) (i : ℕ) (h : i < (dists l).length) : (dists l)[i] = len (l.take (i + 1)) := by
  cases l with
  | nil => simp [dists] at h
  | cons p l =>
      cases i with
      | zero => simp [dists]
      | succ i =>
          simp only [dists, List.getElem_cons_succ]
          rw [distsFrom_get, zero_add]

theorem total_eq (l : List ℂ) : total l = len l := by
  unfold total
  cases l with
  | nil => rfl
  | cons p l =>
      have hne : dists (p :: l) ≠ [] := by simp [dists]
      rw [List.getLastD_eq_getLast?, List.getLast?_eq_some_getLast hne, Option.getD_some, List.getLast_eq_getElem, dists_get]
      congr 1
      rw [List.take_of_length_le]
      rw [dists_length]; simp

theorem len_take_mono (l : List ℂ) {i j : ℕ} (h : i ≤ j) : len (l.take i) ≤ len (l.take j) := by
  induction l generalizing i j with
  | nil => simp
  | cons p l ih =>
      cases i with
      | zero => simp only [List.take_zero, len_nil]; exact len_nonneg _
      | succ i =>
          obtain ⟨j, rfl⟩ := Nat.exists_eq_add_of_le' (Nat.le_trans (Nat.succ_le_succ (Nat.zero_le i)) h)
          cases l with
          | nil => simp
          | cons q l =>
              cases i with
              | zero => simp only [List.take_succ_cons, List.take_zero, len_single]; exact len_nonneg _
              | succ i =>
                  obtain ⟨j, rfl⟩ := Nat.exists_eq_add_of_le' (Nat.le_trans (Nat.succ_le_succ (Nat.zero_le i)) (Nat.le_of_succ_le_succ h))
                  have := ih (i := i + 1) (j := j + 1) (by omega)
                  simp only [List.take_succ_cons] at this ⊢
                  rw [len_cons, len_cons]
                  linarith

theorem len_take_le (l : List ℂ) (i : ℕ) : len (l.take i) ≤ len l := by
  rcases le_or_gt i l.length with h | h
  · have := len_take_mono l h
    rwa [List.take_length] at this
  · rw [List.take_of_length_le h.le]

theorem len_take_succ (l : List ℂ) (i : ℕ) (h : i + 1 < l.length) :
    len (l.take (i + 2)) = len (l.take (i + 1)) + ‖l[i + 1] - l[i]‖ := by
  induction l generalizing i with
  | nil => simp at h
  | cons p l ih =>
      cases l with
      | nil => simp at h
      | cons q l =>
          cases i with
          | zero => simp [len_cons]
          | succ i =>
              have := ih i (by simpa using h)
              simp only [List.take_succ_cons, List.getElem_cons_succ] at this ⊢
              rw [len_cons, len_cons, this]; ring

end Verif.Stare
