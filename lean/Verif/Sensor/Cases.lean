import Verif.Sensor.Props

/-!
# Cases for the sensor manager
-/

namespace Verif.Sensor

open Verif

/-- For the examples: a degree is 0.0175, the sine is its Taylor polynomial of degree five. -/
def trig0 : Trig := { deg := 7 / 400, sin := fun x => x - x * x * x / 6 + x * x * x * x * x / 120 }

/-- For the examples: a camera with two fields of view. -/
def cam0 : Camera := { id := 2, band := 1, fov := .discrete [30, 10], hres := 640, vres := 480 }

/-- For the examples: a camera that zooms. -/
def cam1 : Camera := { id := 3, band := 2, fov := .continuous 5 22, hres := 320, vres := 240 }

/-- For the examples: a gimbal with both. -/
def gim0 : Gimbal := { id := 1, minEl := -90, maxEl := -45, clamped := true, contained := [2, 3] }

/-- For the examples: a vehicle. -/
def conf0 : Config := { id := 7, nominalAlt := 500, payloads := [.gimbal gim0, .camera cam0, .camera cam1, .other 9] }

example : 0 < trig0.deg := by decide +kernel

/-- The elevations and fields of view of the example. -/
example : steps (-90) (-70) 5 = [-90, -85, -80, -75, -70] ∧ cam1.fovs = [5, 10, 15, 20] := by decide +kernel

/-- C124_closest, C124_limits_partial: an elevation of -60 degrees, all bands, wanting half a metre. -/
example : ((find trig0 conf0 0 (1 / 2) 0 (-60 * trig0.deg)).map fun c => (c.gimbal, c.camera, c.fov, c.elevation)) =
    some (1, 3, 10, -60 * trig0.deg) := by decide +kernel

/-- The elevation asked for is below the highest of the gimbal, as C124_limits_partial assumes. -/
example : ∀ gim, .gimbal gim ∈ conf0.payloads → (-60 * trig0.deg : Rat) < 1 / 1000 →
    -60 * trig0.deg ≤ (gim.limits trig0).2 := by
  intro gim h
  have : gim = gim0 := by simpa [conf0] using h
  subst this
  decide +kernel

/-- C124_largest: without a distance wanted, the largest of band 1 is found (that of the wide field of view). -/
example : ((find trig0 conf0 1 0 100 (-90 * trig0.deg)).map fun c => (c.camera, c.fov, c.alt)) = some (2, 30, 100) := by
  decide +kernel

example : ∀ x ∈ candidates trig0 conf0.payloads 1 100 (-90 * trig0.deg), x.gsd ≤ 1000 := by decide +kernel

/-- C124_none: no camera of band 4; and an altitude below ten metres. -/
example : find trig0 conf0 4 0 0 (-1) = none ∧ find trig0 conf0 1 0 9 (-1) = none := by decide +kernel

/-- **C124.**  An elevation above the highest of the gimbal is used, whatever the size of a degree and the sine. -/
theorem C124_highest_violated {t : Trig} (ht : 0 < t.deg) :
    ∃ c, find t conf0 1 0 0 (-(30 * t.deg)) = some c ∧
      ∀ gim, .gimbal gim ∈ conf0.payloads → (gim.limits t).2 < c.elevation := by
  have hl : gim0.limits t = (-(90 * t.deg), -(45 * t.deg)) := by
    unfold Gimbal.limits gim0
    simp only
    rw [if_pos trivial, if_neg (show ¬ ((-90 : Rat) * t.deg < -(180 * t.deg)) by grind),
      if_neg (show ¬ (0 < (-45 : Rat) * t.deg) by grind), if_neg (by grind), Prod.mk.injEq]
    constructor <;> grind
  have hon : ∀ gim, .gimbal gim ∈ conf0.payloads → gim = gim0 := by
    intro gim h; simpa [conf0] using h
  cases hf : find t conf0 1 0 0 (-(30 * t.deg)) with
  | none =>
    rcases (C124_none ht).mp hf with h | h
    · exact absurd h (by decide +kernel)
    · refine absurd ?_ (h (candidate t (altitude conf0 0) gim0 (-(30 * t.deg)) cam0 30))
      refine ⟨gim0, cam0, 30, -(30 * t.deg), by simp [conf0], by simp [conf0], by decide, .inr rfl,
        by simp [Fov.Has, cam0], ?_, rfl⟩
      unfold Gimbal.Tries
      rw [if_pos (by grind), hl]
      grind
  | some c =>
    refine ⟨c, rfl, fun gim hg => ?_⟩
    obtain ⟨_, ⟨g', cam, fov, el, hg', _, _, _, _, he, rfl⟩, _⟩ := C124_closest ht hf
    rw [hon gim hg, hl]
    rw [hon g' hg'] at he
    unfold Gimbal.Tries at he
    rw [if_pos (by grind), hl] at he
    dsimp only at he ⊢
    grind

/-- For the examples: a gimbal that goes up to the horizon. -/
def conf1 : Config :=
  { id := 8, nominalAlt := 500
    payloads := [.gimbal { gim0 with minEl := -10, maxEl := 0 }, .camera cam0] }

/-- **C124.**  At the horizon the slant range is taken to be the altitude, so that a horizontal look is found to have the smallest
ground sample distance of all. -/
theorem C124_horizon_violated :
    ((find trig0 conf1 1 (1 / 1000) 0 1).map fun c => (c.elevation, c.gsd)) =
        some (0, 500 * trig0.sin (10 * trig0.deg / 480)) ∧
      500 * trig0.sin (10 * trig0.deg / 480) < gsd trig0 500 (-10 * trig0.deg) cam0 10 := by
  decide +kernel

/-- C124_degrees_violated: -10 and -60 degrees, as the message is documented. -/
example : (-10 : Rat) ≤ -(180 * trig0.deg) ∧ (-60 : Rat) ≤ -(180 * trig0.deg) ∧
    ((find trig0 conf0 1 0 0 (-10)).map (·.elevation)) = some (-90 * trig0.deg) := by decide +kernel

/-- For the examples: two configurations of a vehicle and a request. -/
def hist0 : List In := [.config { conf0 with nominalAlt := 50 }, .other, .config conf0]

/-- C123_answer: three combinations for a known vehicle, none for an unknown one. -/
example : (step trig0 (runM (step trig0) [] hist0).1 (.requests 5 [{ id := 4, vehicle := 7, gsds := [1, 2, 3], elevs := [-1] },
      { id := 6, vehicle := 99 }])).2.map (fun r => (r.id, r.footprints.map fun f => (f.id, f.vehicle, f.choice.isSome))) =
    some (5, [(4, 7, true), (4, 7, true), (4, 7, true)]) := by decide +kernel

/-- **C123.**  A later configuration of a vehicle is ignored: the altitude is the one of the first. -/
theorem C123_reconfigured_violated :
    (step trig0 (runM (step trig0) [] hist0).1 (.requests 5 [{ id := 4, vehicle := 7, elevs := [-1] }])).2.map
      (fun r => r.footprints.map fun f => f.choice.map (·.alt)) = some [some 50] ∧
    hist0.getLast? = some (.config conf0) ∧ conf0.nominalAlt = 500 := by decide +kernel

/-- **C124.**  At the level of the service: every footprint for a request without elevations is empty. -/
theorem C124_empty_list_violated {t : Trig} (ht : 0 < t.deg) (h : List In) (id : Int) (r : FootReq) (he : r.elevs = []) :
    ∃ resp, (step t (runM (step t) [] h).1 (.requests id [r])).2 = some resp ∧
      ∀ f ∈ resp.footprints, f.choice = none := by
  rw [C123_answer]
  refine ⟨_, rfl, ?_⟩
  intro f hf
  simp only [List.flatMap_cons, List.flatMap_nil, List.append_nil] at hf
  split at hf
  · cases hf
  · obtain ⟨x, hx, rfl⟩ := List.mem_map.mp hf
    have : x.2.2.2 = 0 := by
      unfold FootReq.combos at hx
      rw [he] at hx
      simp only [List.mem_flatMap, List.map_cons, List.map_nil, List.mem_singleton] at hx
      obtain ⟨_, _, _, _, _, _, rfl⟩ := hx
      rfl
    rw [this]
    exact C124_no_elevation_violated ht _ _ _ _

end Verif.Sensor
