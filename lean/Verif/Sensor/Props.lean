import Verif.Sensor.Model

/-!
# Properties of the sensor manager

C123: every request is answered once, with a footprint for each combination asked for.  C124: each footprint is for a camera,
a field of view and an elevation that the vehicle has, with the ground sample distance closest to the one wanted.
-/

namespace Verif.Sensor

open Verif

/-! ### Loops -/

theorem mem_steps {lo hi step x : Rat} (h : 0 < step) :
    x ∈ steps lo hi step ↔ ∃ k : Nat, x = lo + k * step ∧ x ≤ hi := by
  have key : ∀ k : Nat, lo ≤ hi → (k < ((hi - lo) / step).floor.toNat + 1 ↔ lo + k * step ≤ hi) := by
    intro k hle
    have hd : (0 : Rat) ≤ (hi - lo) / step := by
      rw [Rat.div_def]
      refine Rat.mul_nonneg (by grind) ?_
      have := Rat.inv_pos.mpr h; grind
    have h0 : (0 : Int) ≤ ((hi - lo) / step).floor := Rat.le_floor_iff.mpr (by simpa using hd)
    have h1 : k < ((hi - lo) / step).floor.toNat + 1 ↔ (k : Int) ≤ ((hi - lo) / step).floor := by omega
    rw [h1, Rat.le_floor_iff]
    have hc : (hi - lo) / step * step = hi - lo := Rat.div_mul_cancel (by grind)
    have hk : (((k : Int) : Rat)) = (k : Rat) := rfl
    rw [hk]
    constructor
    · intro hh
      have := Rat.mul_le_mul_of_nonneg_right hh (show 0 ≤ step by grind)
      grind
    · intro hh
      rcases Rat.not_lt.mp (show ¬ ((hi - lo) / step < (k : Rat)) from fun hlt => by
        have := Rat.mul_lt_mul_of_pos_right hlt h
        grind) with hh
      exact hh
  unfold steps
  by_cases hlt : hi < lo
  · rw [if_pos hlt]
    constructor
    · intro hx; cases hx
    · rintro ⟨k, rfl, hx⟩
      have : (0 : Rat) ≤ (k : Rat) * step := Rat.mul_nonneg (by exact_mod_cast Nat.zero_le k) (by grind)
      grind
  · rw [if_neg hlt, List.mem_map]
    constructor
    · rintro ⟨k, hk, rfl⟩
      exact ⟨k, rfl, (key k (by grind)).mp (List.mem_range.mp hk)⟩
    · rintro ⟨k, rfl, hx⟩
      exact ⟨k, List.mem_range.mpr ((key k (by grind)).mpr hx), rfl⟩

/-! ### Specification -/

/-- Specification: a field of view that a camera offers: any of its list, or one every five degrees. -/
def Fov.Has : Fov → Rat → Prop
  | .discrete l, x => x ∈ l
  | .continuous lo hi, x => ∃ k : Nat, x = lo + k * 5 ∧ x ≤ hi
  | .unknown, _ => False

/-- Specification: an elevation that is tried: the one asked for, but not below the lowest of the gimbal; or, if none is asked
for, one every five degrees within the limits.  It points down. -/
def Gimbal.Tries (t : Trig) (g : Gimbal) (elev el : Rat) : Prop :=
  if elev < 1 / 1000 then el = max elev (g.limits t).1 ∧ el < 0
  else (g.limits t).1 < 0 ∧ ∃ k : Nat, el = (g.limits t).1 + k * (5 * t.deg) ∧ el ≤ (g.limits t).2

/-- Specification: what can be chosen: a gimbal of the vehicle, a camera on it of the band wanted, a field of view of the camera
and an elevation. -/
def Offered (t : Trig) (conf : Config) (band : Nat) (alt elev : Rat) (c : Choice) : Prop :=
  ∃ g cam fov el, .gimbal g ∈ conf.payloads ∧ .camera cam ∈ conf.payloads ∧ cam.id ∈ g.contained ∧
    (band = 0 ∨ cam.band = band) ∧ cam.fov.Has fov ∧ g.Tries t elev el ∧
    c = { gimbal := g.id, camera := cam.id, band := cam.band, fov := fov, elevation := el, alt := alt
          aspect := if cam.vres = 0 then 1 else (cam.hres : Rat) / (cam.vres : Rat), gsd := gsd t alt el cam fov }

theorem mem_fovs {c : Camera} {x : Rat} : x ∈ c.fovs ↔ c.fov.Has x := by
  unfold Camera.fovs
  cases c.fov with
  | discrete l => rfl
  | continuous lo hi => exact mem_steps (by decide)
  | unknown => simp [Fov.Has]

theorem mem_range {t : Trig} (ht : 0 < t.deg) {g : Gimbal} {elev el : Rat} :
    ((g.range t elev).1 < 0 ∧ el ∈ steps (g.range t elev).1 (g.range t elev).2 (5 * t.deg)) ↔ g.Tries t elev el := by
  have h5 : 0 < 5 * t.deg := Rat.mul_pos (by decide) ht
  rw [mem_steps h5]
  unfold Gimbal.Tries Gimbal.range
  by_cases h : elev < 1 / 1000
  · simp only [if_pos h]
    have e : (if elev ≤ (g.limits t).1 then (g.limits t).1 else elev) = max elev (g.limits t).1 := by grind
    rw [e]
    constructor
    · rintro ⟨h0, k, rfl, hk⟩
      have hk0 : (0 : Rat) ≤ (k : Rat) * (5 * t.deg) :=
        Rat.mul_nonneg (by exact_mod_cast Nat.zero_le k) (by grind)
      grind
    · rintro ⟨rfl, h0⟩
      exact ⟨h0, 0, by simp [Rat.add_zero], Rat.le_refl⟩
  · simp only [if_neg h]

theorem mem_candidates {t : Trig} (ht : 0 < t.deg) {conf : Config} {band : Nat} {alt elev : Rat} {c : Choice} :
    c ∈ candidates t conf.payloads band alt elev ↔ Offered t conf band alt elev c := by
  unfold candidates Offered
  rw [List.mem_flatMap]
  constructor
  · rintro ⟨p, hp, hc⟩
    cases p with
    | camera c => cases hc
    | other i => cases hc
    | gimbal g =>
      simp only at hc
      by_cases h : (g.range t elev).1 < 0
      · rw [if_pos h, List.mem_flatMap] at hc
        obtain ⟨el, hel, hc⟩ := hc
        obtain ⟨sid, hs, hc⟩ := List.mem_flatMap.mp hc
        unfold camerasOf at hc
        obtain ⟨q, hq, hc⟩ := List.mem_flatMap.mp hc
        cases q with
        | gimbal g => cases hc
        | other i => cases hc
        | camera cam =>
          simp only at hc
          by_cases h2 : cam.id = sid ∧ (cam.band = band ∨ band = 0)
          · rw [if_pos h2, List.mem_map] at hc
            obtain ⟨fov, hf, rfl⟩ := hc
            exact ⟨g, cam, fov, el, hp, hq, h2.1 ▸ hs, h2.2.symm, mem_fovs.mp hf, (mem_range ht).mp ⟨h, hel⟩, rfl⟩
          · rw [if_neg h2] at hc; cases hc
      · rw [if_neg h] at hc; cases hc
  · rintro ⟨g, cam, fov, el, hg, hcam, hin, hb, hf, he, rfl⟩
    obtain ⟨h, hel⟩ := (mem_range ht).mpr he
    refine ⟨.gimbal g, hg, ?_⟩
    simp only
    rw [if_pos h, List.mem_flatMap]
    refine ⟨el, hel, List.mem_flatMap.mpr ⟨cam.id, hin, ?_⟩⟩
    unfold camerasOf
    refine List.mem_flatMap.mpr ⟨.camera cam, hcam, ?_⟩
    simp only
    rw [if_pos ⟨trivial, hb.symm⟩, List.mem_map]
    exact ⟨fov, mem_fovs.mpr hf, rfl⟩

/-- The fold keeps a closest one. -/
theorem fold_better {want : Rat} : ∀ (l : List Choice) (b : Choice),
    ∃ c, l.foldl (better want) (some b) = some c ∧ (c = b ∨ c ∈ l) ∧ dist want c.gsd ≤ dist want b.gsd ∧
      ∀ x ∈ l, dist want c.gsd ≤ dist want x.gsd
  | [], b => ⟨b, rfl, .inl rfl, Rat.le_refl, fun _ h => by cases h⟩
  | a :: l, b => by
    simp only [List.foldl_cons, better]
    by_cases h : dist want a.gsd < dist want b.gsd
    · rw [if_pos h]
      obtain ⟨c, h1, h2, h3, h4⟩ := fold_better (want := want) l a
      refine ⟨c, h1, .inr ?_, by grind, ?_⟩
      · rcases h2 with rfl | h2
        · exact List.mem_cons_self
        · exact List.mem_cons_of_mem _ h2
      · intro x hx
        rcases List.mem_cons.mp hx with rfl | hx
        · exact h3
        · exact h4 x hx
    · rw [if_neg h]
      obtain ⟨c, h1, h2, h3, h4⟩ := fold_better (want := want) l b
      refine ⟨c, h1, ?_, h3, ?_⟩
      · rcases h2 with h2 | h2
        · exact .inl h2
        · exact .inr (List.mem_cons_of_mem _ h2)
      · intro x hx
        rcases List.mem_cons.mp hx with rfl | hx
        · grind
        · exact h4 x hx

theorem fold_none {want : Rat} (l : List Choice) :
    (l.foldl (better want) none = none ∧ l = []) ∨
      ∃ c, l.foldl (better want) none = some c ∧ c ∈ l ∧ ∀ x ∈ l, dist want c.gsd ≤ dist want x.gsd := by
  cases l with
  | nil => exact .inl ⟨rfl, rfl⟩
  | cons a l =>
    right
    obtain ⟨c, h1, h2, h3, h4⟩ := fold_better (want := want) l a
    refine ⟨c, h1, ?_, ?_⟩
    · rcases h2 with rfl | h2
      · exact List.mem_cons_self
      · exact List.mem_cons_of_mem _ h2
    · intro x hx
      rcases List.mem_cons.mp hx with rfl | hx
      · exact h3
      · exact h4 x hx

/-! ### C124 -/

/-- **C124.**  The footprint is for something that is offered, and nothing offered has a ground sample distance closer to the one
wanted. -/
theorem C124_closest {t : Trig} (ht : 0 < t.deg) {conf : Config} {band : Nat} {g agl elev : Rat} {c : Choice}
    (h : find t conf band g agl elev = some c) :
    10 ≤ altitude conf agl ∧ Offered t conf band (altitude conf agl) elev c ∧
      ∀ x, Offered t conf band (altitude conf agl) elev x → dist (wanted g) c.gsd ≤ dist (wanted g) x.gsd := by
  unfold find at h
  by_cases h10 : 10 ≤ altitude conf agl
  · rw [if_pos h10] at h
    rcases fold_none (want := wanted g) (candidates t conf.payloads band (altitude conf agl) elev) with
      ⟨h1, _⟩ | ⟨d, h1, h2, h3⟩
    · rw [h1] at h; cases h
    · rw [h1] at h
      cases h
      exact ⟨h10, (mem_candidates ht).mp h2, fun x hx => h3 x ((mem_candidates ht).mpr hx)⟩
  · rw [if_neg h10] at h; cases h

/-- **C124.**  Nothing is found exactly when nothing is offered or the altitude is below ten metres. -/
theorem C124_none {t : Trig} (ht : 0 < t.deg) {conf : Config} {band : Nat} {g agl elev : Rat} :
    find t conf band g agl elev = none ↔
      altitude conf agl < 10 ∨ ∀ x, ¬ Offered t conf band (altitude conf agl) elev x := by
  unfold find
  by_cases h10 : 10 ≤ altitude conf agl
  · rw [if_pos h10]
    rcases fold_none (want := wanted g) (candidates t conf.payloads band (altitude conf agl) elev) with
      ⟨h1, h2⟩ | ⟨d, h1, h2, h3⟩
    · refine ⟨fun _ => .inr fun x hx => ?_, fun _ => h1⟩
      have := (mem_candidates ht).mpr hx
      rw [h2] at this; cases this
    · rw [h1]
      refine ⟨fun h => (by cases h), ?_⟩
      rintro (h | h)
      · grind
      · exact absurd ((mem_candidates ht).mp h2) (h d)
  · rw [if_neg h10]
    exact ⟨fun _ => .inl (by grind), fun _ => rfl⟩

/-- **C124.**  Without a distance wanted, the one found is the largest, as long as all are at most a kilometre. -/
theorem C124_largest {t : Trig} (ht : 0 < t.deg) {conf : Config} {band : Nat} {agl elev : Rat} {c : Choice}
    (h : find t conf band 0 agl elev = some c)
    (hall : ∀ x, Offered t conf band (altitude conf agl) elev x → x.gsd ≤ 1000) :
    ∀ x, Offered t conf band (altitude conf agl) elev x → x.gsd ≤ c.gsd := by
  intro x hx
  obtain ⟨_, h2, h3⟩ := C124_closest ht h
  have h4 := h3 x hx
  have h5 := hall x hx
  have h6 := hall c h2
  have hw : wanted 0 = 1000 := by decide +kernel
  rw [hw] at h4
  unfold dist at h4
  grind

theorem limits_le (t : Trig) (ht : 0 < t.deg) (g : Gimbal) : (g.limits t).1 ≤ (g.limits t).2 := by
  unfold Gimbal.limits
  simp only
  split
  · dsimp only; split <;> grind
  · dsimp only; grind

theorem limits_ge (t : Trig) (ht : 0 < t.deg) (g : Gimbal) : -(180 * t.deg) ≤ (g.limits t).1 := by
  unfold Gimbal.limits
  simp only
  split
  · dsimp only; split <;> grind
  · dsimp only; grind

/-- **C124.**  The elevation is one of the gimbal and not above the horizon, if the elevation asked for is not above the highest of
a gimbal. -/
theorem C124_limits_partial {t : Trig} (ht : 0 < t.deg) {conf : Config} {band : Nat} {g agl elev : Rat} {c : Choice}
    (h : find t conf band g agl elev = some c)
    (hmax : ∀ gim, .gimbal gim ∈ conf.payloads → elev < 1 / 1000 → elev ≤ (gim.limits t).2) :
    ∃ gim, .gimbal gim ∈ conf.payloads ∧ gim.id = c.gimbal ∧
      (gim.limits t).1 ≤ c.elevation ∧ c.elevation ≤ (gim.limits t).2 := by
  obtain ⟨_, ⟨gim, cam, fov, el, hg, hcam, hin, hb, hf, he, rfl⟩, _⟩ := C124_closest ht h
  have hm := hmax gim hg
  have hle := limits_le t ht gim
  refine ⟨gim, hg, rfl, ?_⟩
  unfold Gimbal.Tries at he
  dsimp only
  by_cases h1 : elev < 1 / 1000
  · rw [if_pos h1] at he
    have := hm h1
    grind
  · rw [if_neg h1] at he
    obtain ⟨h0, k, rfl, hk⟩ := he
    have hk0 : (0 : Rat) ≤ (k : Rat) * (5 * t.deg) :=
      Rat.mul_nonneg (by exact_mod_cast Nat.zero_le k) (by grind)
    grind

/-- **C124.**  Without an elevation asked for, nothing is ever found: the default 0 is taken for one that is asked for. -/
theorem C124_no_elevation_violated {t : Trig} (ht : 0 < t.deg) (conf : Config) (band : Nat) (g agl : Rat) :
    find t conf band g agl 0 = none := by
  rw [C124_none ht]
  right
  rintro x ⟨gim, cam, fov, el, hg, hcam, hin, hb, hf, he, rfl⟩
  unfold Gimbal.Tries at he
  rw [if_pos (by decide +kernel)] at he
  grind

/-- **C124.**  The elevations of a request are documented to be in degrees, but taken to be in radians: all elevations of -180 degrees
and more in radians, say -10 and -60, are answered in the same way, with the lowest elevation of the gimbal. -/
theorem C124_degrees_violated {t : Trig} (ht : 0 < t.deg) (conf : Config) (band : Nat) (g agl e₁ e₂ : Rat)
    (h₁ : e₁ ≤ -(180 * t.deg)) (h₂ : e₂ ≤ -(180 * t.deg)) :
    find t conf band g agl e₁ = find t conf band g agl e₂ := by
  have key : ∀ gim : Gimbal, gim.range t e₁ = gim.range t e₂ := by
    intro gim
    have := limits_ge t ht gim
    unfold Gimbal.range
    rw [if_pos (by grind), if_pos (by grind), if_pos (by grind), if_pos (by grind)]
  unfold find candidates
  simp only [key]

/-! ### C123 -/

/-- Specification: the configuration of a vehicle that was received first. -/
def firstConfig (h : List In) (v : Int) : Option Config :=
  h.findSome? fun
    | .config c => if c.id = v then some c else none
    | _ => none

theorem table_eq (t : Trig) (h : List In) (v : Int) : (runM (step t) [] h).1.get v = firstConfig h v := by
  refine runM_induction (step := step t) (s0 := []) (P := fun is s _ => s.get v = firstConfig is v) rfl ?_ h
  intro is i ih
  unfold firstConfig at ih ⊢
  rw [List.findSome?_append]
  cases i with
  | config c =>
    simp only [step, List.findSome?_cons, List.findSome?_nil]
    by_cases hs : ((runM (step t) [] is).1.get c.id).isSome
    · rw [if_pos hs, ih]
      by_cases hc : c.id = v
      · rw [← ih]
        subst hc
        obtain ⟨d, hd⟩ := Option.isSome_iff_exists.mp hs
        rw [hd]; rfl
      · rw [if_neg hc]; simp
    · rw [if_neg hs, Map.get_put]
      by_cases hc : v = c.id
      · subst hc
        rw [if_pos rfl, if_pos rfl, ← ih]
        have : (runM (step t) [] is).1.get c.id = none := by simpa using hs
        rw [this]; rfl
      · rw [if_neg hc, if_neg (Ne.symm hc), ih]; simp
  | requests id rs => simp [step, ih]
  | other => simp [step, ih]

/-- Specification: the combinations of a request, in order; a list that is empty stands for 0. -/
def FootReq.combos (r : FootReq) : List (Nat × Rat × Rat × Rat) :=
  let some₀ {α : Type} (d : α) (l : List α) : List α := match l with | [] => [d] | _ => l
  (some₀ 0 r.bands).flatMap fun b => (some₀ 0 r.gsds).flatMap fun g => (some₀ 0 r.agls).flatMap fun a =>
    (some₀ 0 r.elevs).map fun e => (b, g, a, e)

theorem footprints_eq (t : Trig) (conf : Config) (r : FootReq) :
    footprints t conf r = r.combos.map fun x =>
      { id := r.id, vehicle := conf.id, choice := find t conf x.1 x.2.1 x.2.2.1 x.2.2.2 } := by
  have e : ∀ {α : Type} (d : α) (l : List α), orDefault d l = match l with | [] => [d] | _ => l := by
    intro α d l; cases l <;> rfl
  unfold footprints FootReq.combos
  simp only [e, List.map_flatMap, List.map_map, Function.comp_def]

/-- **C123.**  For all histories: a message that is not a request is not answered, and a request is answered with one message of its
identifier, that has for each footprint request of a known vehicle one footprint per combination, in order; the vehicle is
as its first configuration says. -/
theorem C123_answer (t : Trig) (h : List In) (m : In) :
    (step t (runM (step t) [] h).1 m).2 = match m with
      | .requests id rs => some
          { id := id
            footprints := rs.flatMap fun r => match firstConfig h r.vehicle with
              | none => []
              | some c => r.combos.map fun x =>
                  { id := r.id, vehicle := r.vehicle, choice := find t c x.1 x.2.1 x.2.2.1 x.2.2.2 } }
      | _ => none := by
  cases m with
  | config c => rfl
  | other => rfl
  | requests id rs =>
    simp only [step, answer, table_eq, Option.some.injEq, Response.mk.injEq, true_and]
    congr 1
    funext r
    cases hc : firstConfig h r.vehicle with
    | none => rfl
    | some c =>
      have hid : c.id = r.vehicle := by
        unfold firstConfig at hc
        obtain ⟨i, _, hi⟩ := List.exists_of_findSome?_eq_some hc
        cases i with
        | config d => simp only at hi; split at hi <;> simp_all
        | requests _ _ => cases hi
        | other => cases hi
      simp only [footprints_eq, hid]

/-- **C123.**  The number of footprints for a request. -/
theorem C123_count (r : FootReq) :
    r.combos.length = max 1 r.bands.length * (max 1 r.gsds.length * (max 1 r.agls.length * max 1 r.elevs.length)) := by
  have e : ∀ {α : Type} (d : α) (l : List α), (match l with | [] => [d] | _ => l).length = max 1 l.length := by
    intro α d l
    cases l with
    | nil => rfl
    | cons a l => simp only [List.length_cons]; omega
  have s : ∀ {α β : Type} (l : List α) (f : α → List β) (n : Nat), (∀ a, (f a).length = n) →
      (l.flatMap f).length = l.length * n := by
    intro α β l f n hf
    induction l with
    | nil => simp
    | cons a l ih => simp [List.flatMap_cons, ih, hf, Nat.succ_mul, Nat.add_comm]
  unfold FootReq.combos
  simp only
  rw [s _ _ _ fun b => s _ _ _ fun g => s _ _ _ fun a => List.length_map _]
  simp only [e]

end Verif.Sensor
