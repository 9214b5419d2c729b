import Verif.Stare.Commands
import Verif.Stare.Find

/-!
# Altitudes looked at, cameras shown and area searches (C161, C163)
-/

namespace Verif.Stare

open Complex

/-- **C161, violated.**  As soon as the sensor is past the start of a road of two points it looks at the altitude of the end of
the road, however far that is away. -/
theorem C161_altitude_violated {a b : Spot} (h : a.at_ ≠ b.at_) {n : ℤ} (h0 : 0 < n) (h1 : n ≤ 1000) :
    ∃ z, lookAt (Steering.init [] [a, b]).road n = .wholly ⟨z, b.alt⟩ := by
  have hd : 0 < ‖b.at_ - a.at_‖ := norm_pos_iff.2 (sub_ne_zero.2 (Ne.symm h))
  have k0 : roadKey ‖b.at_ - a.at_‖ 0 = 0 := by
    unfold roadKey; rw [if_pos hd]; simp [toInt]
  have k1 : roadKey ‖b.at_ - a.at_‖ ‖b.at_ - a.at_‖ = 1000 := by
    unfold roadKey; rw [if_pos hd, div_self hd.ne']
    unfold toInt; rw [if_pos (by norm_num)]; norm_num
  have e : (Steering.init [] [a, b]).road = [(0, a), (1000, b)] := by
    simp [Steering.init, dists, distsFrom, total, k0, k1, build, put]
  have hl : lowerBound n none [((0 : ℤ), a), (1000, b)] = some (some (0, a), (1000, b)) := by
    rw [lowerBound, if_neg (by simp only; omega), lowerBound, if_pos (by simp only; omega)]
  rw [e]
  unfold lookAt
  rw [hl]
  exact ⟨_, rfl⟩

theorem C161_altitude_case : ∃ z, lookAt (Steering.init [] [⟨0, 0⟩, ⟨1000, 300⟩]).road 1 = .wholly ⟨z, 300⟩ :=
  C161_altitude_violated (a := ⟨0, 0⟩) (b := ⟨1000, 300⟩) (by norm_num) (by norm_num) (by norm_num)

/-- **C163.**  A vehicle doing an area search is told to look straight down with its first gimbal, and the video is recorded. -/
theorem C163_area (task : ℤ) {configs : Map (List Payload)} {vehicle : ℤ} {pre post : List Payload} {g : ℤ}
    (h : configs.get vehicle = some (pre ++ .gimbal g :: post)) (hfirst : ∀ p ∈ pre, ∀ i, p ≠ .gimbal i) :
    areaActive task configs vehicle = [.angle vehicle g [task] 0 (-90), .record] := by
  unfold areaActive firstGimbal
  rw [h]
  simp only [Option.getD_some]
  have : (pre ++ .gimbal g :: post).findSome? Payload.gimbalId? = some g := by
    rw [List.findSome?_append, List.findSome?_eq_none_iff.2]
    · rfl
    · intro p hp
      cases p with
      | gimbal i => exact absurd rfl (hfirst _ hp i)
      | camera _ _ => rfl
      | other _ => rfl
  rw [this]; rfl

example : areaActive 3 [(5, [.camera 2 0, .gimbal 7, .gimbal 8])] 5 = [.angle 5 7 [3] 0 (-90), .record] :=
  C163_area 3 (pre := [.camera 2 0]) (post := [.gimbal 8]) rfl (by simp)

theorem camera_find {ps : List Payload} {band i : ℤ}
    (h : ps.findSome? (fun p => match p with | .camera i b => if b = band then some i else none | _ => none) = some i) :
    ∃ pre post, ps = pre ++ .camera i band :: post ∧ ∀ p ∈ pre, ∀ j, p ≠ .camera j band := by
  induction ps with
  | nil => simp at h
  | cons p ps ih =>
      rw [List.findSome?_cons] at h
      have next : (∀ j, p ≠ .camera j band) →
          (ps.findSome? (fun p => match p with | .camera i b => if b = band then some i else none | _ => none) = some i) →
          ∃ pre post, p :: ps = pre ++ .camera i band :: post ∧ ∀ p ∈ pre, ∀ j, p ≠ .camera j band := by
        intro hp h
        obtain ⟨pre, post, h1, h2⟩ := ih h
        refine ⟨p :: pre, post, by rw [h1]; rfl, fun q hq j => ?_⟩
        rcases List.mem_cons.1 hq with rfl | hq
        · exact hp j
        · exact h2 q hq j
      cases p with
      | gimbal j => exact next (by simp) h
      | other j => exact next (by simp) h
      | camera j b =>
          by_cases hb : b = band
          · subst hb
            simp only [if_true, Option.some.injEq] at h
            subst h
            exact ⟨[], ps, rfl, by simp⟩
          · simp only [if_neg hb] at h
            exact next (by rintro k ⟨⟩; exact hb rfl) h

/-- **C163.**  A camera that is put on the stream is one of the vehicle, for the first wavelength asked for, and the first such one. -/
theorem C163_stream_camera {s t : Search} {v w i : ℤ} {pos : ℂ} {out : List Sent} (h : s.step (.state v pos w) = .ok (t, out))
    (hi : .stream i ∈ out) :
    ∃ band rest pre post, s.bands = band :: rest ∧ s.configs.get v = some (pre ++ .camera i band :: post) ∧
      (∀ p ∈ pre, ∀ j, p ≠ .camera j band) ∧ s.streamed = false := by
  obtain ⟨-, -, -, -, -, hc⟩ := active_ok (show s.active v pos w = .ok (t, out) from h)
  rcases hc with ⟨-, rfl⟩ | ⟨-, rfl⟩ | ⟨-, m, n, r, -, -, -, rfl⟩
  · simp at hi
  · simp at hi
  · have hi' : .stream i ∈ streamAction s v := by simpa using hi
    unfold streamAction at hi'
    by_cases hs : s.streamed = true
    · rw [if_pos hs] at hi'; simp at hi'
    · rw [if_neg hs] at hi'
      cases hb : s.bands with
      | nil => rw [hb] at hi'; simp at hi'
      | cons band rest =>
          rw [hb] at hi'
          simp only at hi'
          split at hi'
          · rename_i j hj
            simp only [List.mem_singleton, Sent.stream.injEq] at hi'
            subst hi'
            obtain ⟨pre, post, h1, h2⟩ := camera_find hj
            cases hg : s.configs.get v with
            | none => rw [hg] at h1; simp at h1
            | some ps =>
                rw [hg] at h1
                simp only [Option.getD_some] at h1
                exact ⟨band, rest, pre, post, rfl, by rw [h1], h2, by simpa using hs⟩
          · simp at hi'

/-- **C163.**  At the first steered state of a vehicle that has the camera asked for, it is put on the stream. -/
theorem C163_stream_shown {s t : Search} {v w n i band : ℤ} {pos : ℂ} {out : List Sent} {m : List (ℤ × Steering)} {rest : List ℤ}
    {pre post : List Payload} (h : s.step (.state v pos w) = .ok (t, out)) (hm : s.steering = some m)
    (hn : s.numbers.get w = some n) (h0 : s.streamed = false) (hb : s.bands = band :: rest)
    (hc : s.configs.get v = some (pre ++ .camera i band :: post)) : ∃ j, .stream j ∈ out ∧ .camera j band ∈ pre ++ [.camera i band] := by
  have h' : s.active v pos w = .ok (t, out) := h
  unfold Search.active at h'
  rw [hm] at h'
  simp only at h'
  rw [hn] at h'
  simp only at h'
  rw [Outcome.bind_eq_ok] at h'
  obtain ⟨r, -, h2⟩ := h'
  simp only [Outcome.ok.injEq, Prod.mk.injEq] at h2
  obtain ⟨-, rfl⟩ := h2
  set f : Payload → Option ℤ := fun p => match p with | .camera i b => if b = band then some i else none | _ => none with hf
  have hfi : f (.camera i band) = some i := by simp [hf]
  obtain ⟨j, hj⟩ : ∃ j, (pre ++ .camera i band :: post).findSome? f = some j := by
    rw [List.findSome?_append]
    cases hp : pre.findSome? f with
    | some j => exact ⟨j, rfl⟩
    | none => exact ⟨i, by rw [List.findSome?_cons, hfi]; rfl⟩
  refine ⟨j, ?_, ?_⟩
  · apply List.mem_append_left
    unfold streamAction
    rw [h0, hb, hc]
    simp only [Option.getD_some]
    rw [if_neg (by simp)]
    have hj2 := hj
    rw [hf] at hj2
    split
    · rename_i k hk
      have : k = j := Option.some.inj (hk.symm.trans hj2)
      simp [this]
    · rename_i hk
      exact absurd (hk.symm.trans hj2) (by simp)
  · have hj' := hj
    rw [List.findSome?_append] at hj'
    cases hp : pre.findSome? f with
    | some k =>
        rw [hp] at hj'
        obtain rfl : k = j := by simpa using hj'
        obtain ⟨p1, p2, e, -⟩ := camera_find hp
        rw [e]; simp
    | none =>
        rw [hp, List.findSome?_cons, hfi] at hj'
        obtain rfl : i = j := by simpa using hj'
        simp

/-- C163_stream_camera and C163_stream_shown: the second camera of vehicle 5 is of the wavelength asked for. -/
example : ∃ t out, ({ task := 3, eligible := [], bands := [1], configs := [(5, [.camera 2 0, .camera 6 1, .camera 7 1])], planned := [], steering := some [], numbers := [(4, 1)], streamed := false } : Search).step
    (.state 5 0 4) = .ok (t, out) ∧ .stream 6 ∈ out :=
  ⟨_, _, rfl, by simp [streamAction, Map.get]⟩

end Verif.Stare
