import Verif.Extend.Scan
import Mathlib.Data.List.Forall2

/-!
# C131: a route is extended by the time asked for
-/

namespace Verif.Extend

open Real Verif.Earth

variable {β : Type}

/-- A point of the plane. -/
def pt (z : ℝ × ℝ) : Dubins := { x := z.1, y := z.2 }

theorem prevail_pos {v s : ℝ} (hv : 1 / 10000 ≤ v) : 1 / 10000 ≤ prevail v s := by
  unfold prevail
  split
  · rename_i h; exact h.2.le
  · exact hv

theorem speedOn_pos : ∀ {ws : List (Wp β)} {v : ℝ} {j : ℕ}, 1 / 10000 ≤ v → 1 / 10000 ≤ speedOn v ws j
  | [], _, _, h => h
  | _ :: _, _, 0, h => prevail_pos h
  | _ :: _, _, _ + 1, h => by
    unfold speedOn
    exact speedOn_pos (prevail_pos h)

/-- What `ExtendPath` does when it answers `true`. -/
structure Extended (ms : ℤ) (R d : ℝ) (w0 : Wp β) (ws rs : List (Wp β)) (i : ℕ) (a b : Wp β) (m : ℝ)
    (mid post : List (Wp β)) (psi s L : ℝ) (N : ℕ) (dub : List Dubins) (zs : List (ℝ × ℝ)) : Prop where
  /-- The segment leads from the waypoint `a` with index `i` to the next one, `b`. -/
  seg : ws[i]? = some a ∧ ws[i + 1]? = some b
  /-- It is long enough for the extension at the speed flown on it. -/
  need : required (ms / 1000 * speedOn w0.speed ws.tail i) R = .ok m ∧ m ≤ gap (origin_ w0) a b ∧
    1 / 10000 < gap (origin_ w0) a b
  /-- No other segment that is long enough is longer. -/
  longest : ∀ j a' b', ws[j]? = some a' → ws[j + 1]? = some b' →
    ∃ m', required (ms / 1000 * speedOn w0.speed ws.tail j) R = .ok m' ∧
      (m' ≤ gap (origin_ w0) a' b' → gap (origin_ w0) a' b' ≤ gap (origin_ w0) a b)
  /-- The waypoints up to `a` are unchanged. -/
  list : rs = ws.take (i + 1) ++ mid ++ post
  /-- The waypoints from `b` on change only their numbers. -/
  kept : List.Forall₂ Same post (ws.drop (i + 1))
  /-- All from the first new one on are numbered from the number of `b`. -/
  numbers : Numbered b.number (mid ++ post)
  /-- The new waypoints have all fields of `b` but the position and the numbers. -/
  copied : ∀ w ∈ mid, w.speed = b.speed ∧ w.rest = b.rest
  /-- `psi` is the direction of the segment. -/
  heading : (plane (origin_ w0) b).1 - (plane (origin_ w0) a).1 = gap (origin_ w0) a b * cos psi ∧
    (plane (origin_ w0) b).2 - (plane (origin_ w0) a).2 = gap (origin_ w0) a b * sin psi
  /-- The path leaves the segment at the length `s` and is back at the length `s + L`. -/
  inside : 0 ≤ s ∧ 0 ≤ L ∧ s + L ≤ gap (origin_ w0) a b
  /-- It can be flown with the turn radius. -/
  flown : Flies R ⟨(plane (origin_ w0) a).1 + s * cos psi, (plane (origin_ w0) a).2 + s * sin psi, psi⟩ dub
    ⟨(plane (origin_ w0) a).1 + (s + L) * cos psi, (plane (origin_ w0) a).2 + (s + L) * sin psi, psi + N * (2 * π)⟩
  /-- The new waypoints are its start and points that divide its arcs evenly. -/
  points : Samples R d ⟨(plane (origin_ w0) a).1 + s * cos psi, (plane (origin_ w0) a).2 + s * sin psi, psi⟩ dub zs ∧
    mid.map (fun w => (w.lat, w.lon)) =
      (((plane (origin_ w0) a).1 + s * cos psi, (plane (origin_ w0) a).2 + s * sin psi) :: zs).map (geo (origin_ w0))
  /-- With it, the way from `a` to `b` is longer by the time, at the speed on the segment. -/
  length : s + total dub + (gap (origin_ w0) a b - (s + L)) ≤
      gap (origin_ w0) a b + ms / 1000 * speedOn w0.speed ws.tail i ∧
    gap (origin_ w0) a b + ms / 1000 * speedOn w0.speed ws.tail i - 6 * R / 100000000 ≤
      s + total dub + (gap (origin_ w0) a b - (s + L))
  /-- It stays within twice the radius of the segment. -/
  near : ∀ z, Passes R ⟨(plane (origin_ w0) a).1 + s * cos psi, (plane (origin_ w0) a).2 + s * sin psi, psi⟩ dub z →
    Near (pt (plane (origin_ w0) a)) (pt (plane (origin_ w0) b)) (2 * R) z

/-- **C131.**  For every route whose first waypoint is not at a pole, every turn radius and discretisation distance above 0 and
every time that is not negative: if `ExtendPath` answers `true`, it has put a path with turns of the radius into the longest of
the segments that are long enough, as `Extended` says: the path can be flown, stays within twice the radius of the segment and
makes the way longer by the time at the speed of the segment; the waypoints before are unchanged, the waypoints after keep
everything but their numbers, and the numbers are consecutive. -/
theorem C131_extend {asserts : Bool} {ws rs : List (Wp β)} {ms : ℤ} {R d : ℝ} {w0 : Wp β} (hR : 0 < R) (hd : 0 < d)
    (hms : 0 ≤ ms) (hw : ws.head? = some w0) (hpole : 0 < cos (origin_ w0).1)
    (h : extendPath asserts ws ms R d = .ok (true, rs)) :
    ∃ i a b m mid post psi s L N dub zs, Extended ms R d w0 ws rs i a b m mid post psi s L N dub zs := by
  match ws, hw with
  | [w], hw => simp [extendPath] at h
  | w :: w2 :: more, hw =>
    obtain rfl : w = w0 := by simpa using hw
    unfold extendPath at h
    dsimp only at h
    by_cases hsp : w.speed < 1 / 10000
    · rw [if_pos hsp] at h; cases h
    rw [if_neg hsp, Outcome.bind_eq_ok] at h
    obtain ⟨min, hmin, h⟩ := h
    rw [toNorthEast_new] at h
    have hne := toNorthEast_plane asserts (origin_ w) w
    unfold origin_ at hne
    rw [hne, Outcome.bind_ok] at h
    rw [show ((radians .deg w.lat, radians .deg w.lon) : ℝ × ℝ) = origin_ w from rfl] at h
    dsimp only at h
    generalize hold : origin_ w = o at *
    rw [Outcome.bind_eq_ok] at h
    obtain ⟨best, hbest, h⟩ := h
    obtain ⟨g1, _, g3⟩ := scan_spec hmin hbest
    by_cases hcl : 1 / 10000 < best.cleared
    swap
    · rw [if_neg hcl] at h; cases h
    rw [if_pos hcl, Outcome.bind_eq_ok] at h
    obtain ⟨r, hr, h⟩ := h
    obtain rfl : r = rs := by cases h; rfl
    rcases g3 with rfl | ⟨i, a, b, ha, hb, hi, hc, he, hreq, hle⟩
    · norm_num at hcl
    rw [zero_add] at hi
    unfold insertAt at hr
    rw [hi, ha, hb] at hr
    dsimp only at hr
    rw [toNorthEast_plane, Outcome.bind_ok] at hr
    dsimp only at hr
    rw [toNorthEast_plane, Outcome.bind_ok] at hr
    dsimp only at hr
    rw [hc] at hr hle hcl
    generalize hD : gap o a b = D at *
    have hD0 : 0 < D := by linarith
    generalize hA : plane o a = A at *
    generalize hB : plane o b = B at *
    have hDD : D = √((B.1 - A.1) ^ 2 + (B.2 - A.2) ^ 2) := by rw [← hD, gap, hA, hB]
    have hv := speedOn_pos (ws := w2 :: more) (j := i) (not_lt.1 hsp)
    have he0 : 0 ≤ best.extend := by
      rw [he]
      have : (0 : ℝ) ≤ ms := by exact_mod_cast hms
      have : (0 : ℝ) ≤ speedOn w.speed (w2 :: more) i := by linarith
      positivity
    obtain ⟨hm0, _⟩ := C130_required hR he0 hreq
    generalize hm : best.need = m at *
    generalize hf : (D - m) / 2 / D = f at *
    have hfD : f * D = (D - m) / 2 := by rw [← hf]; field_simp
    have hf1 : 0 < 1 - f := by
      have : 0 < (1 - f) * D := by rw [sub_mul, hfD]; linarith
      exact (mul_pos_iff_of_pos_right hD0).1 this
    have hf0 : 0 ≤ f := by rw [← hf]; exact div_nonneg (by linarith) hD0.le
    have hlat := toLatLong_geo asserts hpole (A.1 + (B.1 - A.1) * f, A.2 + (B.2 - A.2) * f)
    dsimp only at hlat
    rw [hlat, Outcome.bind_ok, Outcome.bind_eq_ok] at hr
    obtain ⟨dub, hdub, hr⟩ := hr
    rw [Outcome.bind_eq_ok] at hr
    obtain ⟨ext, hext, hr⟩ := hr
    rw [Outcome.bind_eq_ok] at hr
    obtain ⟨tail, htail, hr⟩ := hr
    obtain rfl := Outcome.ok.inj hr
    obtain ⟨L, m', N, k1, k2, k3, k4, k5, k6, k7⟩ := extend_spec hR he0 hdub
    rw [hreq] at k1
    obtain rfl := Outcome.ok.inj k1
    obtain ⟨dx, dy⟩ := direction_dist { x := A.1 + (B.1 - A.1) * f, y := A.2 + (B.2 - A.2) * f } { x := B.1, y := B.2 }
    have hdist : √((B.1 - (A.1 + (B.1 - A.1) * f)) ^ 2 + (B.2 - (A.2 + (B.2 - A.2) * f)) ^ 2) = (1 - f) * D := by
      rw [show (B.1 - (A.1 + (B.1 - A.1) * f)) ^ 2 + (B.2 - (A.2 + (B.2 - A.2) * f)) ^ 2 =
        (1 - f) ^ 2 * ((B.1 - A.1) ^ 2 + (B.2 - A.2) ^ 2) by ring, Real.sqrt_mul (sq_nonneg _), Real.sqrt_sq hf1.le, hDD]
    dsimp only at dx dy k4 k7
    rw [hdist] at dx dy k7
    generalize hpsi : direction { x := A.1 + (B.1 - A.1) * f, y := A.2 + (B.2 - A.2) * f } { x := B.1, y := B.2 } = psi at *
    have hx : B.1 - A.1 = D * cos psi := by
      apply mul_left_cancel₀ hf1.ne'
      linarith
    have hy : B.2 - A.2 = D * sin psi := by
      apply mul_left_cancel₀ hf1.ne'
      linarith
    have hsx : A.1 + (B.1 - A.1) * f = A.1 + (f * D) * cos psi := by rw [hx]; ring
    have hsy : A.2 + (B.2 - A.2) * f = A.2 + (f * D) * sin psi := by rw [hy]; ring
    obtain ⟨t1, t2, t3⟩ := renumber_spec htail
    have htne : tail ≠ [] := by
      intro h0
      rw [h0] at t3
      simp at t3
    have f1 := List.forall₂_take_append _ _ _ t1
    have f2 := List.forall₂_drop_append _ _ _ t1
    unfold discretize at hext
    rw [Outcome.bind_eq_ok] at hext
    obtain ⟨zs, hzs, hext⟩ := hext
    obtain ⟨p1, p2⟩ := place_spec hpole hext
    have hsam := path_samples hR hd k4 hzs
    have hk4 : Flies R ⟨A.1 + (f * D) * cos psi, A.2 + (f * D) * sin psi, psi⟩ dub
        ⟨A.1 + (f * D + L) * cos psi, A.2 + (f * D + L) * sin psi, psi + N * (2 * π)⟩ := by
      have e1 : A.1 + (f * D + L) * cos psi = A.1 + (B.1 - A.1) * f + L * cos psi := by rw [hsx]; ring
      have e2 : A.2 + (f * D + L) * sin psi = A.2 + (B.2 - A.2) * f + L * sin psi := by rw [hsy]; ring
      rw [e1, e2, ← hsx, ← hsy]
      exact k4
    rw [hsx, hsy] at hsam
    refine ⟨i, a, b, m, (closeLast tail).take (ext.length + 1), (closeLast tail).drop (ext.length + 1), psi, f * D, L, N, dub, zs, ⟨ha, hb⟩, ?_, ?_, ?_, f2, ?_, ?_, ?_, ?_, ?_, ?_, ?_, ?_⟩
    · rw [hold, hD]
      refine ⟨?_, hle, hcl⟩
      rw [← hreq, he]
      rfl
    · rw [hold, hD]
      rw [hc] at g1
      exact g1
    · rw [List.append_assoc, List.take_append_drop, closeLast_append _ htne]
    · rw [List.take_append_drop]
      exact t2
    · have hmem : ∀ {l1 l2 : List (Wp β)}, List.Forall₂ Same l1 l2 → (∀ u ∈ l2, u.speed = b.speed ∧ u.rest = b.rest) →
          ∀ u ∈ l1, u.speed = b.speed ∧ u.rest = b.rest := by
        intro l1 l2 hl
        induction hl with
        | nil => intro _ u hu; cases hu
        | cons hs _ ih =>
          intro hall u hu
          rcases List.mem_cons.1 hu with rfl | hu
          · obtain ⟨_, _, e1, e2⟩ := hs
            rw [e1, e2]
            exact hall _ (by simp)
          · exact ih (fun v hv => hall v (List.mem_cons_of_mem _ hv)) u hu
      apply hmem f1
      intro u hu
      rcases List.mem_cons.1 hu with rfl | hu
      · exact ⟨rfl, rfl⟩
      · exact p2 u hu
    · rw [hold, hD, hA, hB]
      exact ⟨hx, hy⟩
    · rw [hold, hD]
      exact ⟨mul_nonneg hf0 hD0.le, k2, by rw [hfD]; linarith⟩
    · rw [hold, hA]
      exact hk4
    · rw [hold, hA]
      refine ⟨hsam, ?_⟩
      have hmap : ∀ {l1 l2 : List (Wp β)}, List.Forall₂ Same l1 l2 →
          l1.map (fun w => (w.lat, w.lon)) = l2.map (fun w => (w.lat, w.lon)) := by
        intro l1 l2 hl
        induction hl with
        | nil => rfl
        | cons hs _ ih =>
          obtain ⟨e1, e2, _, _⟩ := hs
          simp [e1, e2, ih]
      refine (hmap f1).trans ?_
      rw [List.map_cons, List.map_cons, p1, ← hsx, ← hsy]
    · rw [hold, hD]
      have : best.extend = ms / 1000 * speedOn w.speed (w :: w2 :: more).tail i := he
      rw [← this]
      unfold eps at k6
      constructor <;> linarith
    · rw [hold, hA, hB, ← hsx, ← hsy]
      intro z hz
      obtain ⟨t, q0, q1, q2⟩ := k7 (by
        have : (1 - f) * D = D - (D - m) / 2 := by rw [← hfD]; ring
        rw [this]; linarith) z hz
      have q3 := mul_le_mul_of_nonneg_right q1 hf1.le
      refine ⟨f + t * (1 - f), add_nonneg hf0 (mul_nonneg q0 hf1.le), by linarith, ?_⟩
      dsimp only [pt] at q2 ⊢
      rw [show A.1 + (f + t * (1 - f)) * (B.1 - A.1) =
          A.1 + (B.1 - A.1) * f + t * (B.1 - (A.1 + (B.1 - A.1) * f)) by ring,
        show A.2 + (f + t * (1 - f)) * (B.2 - A.2) =
          A.2 + (B.2 - A.2) * f + t * (B.2 - (A.2 + (B.2 - A.2) * f)) by ring]
      exact q2

/-- **C131.**  The new waypoints, and the straight lines between any two of them, stay within twice the radius of the segment
in the plane. -/
theorem C131_legs {ms : ℤ} {R d : ℝ} {w0 : Wp β} {ws rs : List (Wp β)} {i : ℕ} {a b : Wp β} {m : ℝ}
    {mid post : List (Wp β)} {psi s L : ℝ} {N : ℕ} {dub : List Dubins} {zs : List (ℝ × ℝ)} (hR : 0 < R)
    (h : Extended ms R d w0 ws rs i a b m mid post psi s L N dub zs) :
    ∃ ps : List (ℝ × ℝ), mid.map (fun w => (w.lat, w.lon)) = ps.map (geo (origin_ w0)) ∧
      ∀ y ∈ ps, ∀ z ∈ ps, ∀ t : ℝ, 0 ≤ t → t ≤ 1 →
        Near (pt (plane (origin_ w0) a)) (pt (plane (origin_ w0) b)) (2 * R)
          (y.1 + t * (z.1 - y.1), y.2 + t * (z.2 - y.2)) := by
  refine ⟨_, h.points.2, ?_⟩
  have hp := samples_passes h.points.1 (flies_len h.flown)
  have hall : ∀ y ∈ (((plane (origin_ w0) a).1 + s * cos psi, (plane (origin_ w0) a).2 + s * sin psi) :: zs),
      Near (pt (plane (origin_ w0) a)) (pt (plane (origin_ w0) b)) (2 * R) y := by
    intro y hy
    rcases List.mem_cons.1 hy with rfl | hy
    · obtain ⟨i1, i2, i3⟩ := h.inside
      have hD : 0 < gap (origin_ w0) a b := lt_trans (by norm_num) h.need.2.2
      refine ⟨s / gap (origin_ w0) a b, div_nonneg i1 hD.le, (div_le_one hD).2 (by linarith), ?_⟩
      dsimp only [pt]
      rw [h.heading.1, h.heading.2]
      have e1 : ∀ x c : ℝ, x + s * c - (x + s / gap (origin_ w0) a b * (gap (origin_ w0) a b * c)) = 0 := by
        intro x c
        field_simp
        ring
      rw [e1, e1]
      have := sq_nonneg (2 * R)
      linarith
    · exact h.near y (hp y hy)
  intro y hy z hz t t0 t1
  exact near_convex (by linarith) (hall y hy) (hall z hz) t0 t1

/-- **C131.**  If `ExtendPath` answers `false`, the route is unchanged, and there was no segment, or the first speed was nearly
0, or no segment was both long enough for the extension at the speed flown on it and longer than a tenth of a millimetre. -/
theorem C131_refused {asserts : Bool} {ws rs : List (Wp β)} {ms : ℤ} {R d : ℝ}
    (h : extendPath asserts ws ms R d = .ok (false, rs)) :
    rs = ws ∧ (ws.length < 2 ∨ ∃ w0, ws.head? = some w0 ∧ (w0.speed < 1 / 10000 ∨
      ∀ j a b, ws[j]? = some a → ws[j + 1]? = some b →
        ∃ m, required (ms / 1000 * speedOn w0.speed ws.tail j) R = .ok m ∧
          (gap (origin_ w0) a b < m ∨ gap (origin_ w0) a b ≤ 1 / 10000))) := by
  match ws with
  | [] => cases h; exact ⟨rfl, .inl (by simp)⟩
  | [w] => cases h; exact ⟨rfl, .inl (by simp)⟩
  | w :: w2 :: more =>
    unfold extendPath at h
    dsimp only at h
    by_cases hsp : w.speed < 1 / 10000
    · rw [if_pos hsp] at h
      cases h
      exact ⟨rfl, .inr ⟨w, rfl, .inl hsp⟩⟩
    rw [if_neg hsp, Outcome.bind_eq_ok] at h
    obtain ⟨min, hmin, h⟩ := h
    rw [toNorthEast_new] at h
    have hne := toNorthEast_plane asserts (origin_ w) w
    unfold origin_ at hne
    rw [hne, Outcome.bind_ok] at h
    rw [show ((radians .deg w.lat, radians .deg w.lon) : ℝ × ℝ) = origin_ w from rfl] at h
    dsimp only at h
    rw [Outcome.bind_eq_ok] at h
    obtain ⟨best, hbest, h⟩ := h
    obtain ⟨g1, _, _⟩ := scan_spec hmin hbest
    by_cases hcl : 1 / 10000 < best.cleared
    · rw [if_pos hcl, Outcome.bind_eq_ok] at h
      obtain ⟨r, _, h⟩ := h
      cases h
    · rw [if_neg hcl] at h
      cases h
      refine ⟨rfl, .inr ⟨w, rfl, .inr ?_⟩⟩
      intro j a b ha hb
      obtain ⟨m, k1, k2⟩ := g1 j a b ha hb
      refine ⟨m, k1, ?_⟩
      rcases lt_or_ge (gap (origin_ w) a b) m with hlt | hge
      · exact .inl hlt
      · exact .inr ((k2 hge).trans (not_lt.1 hcl))

end Verif.Extend
