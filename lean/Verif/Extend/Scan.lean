import Verif.Extend.Samples
import Verif.Extend.Props
import Verif.Earth.Props

/-!
The search for a segment, and the numbers of the waypoints.
-/

namespace Verif.Extend

open Real Verif.Earth

variable {β : Type}

/-- The origin of the plane: the first waypoint. -/
noncomputable def origin_ (w : Wp β) : ℝ × ℝ := (radians .deg w.lat, radians .deg w.lon)

/-- East and north of the origin, in metres, of a waypoint. -/
noncomputable def plane (o : ℝ × ℝ) (w : Wp β) : ℝ × ℝ :=
  (parallel radiusEquatorial ecc2 o.1 * (radians .deg w.lon - o.2),
    meridian radiusEquatorial ecc2 o.1 * (radians .deg w.lat - o.1))

/-- Latitude and longitude of a point of the plane, in degrees. -/
noncomputable def geo (o : ℝ × ℝ) (z : ℝ × ℝ) : ℝ × ℝ :=
  ((z.2 / meridian radiusEquatorial ecc2 o.1 + o.1) * radToDeg, (z.1 / parallel radiusEquatorial ecc2 o.1 + o.2) * radToDeg)

/-- The distance of two waypoints. -/
noncomputable def gap (o : ℝ × ℝ) (a b : Wp β) : ℝ :=
  √(((plane o b).1 - (plane o a).1) ^ 2 + ((plane o b).2 - (plane o a).2) ^ 2)

/-- The speed on the way to a waypoint with speed `s` after a speed `v`: `s`, unless it is 0 or so or nearly the same. -/
noncomputable def prevail (v s : ℝ) : ℝ := open Classical in if 1 / 10000 < |v - s| ∧ 1 / 10000 < s then s else v

/-- The speed on segment `j`, which ends at the waypoint with index `j` of the list. -/
noncomputable def speedOn : ℝ → List (Wp β) → ℕ → ℝ
  | v, [], _ => v
  | v, w :: _, 0 => prevail v w.speed
  | v, w :: ws, j + 1 => speedOn (prevail v w.speed) ws j

theorem toNorthEast_plane (asserts : Bool) (o : ℝ × ℝ) (w : Wp β) :
    (at_ o).toNorthEast asserts .deg .m (w.lat, w.lon) = .ok (at_ o, (plane o w).2, (plane o w).1) := by
  rw [toNorthEast_at]
  rfl

theorem toLatLong_geo (asserts : Bool) {o : ℝ × ℝ} (ho : 0 < cos o.1) (z : ℝ × ℝ) :
    (at_ o).toLatLong asserts .m .deg (z.2, z.1) = .ok (geo o z) := by
  rw [toLatLong_at asserts .m .deg ho]
  rfl

theorem scan_spec {asserts : Bool} {ms : ℤ} {R : ℝ} {o : ℝ × ℝ} : ∀ {ws : List (Wp β)} {w0 : Wp β} {v min : ℝ} {i : ℕ}
    {best best' : Best}, required (ms / 1000 * v) R = .ok min →
    scan asserts ms R (at_ o) ws (plane o w0).1 (plane o w0).2 v (ms / 1000 * v) min i best = .ok best' →
    (∀ j a b, (w0 :: ws)[j]? = some a → (w0 :: ws)[j + 1]? = some b →
      ∃ m, required (ms / 1000 * speedOn v ws j) R = .ok m ∧ (m ≤ gap o a b → gap o a b ≤ best'.cleared)) ∧
    best.cleared ≤ best'.cleared ∧
    (best' = best ∨ ∃ j a b, (w0 :: ws)[j]? = some a ∧ (w0 :: ws)[j + 1]? = some b ∧ best'.index = i + j ∧
      best'.cleared = gap o a b ∧ best'.extend = ms / 1000 * speedOn v ws j ∧
      required best'.extend R = .ok best'.need ∧ best'.need ≤ best'.cleared)
  | [], w0, v, min, i, best, best', hm, h => by
    obtain rfl := Outcome.ok.inj h
    refine ⟨?_, le_rfl, .inl rfl⟩
    intro j a b _ hb
    simp at hb
  | w :: ws, w0, v, min, i, best, best', hm, h => by
    unfold scan at h
    rw [toNorthEast_plane, Outcome.bind_ok] at h
    dsimp only at h
    rw [Outcome.bind_eq_ok] at h
    obtain ⟨⟨v', ext', min'⟩, h1, h⟩ := h
    dsimp only at h
    have hp : v' = prevail v w.speed ∧ ext' = ms / 1000 * v' ∧ required (ms / 1000 * v') R = .ok min' := by
      by_cases hc : newSpeed v w.speed
      · rw [if_pos hc, Outcome.bind_eq_ok] at h1
        obtain ⟨m, h2, h3⟩ := h1
        cases h3
        refine ⟨?_, rfl, h2⟩
        unfold prevail
        exact (if_pos hc).symm
      · rw [if_neg hc] at h1
        cases h1
        refine ⟨?_, rfl, hm⟩
        unfold prevail
        exact (if_neg hc).symm
    obtain ⟨hv, rfl, hm'⟩ := hp
    have hlen : √(((plane o w).1 - (plane o w0).1) * ((plane o w).1 - (plane o w0).1) +
        ((plane o w).2 - (plane o w0).2) * ((plane o w).2 - (plane o w0).2)) = gap o w0 w := by
      unfold gap
      rw [sq, sq]
    rw [hlen] at h
    obtain ⟨g1, g2, g3⟩ := scan_spec hm' h
    have hcl : best.cleared ≤ (if min' ≤ gap o w0 w ∧ best.cleared < gap o w0 w then
        ({ index := i, cleared := gap o w0 w, extend := ms / 1000 * v', need := min' } : Best) else best).cleared := by
      split
      · rename_i hc; exact hc.2.le
      · exact le_rfl
    refine ⟨?_, hcl.trans g2, ?_⟩
    · intro j a b ha hb
      cases j with
      | zero =>
        simp only [List.getElem?_cons_zero, Option.some.injEq, List.getElem?_cons_succ] at ha hb
        subst ha; subst hb
        refine ⟨min', ?_, ?_⟩
        · simp only [speedOn]
          rw [← hv]; exact hm'
        · intro hmin
          refine le_trans ?_ g2
          split
          · exact le_rfl
          · rename_i hc
            by_contra hlt
            exact hc ⟨hmin, not_le.1 hlt⟩
      | succ j =>
        rw [List.getElem?_cons_succ] at ha hb
        obtain ⟨m, k1, k2⟩ := g1 j a b ha hb
        refine ⟨m, ?_, k2⟩
        simp only [speedOn]
        rw [← hv]; exact k1
    · rcases g3 with g3 | ⟨j, a, b, k1, k2, k3, k4, k5, k6, k7⟩
      · by_cases hc : min' ≤ gap o w0 w ∧ best.cleared < gap o w0 w
        · rw [if_pos hc] at g3
          subst g3
          refine .inr ⟨0, w0, w, rfl, rfl, rfl, rfl, ?_, hm', hc.1⟩
          simp only [speedOn]
          rw [← hv]
        · rw [if_neg hc] at g3
          exact .inl g3
      · refine .inr ⟨j + 1, a, b, ?_, ?_, by omega, k4, ?_, k6, k7⟩
        · rw [List.getElem?_cons_succ]; exact k1
        · rw [List.getElem?_cons_succ]; exact k2
        · simp only [speedOn]
          rw [← hv]; exact k5

/-- The fields that are not changed when waypoints are numbered anew. -/
def Same (a b : Wp β) : Prop := a.lat = b.lat ∧ a.lon = b.lon ∧ a.speed = b.speed ∧ a.rest = b.rest

/-- The waypoints are numbered from `n`, each points to the next, and the last to itself. -/
def Numbered : ℤ → List (Wp β) → Prop
  | _, [] => True
  | n, [w] => w.number = n ∧ w.next = n
  | n, w :: ws => w.number = n ∧ w.next = n + 1 ∧ Numbered (n + 1) ws

theorem renumber_spec : ∀ {n : ℤ} {ws vs : List (Wp β)}, renumber n ws = .ok vs →
    List.Forall₂ Same (closeLast vs) ws ∧ Numbered n (closeLast vs) ∧ vs.length = ws.length
  | n, [], vs, h => by
    obtain rfl := Outcome.ok.inj h
    exact ⟨.nil, trivial, rfl⟩
  | n, w :: ws, vs, h => by
    unfold renumber at h
    split at h
    · cases h
    · rw [Outcome.bind_eq_ok] at h
      obtain ⟨us, h1, h⟩ := h
      obtain rfl := Outcome.ok.inj h
      obtain ⟨a, b, c⟩ := renumber_spec h1
      cases us with
      | nil =>
        cases ws with
        | nil => exact ⟨.cons ⟨rfl, rfl, rfl, rfl⟩ .nil, ⟨rfl, rfl⟩, rfl⟩
        | cons _ _ => simp at c
      | cons u us =>
        refine ⟨.cons ⟨rfl, rfl, rfl, rfl⟩ a, ?_, by simp [c]⟩
        have : closeLast ({ w with number := n, next := n + 1 } :: u :: us) =
          { w with number := n, next := n + 1 } :: closeLast (u :: us) := rfl
        rw [this]
        cases hcl : closeLast (u :: us) with
        | nil => cases us <;> simp [closeLast] at hcl
        | cons x xs =>
          rw [hcl] at b
          exact ⟨rfl, rfl, b⟩

theorem closeLast_append : ∀ (as : List (Wp β)) {bs : List (Wp β)}, bs ≠ [] →
    closeLast (as ++ bs) = as ++ closeLast bs
  | [], _, _ => rfl
  | a :: as, bs, h => by
    have ih := closeLast_append as h
    cases hab : as ++ bs with
    | nil => simp at hab; exact absurd hab.2 h
    | cons c cs =>
      rw [List.cons_append, hab]
      show a :: closeLast (c :: cs) = _
      rw [← hab, ih, List.cons_append]

theorem place_spec {asserts : Bool} {o : ℝ × ℝ} (ho : 0 < cos o.1) {base : Wp β} : ∀ {n : ℤ} {zs : List (ℝ × ℝ)}
    {ws : List (Wp β)}, place_ asserts (at_ o) base n zs = .ok ws →
    ws.map (fun w => (w.lat, w.lon)) = zs.map (geo o) ∧ ∀ w ∈ ws, w.speed = base.speed ∧ w.rest = base.rest
  | n, [], ws, h => by
    obtain rfl := Outcome.ok.inj h
    exact ⟨rfl, fun w hw => by cases hw⟩
  | n, z :: zs, ws, h => by
    unfold place_ at h
    rw [toLatLong_geo asserts ho, Outcome.bind_ok, Outcome.bind_eq_ok] at h
    obtain ⟨us, h1, h⟩ := h
    obtain rfl := Outcome.ok.inj h
    obtain ⟨a, b⟩ := place_spec ho h1
    refine ⟨by simp [a], ?_⟩
    intro w hw
    rcases List.mem_cons.1 hw with rfl | hw
    · exact ⟨rfl, rfl⟩
    · exact b w hw

/-- What is no further than `r` from a segment is a convex set. -/
theorem near_convex {a b : Dubins} {r s : ℝ} {y z : ℝ × ℝ} (hr : 0 ≤ r) (hy : Near a b r y) (hz : Near a b r z)
    (h0 : 0 ≤ s) (h1 : s ≤ 1) : Near a b r (y.1 + s * (z.1 - y.1), y.2 + s * (z.2 - y.2)) := by
  obtain ⟨t, t0, t1, ht⟩ := hy
  obtain ⟨u, u0, u1, hu⟩ := hz
  refine ⟨t + s * (u - t), by nlinarith, by nlinarith, ?_⟩
  dsimp only
  generalize e1 : y.1 - (a.x + t * (b.x - a.x)) = p1 at ht
  generalize e2 : y.2 - (a.y + t * (b.y - a.y)) = p2 at ht
  generalize e3 : z.1 - (a.x + u * (b.x - a.x)) = q1 at hu
  generalize e4 : z.2 - (a.y + u * (b.y - a.y)) = q2 at hu
  have k1 : y.1 + s * (z.1 - y.1) - (a.x + (t + s * (u - t)) * (b.x - a.x)) = p1 + s * (q1 - p1) := by
    rw [← e1, ← e3]; ring
  have k2 : y.2 + s * (z.2 - y.2) - (a.y + (t + s * (u - t)) * (b.y - a.y)) = p2 + s * (q2 - p2) := by
    rw [← e2, ← e4]; ring
  rw [k1, k2]
  have key : (p1 + s * (q1 - p1)) ^ 2 + (p2 + s * (q2 - p2)) ^ 2 =
      (1 - s) * (p1 ^ 2 + p2 ^ 2) + s * (q1 ^ 2 + q2 ^ 2) - s * (1 - s) * ((p1 - q1) ^ 2 + (p2 - q2) ^ 2) := by ring
  rw [key]
  have m1 := mul_le_mul_of_nonneg_left ht (sub_nonneg.2 h1)
  have m2 := mul_le_mul_of_nonneg_left hu h0
  have m3 : 0 ≤ s * (1 - s) * ((p1 - q1) ^ 2 + (p2 - q2) ^ 2) :=
    mul_nonneg (mul_nonneg h0 (sub_nonneg.2 h1)) (by positivity)
  linarith

end Verif.Extend
