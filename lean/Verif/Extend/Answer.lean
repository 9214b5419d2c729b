import Verif.Extend.RouteProps

/-!
When `ExtendPath` gives an answer.
-/

namespace Verif.Extend

open Real Verif.Earth

variable {β : Type}

theorem flies_radius {R : ℝ} (hR : 0 < R) {p : Pose} {w : Dubins}
    (hturn : w.turn = 0 ∨
        w.turn = 1 ∧ w.tx = p.x - R * sin p.psi ∧ w.ty = p.y + R * cos p.psi ∨
        w.turn = -1 ∧ w.tx = p.x + R * sin p.psi ∧ w.ty = p.y - R * cos p.psi)
    (hend : w.x = (p.along R w w.len).x ∧ w.y = (p.along R w w.len).y) (ht : w.turn ≠ 0) :
    √((w.x - w.tx) * (w.x - w.tx) + (w.y - w.ty) * (w.y - w.ty)) = R := by
  have key : (w.x - w.tx) * (w.x - w.tx) + (w.y - w.ty) * (w.y - w.ty) = R ^ 2 := by
    rcases hturn with h | ⟨h, hx, hy⟩ | ⟨h, hx, hy⟩
    · exact absurd h ht
    · have hl : p.along R w w.len = p.leftBy R (w.len / R) := by simp [Pose.along, h]
      rw [hend.1, hend.2, hl, hx, hy]
      simp only [Pose.leftBy]
      have := sin_sq_add_cos_sq (p.psi + w.len / R)
      nlinarith
    · have hl : p.along R w w.len = p.rightBy R (w.len / R) := by simp [Pose.along, h]
      rw [hend.1, hend.2, hl, hx, hy]
      simp only [Pose.rightBy]
      have := sin_sq_add_cos_sq (p.psi - w.len / R)
      nlinarith
  rw [key, Real.sqrt_sq hR.le]

theorem floorDiv_ok {x d : ℝ} (hd : 0 < d) (h0 : 0 ≤ x) (h : x < 2147483648 * d) :
    ∃ q : ℤ, 0 ≤ q ∧ q < 2147483648 ∧ floorDiv x d = .ok q ∧ toInt32 (q - 1) = .ok (q - 1) := by
  have e0 : 0 ≤ ⌊x / d⌋ := Int.floor_nonneg.2 (by positivity)
  have e1 : ⌊x / d⌋ < 2147483648 := by
    rw [Int.floor_lt, div_lt_iff₀ hd]
    exact_mod_cast h
  refine ⟨_, e0, e1, ?_, ?_⟩
  · unfold floorDiv toInt32
    rw [if_neg hd.ne', if_pos ⟨by omega, by omega⟩]
  · unfold toInt32
    rw [if_pos ⟨by omega, by omega⟩]

theorem pathPoints_ok {R d : ℝ} (hR : 0 < R) (hd : 0 < d) {p q : Pose} {ws : List Dubins} (hf : Flies R p ws q)
    (hl : ∀ w ∈ ws, w.len < 2147483648 * d) : ∃ zs, pathPoints d ws = .ok zs := by
  induction hf with
  | nil p => exact ⟨_, rfl⟩
  | @cons p w ws q hlen hturn hend hrest ih =>
    obtain ⟨zs, hzs⟩ := ih fun w hw => hl w (List.mem_cons_of_mem _ hw)
    have : ∃ a, piecePoints d w = .ok a := by
      unfold piecePoints
      by_cases ht : w.turn = 0
      · rw [if_neg (by simp [ht])]
        exact ⟨_, rfl⟩
      · rw [if_pos ht]
        dsimp only
        rw [flies_radius hR hturn hend ht, if_neg hR.ne']
        obtain ⟨q, _, _, e1, e2⟩ := floorDiv_ok hd hlen (hl w (by simp))
        rw [e1, Outcome.bind_ok, e2, Outcome.bind_ok]
        exact ⟨_, rfl⟩
    obtain ⟨a, ha⟩ := this
    unfold pathPoints
    rw [ha, Outcome.bind_ok, hzs, Outcome.bind_ok]
    exact ⟨_, rfl⟩

theorem len_le_total {ws : List Dubins} (h : ∀ w ∈ ws, 0 ≤ w.len) : ∀ w ∈ ws, w.len ≤ total ws := by
  induction ws with
  | nil => intro w hw; cases hw
  | cons v vs ih =>
    intro w hw
    have ht : total (v :: vs) = v.len + total vs := by simp [total]
    have hv := h v (by simp)
    have hvs : 0 ≤ total vs := by
      unfold total
      apply List.sum_nonneg
      intro x hx
      obtain ⟨y, hy, rfl⟩ := List.mem_map.1 hx
      exact h y (List.mem_cons_of_mem _ hy)
    rcases List.mem_cons.1 hw with rfl | hw
    · linarith
    · have := ih (fun w hw => h w (List.mem_cons_of_mem _ hw)) w hw
      linarith

theorem samples_length {R d : ℝ} (hd : 0 < d) {p : Pose} {ws : List Dubins} {zs : List (ℝ × ℝ)} (h : Samples R d p ws zs)
    (hl : ∀ w ∈ ws, 0 ≤ w.len) : (zs.length : ℝ) ≤ ws.length + total ws / d := by
  induction h with
  | nil p => simp [total]
  | @cons p w ws zs k hk hs ha hr ih =>
    have i := ih fun w hw => hl w (List.mem_cons_of_mem _ hw)
    have hw := hl w (by simp)
    have ht : total (w :: ws) = w.len + total ws := by simp [total]
    have hk' : (k : ℝ) ≤ 1 + w.len / d := by
      have h0 : 0 ≤ w.len / d := by positivity
      rcases Nat.lt_or_ge 1 k with h1 | h1
      · have hne : w.turn ≠ 0 := fun h => by have := hs h; omega
        have := (ha hne).2 h1
        have hk0 : (0 : ℝ) < k := by exact_mod_cast (by omega : 0 < k)
        rw [le_div_iff₀ hk0] at this
        have : (k : ℝ) ≤ w.len / d := by rw [le_div_iff₀ hd]; linarith
        linarith
      · have : (k : ℝ) ≤ 1 := by exact_mod_cast h1
        linarith
    rw [List.length_append, List.length_map, List.length_range, List.length_cons, ht, add_div]
    push_cast
    linarith

theorem quarters_length (R tx ty : ℝ) : ∀ (n : ℕ) (p : Pose), (quarters R tx ty n p).2.length = n
  | 0, _ => rfl
  | n + 1, p => by
    unfold quarters
    simp [quarters_length R tx ty n]

theorem extend_length {a b : Dubins} {e R : ℝ} {ws : List Dubins} (h : extendSegment a b e R = .ok ws) :
    ws.length ≤ 4 * 2147483648 + 6 := by
  unfold extendSegment at h
  split at h
  · obtain rfl := Outcome.ok.inj h
    simp [buildBubble]
  split at h
  · obtain rfl := Outcome.ok.inj h
    simp [buildSlide]
  · rw [Outcome.bind_eq_ok] at h
    obtain ⟨n, _, h⟩ := h
    rw [Outcome.bind_eq_ok] at h
    obtain ⟨n', hn', h⟩ := h
    obtain rfl := Outcome.ok.inj h
    unfold toInt32 at hn'
    split at hn'
    · rename_i hb
      obtain rfl := Outcome.ok.inj hn'
      unfold buildRaceTrack
      simp only [List.length_append, quarters_length, List.length_singleton]
      omega
    · cases hn'

theorem place_ok {asserts : Bool} {o : ℝ × ℝ} (ho : 0 < cos o.1) {base : Wp β} : ∀ (n : ℤ) (zs : List (ℝ × ℝ)),
    ∃ ws, place_ asserts (at_ o) base n zs = .ok ws ∧ ws.length = zs.length
  | n, [] => ⟨_, rfl, rfl⟩
  | n, z :: zs => by
    obtain ⟨ws, h, hl⟩ := place_ok (asserts := asserts) ho (base := base) (n + 1) zs
    unfold place_
    rw [toLatLong_geo asserts ho, Outcome.bind_ok, h, Outcome.bind_ok]
    exact ⟨_, rfl, by simp [hl]⟩

theorem renumber_ok : ∀ (n : ℤ) (ws : List (Wp β)), n + ws.length ≤ 9223372036854775807 →
    ∃ vs, renumber n ws = .ok vs
  | n, [], _ => ⟨_, rfl⟩
  | n, w :: ws, h => by
    rw [List.length_cons] at h
    push_cast at h
    unfold renumber
    rw [if_neg (by omega)]
    obtain ⟨vs, hv⟩ := renumber_ok (n + 1) ws (by omega)
    rw [hv, Outcome.bind_ok]
    exact ⟨_, rfl⟩

theorem speedOn_le {V : ℝ} : ∀ {ws : List (Wp β)} {v : ℝ} {j : ℕ}, v ≤ V → (∀ w ∈ ws, w.speed ≤ V) → speedOn v ws j ≤ V
  | [], _, _, h, _ => h
  | w :: ws, v, j, h, hall => by
    have hp : prevail v w.speed ≤ V := by
      unfold prevail
      split
      · exact hall w (by simp)
      · exact h
    cases j with
    | zero => exact hp
    | succ j => exact speedOn_le (ws := ws) hp fun w hw => hall w (List.mem_cons_of_mem _ hw)

theorem scan_ok {asserts : Bool} {ms : ℤ} {R : ℝ} {o : ℝ × ℝ} {V : ℝ} (hreq : ∀ v, 1 / 10000 ≤ v → v ≤ V →
    ∃ m, required (ms / 1000 * v) R = .ok m) : ∀ (ws : List (Wp β)) (x y v ext min : ℝ) (i : ℕ) (best : Best),
    (∀ w ∈ ws, w.speed ≤ V) → ∃ b, scan asserts ms R (at_ o) ws x y v ext min i best = .ok b
  | [], _, _, _, _, _, _, _, _ => ⟨_, rfl⟩
  | w :: ws, x, y, v, ext, min, i, best, hall => by
    have hws : ∀ w ∈ ws, w.speed ≤ V := fun w hw => hall w (List.mem_cons_of_mem _ hw)
    unfold scan
    rw [toNorthEast_plane, Outcome.bind_ok]
    dsimp only
    by_cases hc : newSpeed v w.speed
    · obtain ⟨m, hm⟩ := hreq w.speed hc.2.le (hall w (by simp))
      rw [if_pos hc, hm, Outcome.bind_ok, Outcome.bind_ok]
      exact scan_ok hreq ws _ _ _ _ _ _ _ hws
    · rw [if_neg hc, Outcome.bind_ok]
      exact scan_ok hreq ws _ _ _ _ _ _ _ hws

/-- **C131.**  `ExtendPath` gives an answer, with or without assertions, for every route that does not start at a pole, whose
speeds are at most `V`, whose numbers are at most 2^62 and that has at most 2^61 waypoints, if the way made at the speed `V` in
the time fits in 2^31 circles and, with six radii, in 2^31 discretisation distances. -/
theorem C131_answer {asserts : Bool} {ws : List (Wp β)} {ms : ℤ} {R d V : ℝ} (hR : 0 < R) (hd : 0 < d) (hms : 0 ≤ ms)
    (hpole : ∀ w, ws.head? = some w → 0 < cos (origin_ w).1) (hV : ∀ w ∈ ws, w.speed ≤ V)
    (hb : ms / 1000 * V < 2147483648 * (2 * π * R)) (hb' : ms / 1000 * V + 6 * R < 2147483648 * d)
    (hn : ∀ w ∈ ws, w.number ≤ 2 ^ 62) (hlen : ws.length ≤ 2 ^ 61) :
    ∃ r, extendPath asserts ws ms R d = .ok r := by
  match ws with
  | [] => exact ⟨_, rfl⟩
  | [w] => exact ⟨_, rfl⟩
  | w :: w2 :: more =>
    have hpole' := hpole w rfl
    have hms' : (0 : ℝ) ≤ ms / 1000 := by
      have : (0 : ℝ) ≤ ms := by exact_mod_cast hms
      positivity
    have hreq : ∀ v, 1 / 10000 ≤ v → v ≤ V → ∃ m, required (ms / 1000 * v) R = .ok m := by
      intro v h1 h2
      have : ms / 1000 * v ≤ ms / 1000 * V := mul_le_mul_of_nonneg_left h2 hms'
      exact (C130_answer (a := ⟨0, 0, 0, 0, 0, 0⟩) (b := ⟨0, 0, 0, 0, 0, 0⟩) hR (mul_nonneg hms' (by linarith))
        (by linarith)).2
    unfold extendPath
    dsimp only
    by_cases hsp : w.speed < 1 / 10000
    · rw [if_pos hsp]; exact ⟨_, rfl⟩
    rw [if_neg hsp]
    obtain ⟨min, hmin⟩ := hreq w.speed (not_lt.1 hsp) (hV w (by simp))
    rw [hmin, Outcome.bind_ok, toNorthEast_new]
    have hne := toNorthEast_plane asserts (origin_ w) w
    unfold origin_ at hne
    rw [hne, Outcome.bind_ok]
    rw [show ((radians .deg w.lat, radians .deg w.lon) : ℝ × ℝ) = origin_ w from rfl]
    dsimp only
    generalize hold : origin_ w = o at *
    have hV2 : ∀ x ∈ w2 :: more, x.speed ≤ V := fun x hx => hV x (List.mem_cons_of_mem _ hx)
    obtain ⟨best, hbest⟩ := scan_ok (asserts := asserts) (o := o) hreq (w2 :: more) (plane o w).1 (plane o w).2 w.speed
      (ms / 1000 * w.speed) min 0 {} hV2
    rw [hbest, Outcome.bind_ok]
    by_cases hcl : 1 / 10000 < best.cleared
    swap
    · rw [if_neg hcl]; exact ⟨_, rfl⟩
    rw [if_pos hcl]
    obtain ⟨_, _, g3⟩ := scan_spec hmin hbest
    rcases g3 with rfl | ⟨i, a, b, ha, hb2, hi, hc, he, hr, hle⟩
    · norm_num at hcl
    rw [zero_add] at hi
    unfold insertAt
    rw [hi, ha, hb2]
    dsimp only
    rw [toNorthEast_plane, Outcome.bind_ok]
    dsimp only
    rw [toNorthEast_plane, Outcome.bind_ok]
    dsimp only
    generalize hA : plane o a = A
    generalize hB : plane o b = B
    generalize (best.cleared - best.need) / 2 / best.cleared = f
    have hlat := toLatLong_geo asserts hpole' (A.1 + (B.1 - A.1) * f, A.2 + (B.2 - A.2) * f)
    dsimp only at hlat
    rw [hlat, Outcome.bind_ok]
    generalize geo o (A.1 + (B.1 - A.1) * f, A.2 + (B.2 - A.2) * f) = g
    have hv1 := speedOn_pos (ws := w2 :: more) (j := i) (not_lt.1 hsp)
    have hv2 := speedOn_le (ws := w2 :: more) (j := i) (hV w (by simp)) hV2
    have he0 : 0 ≤ best.extend := by
      rw [he]
      exact mul_nonneg hms' (by linarith)
    have he1 : best.extend ≤ ms / 1000 * V := by
      rw [he]
      exact mul_le_mul_of_nonneg_left hv2 hms'
    obtain ⟨⟨dub, hdub⟩, _⟩ := C130_answer (a := { x := A.1 + (B.1 - A.1) * f, y := A.2 + (B.2 - A.2) * f })
      (b := { x := B.1, y := B.2 }) hR he0 (lt_of_le_of_lt he1 hb)
    rw [hdub, Outcome.bind_ok]
    obtain ⟨L, m', N, k1, k2, k3, k4, k5, k6, _⟩ := extend_spec hR he0 hdub
    have hm6 := (C130_required hR he0 k1).2
    have htot : total dub < 2147483648 * d := by linarith
    have hfl := flies_len k4
    obtain ⟨zs, hzs⟩ := pathPoints_ok hR hd k4 fun x hx => lt_of_le_of_lt (len_le_total hfl x hx) htot
    have hsl := samples_length hd (path_samples hR hd k4 hzs) hfl
    have hdl := extend_length hdub
    unfold discretize
    rw [hzs, Outcome.bind_ok]
    obtain ⟨ext, hext, hxl⟩ := place_ok (asserts := asserts) hpole'
      (base := { b with lat := g.1, lon := g.2 }) 1 zs
    rw [hext, Outcome.bind_ok]
    have hz : zs.length ≤ 5 * 2147483648 + 6 := by
      have h1 : total dub / d < 2147483648 := by rw [div_lt_iff₀ hd]; exact htot
      have h2 : (dub.length : ℝ) ≤ 4 * 2147483648 + 6 := by exact_mod_cast hdl
      have h3 : (zs.length : ℝ) ≤ (5 * 2147483648 + 6 : ℕ) := by push_cast; linarith
      exact_mod_cast h3
    have hbn := hn b (List.mem_of_getElem? hb2)
    obtain ⟨tail, htail⟩ := renumber_ok b.number ({ b with lat := g.1, lon := g.2 } ::
        ext ++ (w :: w2 :: more).drop (i + 1)) (by
      rw [List.length_append, List.length_cons, List.length_drop, hxl]
      push_cast
      have : (((w :: w2 :: more).length - (i + 1) : ℕ) : ℤ) ≤ 2 ^ 61 := by
        have : (w :: w2 :: more).length - (i + 1) ≤ 2 ^ 61 := by omega
        exact_mod_cast this
      have hz' : (zs.length : ℤ) ≤ 5 * 2147483648 + 6 := by exact_mod_cast hz
      norm_num at this hbn ⊢
      omega)
    rw [htail, Outcome.bind_ok, Outcome.bind_ok]
    exact ⟨_, rfl⟩

/-! ## Concrete cases -/

/-- Two waypoints on the equator, one degree apart, flown with 20 metres per second; the second points to
number `n`. -/
noncomputable def sample (n : ℤ) : List (Wp ℕ) := [⟨0, 0, 20, 1, 2, 7⟩, ⟨0, 1, 20, 2, n, 8⟩]

theorem sample_gap (n : ℤ) : gap (origin_ (⟨0, 0, 20, 1, 2, 7⟩ : Wp ℕ)) (⟨0, 0, 20, 1, 2, 7⟩ : Wp ℕ) ⟨0, 1, 20, 2, n, 8⟩ =
    6378135 * (1745329251994 / 100000000000000) := by
  unfold gap
  have h1 : (plane (origin_ (⟨0, 0, 20, 1, 2, 7⟩ : Wp ℕ)) (⟨0, 1, 20, 2, n, 8⟩ : Wp ℕ)).1 -
      (plane (origin_ (⟨0, 0, 20, 1, 2, 7⟩ : Wp ℕ)) (⟨0, 0, 20, 1, 2, 7⟩ : Wp ℕ)).1 =
        6378135 * (1745329251994 / 100000000000000) := by
    simp [plane, origin_, parallel, radians, radiusEquatorial]
  have h2 : (plane (origin_ (⟨0, 0, 20, 1, 2, 7⟩ : Wp ℕ)) (⟨0, 1, 20, 2, n, 8⟩ : Wp ℕ)).2 -
      (plane (origin_ (⟨0, 0, 20, 1, 2, 7⟩ : Wp ℕ)) (⟨0, 0, 20, 1, 2, 7⟩ : Wp ℕ)).2 = 0 := by
    simp [plane, origin_, radians]
  rw [h1, h2, zero_pow two_ne_zero, add_zero, Real.sqrt_sq (by norm_num)]

/-- The route is not refused, whatever the distance `d`. -/
theorem sample_not_refused {asserts : Bool} {n : ℤ} {d : ℝ} {rs : List (Wp ℕ)} :
    extendPath asserts (sample n) 60000 200 d ≠ .ok (false, rs) := by
  intro h
  obtain ⟨_, h2⟩ := C131_refused h
  rcases h2 with h2 | ⟨w0, hw, h2⟩
  · simp [sample] at h2
  obtain rfl : _ = w0 := by simpa [sample] using hw
  rcases h2 with h2 | h2
  · norm_num at h2
  · obtain ⟨m, k1, k2⟩ := h2 0 _ _ rfl rfl
    rw [sample_gap] at k2
    have hsp : speedOn (20 : ℝ) (sample n).tail 0 = 20 := by
      simp [sample, speedOn, prevail]
    dsimp only at k1
    rw [hsp] at k1
    have := (C130_required (by norm_num) (by norm_num) k1).2
    rcases k2 with k2 | k2
    · norm_num at k2 this
      linarith
    · norm_num at k2

/-- All hypotheses hold together: the route is extended by one minute, with turns of 200 metres. -/
theorem sample_extended (asserts : Bool) (n : ℤ) : ∃ rs, extendPath asserts (sample n) 60000 200 100 = .ok (true, rs) := by
  have hpi := pi_gt_three
  obtain ⟨⟨t, rs⟩, h⟩ := C131_answer (asserts := asserts) (ws := sample n) (ms := 60000) (R := 200) (d := 100) (V := 20)
    (by norm_num) (by norm_num) (by norm_num)
    (by
      intro w hw
      obtain rfl : _ = w := by simpa [sample] using hw
      simp [origin_, radians])
    (by
      intro w hw
      simp only [sample, List.mem_cons, List.not_mem_nil, or_false] at hw
      rcases hw with rfl | rfl <;> norm_num)
    (by push_cast; nlinarith) (by push_cast; norm_num)
    (by
      intro w hw
      simp only [sample, List.mem_cons, List.not_mem_nil, or_false] at hw
      rcases hw with rfl | rfl <;> norm_num)
    (by simp [sample])
  cases t with
  | true => exact ⟨rs, h⟩
  | false => exact absurd h sample_not_refused

theorem sample_is (asserts : Bool) (n : ℤ) : ∃ rs i a b m mid post psi s L N dub zs,
    extendPath asserts (sample n) 60000 200 100 = .ok (true, rs) ∧
    Extended 60000 200 100 ⟨0, 0, 20, 1, 2, 7⟩ (sample n) rs i a b m mid post psi s L N dub zs := by
  obtain ⟨rs, h⟩ := sample_extended asserts n
  obtain ⟨i, a, b, m, mid, post, psi, s, L, N, dub, zs, hx⟩ := C131_extend (by norm_num) (by norm_num) (by norm_num) rfl
    (by simp [origin_, radians]) h
  exact ⟨rs, i, a, b, m, mid, post, psi, s, L, N, dub, zs, h, hx⟩

theorem sample_index {n : ℤ} {rs : List (Wp ℕ)} {i : ℕ} {a b : Wp ℕ} {m : ℝ} {mid post : List (Wp ℕ)} {psi s L : ℝ} {N : ℕ}
    {dub : List Dubins} {zs : List (ℝ × ℝ)}
    (h : Extended 60000 200 100 ⟨0, 0, 20, 1, 2, 7⟩ (sample n) rs i a b m mid post psi s L N dub zs) :
    i = 0 ∧ b = ⟨0, 1, 20, 2, n, 8⟩ ∧ ∃ x y ys, mid = x :: ys ∧ post = [y] ∧ x.rest = 8 ∧ y.rest = 8 := by
  obtain ⟨_, hb⟩ := h.seg
  have hi : i = 0 := by
    have := (List.getElem?_eq_some_iff.1 hb).1
    simp only [sample, List.length_cons, List.length_nil] at this
    omega
  subst hi
  obtain rfl : _ = b := by simpa [sample] using hb
  refine ⟨rfl, rfl, ?_⟩
  have hk := h.kept
  simp only [sample, zero_add, List.drop_succ_cons, List.drop_zero] at hk
  have hc := h.copied
  have hp := h.points.2
  cases hk with
  | cons h1 h2 =>
    cases h2
    cases mid with
    | nil => simp at hp
    | cons x ys => exact ⟨x, _, ys, rfl, rfl, (hc x (by simp)).2, h1.2.2.2⟩

/-- **C131 is violated** for the actions of a waypoint: the new waypoints are copies of the waypoint at the end of the segment,
with its vehicle actions and associated tasks, so what is to be done once, at that waypoint, is to be done at each of them. -/
theorem C131_actions_violated (asserts : Bool) : ∃ rs : List (Wp ℕ),
    extendPath asserts (sample 2) 60000 200 100 = .ok (true, rs) ∧
    ((sample 2).filter (fun w => w.rest = 8)).length = 1 ∧ 2 ≤ (rs.filter (fun w => w.rest = 8)).length := by
  obtain ⟨rs, i, a, b, m, mid, post, psi, s, L, N, dub, zs, h, hx⟩ := sample_is asserts 2
  obtain ⟨rfl, _, x, y, ys, rfl, rfl, e1, e2⟩ := sample_index hx
  refine ⟨rs, h, by simp [sample], ?_⟩
  rw [hx.list]
  simp [sample, e1, e2]

theorem numbered_last : ∀ {n : ℤ} {ws : List (Wp β)} {w : Wp β}, Numbered n (ws ++ [w]) → w.next = n + ws.length
  | n, [], w, h => by
    simp only [List.nil_append, Numbered] at h
    simp [h.2]
  | n, v :: ws, w, h => by
    have hc : Numbered (n + 1) (ws ++ [w]) := by
      cases hws : ws ++ [w] with
      | nil => simp at hws
      | cons u us =>
        rw [List.cons_append, hws] at h
        exact h.2.2
    rw [numbered_last hc, List.length_cons]
    push_cast
    ring

/-- **C131 is violated** for a route that leads back: if the last waypoint points to the first, so that the vehicle flies round,
it no longer does in the extended route. -/
theorem C131_loop_violated (asserts : Bool) : ∃ rs : List (Wp ℕ),
    extendPath asserts (sample 1) 60000 200 100 = .ok (true, rs) ∧
    ((sample 1).getLast?.map Wp.next = some 1) ∧ ∃ n, rs.getLast?.map Wp.next = some n ∧ 3 ≤ n := by
  obtain ⟨rs, i, a, b, m, mid, post, psi, s, L, N, dub, zs, h, hx⟩ := sample_is asserts 1
  obtain ⟨rfl, rfl, x, y, ys, rfl, rfl, e1, e2⟩ := sample_index hx
  refine ⟨rs, h, by simp [sample], 2 + ((x :: ys).length : ℤ), ?_, ?_⟩
  · rw [hx.list]
    have := numbered_last hx.numbers
    rw [List.getLast?_append, List.getLast?_singleton]
    simp [this]
  · rw [List.length_cons]
    push_cast
    omega

/-- A path that is discretised with the distance 0 has no arc. -/
theorem pathPoints_zero : ∀ {ws : List Dubins} {zs : List (ℝ × ℝ)}, pathPoints 0 ws = .ok zs → ∀ w ∈ ws, w.turn = 0
  | [], _, _ => by intro w hw; cases hw
  | v :: ws, zs, h => by
    unfold pathPoints at h
    rw [Outcome.bind_eq_ok] at h
    obtain ⟨x, hx, h⟩ := h
    rw [Outcome.bind_eq_ok] at h
    obtain ⟨y, hy, h⟩ := h
    intro w hw
    rcases List.mem_cons.1 hw with rfl | hw
    · by_contra ht
      unfold piecePoints at hx
      rw [if_pos ht] at hx
      dsimp only at hx
      split at hx
      · cases hx
      · unfold floorDiv at hx
        rw [if_pos rfl] at hx
        cases hx
    · exact pathPoints_zero hy w hw

theorem extend_arc {a b : Dubins} {e R : ℝ} {ws : List Dubins} (h : extendSegment a b e R = .ok ws) :
    ∃ w ∈ ws, w.turn ≠ 0 := by
  unfold extendSegment at h
  split at h
  · obtain rfl := Outcome.ok.inj h
    exact ⟨_, List.mem_cons_self .., by simp [left]⟩
  split at h
  · obtain rfl := Outcome.ok.inj h
    exact ⟨_, List.mem_cons_self .., by simp [left]⟩
  · rw [Outcome.bind_eq_ok] at h
    obtain ⟨n, _, h⟩ := h
    rw [Outcome.bind_eq_ok] at h
    obtain ⟨n', hn', h⟩ := h
    obtain rfl := Outcome.ok.inj h
    unfold buildRaceTrack
    refine ⟨_, List.mem_append_right _ (List.mem_cons_self ..), ?_⟩
    simp [quarter]

/-- **C131 is violated** for a discretisation distance of 0: no route is extended, and instead of an answer a number that is
infinite is converted to an integer, as on the route of the example. -/
theorem C131_zero_violated (asserts : Bool) {ws rs : List (Wp β)} {ms : ℤ} {R : ℝ} :
    extendPath asserts ws ms R 0 ≠ .ok (true, rs) ∧ ∀ r, extendPath asserts (sample 2) 60000 200 0 ≠ .ok r := by
  have key : ∀ {γ : Type} {ws rs : List (Wp γ)} {ms : ℤ} {R : ℝ}, extendPath asserts ws ms R 0 ≠ .ok (true, rs) := by
    intro γ ws rs ms R h
    match ws with
    | [] => cases h
    | [w] => cases h
    | w :: w2 :: more =>
      unfold extendPath at h
      dsimp only at h
      split at h
      · cases h
      rw [Outcome.bind_eq_ok] at h
      obtain ⟨_, _, h⟩ := h
      rw [Outcome.bind_eq_ok] at h
      obtain ⟨_, _, h⟩ := h
      rw [Outcome.bind_eq_ok] at h
      obtain ⟨best, _, h⟩ := h
      split at h
      · rw [Outcome.bind_eq_ok] at h
        obtain ⟨r, hr, _⟩ := h
        unfold insertAt at hr
        split at hr
        · rw [Outcome.bind_eq_ok] at hr
          obtain ⟨_, _, hr⟩ := hr
          rw [Outcome.bind_eq_ok] at hr
          obtain ⟨_, _, hr⟩ := hr
          dsimp only at hr
          rw [Outcome.bind_eq_ok] at hr
          obtain ⟨_, _, hr⟩ := hr
          rw [Outcome.bind_eq_ok] at hr
          obtain ⟨dub, hdub, hr⟩ := hr
          rw [Outcome.bind_eq_ok] at hr
          obtain ⟨ext, hext, hr⟩ := hr
          unfold discretize at hext
          rw [Outcome.bind_eq_ok] at hext
          obtain ⟨zs, hzs, _⟩ := hext
          obtain ⟨w, hw, ht⟩ := extend_arc hdub
          exact ht (pathPoints_zero hzs w hw)
        · cases hr
      · cases h
  refine ⟨key, ?_⟩
  rintro ⟨t, r⟩ h
  cases t with
  | true => exact key h
  | false => exact sample_not_refused h

end Verif.Extend
