import Verif.Search.Raster

/-!
# The route request of a search (C139)
-/

namespace Verif.Search

/-- The course of a heading in degrees. -/
noncomputable abbrev course (deg : ℝ) : ℝ := deg * (Real.pi / 180)

/-- The heading of a leg is its course. -/
theorem heading_course (ax : ℝ) (up : Bool) :
    ∃ m : ℤ, course (heading ax up) = (if up then ax else ax + Real.pi) - m * (2 * Real.pi) := by
  have hpi := Real.pi_ne_zero
  cases up with
  | true => exact ⟨0, by simp only [course, heading, if_true]; field_simp; simp⟩
  | false =>
      refine ⟨⌊(ax * (180 / Real.pi) + 180) / 360⌋, ?_⟩
      simp only [course, heading, Bool.false_eq_true, if_false, wrapDeg]
      field_simp; ring

theorem heading_cos_sin (ax : ℝ) (up : Bool) :
    Real.cos (course (heading ax up)) = Real.cos (if up then ax else ax + Real.pi) ∧
    Real.sin (course (heading ax up)) = Real.sin (if up then ax else ax + Real.pi) := by
  obtain ⟨m, hm⟩ := heading_course ax up
  rw [hm]
  exact ⟨Real.cos_sub_int_mul_two_pi _ m, Real.sin_sub_int_mul_two_pi _ m⟩

theorem along_heading (ax : ℝ) (up : Bool) (v p : Pos) :
    along (course (heading ax up)) v p = along (if up then ax else ax + Real.pi) v p := by
  obtain ⟨h1, h2⟩ := heading_cos_sin ax up
  simp only [along, h1, h2]

theorem swept_heading {ax : ℝ} {up : Bool} {lead trail half : ℝ} {a b p : Pos} :
    Swept lead trail half (course (heading ax up)) a b p ↔
    Swept lead trail half (if up then ax else ax + Real.pi) a b p := by
  obtain ⟨h1, h2⟩ := heading_cos_sin ax up
  simp only [Swept, Sees, along, across, h1, h2]

theorem onFootprint_inv {k : Kind} {least most : ℤ} {a : Area} {h alt width lead trail : ℝ}
    {r : Reply} {rs : List Route} (hr : onFootprint k least most a h alt width lead trail = .ok r)
    (hq : r.request = some rs) :
    0.01 < spacing k least most width ∧
    ∃ legs good, plan k a h (spacing k least most width) lead trail = .ok (legs, good) ∧
      rs = routes k (axis k a h) alt legs ∧
      r.start = rs.head?.map (fun r => (r.start, r.startHeading)) ∧
      r.stop = rs.getLast?.map (fun r => (r.stop, r.stopHeading)) ∧ r.pending = rs.map (·.id) := by
  unfold onFootprint at hr
  by_cases hs : 0.01 < spacing k least most width
  · simp only [if_pos hs] at hr
    obtain ⟨⟨legs, good⟩, hp, hr'⟩ := Outcome.bind_eq_ok.1 hr
    simp only [Outcome.ok.injEq] at hr'
    subst hr'
    simp only [Option.some.injEq] at hq
    subst hq
    exact ⟨hs, legs, good, hp, rfl, rfl, rfl, rfl⟩
  · simp only [if_neg hs, Outcome.ok.injEq] at hr
    subst hr
    cases hq

/-! ### Lists of routes -/

theorem routesFrom_ids {k : Kind} {ax alt : ℝ} : ∀ {ls : List Leg} {prev : Leg} {id : ℤ} {j : ℕ}
    (hj : j < (routesFrom k ax alt prev id ls).length),
    ((routesFrom k ax alt prev id ls)[j]).id = id + j ∧
    ((routesFrom k ax alt prev id ls)[j]).alt = alt
  | [], _, _, j, hj => by simp [routesFrom] at hj
  | l :: ls, prev, id, 0, hj => by simp [routesFrom]
  | l :: ls, prev, id, 1, hj => by simp [routesFrom]
  | l :: ls, prev, id, j + 2, hj => by
      have := routesFrom_ids (k := k) (ax := ax) (alt := alt) (ls := ls) (prev := l) (id := id + 2)
        (j := j) (by simpa [routesFrom] using hj)
      simp only [routesFrom, List.getElem_cons_succ]
      refine ⟨?_, this.2⟩
      rw [this.1]; push_cast; ring

/-- Two routes fit together. -/
def Joined (r r' : Route) : Prop := r.stop = r'.start ∧ r.stopHeading = r'.startHeading

theorem routesFrom_joined {k : Kind} {ax alt : ℝ} : ∀ {ls : List Leg} {prev : Leg} {id : ℤ}
    {r : Route}, r.stop = prev.stop → r.stopHeading = heading ax prev.up →
    (r :: routesFrom k ax alt prev id ls).IsChain Joined
  | [], prev, id, r, h1, h2 => by simp [routesFrom]
  | l :: ls, prev, id, r, h1, h2 => by
      simp only [routesFrom, List.isChain_cons_cons]
      refine ⟨⟨h1, h2⟩, ⟨rfl, rfl⟩, ?_⟩
      exact routesFrom_joined rfl rfl

theorem routesFrom_legs {k : Kind} {ax alt : ℝ} : ∀ {ls : List Leg} {prev : Leg} {id : ℤ},
    (routesFrom k ax alt prev id ls).length = 2 * ls.length ∧
    ∀ i (hi : i < ls.length), ∃ r, (routesFrom k ax alt prev id ls)[2 * i + 1]? = some r ∧
      r.start = ls[i].start ∧ r.stop = ls[i].stop ∧ r.startHeading = heading ax ls[i].up ∧
      r.stopHeading = heading ax ls[i].up
  | [], _, _ => by simp [routesFrom]
  | l :: ls, prev, id => by
      obtain ⟨h1, h2⟩ := routesFrom_legs (k := k) (ax := ax) (alt := alt) (ls := ls) (prev := l)
        (id := id + 2)
      refine ⟨by simp [routesFrom, h1]; omega, ?_⟩
      intro i hi
      cases i with
      | zero => exact ⟨_, rfl, rfl, rfl, rfl, rfl⟩
      | succ j =>
          obtain ⟨r, hr, hrest⟩ := h2 j (by simpa using hi)
          refine ⟨r, ?_, by simpa using hrest⟩
          rw [show 2 * (j + 1) + 1 = 2 * j + 1 + 1 + 1 by omega]
          simpa [routesFrom] using hr

/-- Every leg is asked for as a route, and every other route is one. -/
theorem routes_legs {k : Kind} {ax alt : ℝ} {legs : List Leg} :
    (routes k ax alt legs).length = 2 * legs.length - 1 ∧
    ∀ i (hi : i < legs.length), ∃ r, (routes k ax alt legs)[2 * i]? = some r ∧
      r.start = legs[i].start ∧ r.stop = legs[i].stop ∧ r.startHeading = heading ax legs[i].up ∧
      r.stopHeading = heading ax legs[i].up := by
  cases legs with
  | nil => simp [routes]
  | cons l ls =>
      obtain ⟨h1, h2⟩ := routesFrom_legs (k := k) (ax := ax) (alt := alt) (ls := ls) (prev := l)
        (id := firstRouteId + 1)
      refine ⟨by simp [routes, h1]; omega, ?_⟩
      intro i hi
      cases i with
      | zero => exact ⟨_, rfl, rfl, rfl, rfl, rfl⟩
      | succ j =>
          obtain ⟨r, hr, hrest⟩ := h2 j (by simpa using hi)
          refine ⟨r, ?_, by simpa using hrest⟩
          rw [show 2 * (j + 1) = 2 * j + 1 + 1 by omega]
          simpa [routes] using hr

/-! ### The property -/

/-- **C139.**  The routes asked for join end to start, position and heading, from the
start of the option to its end. -/
theorem C139_joined {k : Kind} {least most : ℤ} {a : Area} {h alt width lead trail : ℝ}
    {r : Reply} {rs : List Route} (hr : onFootprint k least most a h alt width lead trail = .ok r)
    (hq : r.request = some rs) :
    (∀ j (hj : j + 1 < rs.length), rs[j].stop = rs[j + 1].start ∧
      rs[j].stopHeading = rs[j + 1].startHeading) ∧
    (∀ hne : rs ≠ [], r.start = some ((rs.head hne).start, (rs.head hne).startHeading) ∧
      r.stop = some ((rs.getLast hne).stop, (rs.getLast hne).stopHeading)) ∧
    (rs = [] → r.start = none ∧ r.stop = none) := by
  obtain ⟨-, legs, good, -, hrs, h1, h2, -⟩ := onFootprint_inv hr hq
  refine ⟨?_, ?_, ?_⟩
  · have hc : rs.IsChain Joined := by
      rw [hrs]
      cases legs with
      | nil => simp [routes]
      | cons l ls => exact routesFrom_joined rfl rfl
    intro j hj
    exact List.isChain_iff_getElem.1 hc j hj
  · intro hne
    rw [h1, h2, List.head?_eq_some_head hne, List.getLast?_eq_some_getLast hne]
    exact ⟨rfl, rfl⟩
  · rintro rfl
    rw [h1, h2]
    exact ⟨rfl, rfl⟩

/-- **C139.**  The routes are numbered from two on without gaps, all at the altitude of
the option, and the ids awaited are those asked for. -/
theorem C139_ids {k : Kind} {least most : ℤ} {a : Area} {h alt width lead trail : ℝ}
    {r : Reply} {rs : List Route} (hr : onFootprint k least most a h alt width lead trail = .ok r)
    (hq : r.request = some rs) :
    (∀ j (hj : j < rs.length), rs[j].id = 2 + j ∧ rs[j].alt = alt) ∧ r.pending = rs.map (·.id) := by
  obtain ⟨-, legs, good, -, hrs, -, -, h3⟩ := onFootprint_inv hr hq
  refine ⟨?_, h3⟩
  subst hrs
  intro j hj
  cases legs with
  | nil => simp [routes] at hj
  | cons l ls =>
      cases j with
      | zero => simp [routes, firstRouteId]
      | succ j =>
          have := routesFrom_ids (k := k) (ax := axis k a h) (alt := alt) (ls := ls) (prev := l)
            (id := firstRouteId + 1) (j := j) (by simpa [routes] using hj)
          simp only [routes, List.getElem_cons_succ]
          refine ⟨?_, this.2⟩
          rw [this.1]; simp only [firstRouteId]; push_cast; ring

/-- **C139.**  Every other route, from the first, is a leg of the search: it goes from
the start to the end of the leg and its two headings are the true course of the leg,
with the sensor ahead. -/
theorem C139_legs {k : Kind} {least most : ℤ} {a : Area} {h alt width lead trail : ℝ}
    {r : Reply} {rs : List Route} (hlt : trail ≤ lead)
    (hr : onFootprint k least most a h alt width lead trail = .ok r) (hq : r.request = some rs) :
    ∃ legs good, plan k a h (spacing k least most width) lead trail = .ok (legs, good) ∧
      rs.length = 2 * legs.length - 1 ∧
      ∀ i (hi : i < legs.length), ∃ q, rs[2 * i]? = some q ∧ q.start = legs[i].start ∧
        q.stop = legs[i].stop ∧ q.startHeading = q.stopHeading ∧
        lead - trail ≤ along (course q.startHeading) q.start q.stop := by
  obtain ⟨hs, legs, good, hp, hrs, -, -, -⟩ := onFootprint_inv hr hq
  refine ⟨legs, good, hp, by rw [hrs]; exact routes_legs.1, ?_⟩
  intro i hi
  obtain ⟨q, h1, h2, h3, h4, h5⟩ := (routes_legs (k := k) (ax := axis k a h) (alt := alt)
    (legs := legs)).2 i hi
  refine ⟨q, by rw [hrs]; exact h1, h2, h3, h4.trans h5.symm, ?_⟩
  obtain ⟨x₀, δ, -, hl⟩ := C138_lanes (by linarith) hlt hp
  rw [h4, h2, h3, along_heading]
  exact (hl i hi).2.2.2.2.2

/-- **C139.**  Without configured limits the lanes are nine tenths of the width of the
footprint apart; configured limits, when they are positive and in order, are kept. -/
theorem C139_spacing {k : Kind} {least most : ℤ} {width : ℝ} :
    ((k = .cmasi ∨ least ≤ 0 ∨ most ≤ 0 ∨ most ≤ least) →
      spacing k least most width = 0.9 * width) ∧
    (∀ o, k = .angled o → 0 < least → least < most →
      (least : ℝ) ≤ spacing k least most width ∧ spacing k least most width ≤ most ∧
      ((least : ℝ) ≤ 0.9 * width → 0.9 * width ≤ most → spacing k least most width = 0.9 * width)) := by
  constructor
  · intro h
    cases k with
    | cmasi => simp only [spacing]; ring
    | angled o =>
        have hn : ¬ (0 < most ∧ 0 < least ∧ least < most) := by
          rcases h with h | h | h | h
          · cases h
          all_goals omega
        simp only [spacing, if_neg hn]; ring
  · rintro o rfl h1 h2
    have hlm : (least : ℝ) ≤ most := by exact_mod_cast h2.le
    simp only [spacing, if_pos (show 0 < most ∧ 0 < least ∧ least < most from ⟨by omega, h1, h2⟩)]
    by_cases c1 : (most : ℝ) < width * 0.9
    · rw [if_pos c1]
      exact ⟨hlm, le_refl _, fun _ h => absurd h (by linarith)⟩
    · rw [if_neg c1]
      by_cases c2 : width * 0.9 < least
      · rw [if_pos c2]
        exact ⟨le_refl _, hlm, fun h _ => absurd h (by linarith)⟩
      · rw [if_neg c2]
        exact ⟨by linarith, by linarith, fun _ _ => by ring⟩

/-- **C139.**  A request is sent just when the lanes are more than a centimetre apart
(and the area has a boundary); otherwise nothing is sent for the option, but the
service of angled searches says so. -/
theorem C139_sent {k : Kind} {least most : ℤ} {a : Area} {h alt width lead trail : ℝ}
    (hb : a = .other ∨ boundary k a ≠ []) :
    ∃ r, onFootprint k least most a h alt width lead trail = .ok r ∧
      (r.request ≠ none ↔ 0.01 < spacing k least most width) ∧
      (r.request = none → r.pending = [] ∧ (r.warned = true ↔ k ≠ .cmasi)) := by
  by_cases hs : 0.01 < spacing k least most width
  · obtain ⟨legs, good, hp, -⟩ := C138_ends (lead := lead) (trail := trail) (h := h)
      (by linarith : 0 < spacing k least most width) hb
    refine ⟨_, by simp only [onFootprint, if_pos hs, hp, Outcome.bind_ok]; rfl, ?_, ?_⟩
    · simp [hs]
    · intro h; cases h
  · refine ⟨_, by simp only [onFootprint, if_neg hs]; rfl, ?_, ?_⟩
    · simp [hs]
    · intro _
      cases k <;> simp

theorem routesFrom_headings {k : Kind} {ax alt : ℝ} : ∀ (ls : List Leg) (prev : Leg) (id : ℤ) (j : ℕ)
    (hj : j < (routesFrom k ax alt prev id ls).length),
    ((routesFrom k ax alt prev id ls)[j].useStart = true ↔ (k = .cmasi ∨ j % 2 = 0)) ∧
    (routesFrom k ax alt prev id ls)[j].useStop = (routesFrom k ax alt prev id ls)[j].useStart := by
  intro ls
  induction ls with
  | nil => intro prev id j hj; simp [routesFrom] at hj
  | cons l ls ih =>
      intro prev id j hj
      match j, hj with
      | 0, _ => simp [routesFrom]
      | 1, _ => cases k <;> simp [routesFrom]
      | j + 2, hj =>
          have := ih l (id + 2) j (by simpa [routesFrom] using hj)
          simpa [routesFrom] using this

/-- **C139.**  All routes are asked for with the headings that they have at both ends, except, in an angled search, those along
the lanes after the first one. -/
theorem C139_headings {k : Kind} {least most : ℤ} {a : Area} {h alt width lead trail : ℝ}
    {r : Reply} {rs : List Route} (hr : onFootprint k least most a h alt width lead trail = .ok r)
    (hq : r.request = some rs) (j : ℕ) (hj : j < rs.length) :
    (rs[j].useStart = true ↔ (k = .cmasi ∨ j = 0 ∨ j % 2 = 1)) ∧ rs[j].useStop = rs[j].useStart := by
  obtain ⟨-, legs, good, -, hrs, -, -, -⟩ := onFootprint_inv hr hq
  subst hrs
  cases legs with
  | nil => simp [routes] at hj
  | cons l ls =>
      cases j with
      | zero => simp [routes]
      | succ j =>
          have := routesFrom_headings (k := k) (ax := axis k a h) (alt := alt) ls l (firstRouteId + 1) j (by simpa [routes] using hj)
          simp only [routes, List.getElem_cons_succ]
          refine ⟨?_, this.2⟩
          rw [this.1]
          constructor
          · rintro (h | h)
            · exact .inl h
            · exact .inr (by omega)
          · rintro (h | h)
            · exact .inl h
            · exact .inr (by omega)

end Verif.Search
