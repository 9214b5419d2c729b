import Verif.Search.Cover

/-!
# Rectangles are seen whole, when their width fits (C140)
-/

namespace Verif.Search

/-- The corners of a rectangle in its own frame. -/
noncomputable def box (w h : ℝ) : List Pos := [⟨h / 2, -(w / 2)⟩, ⟨h / 2, w / 2⟩, ⟨-(h / 2), w / 2⟩, ⟨-(h / 2), -(w / 2)⟩]

theorem rect_corners (o : ℕ) (c : Pos) (w ht rot h : ℝ) :
    cornersOf (.angled o) (.rectangle c w ht rot) h = box w ht := by
  have hs := Real.sin_sq_add_cos_sq (rot * (Real.pi / 180))
  simp only [cornersOf, boundary, centre, axis, box, List.map_cons, List.map_nil, turnIn,
    List.cons.injEq, Pos.mk.injEq, and_true]
  refine ⟨⟨?_, ?_⟩, ⟨?_, ?_⟩, ⟨?_, ?_⟩, ?_, ?_⟩
  · linear_combination (ht / 2) * hs
  · linear_combination (-(w / 2)) * hs
  · linear_combination (ht / 2) * hs
  · linear_combination (w / 2) * hs
  · linear_combination (-(ht / 2)) * hs
  · linear_combination (w / 2) * hs
  · linear_combination (-(ht / 2)) * hs
  · linear_combination (-(w / 2)) * hs

theorem box_lo {w h : ℝ} (hw : 0 < w) : lowest (·.e) (box w h) = -(w / 2) := by
  apply le_antisymm
  · exact lowest_le (f := (·.e)) (p := ⟨h / 2, -(w / 2)⟩) (by simp [box])
  · obtain ⟨p, hp, he⟩ := lowest_mem (f := (·.e)) (vs := box w h) (by simp [box])
    rw [he]
    simp only [box, List.mem_cons, List.not_mem_nil, or_false] at hp
    rcases hp with rfl | rfl | rfl | rfl <;> simp only <;> linarith

theorem box_hi {w h : ℝ} (hw : 0 < w) : highest (·.e) (box w h) = w / 2 := by
  apply le_antisymm
  · obtain ⟨p, hp, he⟩ := highest_mem (f := (·.e)) (vs := box w h) (by simp [box])
    rw [he]
    simp only [box, List.mem_cons, List.not_mem_nil, or_false] at hp
    rcases hp with rfl | rfl | rfl | rfl <;> simp only <;> linarith
  · exact le_highest (f := (·.e)) (p := ⟨h / 2, w / 2⟩) (by simp [box])

theorem off_ge {t r : ℝ} (ht : 0 < t) (h : Off t r) : t ≤ r := by
  by_contra hc
  have h1 : r = t - 1 / 2 := by
    have := h.1
    rw [abs_of_neg (by linarith)] at this; linarith
  have h2 := h.2
  rw [abs_of_pos ht] at h2
  rcases le_or_gt 0 r with hr | hr
  · rw [abs_of_nonneg hr] at h2; linarith
  · rw [abs_of_neg hr] at h2; linarith

theorem off_le {t r : ℝ} (ht : t < 0) (h : Off t r) : r ≤ t := by
  have : Off (-t) (-r) := ⟨by rw [show -r - -t = -(r - t) by ring, abs_neg]; exact h.1,
    by rw [abs_neg, abs_neg]; exact h.2⟩
  have := off_ge (by linarith) this
  linarith

/-- A lane strictly inside a rectangle meets its far side and its near side. -/
theorem box_hits {w ht x south north : ℝ} (hh : 0 < ht) (h1 : -(w / 2) < x)
    (h2 : x < w / 2) (hb : ∀ v ∈ box w ht, south < v.n ∧ v.n < north) {p q : Pos} {ps : List Pos}
    (h : hits (box w ht) ⟨south, x⟩ ⟨north, x⟩ = p :: q :: ps) :
    min p.n ((q :: ps).getLast (by simp)).n ≤ -(ht / 2) ∧
    ht / 2 ≤ max p.n ((q :: ps).getLast (by simp)).n := by
  have hx : ∀ v ∈ box w ht, v.e ≠ x := by
    intro v hv
    simp only [box, List.mem_cons, List.not_mem_nil, or_false] at hv
    rcases hv with rfl | rfl | rfl | rfl <;> intro hh <;> simp only at hh <;> linarith
  obtain ⟨g, hg, g', hg', ho, -, hp, -, hl⟩ := hits_ends hx hb h
  have edges : ∀ g ∈ ring (box w ht),
      (g.1.e < x ∧ x < g.2.e → cut g.1 g.2 x = ht / 2) ∧
      (g.2.e < x ∧ x < g.1.e → cut g.1 g.2 x = -(ht / 2)) := by
    intro g hg
    simp only [box, ring, path, List.cons_append, List.nil_append, List.mem_cons,
      List.not_mem_nil, or_false] at hg
    rcases hg with rfl | rfl | rfl | rfl
    · exact ⟨fun _ => by simp [cut], fun h => by simp only at h; linarith [h.1, h.2]⟩
    · exact ⟨fun h => by simp only at h; linarith [h.1, h.2], fun h => by simp only at h; linarith [h.1, h.2]⟩
    · exact ⟨fun h => by simp only at h; linarith [h.1, h.2], fun _ => by simp [cut]⟩
    · exact ⟨fun h => by simp only at h; linarith [h.1, h.2], fun h => by simp only at h; linarith [h.1, h.2]⟩
  rcases ho with ⟨o1, o2, o3, o4⟩ | ⟨o1, o2, o3, o4⟩
  · rw [(edges g hg).1 ⟨o1, o2⟩] at hp
    rw [(edges g' hg').2 ⟨o3, o4⟩] at hl
    exact ⟨(min_le_right _ _).trans (off_le (by linarith) hl),
      (off_ge (by linarith) hp).trans (le_max_left _ _)⟩
  · rw [(edges g hg).2 ⟨o1, o2⟩] at hp
    rw [(edges g' hg').1 ⟨o3, o4⟩] at hl
    exact ⟨(min_le_left _ _).trans (off_le (by linarith) hp),
      (off_ge (by linarith) hl).trans (le_max_right _ _)⟩

theorem wrapRad_zero : wrapRad 0 = 0 := by simp [wrapRad]

theorem axis_cmasi_zero (a : Area) : axis .cmasi a 0 = 0 := by
  cases a <;> exact wrapRad_zero

theorem turnIn_zero (c p : Pos) : turnIn c 0 p = ⟨p.n - c.n, p.e - c.e⟩ := by
  simp [turnIn]

theorem across_zero (v p : Pos) : across 0 v p = p.e - v.e := by simp [across]

theorem along_zero (v p : Pos) : along 0 v p = p.n - v.n := by simp [along]

theorem cmasi_corners (c : Pos) (w ht rot : ℝ) :
    cornersOf .cmasi (.rectangle c w ht rot) 0 = box w ht := by
  simp only [cornersOf, axis_cmasi_zero, boundary, centre, List.map_cons, List.map_nil, turnIn_zero,
    box, List.cons.injEq, Pos.mk.injEq, and_true]
  refine ⟨⟨?_, ?_⟩, ⟨?_, ?_⟩, ⟨?_, ?_⟩, ?_, ?_⟩ <;> ring

/-- A route asked for sees `p` on its way, flown straight at its heading. -/
def RouteSees (lead trail half : ℝ) (r : Route) (p : Pos) : Prop :=
  Swept lead trail half (course r.startHeading) r.start r.stop p

theorem rectangle_seen {k : Kind} {least most : ℤ} {c : Pos}
    {w ht rot ψ h alt width lead trail : ℝ} {r : Reply}
    (hbox : cornersOf k (.rectangle c w ht rot) h = box w ht)
    (hax : axis k (.rectangle c w ht rot) h = ψ)
    (hw : 0 < w) (hh : 0 < ht) (hwide : 10 ≤ width) (hlt : trail ≤ lead)
    (hlim : k = .cmasi ∨ least ≤ 0 ∨ most ≤ 0 ∨ most ≤ least)
    (hr : onFootprint k least most (.rectangle c w ht rot) h alt width lead trail = .ok r)
    (hfit : Fits k w (0.9 * width)) :
    ∃ rs, r.request = some rs ∧ ∀ p : Pos,
      |along ψ c p| ≤ ht / 2 → |across ψ c p| ≤ w / 2 →
      ∃ q ∈ rs, RouteSees lead trail (width / 2) q p := by
  have hsp : spacing k least most width = 0.9 * width :=
    C139_spacing.1 hlim
  have hs : (0 : ℝ) < 0.9 * width := by linarith
  obtain ⟨r', hr', hsent, -⟩ := C139_sent (k := k) (least := least) (most := most)
    (a := .rectangle c w ht rot) (h := h) (alt := alt) (width := width) (lead := lead)
    (trail := trail) (.inr (by cases k <;> simp [boundary]))
  have : r' = r := by rw [hr] at hr'; exact (Outcome.ok.inj hr').symm
  subst this
  have hne := hsent.2 (by rw [hsp]; linarith)
  obtain ⟨rs, hrs⟩ := Option.ne_none_iff_exists'.1 hne
  refine ⟨rs, hrs, ?_⟩
  intro p hp1 hp2
  obtain ⟨-, legs, good, hp, hrr, -, -, -⟩ := onFootprint_inv hr hrs
  rw [hsp] at hp
  rcases plan_inv hp with ⟨h0, -, -⟩ | ⟨hbn, ls, hsc, hmap⟩
  · cases h0
  set a : Area := .rectangle c w ht rot with ha
  have hlo : loOf k a h = -(w / 2) := by rw [loOf, hbox]; exact box_lo hw
  have hhi : hiOf k a h = w / 2 := by rw [hiOf, hbox]; exact box_hi hw
  have hce : centre a = c := rfl
  obtain ⟨hspec, hgood, hbad⟩ := scan_spec hsc
  have hgd : good = true := by
    by_contra hg
    obtain ⟨hgo, hl⟩ := hbad (by simpa using hg)
    have hwi := lane_within hs hgo
    rw [hlo, hhi] at hwi
    have hx : ∀ v ∈ cornersOf k a h, v.e ≠ firstLane k (loOf k a h) (hiOf k a h) (0.9 * width) +
        (ls.length : ℝ) * laneOver k (0.9 * width) := by
      intro v hv
      rw [hlo, hhi]
      rw [hbox] at hv
      simp only [box, List.mem_cons, List.not_mem_nil, or_false] at hv
      rcases hv with rfl | rfl | rfl | rfl <;> intro hh' <;> simp only at hh' <;>
        linarith [hwi.1, hwi.2]
    obtain ⟨p', q', ps', hh'⟩ := hits_two (vs := cornersOf k a h) hx bounds_n
      (by refine ⟨⟨ht / 2, -(w / 2)⟩, by rw [hbox]; simp [box], ?_⟩
          rw [hlo, hhi]; exact hwi.1)
      (by refine ⟨⟨ht / 2, w / 2⟩, by rw [hbox]; simp [box], ?_⟩
          rw [hlo, hhi]; exact hwi.2)
    rw [hh'] at hl
    simp at hl
  have hz1 := abs_le.1 hp1
  have hz2 := abs_le.1 hp2
  obtain ⟨i, him, hi⟩ := (lanes_near (k := k) (lo := loOf k a h) (hi := hiOf k a h)
    (s := 0.9 * width) (e := across (axis k a h) (centre a) p) hs (by rw [hlo, hhi]; linarith)
    (hgood hgd) (by rw [hlo, hax, hce]; exact hz2.1) (by rw [hhi, hax, hce]; exact hz2.2)).2
    (by
      rw [hlo, hhi, show w / 2 - -(w / 2) = w by ring]
      exact hfit)
  obtain ⟨hgo, p', q', ps', hh', he⟩ := hspec i him
  have hwi := lane_within hs hgo
  rw [hlo, hhi] at hwi
  have hpm := hits_lane (p := p') (by rw [hh']; simp)
  have hqm := hits_lane (p := (q' :: ps').getLast (by simp))
    (by rw [hh']; exact List.mem_cons_of_mem _ (List.getLast_mem _))
  have hbh := box_hits (w := w) (ht := ht) hh
    (x := firstLane k (loOf k a h) (hiOf k a h) (0.9 * width) + (i : ℝ) * laneOver k (0.9 * width))
    (south := lowest (·.n) (cornersOf k a h) - 100000)
    (north := highest (·.n) (cornersOf k a h) + 100000)
    (by rw [hlo, hhi]; exact hwi.1) (by rw [hlo, hhi]; exact hwi.2)
    (by rw [hbox]; exact bounds_n) (p := p') (q := q') (ps := ps')
    (by rw [hbox] at hh' ⊢; exact hh')
  have hn : (turnIn (centre a) (axis k a h) p).n = along ψ c p := by rw [hax]; rfl
  have hsw := leg_sweeps (p := p') (q := (q' :: ps').getLast (by simp)) (up := upAt (firstUp k) i)
    (lead := lead) (trail := trail) (w := 0.9 * width / 2) (δ := 0)
    (x := firstLane k (loOf k a h) (hiOf k a h) (0.9 * width) + (i : ℝ) * laneOver k (0.9 * width))
    (z := p) (c := centre a) (ax := axis k a h) hlt hpm hqm (le_refl _)
    (by rw [hn]; linarith [hbh.1, hz1.1]) (by rw [hn]; linarith [hbh.2, hz1.2]) hi
  have hil : i < legs.length := by rw [hmap]; simpa using him
  obtain ⟨q, h1, h2, h3, h4, h5⟩ := (routes_legs (k := k) (ax := axis k a h) (alt := alt)
    (legs := legs)).2 i hil
  rw [← hrr] at h1
  refine ⟨q, List.mem_of_getElem? h1, ?_⟩
  unfold RouteSees
  rw [h4, h2, h3, swept_heading]
  have hle : legs[i] = place k a h ls[i] := by simp [hmap]
  rw [hle]
  simp only [he, leg_up]
  obtain ⟨t, t0, t1, s1, s2, s3⟩ := hsw
  exact ⟨t, t0, t1, by linarith, by linarith, by linarith⟩

/-- **C140.**  An angled search of a rectangle, with a sensor whose footprint is at
least ten metres wide and no limits to the lane spacing, sees every point of the
rectangle, rotated as it is, provided the width of the rectangle fits the lanes.
Missing from the full claim: widths that do not fit, areas of other shapes. -/
theorem C140_rectangle_partial {o : ℕ} {least most : ℤ} {c : Pos}
    {w ht rot h alt width lead trail : ℝ} {r : Reply}
    (hw : 0 < w) (hh : 0 < ht) (hwide : 10 ≤ width) (hlt : trail ≤ lead)
    (hlim : least ≤ 0 ∨ most ≤ 0 ∨ most ≤ least)
    (hr : onFootprint (.angled o) least most (.rectangle c w ht rot) h alt width lead trail = .ok r)
    (hfit : w ≤ 0.9 * width ∨
      ∃ n : ℕ, ((n : ℝ) - 1 / 2) * (0.9 * width) < w ∧ w ≤ n * (0.9 * width)) :
    ∃ rs, r.request = some rs ∧ ∀ p : Pos,
      |along (course rot) c p| ≤ ht / 2 → |across (course rot) c p| ≤ w / 2 →
      ∃ q ∈ rs, RouteSees lead trail (width / 2) q p := by
  exact rectangle_seen (rect_corners o c w ht rot h) rfl hw hh hwide hlt (.inr hlim) hr
    (hfit.imp id fun h => ⟨fun h => by (cases h), h⟩)

/-- **C140.**  The other service, with lanes to the north: every point of a rectangle that
is not rotated is seen, provided its width fits the lanes.  Missing from the full claim:
widths that do not fit, rotated rectangles, lanes in other directions, areas of other
shapes. -/
theorem C140_cmasi_rectangle_partial {least most : ℤ} {c : Pos}
    {w ht alt width lead trail : ℝ} {r : Reply}
    (hw : 0 < w) (hh : 0 < ht) (hwide : 10 ≤ width) (hlt : trail ≤ lead)
    (hr : onFootprint .cmasi least most (.rectangle c w ht 0) 0 alt width lead trail = .ok r)
    (hfit : w ≤ 0.9 * width ∨ (2 * (0.9 * width) ≤ w ∧
      ∃ n : ℕ, ((n : ℝ) - 1 / 2) * (0.9 * width) < w ∧ w ≤ n * (0.9 * width))) :
    ∃ rs, r.request = some rs ∧ ∀ p : Pos,
      |p.n - c.n| ≤ ht / 2 → |p.e - c.e| ≤ w / 2 →
      ∃ q ∈ rs, RouteSees lead trail (width / 2) q p := by
  obtain ⟨rs, h1, h2⟩ := rectangle_seen (cmasi_corners c w ht 0) (axis_cmasi_zero _) hw hh hwide hlt
    (.inl rfl) hr (hfit.imp id fun h => ⟨fun _ => h.1, h.2⟩)
  exact ⟨rs, h1, fun p hn he => h2 p (by rwa [along_zero]) (by rwa [across_zero])⟩

end Verif.Search
