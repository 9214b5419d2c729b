import Verif.Grid.Main
import Verif.Grid.Ends
import Mathlib.Analysis.Complex.Norm

/-!
# Points in polygons: what is proved (C193)

`Polygon.cpp` 48-177 and `CGrid.cpp`: the answer is that of the even-odd rule, `inside`, or the point is near an edge.
-/

namespace Verif.Grid

/-- CGrid.cpp 805-812: the sum of the distances to the ends of an edge is less than a centimetre more than its length. -/
noncomputable def nearEdge (va vb p : Pt) : Bool :=
  open Classical in
  decide (√(((va.x : ℝ) - p.x) ^ 2 + ((va.y : ℝ) - p.y) ^ 2) + √(((vb.x : ℝ) - p.x) ^ 2 + ((vb.y : ℝ) - p.y) ^ 2) -
    √(((va.x : ℝ) - vb.x) ^ 2 + ((va.y : ℝ) - vb.y) ^ 2) < 1 / 100)

/-- A point of the plane as a complex number; only for distances. -/
noncomputable def cx (p : Pt) : ℂ := ⟨(p.x : ℝ), (p.y : ℝ)⟩

theorem dist_cx (a b : Pt) : √(((a.x : ℝ) - b.x) ^ 2 + ((a.y : ℝ) - b.y) ^ 2) = ‖cx a - cx b‖ := by
  rw [Complex.norm_eq_sqrt_sq_add_sq]
  simp [cx]

/-- The test of nearness covers the points where slopes are not exact. -/
theorem close_nearEdge {p va vb : Pt} (h : Close p va vb) : nearEdge va vb p = true := by
  obtain ⟨q, hq, h1, h2⟩ := h
  obtain ⟨s, s0, s1, rfl⟩ := (onEdge_iff _ _ _).1 hq
  unfold nearEdge
  rw [decide_eq_true_eq, dist_cx, dist_cx, dist_cx]
  have e1 : cx va - cx (along va vb s) = (s : ℝ) * (cx va - cx vb) := by
    apply Complex.ext <;> simp [cx, along] <;> ring
  have e2 : cx vb - cx (along va vb s) = ((1 - s : ℝ) : ℂ) * (cx vb - cx va) := by
    apply Complex.ext <;> simp [cx, along] <;> ring
  have n1 : ‖cx va - cx (along va vb s)‖ = s * ‖cx va - cx vb‖ := by
    rw [e1, Complex.norm_mul, Complex.norm_real, Real.norm_of_nonneg (by exact_mod_cast s0)]
  have n2 : ‖cx vb - cx (along va vb s)‖ = (1 - s) * ‖cx va - cx vb‖ := by
    have h1s : (0 : ℝ) ≤ 1 - s := by
      have : (s : ℝ) ≤ 1 := by exact_mod_cast s1
      linarith
    rw [e2, Complex.norm_mul, Complex.norm_real, Real.norm_of_nonneg h1s, norm_sub_rev (cx vb)]
  have n3 : ‖cx (along va vb s) - cx p‖ < 4 / 10 ^ 9 := by
    refine lt_of_le_of_lt (Complex.norm_le_abs_re_add_abs_im _) ?_
    have a1 : |(cx (along va vb s) - cx p).re| < 1 / 10 ^ 9 := by
      rw [abs_sub_comm] at h1
      have : ((|(along va vb s).x - p.x| : ℚ) : ℝ) < ((tol : ℚ) : ℝ) := by exact_mod_cast h1
      simpa [cx, tol] using this
    have a2 : |(cx (along va vb s) - cx p).im| < 1 / 10 ^ 9 := by
      rw [abs_sub_comm] at h2
      have : ((|(along va vb s).y - p.y| : ℚ) : ℝ) < ((tol : ℚ) : ℝ) := by exact_mod_cast h2
      simpa [cx, tol] using this
    norm_num at a1 a2 ⊢
    linarith
  have t1 := norm_sub_le_norm_sub_add_norm_sub (cx va) (cx (along va vb s)) (cx p)
  have t2 := norm_sub_le_norm_sub_add_norm_sub (cx vb) (cx (along va vb s)) (cx p)
  norm_num at n3 ⊢
  rw [n1] at t1
  rw [n2] at t2
  nlinarith

theorem boundingBox_widen (b : Box) (v : Pt) (h : b.lo.x ≤ b.hi.x ∧ b.lo.y ≤ b.hi.y) :
    ((widen b v).lo.x ≤ b.lo.x ∧ b.hi.x ≤ (widen b v).hi.x ∧ (widen b v).lo.y ≤ b.lo.y ∧ b.hi.y ≤ (widen b v).hi.y) ∧
    ((widen b v).lo.x ≤ v.x ∧ v.x ≤ (widen b v).hi.x ∧ (widen b v).lo.y ≤ v.y ∧ v.y ≤ (widen b v).hi.y) := by
  obtain ⟨h1, h2⟩ := h
  unfold widen
  simp only
  split_ifs <;> refine ⟨⟨?_, ?_, ?_, ?_⟩, ?_, ?_, ?_, ?_⟩ <;> simp only <;> linarith

theorem boundingBox_foldl : ∀ (vs : List Pt) (b : Box), (b.lo.x ≤ b.hi.x ∧ b.lo.y ≤ b.hi.y) →
    ((vs.foldl widen b).lo.x ≤ b.lo.x ∧ b.hi.x ≤ (vs.foldl widen b).hi.x ∧ (vs.foldl widen b).lo.y ≤ b.lo.y ∧ b.hi.y ≤ (vs.foldl widen b).hi.y) ∧
    ∀ v ∈ vs, (vs.foldl widen b).lo.x ≤ v.x ∧ v.x ≤ (vs.foldl widen b).hi.x ∧ (vs.foldl widen b).lo.y ≤ v.y ∧ v.y ≤ (vs.foldl widen b).hi.y
  | [], b, h => ⟨⟨le_rfl, le_rfl, le_rfl, le_rfl⟩, by simp⟩
  | v :: vs, b, h => by
      obtain ⟨⟨a1, a2, a3, a4⟩, c1, c2, c3, c4⟩ := boundingBox_widen b v h
      obtain ⟨⟨d1, d2, d3, d4⟩, hr⟩ := boundingBox_foldl vs (widen b v) ⟨by linarith, by linarith⟩
      refine ⟨⟨by simp only [List.foldl_cons]; linarith, by simp only [List.foldl_cons]; linarith, by simp only [List.foldl_cons]; linarith, by simp only [List.foldl_cons]; linarith⟩, ?_⟩
      intro u hu
      rcases List.mem_cons.1 hu with rfl | hu
      · simp only [List.foldl_cons]; exact ⟨by linarith, by linarith, by linarith, by linarith⟩
      · exact hr u hu

/-- The corners are in the box, and strictly if the box has an extent. -/
theorem boundingBox_mem {v : Pt} {r : List Pt} : ∀ u ∈ v :: r,
    ((boundingBox v r).lo.x ≤ u.x ∧ u.x ≤ (boundingBox v r).hi.x ∧ (boundingBox v r).lo.y ≤ u.y ∧ u.y ≤ (boundingBox v r).hi.y) ∧
    (0 < (boundingBox v r).dx → (boundingBox v r).lo.x < u.x ∧ u.x < (boundingBox v r).hi.x) ∧
    (0 < (boundingBox v r).dy → (boundingBox v r).lo.y < u.y ∧ u.y < (boundingBox v r).hi.y) := by
  intro u hu
  obtain ⟨⟨a1, a2, a3, a4⟩, h⟩ := boundingBox_foldl (v :: r) ⟨v, v⟩ ⟨le_rfl, le_rfl⟩
  obtain ⟨h1, h2, h3, h4⟩ := h u hu
  simp only [boundingBox, Box.dx, Box.dy]
  generalize (v :: r).foldl widen ⟨v, v⟩ = B at *
  refine ⟨⟨?_, ?_, ?_, ?_⟩, fun h5 => ⟨?_, ?_⟩, fun h5 => ⟨?_, ?_⟩⟩ <;> linarith

/-- Two corners that differ give the box an extent. -/
theorem boundingBox_extent {v : Pt} {r : List Pt} {u w : Pt} (hu : u ∈ v :: r) (hw : w ∈ v :: r) :
    (u.x < w.x → 0 < (boundingBox v r).dx) ∧ (u.y < w.y → 0 < (boundingBox v r).dy) := by
  obtain ⟨⟨a1, a2, a3, a4⟩, h⟩ := boundingBox_foldl (v :: r) ⟨v, v⟩ ⟨le_rfl, le_rfl⟩
  obtain ⟨h1, h2, h3, h4⟩ := h u hu
  obtain ⟨g1, g2, g3, g4⟩ := h w hw
  simp only [boundingBox, Box.dx, Box.dy]
  generalize (v :: r).foldl widen ⟨v, v⟩ = B at *
  constructor <;> intro h5 <;> linarith

/-- Outside the box nothing is inside. -/
theorem inside_box {vs : List Pt} {b : Box} {p : Pt} (h : ∀ u ∈ vs, b.lo.x ≤ u.x ∧ u.x ≤ b.hi.x ∧ b.lo.y ≤ u.y ∧ u.y ≤ b.hi.y) (hp : inBox b p = false) :
    inside vs p = false := by
  unfold inBox at hp
  rw [decide_eq_false_iff_not] at hp
  by_cases h1 : b.lo.x ≤ p.x
  · by_cases h3 : b.lo.y ≤ p.y
    · by_cases h4 : p.y ≤ b.hi.y
      · have h2 : ¬ p.x ≤ b.hi.x := fun h2 => hp ⟨h1, h2, h3, h4⟩
        rw [not_le] at h2
        unfold inside
        rw [← parity_closed (fun q => decide (p.y < q.y)) vs]
        apply parity_congr
        intro e he
        obtain ⟨m1, m2⟩ := mem_edges he
        have k1 := h _ m1
        have k2 := h _ m2
        apply crossL_left (by linarith [k1.2.1]) (by linarith [k2.2.1])
        rintro ⟨s, s0, s1, s2, _⟩
        have : e.1.x + s * (e.2.x - e.1.x) ≤ b.hi.x := by nlinarith [k1.2.1, k2.2.1]
        linarith
      · apply parity_false
        intro e he
        obtain ⟨m1, m2⟩ := mem_edges he
        have k1 := h _ m1
        have k2 := h _ m2
        unfold crossL
        rw [decide_eq_false (by linarith [k1.2.2.2]), decide_eq_false (show ¬ p.y < e.2.y by linarith [k2.2.2.2])]
        rfl
    · apply parity_false
      intro e he
      obtain ⟨m1, m2⟩ := mem_edges he
      have k1 := h _ m1
      have k2 := h _ m2
      unfold crossL
      rw [decide_eq_true (by linarith [k1.2.2.1]), decide_eq_true (show p.y < e.2.y by linarith [k2.2.2.1])]
      rfl
  · apply parity_false
    intro e he
    obtain ⟨m1, m2⟩ := mem_edges he
    have k1 := h _ m1
    have k2 := h _ m2
    exact crossL_right (by linarith [k1.1]) (by linarith [k2.1])

/-- The corners and the point are in general position to the lines of a grid: none is on a line, and no corner is on the way from the lower corner of
its cell to the point. -/
structure General (b : Box) (vs : List Pt) (p : Pt) : Prop where
  vx : ∀ v ∈ vs, ∀ k, v.x ≠ b.gx k
  vy : ∀ v ∈ vs, ∀ k, v.y ≠ b.gy k
  px : ∀ k, p.x ≠ b.gx k
  py : ∀ k, p.y ≠ b.gy k
  free : ∀ i j, b.gx i < p.x → p.x < b.gx (i + 1) → b.gy j < p.y → p.y < b.gy (j + 1) → ∀ v ∈ vs, ¬ OnEdge v ⟨b.gx i, b.gy j⟩ p

/-- The pieces of a cell belong to edges. -/
theorem piece_edge {b : Box} {es : List (Pt × Pt)} {evs : List Ev} (m : Made b es evs) :
    ∀ c, ∀ q ∈ piecesAt evs c, (q.va, q.vb) ∈ es ∨ (q.vb, q.va) ∈ es := by
  obtain ⟨hdx, hdy, hg, hm⟩ := m
  induction es generalizing evs with
  | nil => rw [allEvents] at hm; cases hm; intro c q h; simp [piecesAt] at h
  | cons e es ih =>
      obtain ⟨l, m, hl, hm', rfl⟩ := allEvents_cons hm
      intro c q hq
      rw [piecesAt_append] at hq
      rcases List.mem_append.1 hq with hq | hq
      · obtain ⟨hu, hv⟩ := hg e (by simp)
        have ht : ∀ {va vb i j t evs}, Trace b va vb i j t evs → ∀ c, ∀ q ∈ piecesAt evs c, q.va = va ∧ q.vb = vb := by
          intro va vb i j t evs T
          induction T with
          | last => intro c q hq; simp only [piecesAt, List.filterMap_cons, List.filterMap_nil] at hq; split_ifs at hq <;> simp at hq; subst hq; exact ⟨rfl, rfl⟩
          | right _ _ _ _ _ _ _ _ _ _ _ ih | left _ _ _ _ _ _ _ _ _ _ _ ih | up _ _ _ _ _ _ _ _ _ _ _ ih =>
              intro c q hq
              simp only [piecesAt, List.filterMap_cons] at hq
              split_ifs at hq
              · rcases List.mem_cons.1 hq with rfl | hq
                · exact ⟨rfl, rfl⟩
                · exact ih c q hq
              · exact ih c q hq
        rcases edge_trace hu hv hdx hdy hl with ⟨_, rfl⟩ | ⟨va, vb, i0, j0, hor, g, t⟩
        · simp [piecesAt] at hq
        · obtain ⟨h1, h2⟩ := ht t c q hq
          rcases hor with ⟨h3, h4⟩ | ⟨h3, h4⟩
          · left; rw [h1, h2, h3, h4]; simp
          · right; rw [h1, h2, h3, h4]; simp
      · rcases ih (fun e he => hg e (List.mem_cons_of_mem _ he)) hm' c q hq with h | h
        · exact .inl (List.mem_cons_of_mem _ h)
        · exact .inr (List.mem_cons_of_mem _ h)

/-- The answer of the grid. -/
theorem gridTest_correct {near : Pt → Pt → Pt → Bool} (hnear : ∀ {p va vb}, Close p va vb → near va vb p = true) {b : Box} {vs : List Pt} {evs : List Ev} {p : Pt}
    (m : Made b (edges vs) evs) (g : General b vs p) (hx : b.lo.x ≤ p.x ∧ p.x ≤ b.hi.x) (hy : b.lo.y ≤ p.y ∧ p.y ≤ b.hi.y) :
    ∃ r, gridTest near b evs p = .ok r ∧ (inside vs p = true → r = true) ∧ ((∃ e ∈ edges vs, e.1 ≠ e.2 ∧ OnEdge p e.1 e.2) → r = true) ∧
      (r = true → inside vs p = true ∨ ∃ e ∈ edges vs, near e.1 e.2 p = true ∨ near e.2 e.1 p = true) := by
  have dx := m.dx
  have dy := m.dy
  have g5 : b.gx 5 = b.hi.x := by simp [Box.gx]
  have h5 : b.gy 5 = b.hi.y := by simp [Box.gy]
  obtain ⟨x1, x2⟩ := floor_cell (v := p.x) (lo := b.lo.x) dx
  obtain ⟨y1, y2⟩ := floor_cell (v := p.y) (lo := b.lo.y) dy
  unfold gridTest
  rw [cellIndex_ok dy hy.1, cellIndex_ok dx hx.1]
  have i0 : 0 ≤ ⌊(p.x - b.lo.x) / b.dx⌋ := Int.floor_nonneg.2 (div_nonneg (by linarith [hx.1]) dx.le)
  have j0 : 0 ≤ ⌊(p.y - b.lo.y) / b.dy⌋ := Int.floor_nonneg.2 (div_nonneg (by linarith [hy.1]) dy.le)
  generalize ⌊(p.x - b.lo.x) / b.dx⌋ = i at *
  generalize ⌊(p.y - b.lo.y) / b.dy⌋ = j at *
  have lx : b.gx i < p.x := lt_of_le_of_ne (by rw [gx_eq]; exact x1) (Ne.symm (g.px i))
  have rx : p.x < b.gx (i + 1) := by rw [gx_eq]; push_cast; exact x2
  have ly : b.gy j < p.y := lt_of_le_of_ne (by rw [gy_eq]; exact y1) (Ne.symm (g.py j))
  have ry : p.y < b.gy (j + 1) := by rw [gy_eq]; push_cast; exact y2
  have i4 : i < 5 := (gx_lt dx).1 (lt_of_lt_of_le lx (by rw [g5]; exact hx.2))
  have j4 : j < 5 := (gy_lt dy).1 (lt_of_lt_of_le ly (by rw [h5]; exact hy.2))
  simp only [Res.bind]
  rw [show cellOf i j = .ok (j * 5 + i) from if_pos ⟨by omega, by omega⟩]
  simp only [show (j * 5 + i) % 5 = i by omega, show (j * 5 + i) / 5 = j by omega]
  -- the answer when no piece is near
  have key : (∀ q ∈ piecesAt evs (j * 5 + i), near q.va q.vb p = false) →
      crossFlag ⟨b.gx i, b.gy j⟩ evs i j p = inside vs p ∧ (piecesAt evs (j * 5 + i) = [] → blIn evs i j = inside vs p) := by
    intro hn
    have Q : Query b vs evs i j p :=
      { made := m, hi := ⟨i0, by omega⟩, hj := ⟨j0, by omega⟩, lx := lx.le, hx := rx, ly := ly.le, hy := ry
        far := fun q hq hc => by have := hnear hc; rw [hn q hq] at this; cases this }
    have hflag : crossFlag ⟨b.gx i, b.gy j⟩ evs i j p = inside vs p := by
      unfold crossFlag
      have hnot : ∀ s, ((!hitAt evs (j * 5 + i) s) = true) ↔ Ev.hit (j * 5 + i) s ∉ evs := by intro s; simp [hitAt]
      simp only [hnot]
      by_cases c1 : Ev.hit (j * 5 + i) .l ∉ evs
      · rw [if_pos c1]; exact Q.caseL c1
      rw [if_neg c1]
      by_cases c2 : Ev.hit (j * 5 + i) .b ∉ evs
      · rw [if_pos c2]; exact Q.caseB c2
      rw [if_neg c2]
      by_cases c3 : Ev.hit (j * 5 + i) .r ∉ evs
      · rw [if_pos c3]; exact Q.caseR c3
      rw [if_neg c3]
      by_cases c4 : Ev.hit (j * 5 + i) .t ∉ evs
      · rw [if_pos c4]; exact Q.caseT c4
      rw [if_neg c4]
      exact Q.caseC lx ly (g.free i j lx rx ly ry)
    refine ⟨hflag, fun he => ?_⟩
    by_cases c1 : Ev.hit (j * 5 + i) .l ∈ evs
    · by_cases c2 : Ev.hit (j * 5 + i) .b ∈ evs
      · have := Q.caseC lx ly (g.free i j lx rx ly ry)
        rw [he] at this; exact this
      · have := Q.caseB c2
        rw [he] at this; exact this
    · have := Q.caseL c1
      rw [he] at this; exact this
  by_cases hany : ∃ q ∈ piecesAt evs (j * 5 + i), near q.va q.vb p = true
  · obtain ⟨q, hq, hn⟩ := hany
    have hne : piecesAt evs (j * 5 + i) ≠ [] := List.ne_nil_of_mem hq
    rw [if_neg hne]
    have ha : ((piecesAt evs (j * 5 + i)).any fun q => near q.va q.vb p) = true := List.any_eq_true.2 ⟨q, hq, hn⟩
    refine ⟨_, rfl, fun _ => by rw [ha, Bool.or_true], fun _ => by rw [ha, Bool.or_true], fun _ => .inr ?_⟩
    rcases piece_edge m _ q hq with h | h
    · exact ⟨_, h, .inl hn⟩
    · exact ⟨_, h, .inr hn⟩
  · have hn : ∀ q ∈ piecesAt evs (j * 5 + i), near q.va q.vb p = false := fun q hq => Bool.eq_false_of_not_eq_true fun h => hany ⟨q, hq, h⟩
    obtain ⟨k1, k2⟩ := key hn
    have hoff : ¬ ∃ e ∈ edges vs, e.1 ≠ e.2 ∧ OnEdge p e.1 e.2 := by
      rintro ⟨e, he, hne, hon⟩
      obtain ⟨q, hq, hon⟩ := made_inner m lx rx ly ry he hne hon
      have := hnear (onEdge_close hon)
      rw [hn q hq] at this; cases this
    split_ifs with he
    · exact ⟨_, rfl, fun h => by rw [k2 he, h], fun h => absurd h hoff, fun h => .inl (by rw [← k2 he, h])⟩
    · have ha : ((piecesAt evs (j * 5 + i)).any fun q => near q.va q.vb p) = false := by
        rw [List.any_eq_false]; intro q hq; rw [hn q hq]; simp
      refine ⟨_, rfl, fun h => by rw [k1, h, Bool.true_or], fun h => absurd h hoff, fun h => .inl ?_⟩
      rw [k1, ha, Bool.or_false] at h
      exact h

/-- Each attempt only moves the lower corner of the box. -/
theorem build_ok {es : List (Pt × Pt)} : ∀ {n : ℕ} {b b' : Box} {evs : List Ev}, build es n b = .ok (b', evs) → (b.lo.x ≤ b.hi.x ∧ b.lo.y ≤ b.hi.y) →
    allEvents b' es = .ok evs ∧ b'.hi = b.hi ∧ b'.lo.x ≤ b.lo.x ∧ b'.lo.y ≤ b.lo.y
  | 0, b, b', evs, h, _ => by cases h
  | n + 1, b, b', evs, h, hb => by
      rw [build] at h
      split at h
      · rename_i e he
        cases h
        exact ⟨he, rfl, le_rfl, le_rfl⟩
      · obtain ⟨h1, h2, h3, h4⟩ := build_ok h (by simp only [stretch]; constructor <;> linarith [hb.1, hb.2])
        refine ⟨h1, h2, ?_, ?_⟩
        · simp only [stretch] at h3; linarith [hb.1]
        · simp only [stretch] at h4; linarith [hb.2]
      all_goals cases h

/-- **C193.**  A polygon is asked whether it contains a point.  If its corners do not all have the same north or the same east coordinate, the grid is made, and the
corners and the point are in general position to its lines, then there is an answer; it is yes for every point inside by the even-odd rule and for every point of an edge, and if it is yes
the point is inside or within a centimetre (of the sum of distances) of an edge. -/
theorem C193_in_polygon_partial (n : ℕ) (v : Pt) (r : List Pt) (p : Pt) (b : Box) (evs : List Ev)
    (hx : ∃ u ∈ v :: r, ∃ w ∈ v :: r, u.x < w.x) (hy : ∃ u ∈ v :: r, ∃ w ∈ v :: r, u.y < w.y)
    (hb : build (edges (v :: r)) n (boundingBox v r) = .ok (b, evs)) (g : General b (v :: r) p) :
    ∃ ans, inPolygon nearEdge n (v :: r) p = .ok ans ∧ (inside (v :: r) p = true → ans = true) ∧
      ((∃ e ∈ edges (v :: r), e.1 ≠ e.2 ∧ OnEdge p e.1 e.2) → ans = true) ∧
      (ans = true → inside (v :: r) p = true ∨ ∃ e ∈ edges (v :: r), nearEdge e.1 e.2 p = true ∨ nearEdge e.2 e.1 p = true) := by
  obtain ⟨u, hu, w, hw, huw⟩ := hx
  obtain ⟨u', hu', w', hw', huw'⟩ := hy
  have dx := (boundingBox_extent hu hw).1 huw
  have dy := (boundingBox_extent hu' hw').2 huw'
  have lohi : (boundingBox v r).lo.x < (boundingBox v r).hi.x ∧ (boundingBox v r).lo.y < (boundingBox v r).hi.y := by
    unfold Box.dx at dx; unfold Box.dy at dy; constructor <;> linarith
  obtain ⟨h1, h2, h3, h4⟩ := build_ok hb ⟨lohi.1.le, lohi.2.le⟩
  have dx' : 0 < b.dx := by unfold Box.dx; rw [h2]; linarith
  have dy' : 0 < b.dy := by unfold Box.dy; rw [h2]; linarith
  unfold inPolygon
  simp only
  by_cases hin : inBox (boundingBox v r) p = true
  · rw [if_pos hin, hb]
    unfold inBox at hin
    rw [decide_eq_true_eq] at hin
    have hg : ∀ z ∈ v :: r, GoodPt b z := by
      intro z hz
      obtain ⟨_, k1, k2⟩ := boundingBox_mem z hz
      obtain ⟨k1, k1'⟩ := k1 dx
      obtain ⟨k2, k2'⟩ := k2 dy
      exact ⟨g.vx z hz, g.vy z hz, by rw [gx_eq]; simp; linarith, by simp [Box.gx, h2]; exact k1', by rw [gy_eq]; simp; linarith, by simp [Box.gy, h2]; exact k2'⟩
    exact gridTest_correct close_nearEdge ⟨dx', dy', fun e he => ⟨hg _ (mem_edges he).1, hg _ (mem_edges he).2⟩, h1⟩ g
      ⟨by linarith, by rw [h2]; linarith⟩ ⟨by linarith, by rw [h2]; linarith⟩
  · rw [if_neg hin]
    have := inside_box (vs := v :: r) (fun u hu => (boundingBox_mem u hu).1) (Bool.eq_false_of_not_eq_true hin)
    refine ⟨false, rfl, fun h => ?_, fun h => ?_, fun h => by cases h⟩
    · rw [this] at h
      cases h
    · exfalso
      obtain ⟨e, he, _, s, s0, s1, ex, ey⟩ := h
      obtain ⟨⟨a1, a2, a3, a4⟩, _⟩ := boundingBox_mem _ (mem_edges he).1
      obtain ⟨⟨c1, c2, c3, c4⟩, _⟩ := boundingBox_mem _ (mem_edges he).2
      apply hin
      unfold inBox
      rw [decide_eq_true_eq, ex, ey]
      refine ⟨?_, ?_, ?_, ?_⟩ <;> nlinarith

/-- **C193.**  An attempt at the grid over the box of the polygon, with no corner on one of its lines, neither reads outside its arrays nor goes on without end: the
grid is made, or a piece of an edge is refused and the next attempt follows. -/
theorem C193_attempt_ends (v : Pt) (r : List Pt) (hx : ∃ u ∈ v :: r, ∃ w ∈ v :: r, u.x < w.x) (hy : ∃ u ∈ v :: r, ∃ w ∈ v :: r, u.y < w.y)
    (gx : ∀ u ∈ v :: r, ∀ k, u.x ≠ (boundingBox v r).gx k) (gy : ∀ u ∈ v :: r, ∀ k, u.y ≠ (boundingBox v r).gy k) :
    allEvents (boundingBox v r) (edges (v :: r)) = .corner ∨ ∃ evs, allEvents (boundingBox v r) (edges (v :: r)) = .ok evs := by
  obtain ⟨u, hu, w, hw, huw⟩ := hx
  obtain ⟨u', hu', w', hw', huw'⟩ := hy
  have dx := (boundingBox_extent hu hw).1 huw
  have dy := (boundingBox_extent hu' hw').2 huw'
  have hg : ∀ z ∈ v :: r, GoodPt (boundingBox v r) z := by
    intro z hz
    obtain ⟨_, k1, k2⟩ := boundingBox_mem z hz
    obtain ⟨k1, k1'⟩ := k1 dx
    obtain ⟨k2, k2'⟩ := k2 dy
    exact ⟨gx z hz, gy z hz, by rw [gx_eq]; simp; linarith, by simp [Box.gx]; exact k1', by rw [gy_eq]; simp; linarith, by simp [Box.gy]; exact k2'⟩
  exact attempt_ends dx dy fun e he => ⟨hg _ (mem_edges he).1, hg _ (mem_edges he).2⟩

end Verif.Grid
