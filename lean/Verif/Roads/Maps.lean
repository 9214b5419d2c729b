/-
The map that is made of a file: pieces of roads and graph, in terms of the file.
-/
import Verif.Roads.Length
import Mathlib.Analysis.Complex.Norm

namespace Verif.Roads

open Verif.Visibility (Edge Link)

/-- The point is an end of a road, or on the roads twice. -/
def Planned (ways : List Way) (x : Id) : Prop := RoadEnd ways x ∨ 2 ≤ (onRoads ways).count x

/-- Nothing is missing: every road has its own id, which is not −1; all points of the
roads are in the file, and all points of the file have positions. -/
structure Whole (ways : List Way) (els : List NodeEl) : Prop where
  ids : (highways ways).Nodup
  minus : (-1 : Id) ∉ highways ways
  there : ∀ x ∈ onRoads ways, x ∈ els.map (·.id)
  placed : ∀ el ∈ els, el.at_ ≠ none

theorem filter_one : ∀ (H : List Way), (H.map (·.id)).Nodup → ∀ w ∈ H,
    (H.filter fun v => v.id == w.id) = [w]
  | [], _, _, h => by cases h
  | v :: H, hn, w, h => by
    rw [List.map_cons, List.nodup_cons] at hn
    rcases List.mem_cons.mp h with rfl | h
    · rw [List.filter_cons_of_pos (by simp)]
      have : (H.filter fun v => v.id == w.id) = [] := by
        rw [List.filter_eq_nil_iff]
        intro u hu e
        have e : u.id = w.id := by simpa using e
        exact hn.1 (e ▸ List.mem_map.mpr ⟨u, hu, rfl⟩)
      rw [this]
    · rw [List.filter_cons_of_neg, filter_one H hn.2 w h]
      intro e
      have e : v.id = w.id := by simpa using e
      exact hn.1 (e ▸ List.mem_map.mpr ⟨w, h, rfl⟩)

theorem pointsOf_eq {o : Order} {ways : List Way} (hn : (highways ways).Nodup) {w : Way}
    (hw : w ∈ ways) (hh : w.highway = true) : pointsOf o ways w.id = o.f w.id w.nodes := by
  unfold pointsOf
  have := filter_one (ways.filter (·.highway)) hn w (List.mem_filter.mpr ⟨hw, hh⟩)
  rw [List.filter_filter] at this
  have e : (fun v : Way => v.highway && v.id == w.id) = fun v => (v.id == w.id) && v.highway := by
    funext v; exact Bool.and_comm _ _
  rw [e, this]
  simp

theorem mem_highways {ways : List Way} {i : Id} :
    i ∈ highways ways ↔ ∃ w ∈ ways, w.highway = true ∧ w.id = i := by
  unfold highways
  simp only [List.mem_map, List.mem_filter, and_assoc]

theorem mem_onRoads {ways : List Way} {x : Id} :
    x ∈ onRoads ways ↔ ∃ w ∈ ways, w.highway = true ∧ x ∈ w.nodes := by
  unfold onRoads
  simp only [List.mem_flatMap, List.mem_filter, and_assoc]

theorem stretch_reverse {plan : Id → Bool} {l : List Id} {a b : Id} {mid : List Id}
    (h : Stretch plan l a mid b) : Stretch plan l.reverse b mid.reverse a := by
  obtain ⟨ha, hb, hm, pre, post, rfl⟩ := h
  refine ⟨hb, ha, fun x hx => hm x (List.mem_reverse.mp hx), post.reverse, pre.reverse, ?_⟩
  simp

/-- The flag as the roads are cut. -/
def planOf (ways : List Way) (x : Id) : Bool := (flags ways fun _ => none) x == some true

theorem planOf_iff {ways : List Way} {x : Id} : planOf ways x = true ↔ Planned ways x := by
  unfold planOf Planned
  rw [beq_iff_eq]
  exact C154_planning ways x

theorem planOf_false {ways : List Way} {x : Id} : planOf ways x = false ↔ ¬ Planned ways x := by
  rw [← planOf_iff]; simp

theorem build_parts {o : Order} {ways : List Way} {els : List NodeEl} {M : RoadMap}
    (h : build o ways els = .ok M) :
    M.pts = load (flags ways fun _ => none) els ∧
      cutAll o ways (planOf ways) M.pts.pos (highways ways) [] = .ok M.table ∧
      ∃ st, layAll o ways (fun x => decide (x ∈ M.pts.planning)) M.pts (highways ways) ⟨-1, 0, []⟩ =
        .ok st ∧ M.edges = st.edges ∧ M.size = vertices M.pts.planning.length M.edges := by
  unfold build at h
  obtain ⟨T, h₁, h⟩ := Outcome.bind_eq_ok.mp h
  obtain ⟨st, h₂, h⟩ := Outcome.bind_eq_ok.mp h
  cases h
  exact ⟨rfl, h₁, st, h₂, rfl, rfl⟩

/-- **C154.**  Every piece of road that is kept for two points is a stretch of a road
between them, taken one way or the other: its ends are used for planning, the points
between them are not, and its length is the sum of the distances from point to point. -/
theorem C154_piece {o : Order} {ways : List Way} {els : List NodeEl} {M : RoadMap}
    (hn : (highways ways).Nodup) (h : build o ways els = .ok M) {a b : Id} {p : Piece}
    (hp : M.table.get (a, b) = some p) :
    ∃ w ∈ ways, w.highway = true ∧ p.way = w.id ∧
      (p.nodes <:+: w.nodes ∨ p.nodes <:+: w.nodes.reverse) ∧
      (∃ mid, p.nodes = a :: (mid ++ [b]) ∧ Planned ways a ∧ Planned ways b ∧
        ∀ x ∈ mid, ¬ Planned ways x) ∧
      p.len = roadLen (posOf M.pts.pos) p.nodes := by
  obtain ⟨-, hc, -⟩ := build_parts h
  obtain ⟨-, -, h₃⟩ := cutAll_spec _ _ _ hc
  rcases h₃ _ _ hp with h | ⟨i, hi, a', mid, b', hs, hw, hk, hl⟩
  · cases h
  · obtain ⟨w, hm, hh, rfl⟩ := mem_highways.mp hi
    rw [pointsOf_eq hn hm hh] at hs
    have hin : ∀ l : List Id, Stretch (planOf ways) l a' mid b' →
        (a' :: (mid ++ [b'])) <:+: l := by
      rintro l ⟨-, -, -, pre, post, e⟩
      exact ⟨pre, post, by rw [e]; simp⟩
    have hrev : ∀ l m : List Id, l <:+: m → l.reverse <:+: m.reverse := by
      rintro l m ⟨s, t, rfl⟩
      exact ⟨t.reverse, s.reverse, by simp⟩
    have hinf : ∀ l, l = a' :: (mid ++ [b']) ∨ l = (a' :: (mid ++ [b'])).reverse →
        l <:+: w.nodes ∨ l <:+: w.nodes.reverse := by
      intro l hl
      rcases o.ok w.id w.nodes with e | e <;> rw [e] at hs
      · rcases hl with rfl | rfl
        · exact .inl (hin _ hs)
        · exact .inr (hrev _ _ (hin _ hs))
      · rcases hl with rfl | rfl
        · exact .inr (hin _ hs)
        · have := hrev _ _ (hin _ hs)
          rw [List.reverse_reverse] at this
          exact .inl this
    refine ⟨w, hm, hh, hw, hinf _ ?_, ?_, hl⟩
    · rcases hk with ⟨-, e⟩ | ⟨-, e⟩
      · exact .inl e
      · exact .inr e
    · rcases hk with ⟨e, hnod⟩ | ⟨e, hnod⟩
      · cases e
        exact ⟨mid, hnod, planOf_iff.mp hs.1, planOf_iff.mp hs.2.1,
          fun x hx => planOf_false.mp (hs.2.2.1 x hx)⟩
      · cases e
        exact ⟨mid.reverse, by rw [hnod]; simp, planOf_iff.mp hs.2.1, planOf_iff.mp hs.1,
          fun x hx => planOf_false.mp (hs.2.2.1 x (List.mem_reverse.mp hx))⟩

/-- **C154.**  Every stretch of a road between two points used for planning has a piece,
both ways. -/
theorem C154_all {o : Order} {ways : List Way} {els : List NodeEl} {M : RoadMap}
    (hn : (highways ways).Nodup) (h : build o ways els = .ok M) {w : Way} (hw : w ∈ ways)
    (hh : w.highway = true) {pre mid post : List Id} {a b : Id}
    (e : w.nodes = pre ++ a :: (mid ++ b :: post)) (ha : Planned ways a) (hb : Planned ways b)
    (hm : ∀ x ∈ mid, ¬ Planned ways x) :
    M.table.get (a, b) ≠ none ∧ M.table.get (b, a) ≠ none := by
  obtain ⟨-, hc, -⟩ := build_parts h
  obtain ⟨h₁, -, -⟩ := cutAll_spec _ _ _ hc
  have := h₁ w.id (mem_highways.mpr ⟨w, hw, hh, rfl⟩)
  rw [pointsOf_eq hn hw hh] at this
  have hs : Stretch (planOf ways) w.nodes a mid b :=
    ⟨planOf_iff.mpr ha, planOf_iff.mpr hb, fun x hx => planOf_false.mpr (hm x hx), pre, post, e⟩
  rcases o.ok w.id w.nodes with e' | e' <;> rw [e'] at this
  · exact this a mid b hs
  · exact (this b mid.reverse a (stretch_reverse hs)).symm

/-! ### The map is made -/

theorem head_planned {ways : List Way} {o : Order} {w : Way} (hw : w ∈ ways)
    (hh : w.highway = true) {x : Id} (hx : (o.f w.id w.nodes).head? = some x) :
    Planned ways x := by
  refine .inl ⟨w, hw, hh, ?_⟩
  rcases o.ok w.id w.nodes with e | e <;> rw [e] at hx
  · exact .inl hx
  · rw [List.head?_reverse] at hx; exact .inr hx

theorem mem_order {o : Order} {w x : Id} {l : List Id} : x ∈ o.f w l ↔ x ∈ l := by
  rcases o.ok w l with e | e <;> rw [e]
  exact List.mem_reverse

theorem Whole.pos {ways : List Way} {els : List NodeEl} (h : Whole ways els) {x : Id}
    (hx : x ∈ onRoads ways) : (load (flags ways fun _ => none) els).pos x ≠ none := by
  obtain ⟨el, he, rfl⟩ := List.mem_map.mp (h.there x hx)
  exact (loadInv _ els).got el he (h.placed el he) ((flags_some ways _).mpr hx)

theorem planned_onRoads {ways : List Way} {x : Id} (h : Planned ways x) : x ∈ onRoads ways := by
  refine (flags_some ways x).mp ?_
  rw [(C154_planning ways x).mpr h]; simp

theorem Whole.planning {ways : List Way} {els : List NodeEl} (h : Whole ways els) {x : Id} :
    x ∈ (load (flags ways fun _ => none) els).planning ↔ Planned ways x := by
  rw [(loadInv _ els).plan, C154_planning]
  constructor
  · exact fun h => h.1
  · intro hp
    obtain ⟨el, he, e⟩ := List.mem_map.mp (h.there x (planned_onRoads hp))
    exact ⟨hp, el, he, e⟩

theorem Whole.laid {o : Order} {ways : List Way} {els : List NodeEl} (h : Whole ways els) :
    ∃ st, layAll o ways (fun x => decide (x ∈ (load (flags ways fun _ => none) els).planning))
        (load (flags ways fun _ => none) els) (highways ways) ⟨-1, 0, []⟩ = .ok st ∧
      ∀ g, g ∈ st.edges ↔ ∃ w ∈ ways, w.highway = true ∧ Laid (planOf ways)
        (posOf (load (flags ways fun _ => none) els).pos) (load (flags ways fun _ => none) els).ix
        (o.f w.id w.nodes) g := by
  have hp : (fun x => decide (x ∈ (load (flags ways fun _ => none) els).planning)) = planOf ways := by
    funext x
    rw [Bool.eq_iff_iff, decide_eq_true_iff, h.planning, planOf_iff]
  rw [hp]
  obtain ⟨st, e, hm⟩ := layAll_spec (o := o) (ways := ways) (plan := planOf ways)
    (L := load (flags ways fun _ => none) els) (highways ways) ⟨-1, 0, []⟩ h.ids h.minus (by
      intro i hi
      obtain ⟨w, hw, hh, rfl⟩ := mem_highways.mp hi
      rw [pointsOf_eq h.ids hw hh]
      refine ⟨fun x hx => ⟨h.pos (mem_onRoads.mpr ⟨w, hw, hh, mem_order.mp hx⟩), fun hx' => ?_⟩,
        fun x hx => planOf_iff.mpr (head_planned hw hh hx)⟩
      exact (loadInv _ els).has x (h.planning.mpr (planOf_iff.mp hx')))
  refine ⟨st, e, fun g => (hm g).trans ?_⟩
  constructor
  · rintro (hg | ⟨i, hi, hg⟩)
    · cases hg
    · obtain ⟨w, hw, hh, rfl⟩ := mem_highways.mp hi
      rw [pointsOf_eq h.ids hw hh] at hg
      exact ⟨w, hw, hh, hg⟩
  · rintro ⟨w, hw, hh, hg⟩
    refine .inr ⟨w.id, mem_highways.mpr ⟨w, hw, hh, rfl⟩, ?_⟩
    rw [pointsOf_eq h.ids hw hh]
    exact hg

/-- **C154.**  When nothing is missing the map is made. -/
theorem C154_made {o : Order} {ways : List Way} {els : List NodeEl} (h : Whole ways els) :
    ∃ M, build o ways els = .ok M := by
  obtain ⟨T, hT⟩ := cutAll_defined (o := o) (ways := ways) (plan := planOf ways)
    (pos := (load (flags ways fun _ => none) els).pos) (highways ways) [] (by
      intro i hi x hx
      obtain ⟨w, hw, hh, rfl⟩ := mem_highways.mp hi
      rw [pointsOf_eq h.ids hw hh] at hx
      exact h.pos (mem_onRoads.mpr ⟨w, hw, hh, mem_order.mp hx⟩))
  obtain ⟨st, hst, -⟩ := h.laid (o := o)
  refine ⟨⟨load (flags ways fun _ => none) els, T, st.edges,
    vertices (load (flags ways fun _ => none) els).planning.length st.edges⟩, ?_⟩
  unfold build
  dsimp only
  change Outcome.bind (cutAll o ways (planOf ways) _ _ _) _ = _
  rw [hT, Outcome.bind_ok, hst, Outcome.bind_ok]

theorem cutAll_ub {o : Order} {ways : List Way} {plan : Id → Bool} {pos : Id → Option Pt} {v : Id}
    (hv : ∀ T, cut plan pos v (pointsOf o ways v) ⟨none, [], [], 0, ⟨0, 0⟩⟩ T = .ub) :
    ∀ (ws : List Id) (T : Table), v ∈ ws →
      (∀ w ∈ ws, ∀ T, cut plan pos w (pointsOf o ways w) ⟨none, [], [], 0, ⟨0, 0⟩⟩ T = .ub ∨
        ∃ T', cut plan pos w (pointsOf o ways w) ⟨none, [], [], 0, ⟨0, 0⟩⟩ T = .ok T') →
      cutAll o ways plan pos ws T = .ub := by
  intro ws
  induction ws with
  | nil => intro T h _; cases h
  | cons w ws ih =>
    intro T h hw
    rw [cutAll]
    rcases hw w (by simp) T with e | ⟨T', e⟩
    · rw [e]; rfl
    · rw [e, Outcome.bind_ok]
      rcases List.mem_cons.mp h with rfl | h
      · rw [hv T] at e; cases e
      · exact ih T' h fun u hu => hw u (by simp [hu])

theorem cut_total {plan : Id → Bool} {pos : Id → Option Pt} {w : Id} :
    ∀ (xs : List Id) (c : Cut) (T : Table), cut plan pos w xs c T = .ub ∨
      ∃ T', cut plan pos w xs c T = .ok T' := by
  intro xs
  induction xs with
  | nil => intro c T; exact .inr ⟨T, rfl⟩
  | cons x xs ih =>
    intro c T
    rw [cut]
    split
    · cases pos x with
      | none => exact .inl rfl
      | some q =>
        cases c.first with
        | none => exact ih _ _
        | some a => exact ih _ _
    · cases c.first with
      | none => exact ih _ _
      | some a =>
        cases pos x with
        | none => exact .inl rfl
        | some q => exact ih _ _

/-- **C154, a condition that is relied on and not checked.**  When a point of a road is
not in the file (as at the border of an extract), reading the map is undefined. -/
theorem C154_missing_violated {o : Order} {ways : List Way} {els : List NodeEl} {w : Way}
    (hn : (highways ways).Nodup) (hw : w ∈ ways) (hh : w.highway = true) {x : Id}
    (hx : x ∈ w.nodes) (hm : x ∉ els.map (·.id)) : build o ways els = .ub := by
  have hpos : (load (flags ways fun _ => none) els).pos x = none := by
    by_contra h
    obtain ⟨q, hq⟩ := Option.ne_none_iff_exists'.mp h
    obtain ⟨el, he, e, -⟩ := (loadInv _ els).from_ x q hq
    exact hm (List.mem_map.mpr ⟨el, he, e⟩)
  unfold build
  dsimp only
  change Outcome.bind (cutAll o ways (planOf ways) _ _ _) _ = _
  rw [cutAll_ub (v := w.id) ?_ _ _ (mem_highways.mpr ⟨w, hw, hh, rfl⟩) fun _ _ T => cut_total _ _ T]
  · rfl
  · intro T
    rw [pointsOf_eq hn hw hh]
    have hx : x ∈ o.f w.id w.nodes := mem_order.mpr hx
    have hhead := fun y => head_planned (ways := ways) (o := o) hw hh (x := y)
    generalize o.f w.id w.nodes = l at hx hhead
    cases l with
    | nil => cases hx
    | cons y ys =>
      have hy := planOf_iff.mpr (hhead y rfl)
      rw [cut, if_pos hy]
      cases e : (load (flags ways fun _ => none) els).pos y with
      | none => rfl
      | some q =>
        dsimp only
        refine cut_undefined _ _ _ (by simp) ?_
        rcases List.mem_cons.mp hx with rfl | hx
        · rw [e] at hpos; cases hpos
        · exact ⟨x, hx, hpos⟩

/-! ### The lengths -/

/-- **C155.**  The graph, exactly: it has an edge for every stretch of a road between two
points used for planning, taken in the order in which the points of the road are given
back; its length in whole metres is that of the stretch **and of every step before it
on the road that leads to a point not used for planning**. -/
theorem C155_edges {o : Order} {ways : List Way} {els : List NodeEl} {M : RoadMap}
    (h : Whole ways els) (hM : build o ways els = .ok M) (g : Edge) :
    g ∈ M.edges ↔ ∃ w ∈ ways, w.highway = true ∧ ∃ pre a mid b post,
      o.f w.id w.nodes = pre ++ a :: (mid ++ b :: post) ∧ Planned ways a ∧ Planned ways b ∧
      (∀ x ∈ mid, ¬ Planned ways x) ∧ M.pts.ix a = some g.a ∧ M.pts.ix b = some g.b ∧
      g.len = ⌊roadLen (posOf M.pts.pos) (a :: (mid ++ [b])) +
        extra (planOf ways) (posOf M.pts.pos) (pre ++ [a])⌋₊ := by
  obtain ⟨e, -, st, hst, he, -⟩ := build_parts hM
  obtain ⟨st', hst', hm⟩ := h.laid (o := o)
  rw [← e] at hst' hm
  rw [hst] at hst'
  cases hst'
  rw [he, hm]
  unfold Laid
  simp only [planOf_iff, planOf_false]

/-- **C155, in part.**  Every stretch of a road is an edge of the graph, and it is not
shorter (in whole metres) than the stretch; and every edge is such a stretch. -/
theorem C155_length_partial {o : Order} {ways : List Way} {els : List NodeEl} {M : RoadMap}
    (h : Whole ways els) (hM : build o ways els = .ok M) :
    (∀ w ∈ ways, w.highway = true → ∀ pre a mid b post, w.nodes = pre ++ a :: (mid ++ b :: post) →
      Planned ways a → Planned ways b → (∀ x ∈ mid, ¬ Planned ways x) →
      ∃ i j k, M.pts.ix a = some i ∧ M.pts.ix b = some j ∧ Link M.edges i j k ∧
        ⌊roadLen (posOf M.pts.pos) (a :: (mid ++ [b]))⌋₊ ≤ k) ∧
    ∀ i j k, Link M.edges i j k → ∃ a b p, M.pts.ix a = some i ∧ M.pts.ix b = some j ∧
      Planned ways a ∧ Planned ways b ∧
      (∃ w ∈ ways, w.highway = true ∧ (p <:+: w.nodes ∨ p <:+: w.nodes.reverse)) ∧
      (∃ mid, p = a :: (mid ++ [b]) ∧ ∀ x ∈ mid, ¬ Planned ways x) ∧
      ⌊roadLen (posOf M.pts.pos) p⌋₊ ≤ k := by
  have ixOf : ∀ x, Planned ways x → ∃ i, M.pts.ix x = some i := by
    intro x hx
    obtain ⟨e, -⟩ := build_parts hM
    refine Option.ne_none_iff_exists'.mp ?_
    rw [e]
    exact (loadInv _ els).has x (h.planning.mpr hx)
  constructor
  · intro w hw hh pre a mid b post e ha hb hm
    obtain ⟨i, hi⟩ := ixOf a ha
    obtain ⟨j, hj⟩ := ixOf b hb
    rcases o.ok w.id w.nodes with e' | e'
    · refine ⟨i, j, _, hi, hj, ⟨⟨i, j, _⟩, (C155_edges h hM _).mpr ⟨w, hw, hh, pre, a, mid, b, post,
        e'.trans e, ha, hb, hm, hi, hj, rfl⟩, rfl, .inl ⟨rfl, rfl⟩⟩, ?_⟩
      exact Nat.floor_le_floor (le_add_of_nonneg_right (extra_nonneg _ _ _))
    · refine ⟨i, j, _, hi, hj, ⟨⟨j, i, _⟩, (C155_edges h hM _).mpr ⟨w, hw, hh, post.reverse, b,
        mid.reverse, a, pre.reverse, by rw [e', e]; simp, hb, ha,
        fun x hx => hm x (List.mem_reverse.mp hx), hj, hi, rfl⟩, rfl, .inr ⟨rfl, rfl⟩⟩, ?_⟩
      have : b :: (mid.reverse ++ [a]) = (a :: (mid ++ [b])).reverse := by simp
      rw [this, roadLen_reverse]
      exact Nat.floor_le_floor (le_add_of_nonneg_right (extra_nonneg _ _ _))
  · rintro i j k ⟨g, hg, rfl, hab⟩
    obtain ⟨w, hw, hh, pre, a, mid, b, post, e, ha, hb, hm, hi, hj, hl⟩ := (C155_edges h hM g).mp hg
    have hle : ⌊roadLen (posOf M.pts.pos) (a :: (mid ++ [b]))⌋₊ ≤ g.len := by
      rw [hl]
      exact Nat.floor_le_floor (le_add_of_nonneg_right (extra_nonneg _ _ _))
    have hin : (a :: (mid ++ [b])) <:+: o.f w.id w.nodes := ⟨pre, post, by rw [e]; simp⟩
    have hrev : ∀ l m : List Id, l <:+: m → l.reverse <:+: m.reverse := by
      rintro l m ⟨s, t, rfl⟩
      exact ⟨t.reverse, s.reverse, by simp⟩
    have hin₁ : (a :: (mid ++ [b])) <:+: w.nodes ∨ (a :: (mid ++ [b])) <:+: w.nodes.reverse := by
      rcases o.ok w.id w.nodes with e' | e' <;> rw [e'] at hin
      · exact .inl hin
      · exact .inr hin
    have hin₂ : (a :: (mid ++ [b])).reverse <:+: w.nodes ∨
        (a :: (mid ++ [b])).reverse <:+: w.nodes.reverse := by
      rcases hin₁ with k | k
      · exact .inr (hrev _ _ k)
      · have := hrev _ _ k
        rw [List.reverse_reverse] at this
        exact .inl this
    rcases hab with ⟨e₁, e₂⟩ | ⟨e₁, e₂⟩
    · refine ⟨a, b, _, ?_, ?_, ha, hb, ⟨w, hw, hh, hin₁⟩, ⟨mid, rfl, hm⟩, hle⟩
      · rw [hi, e₁]
      · rw [hj, e₂]
    · refine ⟨b, a, _, ?_, ?_, hb, ha, ⟨w, hw, hh, hin₂⟩, ⟨mid.reverse, by simp, fun x hx =>
        hm x (List.mem_reverse.mp hx)⟩, by rw [roadLen_reverse]; exact hle⟩
      · rw [hj, e₂]
      · rw [hi, e₁]

/-- **C155, in part.**  The length of an edge is exact when every step before it on the
road leads to a point used for planning; so it is for the first stretch of a road. -/
theorem C155_exact_partial {o : Order} {ways : List Way} {els : List NodeEl} {M : RoadMap}
    (h : Whole ways els) (hM : build o ways els = .ok M) {w : Way} (hw : w ∈ ways)
    (hh : w.highway = true) {pre mid post : List Id} {a b : Id}
    (e : o.f w.id w.nodes = pre ++ a :: (mid ++ b :: post)) (hp : ∀ x ∈ pre, Planned ways x)
    (ha : Planned ways a) (hb : Planned ways b) (hm : ∀ x ∈ mid, ¬ Planned ways x) :
    ∃ g ∈ M.edges, M.pts.ix a = some g.a ∧ M.pts.ix b = some g.b ∧
      g.len = ⌊roadLen (posOf M.pts.pos) (a :: (mid ++ [b]))⌋₊ := by
  have ixOf : ∀ x, Planned ways x → ∃ i, M.pts.ix x = some i := by
    intro x hx
    obtain ⟨e, -⟩ := build_parts hM
    refine Option.ne_none_iff_exists'.mp ?_
    rw [e]
    exact (loadInv _ els).has x (h.planning.mpr hx)
  obtain ⟨i, hi⟩ := ixOf a ha
  obtain ⟨j, hj⟩ := ixOf b hb
  have hz : ∀ (l : List Id) (x : Id), (∀ y ∈ l, Planned ways y) →
      extra (planOf ways) (posOf M.pts.pos) (x :: l) = 0 := by
    intro l
    induction l with
    | nil => intro x _; rfl
    | cons y l ih =>
      intro x hl
      rw [extra, if_pos (planOf_iff.mpr (hl y (by simp))), zero_add]
      exact ih y fun z hz => hl z (by simp [hz])
  have : extra (planOf ways) (posOf M.pts.pos) (pre ++ [a]) = 0 := by
    cases pre with
    | nil => rfl
    | cons x pre =>
      refine hz _ _ fun y hy => ?_
      rcases List.mem_append.mp hy with hy | hy
      · exact hp y (by simp [hy])
      · rw [List.mem_singleton.mp hy]; exact ha
  refine ⟨⟨i, j, ⌊roadLen (posOf M.pts.pos) (a :: (mid ++ [b]))⌋₊⟩,
    (C155_edges h hM _).mpr ⟨w, hw, hh, pre, a, mid, b, post, e, ha, hb, hm, hi, hj, ?_⟩, hi, hj, rfl⟩
  rw [this, add_zero]

/-! ### Distances -/

theorem dist_norm (p q : Pt) : dist p q = ‖(⟨p.n - q.n, p.e - q.e⟩ : ℂ)‖ := by
  rw [dist, Complex.norm_def, Complex.normSq_apply]

theorem dist_triangle (p q r : Pt) : dist p r ≤ dist p q + dist q r := by
  rw [dist_norm, dist_norm, dist_norm]
  have : (⟨p.n - r.n, p.e - r.e⟩ : ℂ) = ⟨p.n - q.n, p.e - q.e⟩ + ⟨q.n - r.n, q.e - r.e⟩ := by
    apply Complex.ext <;> simp
  rw [this]
  exact norm_add_le _ _

/-- A road is not shorter than the straight line. -/
theorem dist_le_roadLen (P : Id → Pt) : ∀ (mid : List Id) (a b : Id),
    dist (P a) (P b) ≤ roadLen P (a :: (mid ++ [b]))
  | [], a, b => by simp [roadLen]
  | x :: mid, a, b => by
    have := dist_le_roadLen P mid x b
    rw [List.cons_append, roadLen]
    exact le_trans (dist_triangle _ (P x) _) (by linarith)

end Verif.Roads
