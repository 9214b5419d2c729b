/-
Where roads leave a circle: the answers to egress requests of `OsmPlannerService`.
-/
import Verif.Roads.Answer

namespace Verif.Roads

/-- `m_nodeIdVsSegmentBeginEndIds` (OsmPlannerService.cpp 1293-1302): for every point the
pairs for which a piece is kept that goes over it.  In which order they are given back is
left open. -/
structure Listing (T : Table) where
  f : Id → List (Id × Id)
  ok : ∀ x k, k ∈ f x ↔ ∃ p, T.get k = some p ∧ x ∈ p.nodes

/-- OsmPlannerService.cpp 1763-1809: of two neighbouring points of a piece, the one
outside of the circle, if they are not on the same side; both, if they are equally far. -/
noncomputable def outer (center : Pt) (r : ℝ) (pos : Id → Option Pt) (xy : Id × Id) : List Id :=
  match pos xy.1, pos xy.2 with
  | some p, some q =>
    open Classical in
    if (r ≤ dist center p ∧ dist center q ≤ r) ∨ (dist center p ≤ r ∧ r ≤ dist center q) then
      if dist center q < dist center p then [xy.1]
      else if dist center p < dist center q then [xy.2]
      else [xy.1, xy.2]
    else []
  | _, _ => []

/-- The points one after the other, each once (`nodeIdsFinal`, OsmPlannerService.cpp
1776-1806). -/
def collect : List Id → List Id → List Id
  | acc, [] => acc
  | acc, x :: xs => collect (if x ∈ acc then acc else acc ++ [x]) xs

/-- OsmPlannerService.cpp 1712-1738: the points used for planning in the cells that the
circle may reach. -/
noncomputable def around (M : RoadMap) (center : Pt) (r : ℝ) : List Id :=
  open Classical in
  ((planPts M).filter fun x =>
    (trunc (center.n - r)).tdiv 100 ≤ (cellOf x.2).1 ∧ (cellOf x.2).1 ≤ (trunc (center.n + r)).tdiv 100 ∧
    (trunc (center.e - r)).tdiv 100 ≤ (cellOf x.2).2 ∧ (cellOf x.2).2 ≤ (trunc (center.e + r)).tdiv 100).map
      (·.1)

/-- OsmPlannerService.cpp 1707-1820, `findRoadIntersectionsOfCircle`: the points found, by
id.  (The order of the points around is left as it is; the code has a set.) -/
noncomputable def egress (M : RoadMap) (S : Listing M.table) (center : Pt) (r : ℝ) : List Id :=
  collect [] ((around M center r).flatMap fun i => (S.f i).flatMap fun k =>
    match M.table.get k with
    | some p => (p.nodes.zip p.nodes.tail).flatMap (outer center r M.pts.pos)
    | none => [])

/-- `EgressRouteResponse`: what is set (OsmPlannerService.cpp 244-256). -/
structure EgressResp where
  id : Int
  headings : List ℝ
  places : List Pt

/-- OsmPlannerService.cpp 223-259, `bProcessEgressRequest`: the answer, always given. -/
noncomputable def egressAnswer (M : RoadMap) (S : Listing M.table) (id : Int) (center : Pt) (r : ℝ) :
    EgressResp :=
  ⟨id, (egress M S center r).map fun _ => 0, (egress M S center r).map (posOf M.pts.pos)⟩

/-! ### What is found -/

theorem mem_collect {x : Id} : ∀ (l acc : List Id), x ∈ collect acc l ↔ x ∈ acc ∨ x ∈ l
  | [], acc => by simp [collect]
  | y :: l, acc => by
    rw [collect, mem_collect l, List.mem_cons]
    split
    · rename_i h
      constructor
      · rintro (h' | h')
        · exact .inl h'
        · exact .inr (.inr h')
      · rintro (h' | rfl | h')
        · exact .inl h'
        · exact .inl h
        · exact .inr h'
    · rw [List.mem_append, List.mem_singleton, or_assoc]

theorem nodup_collect : ∀ (l acc : List Id), acc.Nodup → (collect acc l).Nodup
  | [], _, h => h
  | y :: l, acc, h => by
    rw [collect]
    refine nodup_collect l _ ?_
    split
    · exact h
    · rename_i hn
      exact List.nodup_append.mpr ⟨h, List.nodup_singleton _, fun a ha b hb => by
        rw [List.mem_singleton.mp hb]; rintro rfl; exact hn ha⟩

theorem mem_pairs {x y : Id} {l : List Id} : (x, y) ∈ l.zip l.tail ↔ [x, y] <:+: l := by
  induction l with
  | nil => simp
  | cons a l ih =>
    cases l with
    | nil =>
      simp only [List.tail_cons, List.zip_nil_right, List.not_mem_nil, false_iff]
      rintro ⟨s, t, e⟩
      have := congrArg List.length e
      simp at this
      omega
    | cons b l =>
      rw [List.tail_cons, List.zip_cons_cons, List.mem_cons]
      have : (x, y) ∈ (b :: l).zip l ↔ (x, y) ∈ (b :: l).zip (b :: l).tail := by rfl
      rw [this, ih]
      constructor
      · rintro (h | ⟨s, t, e⟩)
        · cases h
          exact ⟨[], l, rfl⟩
        · exact ⟨a :: s, t, by rw [← e]; rfl⟩
      · rintro ⟨s, t, e⟩
        cases s with
        | nil =>
          left
          simp only [List.nil_append, List.cons_append, List.cons.injEq] at e
          rw [e.1, e.2.1]
        | cons s₁ s =>
          right
          simp only [List.cons_append, List.cons.injEq] at e
          exact ⟨s, t, e.2⟩

theorem mem_outer {center : Pt} {r : ℝ} {pos : Id → Option Pt} {x y z : Id}
    (h : z ∈ outer center r pos (x, y)) : ∃ p q, pos x = some p ∧ pos y = some q ∧
      ((z = x ∧ r ≤ dist center p ∧ dist center q ≤ r) ∨
        (z = y ∧ r ≤ dist center q ∧ dist center p ≤ r)) := by
  unfold outer at h
  dsimp only at h
  cases hp : pos x with
  | none => rw [hp] at h; cases h
  | some p =>
    cases hq : pos y with
    | none => rw [hp, hq] at h; cases h
    | some q =>
      rw [hp, hq] at h
      dsimp only at h
      refine ⟨p, q, rfl, rfl, ?_⟩
      split at h
      · rename_i hc
        split at h
        · rename_i hlt
          refine .inl ⟨List.mem_singleton.mp h, ?_⟩
          rcases hc with ⟨h₁, h₂⟩ | ⟨h₁, h₂⟩
          · exact ⟨h₁, h₂⟩
          · exact absurd (le_trans h₁ h₂) (not_le.mpr hlt)
        · split at h
          · rename_i hlt
            refine .inr ⟨List.mem_singleton.mp h, ?_⟩
            rcases hc with ⟨h₁, h₂⟩ | ⟨h₁, h₂⟩
            · exact absurd (le_trans h₂ h₁) (not_le.mpr hlt)
            · exact ⟨h₂, h₁⟩
          · rename_i h₁ h₂
            have e : dist center p = dist center q := le_antisymm (not_lt.mp h₁) (not_lt.mp h₂)
            have hr : r = dist center p := by
              rcases hc with ⟨h₃, h₄⟩ | ⟨h₃, h₄⟩ <;> linarith
            rcases List.mem_cons.mp h with rfl | h
            · exact .inl ⟨rfl, by linarith, by linarith⟩
            · exact .inr ⟨List.mem_singleton.mp h, by linarith, by linarith⟩
      · cases h

theorem outer_finds {center : Pt} {r : ℝ} {pos : Id → Option Pt} {x y : Id} {p q : Pt}
    (hp : pos x = some p) (hq : pos y = some q) (h₁ : r ≤ dist center p) (h₂ : dist center q ≤ r) :
    (x ∈ outer center r pos (x, y)) ∧ x ∈ outer center r pos (y, x) := by
  unfold outer
  dsimp only
  rw [hp, hq]
  dsimp only
  constructor
  · rw [if_pos (.inl ⟨h₁, h₂⟩)]
    split
    · simp
    · split
      · rename_i hlt
        exact absurd (le_trans h₂ h₁) (not_le.mpr hlt)
      · simp
  · rw [if_pos (.inr ⟨h₂, h₁⟩)]
    split
    · rename_i hlt
      exact absurd (le_trans h₂ h₁) (not_le.mpr hlt)
    · split
      · simp
      · simp

theorem mem_egress {M : RoadMap} {S : Listing M.table} {center : Pt} {r : ℝ} {z : Id} :
    z ∈ egress M S center r ↔ ∃ i ∈ around M center r, ∃ k p, M.table.get k = some p ∧ i ∈ p.nodes ∧
      ∃ x y, [x, y] <:+: p.nodes ∧ z ∈ outer center r M.pts.pos (x, y) := by
  unfold egress
  rw [mem_collect]
  simp only [List.not_mem_nil, false_or, List.mem_flatMap]
  constructor
  · rintro ⟨i, hi, k, hk, hz⟩
    obtain ⟨p, hp, hin⟩ := (S.ok i k).mp hk
    rw [hp] at hz
    obtain ⟨⟨x, y⟩, hxy, hz⟩ := List.mem_flatMap.mp hz
    exact ⟨i, hi, k, p, hp, hin, x, y, mem_pairs.mp hxy, hz⟩
  · rintro ⟨i, hi, k, p, hp, hin, x, y, hxy, hz⟩
    refine ⟨i, hi, k, (S.ok i k).mpr ⟨p, hp, hin⟩, ?_⟩
    rw [hp]
    exact List.mem_flatMap.mpr ⟨(x, y), mem_pairs.mpr hxy, hz⟩

section
variable {o : Order} {ways : List Way} {els : List NodeEl} {M : RoadMap}

/-- **C159.**  Every place of an answer is a point of a road, not in the circle, with a
neighbour on the road that is not outside; no point comes twice; there is a heading for
each place (it is 0). -/
theorem C159_places (hn : (highways ways).Nodup) (hM : build o ways els = .ok M)
    (S : Listing M.table) (id : Int) (center : Pt) (r : ℝ) :
    (egressAnswer M S id center r).id = id ∧
    (egressAnswer M S id center r).headings.length = (egressAnswer M S id center r).places.length ∧
    ∃ l : List Id, l.Nodup ∧ (egressAnswer M S id center r).places = l.map (posOf M.pts.pos) ∧
      ∀ x ∈ l, ∃ y p q, Beside ways x y ∧ M.pts.pos x = some p ∧ M.pts.pos y = some q ∧
        r ≤ dist center p ∧ dist center q ≤ r := by
  refine ⟨rfl, by simp [egressAnswer], egress M S center r, nodup_collect _ _ List.nodup_nil, rfl, ?_⟩
  intro z hz
  obtain ⟨i, -, k, p, hp, -, x, y, hxy, hz⟩ := mem_egress.mp hz
  obtain ⟨w, hw, hh, -, hin, -⟩ := C154_piece (a := k.1) (b := k.2) hn hM hp
  have hb : Beside ways x y ∧ Beside ways y x := by
    have hrev : ∀ {a b : Id} {l : List Id}, [a, b] <:+: l.reverse → [b, a] <:+: l := by
      rintro a b l ⟨s, t, e⟩
      exact ⟨t.reverse, s.reverse, by rw [← List.reverse_reverse l, ← e]; simp⟩
    rcases hin with h | h
    · exact ⟨⟨w, hw, hh, .inl (hxy.trans h)⟩, ⟨w, hw, hh, .inr (hxy.trans h)⟩⟩
    · exact ⟨⟨w, hw, hh, .inr (hrev (hxy.trans h))⟩, ⟨w, hw, hh, .inl (hrev (hxy.trans h))⟩⟩
  obtain ⟨p, q, hp, hq, ⟨rfl, h₁, h₂⟩ | ⟨rfl, h₁, h₂⟩⟩ := mem_outer hz
  · exact ⟨y, p, q, hb.1, hp, hq, h₁, h₂⟩
  · exact ⟨x, q, p, hb.2, hq, hp, h₁, h₂⟩

theorem trunc_mono {a b : ℝ} (h : a ≤ b) : trunc a ≤ trunc b := by
  unfold trunc
  split <;> split
  · exact Int.floor_le_floor h
  · rename_i h₁ h₂; exact absurd (le_trans h₁ h) h₂
  · rename_i h₁ h₂
    have : ⌈a⌉ ≤ 0 := Int.ceil_le.mpr (by push_cast; linarith)
    exact le_trans this (Int.floor_nonneg.mpr h₂)
  · exact Int.ceil_le_ceil h

theorem mem_around {center : Pt} {r : ℝ} {i : Id} {p : Pt} (hi : (i, p) ∈ planPts M)
    (hn : |p.n - center.n| ≤ r) (he : |p.e - center.e| ≤ r) : i ∈ around M center r := by
  unfold around
  refine List.mem_map.mpr ⟨(i, p), List.mem_filter.mpr ⟨hi, ?_⟩, rfl⟩
  rw [decide_eq_true_iff]
  obtain ⟨n₁, n₂⟩ := abs_le.mp hn
  obtain ⟨e₁, e₂⟩ := abs_le.mp he
  rw [tdiv_trunc, tdiv_trunc, tdiv_trunc, tdiv_trunc]
  unfold cellOf
  refine ⟨trunc_mono ?_, trunc_mono ?_, trunc_mono ?_, trunc_mono ?_⟩ <;> dsimp only <;> linarith

/-- **C159, in part.**  On every kept piece with a point used for planning in the square
around the circle, all places where the road leaves the circle are found.  (What is
missing: pieces whose ends are both outside of the square, and second roads between
the same two points.) -/
theorem C159_found_partial (h : Whole ways els) (hM : build o ways els = .ok M)
    (S : Listing M.table) {center : Pt} {r : ℝ} {a b : Id} {p : Piece}
    (hp : M.table.get (a, b) = some p) {c : Id} (hc : c = a ∨ c = b) {pc : Pt}
    (hpc : M.pts.pos c = some pc) (hn : |pc.n - center.n| ≤ r) (he : |pc.e - center.e| ≤ r)
    {x y : Id} (hxy : [x, y] <:+: p.nodes ∨ [y, x] <:+: p.nodes) {px py : Pt}
    (hx : M.pts.pos x = some px) (hy : M.pts.pos y = some py) (h₁ : r ≤ dist center px)
    (h₂ : dist center py ≤ r) : x ∈ egress M S center r := by
  obtain ⟨w, hw, hh, -, -, ⟨mid, hmid, ha, hb, -⟩, -⟩ := C154_piece h.ids hM hp
  have hcp : c ∈ p.nodes ∧ Planned ways c := by
    rw [hmid]
    rcases hc with rfl | rfl
    · exact ⟨by simp, ha⟩
    · exact ⟨by simp, hb⟩
  have hcm : (c, pc) ∈ planPts M := by
    refine mem_planPts.mpr ⟨?_, hpc⟩
    obtain ⟨e, -⟩ := build_parts hM
    rw [e]
    exact h.planning.mpr hcp.2
  have ho := outer_finds hx hy h₁ h₂
  refine mem_egress.mpr ⟨c, mem_around hcm hn he, (a, b), p, hp, hcp.1, ?_⟩
  rcases hxy with k | k
  · exact ⟨x, y, k, ho.1⟩
  · exact ⟨y, x, k, ho.2⟩

end

end Verif.Roads
