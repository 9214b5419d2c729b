import Verif.Pattern.Model
import Verif.Stare.Find

/-!
# Which segment counts (C162), and the segments of a spiral search
-/

namespace Verif.Stare

open Complex
open Verif.Pattern (Turn)
open Verif.Search (Pos)

/-- A position of the pattern searches as a point of the plane. -/
def toC (p : Pos) : ℂ := ⟨p.e, p.n⟩

/-- PatternSearchTaskService.cpp 500, 526 and 534-567: the segments that the loop of a spiral search hands to the steering.
The turns come with their radii.  The first segment ends where the radius first is not below that of the centre; its last
waypoint and point of the road begin the next one.  The points of the road have altitude 0 (SensorSteering.h 68). -/
noncomputable def spiralSegs (centre : ℝ) : ℤ → Bool → List (ℤ × ℂ) → List Spot → List (ℝ × Turn) →
    List (List (ℤ × ℂ) × List Spot)
  | _, _, ws, rs, [] => if ws ≠ [] ∧ rs ≠ [] then [(ws, rs)] else []
  | n, initial, ws, rs, (r, t) :: ts =>
      let w : ℤ × ℂ := (n, toC t.vehicle)
      let p : Spot := ⟨toC t.road, 0⟩
      if ¬ r < centre ∧ initial = true then (ws ++ [w], rs ++ [p]) :: spiralSegs centre (n + 1) false [w] [p] ts
      else spiralSegs centre (n + 1) initial (ws ++ [w]) (rs ++ [p]) ts

/-- The waypoints of some of the turns, numbered from `n`. -/
def wpsFrom (n : ℤ) : List (ℝ × Turn) → List (ℤ × ℂ)
  | [] => []
  | x :: ts => (n, toC x.2.vehicle) :: wpsFrom (n + 1) ts

/-- The points of the road of some of the turns. -/
def roadOf (ts : List (ℝ × Turn)) : List Spot := ts.map fun x => ⟨toC x.2.road, 0⟩

/-! ### Segments in general -/

theorem segments_eq {l : List (List (ℤ × ℂ) × List Spot)} {ids : List ℤ}
    (h : l.map (fun s => s.1.head?.map (·.1)) = ids.map some) :
    segments l = build (ids.zip (l.map fun s => Steering.init s.1 s.2)) := by
  unfold segments
  congr 1
  induction l generalizing ids with
  | nil =>
      cases ids with
      | nil => rfl
      | cons => simp at h
  | cons s l ih =>
      cases ids with
      | nil => simp at h
      | cons i ids =>
          simp only [List.map_cons, List.cons.injEq] at h
          cases hs : s.1.head? with
          | none => rw [hs] at h; simp at h
          | some w =>
              rw [hs] at h
              have hi : w.1 = i := by simpa using h.1
              rw [List.filterMap_cons_some (by rw [hs]; rfl), ih h.2]
              simp [hi]

theorem lowerBound_cons {β : Type*} {n : ℤ} {prev : Option (ℤ × β)} {x : ℤ × β} {m : List (ℤ × β)} (h : x.1 < n) :
    lowerBound n prev (x :: m) = lowerBound n (some x) m := by
  conv_lhs => unfold lowerBound
  rw [if_neg (not_le.2 h)]

/-- In a map in order, the entry before the first one that is not less. -/
theorem findIn_get {m : List (ℤ × Steering)} (hs : Sorted m) {j : ℕ} (hj : j < m.length) {w : ℤ} {pos : ℂ}
    (hlo : m[j].1 < w) (hhi : ∀ i, ∀ h : i < m.length, j < i → w ≤ m[i].1) :
    findIn m w pos = m[j].2.find w pos := by
  have hne : m ≠ [] := by rintro rfl; simp at hj
  have hlt : ∀ i, ∀ h : i < m.length, i ≤ j → m[i].1 < w := by
    intro i h hij
    rcases hij.eq_or_lt with rfl | hij
    · exact hlo
    · exact lt_trans (List.pairwise_iff_getElem.1 hs i j h hj hij) hlo
  unfold findIn
  rw [List.getLast?_eq_some_getLast hne]
  simp only
  cases hlb : lowerBound w none m with
  | none =>
      simp only
      rw [lowerBound_none] at hlb
      have : j = m.length - 1 := by
        by_contra hcon
        have h1 : j + 1 < m.length := by omega
        have h2 := hhi (j + 1) h1 (by omega)
        have h3 := hlb _ (List.getElem_mem h1)
        omega
      subst this
      rw [List.getLast_eq_getElem]
  | some r =>
      obtain ⟨p, x⟩ := r
      obtain ⟨-, -, -, hcase⟩ := lowerBound_some hs hlb
      rcases hcase with ⟨-, hall⟩ | ⟨y, hy, rfl, hyw, hmax⟩
      · have := hall _ (List.getElem_mem hj)
        omega
      · simp only
        obtain ⟨i, hi, rfl⟩ := List.mem_iff_getElem.1 hy
        have hij : i = j := by
          rcases lt_trichotomy i j with h | h | h
          · have h1 := hmax _ (List.getElem_mem hj) hlo
            have h2 : m[i].1 < m[j].1 := List.pairwise_iff_getElem.1 hs i j hi hj h
            omega
          · exact h
          · have := hhi i hi h; omega
        subst hij; rfl

/-- **C162.**  Segments added with increasing first waypoints: for a number after the first waypoint of a segment, up to
and with the first of the next one, that segment counts. -/
theorem C162_segment {l : List (List (ℤ × ℂ) × List Spot)} {ids : List ℤ}
    (h : l.map (fun s => s.1.head?.map (·.1)) = ids.map some) (hids : ids.Pairwise (· < ·)) {j : ℕ} (hj : j < l.length)
    (hj' : j < ids.length) {w : ℤ} {pos : ℂ} (hlo : ids[j] < w) (hhi : ∀ i, ∀ hi : i < ids.length, j < i → w ≤ ids[i]) :
    findIn (segments l) w pos = (Steering.init l[j].1 l[j].2).find w pos := by
  have hlen : ids.length = l.length := by
    have := congrArg List.length h
    simpa using this.symm
  have hsorted : Sorted (ids.zip (l.map fun s => Steering.init s.1 s.2)) := by
    rw [Sorted, List.pairwise_iff_getElem]
    intro a b ha hb hab
    simp only [List.getElem_zip]
    exact List.pairwise_iff_getElem.1 hids a b _ _ hab
  rw [segments_eq h, build_sorted hsorted]
  have hj2 : j < (ids.zip (l.map fun s => Steering.init s.1 s.2)).length := by simp; omega
  rw [findIn_get hsorted hj2 (by simpa using hlo)]
  · simp
  · intro i hi hji
    simp only [List.getElem_zip]
    exact hhi i (by simp at hi; omega) hji

/-- **C162.**  The number of the very first waypoint belongs to the first segment. -/
theorem C162_start {l : List (List (ℤ × ℂ) × List Spot)} {ids : List ℤ}
    (h : l.map (fun s => s.1.head?.map (·.1)) = ids.map some) (hids : ids.Pairwise (· < ·)) (hj : 0 < l.length)
    (hj' : 0 < ids.length) {w : ℤ} {pos : ℂ} (hw : w ≤ ids[0]) :
    findIn (segments l) w pos = (Steering.init l[0].1 l[0].2).find w pos := by
  have hsorted : Sorted (ids.zip (l.map fun s => Steering.init s.1 s.2)) := by
    rw [Sorted, List.pairwise_iff_getElem]
    intro a b ha hb hab
    simp only [List.getElem_zip]
    exact List.pairwise_iff_getElem.1 hids a b _ _ hab
  rw [segments_eq h, build_sorted hsorted]
  cases l with
  | nil => simp at hj
  | cons s l =>
      cases ids with
      | nil => simp at hj'
      | cons i ids =>
          simp only [List.getElem_cons_zero] at hw ⊢
          unfold findIn lowerBound
          simp only [List.map_cons, List.zip_cons_cons]
          rw [List.getLast?_eq_some_getLast (by simp)]
          simp only
          rw [if_pos hw]

/-! ### The spiral -/

theorem spiralSegs_rest (centre : ℝ) : ∀ (ts : List (ℝ × Turn)) (n : ℤ) (initial : Bool) (ws : List (ℤ × ℂ)) (rs : List Spot),
    ws ≠ [] → rs ≠ [] → (initial = true → ∀ x ∈ ts, x.1 < centre) →
    spiralSegs centre n initial ws rs ts = [(ws ++ wpsFrom n ts, rs ++ roadOf ts)]
  | [], n, initial, ws, rs, h1, h2, _ => by simp [spiralSegs, wpsFrom, roadOf, h1, h2]
  | (r, t) :: ts, n, initial, ws, rs, h1, h2, h3 => by
      have hn : ¬ (¬ r < centre ∧ initial = true) := fun h => h.1 (h3 h.2 (r, t) List.mem_cons_self)
      rw [spiralSegs, if_neg hn, spiralSegs_rest centre ts _ _ _ _ (by simp) (by simp)
        (fun h x hx => h3 h x (List.mem_cons_of_mem _ hx))]
      simp [wpsFrom, roadOf]

theorem spiralSegs_cut (centre : ℝ) : ∀ (pre : List (ℝ × Turn)) (x : ℝ × Turn) (post : List (ℝ × Turn)) (n : ℤ)
    (ws : List (ℤ × ℂ)) (rs : List Spot), (∀ y ∈ pre, y.1 < centre) → ¬ x.1 < centre →
    spiralSegs centre n true ws rs (pre ++ x :: post) =
      [(ws ++ wpsFrom n (pre ++ [x]), rs ++ roadOf (pre ++ [x])),
        (wpsFrom (n + pre.length) (x :: post), roadOf (x :: post))]
  | [], (r, t), post, n, ws, rs, _, hx => by
      rw [List.nil_append, spiralSegs]
      rw [if_pos ⟨hx, rfl⟩, spiralSegs_rest centre post _ _ _ _ (by simp) (by simp) (by simp)]
      simp [wpsFrom, roadOf]
  | (r', t') :: pre, x, post, n, ws, rs, h, hx => by
      rw [List.cons_append, spiralSegs]
      simp only
      rw [if_neg (fun hh => hh.1 (h (r', t') List.mem_cons_self)),
        spiralSegs_cut centre pre x post _ _ _ (fun y hy => h y (List.mem_cons_of_mem _ hy)) hx]
      simp only [wpsFrom, roadOf, List.cons_append, List.map_cons, List.append_assoc, List.nil_append, List.length_cons]
      congr 3
      push_cast; ring_nf

theorem wpsFrom_head (n : ℤ) (x : ℝ × Turn) (ts : List (ℝ × Turn)) : ((wpsFrom n (x :: ts)).head?.map (·.1)) = some n := rfl

/-- **C162.**  A spiral search, the turns numbered from 1 and turn `pre.length + 1` the first whose radius is not below that of the
centre.  Up to this turn the steering is that of the turns to it alone. -/
theorem C162_spiral_inner (centre : ℝ) {pre : List (ℝ × Turn)} {x : ℝ × Turn} (post : List (ℝ × Turn))
    (hpre : ∀ y ∈ pre, y.1 < centre) (hx : ¬ x.1 < centre) {w : ℤ} (h1 : 1 < w) (h2 : w ≤ pre.length + 1) (pos : ℂ) :
    findIn (segments (spiralSegs centre 1 true [] [] (pre ++ x :: post))) w pos =
      (Steering.init (wpsFrom 1 (pre ++ [x])) (roadOf (pre ++ [x]))).find w pos := by
  rw [spiralSegs_cut centre pre x post 1 [] [] hpre hx, List.nil_append, List.nil_append]
  cases pre with
  | nil => simp at h2; omega
  | cons y pre =>
      have := C162_segment (l := [(wpsFrom 1 ((y :: pre) ++ [x]), roadOf ((y :: pre) ++ [x])),
        (wpsFrom (1 + (y :: pre).length) (x :: post), roadOf (x :: post))]) (ids := [1, 1 + (y :: pre).length])
        (by simp [wpsFrom]) (by simp) (j := 0) (by simp) (by simp) (w := w) (pos := pos) (by simpa using h1)
        (by
          intro i hi hpos
          have : i = 1 := by simp at hi; omega
          subst this
          simp only [List.getElem_cons_succ, List.getElem_cons_zero]
          omega)
      exact this

/-- **C162.**  After it the steering is that of this turn and those after it. -/
theorem C162_spiral_outer (centre : ℝ) {pre : List (ℝ × Turn)} {x : ℝ × Turn} (post : List (ℝ × Turn))
    (hpre : ∀ y ∈ pre, y.1 < centre) (hx : ¬ x.1 < centre) {w : ℤ} (h1 : pre.length + 1 < w) (pos : ℂ) :
    findIn (segments (spiralSegs centre 1 true [] [] (pre ++ x :: post))) w pos =
      (Steering.init (wpsFrom (1 + pre.length) (x :: post)) (roadOf (x :: post))).find w pos := by
  rw [spiralSegs_cut centre pre x post 1 [] [] hpre hx, List.nil_append, List.nil_append]
  cases pre with
  | nil =>
      -- the second segment replaces the first
      have e : segments [(wpsFrom 1 ([] ++ [x]), roadOf ([] ++ [x])), (wpsFrom (1 + ([] : List (ℝ × Turn)).length) (x :: post), roadOf (x :: post))] =
          segments [(wpsFrom (1 + ([] : List (ℝ × Turn)).length) (x :: post), roadOf (x :: post))] := by
        simp [segments, build, wpsFrom, put]
      rw [e]
      exact C162_segment (l := [(wpsFrom (1 + ([] : List (ℝ × Turn)).length) (x :: post), roadOf (x :: post))]) (ids := [1]) (by simp [wpsFrom])
        (by simp) (j := 0) (by simp) (by simp) (by simpa using h1) (by intro i hi hpos; simp at hi; omega)
  | cons y pre =>
      have := C162_segment (l := [(wpsFrom 1 ((y :: pre) ++ [x]), roadOf ((y :: pre) ++ [x])),
        (wpsFrom (1 + (y :: pre).length) (x :: post), roadOf (x :: post))]) (ids := [1, 1 + (y :: pre).length])
        (by simp [wpsFrom]) (by simp) (j := 1) (by simp) (by simp) (w := w) (pos := pos)
        (by simp only [List.getElem_cons_succ, List.getElem_cons_zero]; omega)
        (by intro i hi hpos; simp at hi; omega)
      exact this

/-- **C162.**  When no radius reaches that of the centre there is one segment with all the turns. -/
theorem C162_spiral_whole (centre : ℝ) {ts : List (ℝ × Turn)} (h : ∀ y ∈ ts, y.1 < centre) (hne : ts ≠ []) {w : ℤ} (h1 : 1 < w)
    (pos : ℂ) :
    findIn (segments (spiralSegs centre 1 true [] [] ts)) w pos = (Steering.init (wpsFrom 1 ts) (roadOf ts)).find w pos := by
  cases ts with
  | nil => exact absurd rfl hne
  | cons x ts =>
      obtain ⟨r, t⟩ := x
      have e : spiralSegs centre 1 true [] [] ((r, t) :: ts) = [(wpsFrom 1 ((r, t) :: ts), roadOf ((r, t) :: ts))] := by
        rw [spiralSegs]
        simp only
        rw [if_neg (fun hh => hh.1 (h (r, t) List.mem_cons_self)), spiralSegs_rest centre ts _ _ _ _ (by simp) (by simp)
          (fun _ x hx => h x (List.mem_cons_of_mem _ hx))]
        rfl
      rw [e]
      exact C162_segment (l := [(wpsFrom 1 ((r, t) :: ts), roadOf ((r, t) :: ts))]) (ids := [1]) (by simp [wpsFrom])
        (by simp) (j := 0) (by simp) (by simp) (by simpa using h1) (by intro i hi hpos; simp at hi; omega)

end Verif.Stare
