import Verif.Grid.Inside

/-!
# Points in polygons: a case, and where the answer is wrong (C193)
-/

namespace Verif.Grid

/-- Whole metres not more than the distance. -/
def lower (a p : Pt) : ℚ := (⌊(a.x - p.x) ^ 2 + (a.y - p.y) ^ 2⌋.toNat.sqrt : ℕ)

/-- A decidable condition that follows from nearness. -/
def nearQ (va vb p : Pt) : Bool := decide (lower va p + lower vb p - (lower va vb + 1) < 1 / 100)

theorem lower_le (a p : Pt) : (lower a p : ℝ) ≤ √(((a.x : ℝ) - p.x) ^ 2 + ((a.y : ℝ) - p.y) ^ 2) ∧
    √(((a.x : ℝ) - p.x) ^ 2 + ((a.y : ℝ) - p.y) ^ 2) ≤ (lower a p : ℝ) + 1 := by
  have e : ((a.x : ℝ) - p.x) ^ 2 + ((a.y : ℝ) - p.y) ^ 2 = (((a.x - p.x) ^ 2 + (a.y - p.y) ^ 2 : ℚ) : ℝ) := by push_cast; ring
  rw [e]
  unfold lower
  have h0 : 0 ≤ (a.x - p.x) ^ 2 + (a.y - p.y) ^ 2 := by positivity
  generalize (a.x - p.x) ^ 2 + (a.y - p.y) ^ 2 = d at *
  have hf : 0 ≤ ⌊d⌋ := Int.floor_nonneg.2 h0
  have h1 := Nat.sqrt_le' ⌊d⌋.toNat
  have h2 := Nat.lt_succ_sqrt' ⌊d⌋.toNat
  have hz : ((⌊d⌋.toNat : ℕ) : ℚ) = ((⌊d⌋ : ℤ) : ℚ) := by exact_mod_cast Int.toNat_of_nonneg hf
  generalize ⌊d⌋.toNat.sqrt = k at *
  have k1 : ((k : ℕ) : ℚ) ^ 2 ≤ d := by
    have : ((k ^ 2 : ℕ) : ℚ) ≤ ((⌊d⌋.toNat : ℕ) : ℚ) := by exact_mod_cast h1
    rw [hz] at this
    have := Int.floor_le d
    push_cast at *
    linarith
  have k2 : d ≤ ((k : ℕ) + 1 : ℚ) ^ 2 := by
    have : ((⌊d⌋.toNat + 1 : ℕ) : ℚ) ≤ (((k + 1) ^ 2 : ℕ) : ℚ) := by exact_mod_cast h2
    push_cast at this
    rw [hz] at this
    have := Int.lt_floor_add_one d
    linarith
  constructor
  · apply Real.le_sqrt_of_sq_le
    exact_mod_cast k1
  · rw [Real.sqrt_le_left (by positivity)]
    exact_mod_cast k2

theorem near_nearQ {va vb p : Pt} (h : nearEdge va vb p = true) : nearQ va vb p = true := by
  unfold nearEdge at h
  rw [decide_eq_true_eq] at h
  unfold nearQ
  rw [decide_eq_true_eq]
  have h1 := (lower_le va p).1
  have h2 := (lower_le vb p).1
  have h3 := (lower_le va vb).2
  have : ((lower va p + lower vb p - (lower va vb + 1) : ℚ) : ℝ) < ((1 / 100 : ℚ) : ℝ) := by push_cast; linarith
  exact_mod_cast this

/-- With a weaker test of nearness a no stays a no. -/
theorem gridTest_mono {near near' : Pt → Pt → Pt → Bool} (h : ∀ a b p, near a b p = true → near' a b p = true) {b : Box} {evs : List Ev} {p : Pt}
    (hg : gridTest near' b evs p = .ok false) : gridTest near b evs p = .ok false := by
  unfold gridTest at *
  obtain ⟨yc, h1, hg⟩ := bind_ok hg
  obtain ⟨xc, h2, hg⟩ := bind_ok hg
  obtain ⟨c, h3, hg⟩ := bind_ok hg
  rw [h1, h2]
  simp only [Res.bind]
  rw [h3]
  simp only at hg ⊢
  split_ifs at hg ⊢ with he
  · exact hg
  · have := Res.ok.inj hg
    rw [Bool.or_eq_false_iff] at this
    rw [this.1, Bool.false_or]
    congr 1
    rw [List.any_eq_false] at *
    intro q hq hn
    exact this.2 q hq (h _ _ _ hn)

theorem inPolygon_mono {n : ℕ} {vs : List Pt} {p : Pt} (hg : inPolygon nearQ n vs p = .ok false) : inPolygon nearEdge n vs p = .ok false := by
  unfold inPolygon at *
  cases vs with
  | nil => rfl
  | cons v r =>
      simp only at *
      split_ifs at hg ⊢ with h
      · obtain ⟨g, h1, hg⟩ := bind_ok hg
        rw [h1]
        exact gridTest_mono (near := nearEdge) (near' := nearQ) (b := g.1) (evs := g.2) (fun _ _ _ h => near_nearQ h) hg
      · exact hg

/-- A decidable condition for `General`. -/
def generalOk (b : Box) (vs : List Pt) (p : Pt) : Bool :=
  (vs.all fun v => ((v.x - b.lo.x) / b.dx).den != 1 && ((v.y - b.lo.y) / b.dy).den != 1) &&
  ((p.x - b.lo.x) / b.dx).den != 1 && ((p.y - b.lo.y) / b.dy).den != 1 &&
  vs.all fun v => decide (area ⟨b.gx ⌊(p.x - b.lo.x) / b.dx⌋, b.gy ⌊(p.y - b.lo.y) / b.dy⌋⟩ p v ≠ 0)

theorem den_line {v lo d : ℚ} (hd : 0 < d) (h : ((v - lo) / d).den ≠ 1) (k : ℤ) : v ≠ lo + k * d := by
  rintro rfl
  apply h
  rw [show (lo + (k : ℚ) * d - lo) / d = k by field_simp; ring]
  exact Rat.den_intCast k

theorem floor_of {v lo d : ℚ} (hd : 0 < d) {k : ℤ} (h1 : lo + k * d < v) (h2 : v < lo + ((k + 1 : ℤ) : ℚ) * d) : ⌊(v - lo) / d⌋ = k := by
  rw [Int.floor_eq_iff, le_div_iff₀ hd, div_lt_iff₀ hd]
  push_cast at h2
  constructor <;> linarith

theorem general_of {b : Box} {vs : List Pt} {p : Pt} (dx : 0 < b.dx) (dy : 0 < b.dy) (h : generalOk b vs p = true) : General b vs p := by
  unfold generalOk at h
  simp only [Bool.and_eq_true, List.all_eq_true, bne_iff_ne, decide_eq_true_eq] at h
  obtain ⟨⟨⟨h1, h2⟩, h3⟩, h4⟩ := h
  refine ⟨fun v hv k => ?_, fun v hv k => ?_, fun k => ?_, fun k => ?_, ?_⟩
  · rw [gx_eq]; exact den_line dx (h1 v hv).1 k
  · rw [gy_eq]; exact den_line dy (h1 v hv).2 k
  · rw [gx_eq]; exact den_line dx h2 k
  · rw [gy_eq]; exact den_line dy h3 k
  · intro i j a1 a2 a3 a4 v hv hon
    rw [gx_eq] at a1 a2
    rw [gy_eq] at a3 a4
    apply h4 v hv
    rw [floor_of dx a1 a2, floor_of dy a3 a4]
    obtain ⟨s, _, _, hx, hy⟩ := hon
    simp only [area]
    rw [hx, hy]
    ring

/-- The hypotheses of a query, decidably. -/
def meets (n : ℕ) (vs : List Pt) (p : Pt) : Bool :=
  match vs with
  | [] => false
  | v :: r => match build (edges (v :: r)) n (boundingBox v r) with
    | .ok (b, _) => decide (0 < b.dx) && decide (0 < b.dy) && generalOk b (v :: r) p
    | _ => false

theorem meets_iff {n : ℕ} {v : Pt} {r : List Pt} {p : Pt} (h : meets n (v :: r) p = true) :
    ∃ b evs, build (edges (v :: r)) n (boundingBox v r) = .ok (b, evs) ∧ General b (v :: r) p := by
  unfold meets at h
  simp only at h
  split at h
  · rename_i b evs hb
    simp only [Bool.and_eq_true, decide_eq_true_eq] at h
    exact ⟨b, evs, hb, general_of h.1.1 h.1.2 h.2⟩
  · cases h

/-- A bay: a square kilometre with a slit from the south edge to its middle. -/
def bay : List Pt := [⟨0, 0⟩, ⟨0, 1000⟩, ⟨1000, 1000⟩, ⟨1000, 0⟩, ⟨530, 10⟩, ⟨510, 490⟩, ⟨470, 5⟩]

/-- Non-vacuity of `C193_in_polygon_partial`: two points of the bay, one on land and one in the water, meet the hypotheses. -/
example : meets 1 bay ⟨300, 250⟩ = true ∧ inside bay ⟨300, 250⟩ = true ∧ meets 1 bay ⟨505, 60⟩ = true ∧ inside bay ⟨505, 60⟩ = false := by
  decide +kernel

/-- The theorem applied to both: the first is found inside, the second outside. -/
example : inPolygon nearEdge 1 bay ⟨300, 250⟩ = .ok true ∧ inPolygon nearEdge 1 bay ⟨505, 60⟩ = .ok false := by
  have hx : ∃ u ∈ bay, ∃ w ∈ bay, u.x < w.x := by decide +kernel
  have hy : ∃ u ∈ bay, ∃ w ∈ bay, u.y < w.y := by decide +kernel
  constructor
  · obtain ⟨b, evs, hb, g⟩ := meets_iff (n := 1) (v := ⟨0, 0⟩) (r := bay.tail) (p := ⟨300, 250⟩) (by decide +kernel)
    obtain ⟨ans, h1, h2, _⟩ := C193_in_polygon_partial 1 ⟨0, 0⟩ bay.tail ⟨300, 250⟩ b evs hx hy hb g
    rw [show ans = true from h2 (by decide +kernel)] at h1
    exact h1
  · obtain ⟨b, evs, hb, g⟩ := meets_iff (n := 1) (v := ⟨0, 0⟩) (r := bay.tail) (p := ⟨505, 60⟩) (by decide +kernel)
    obtain ⟨ans, h1, _, _, h3⟩ := C193_in_polygon_partial 1 ⟨0, 0⟩ bay.tail ⟨505, 60⟩ b evs hx hy hb g
    cases ans with
    | false => exact h1
    | true =>
        exfalso
        rcases h3 rfl with h | ⟨e, he, h⟩
        · exact absurd h (by decide +kernel)
        · have : ∀ e ∈ edges bay, nearQ e.1 e.2 ⟨505, 60⟩ = false ∧ nearQ e.2 e.1 ⟨505, 60⟩ = false := by decide +kernel
          obtain ⟨a1, a2⟩ := this e he
          rcases h with h | h
          · rw [near_nearQ h] at a1; cases a1
          · rw [near_nearQ h] at a2; cases a2

/-- Non-vacuity of `C193_attempt_ends`: the bay has no corner on a line of its grid, and the grid is made. -/
example : (bay.all fun v => (((v.x - (boundingBox ⟨0, 0⟩ bay.tail).lo.x) / (boundingBox ⟨0, 0⟩ bay.tail).dx).den != 1) &&
    (((v.y - (boundingBox ⟨0, 0⟩ bay.tail).lo.y) / (boundingBox ⟨0, 0⟩ bay.tail).dy).den != 1)) = true := by
  decide +kernel

/-- A house with the eaves on a line of the grid. -/
def house : List Pt := [⟨0, 0⟩, ⟨0, 199994 / 1000⟩, ⟨500, 1000⟩, ⟨1000, 199994 / 1000⟩, ⟨1000, 0⟩]

/-- **C193 is false of the code** for corners on a line of the grid: a point well inside a convex polygon is found outside. -/
theorem C193_on_line_violated : inside house ⟨501, 300⟩ = true ∧ inPolygon nearEdge 1 house ⟨501, 300⟩ = .ok false :=
  ⟨by decide +kernel, inPolygon_mono (by decide +kernel)⟩

/-- **C193 is false of the code** on the upper edge of the box: the question ends with `std::out_of_range`. -/
theorem C193_upper_edge_violated : inPolygon nearEdge 1 house ⟨501, 100001 / 100⟩ = .throws := by
  have h : build (edges house) 1 (boundingBox ⟨0, 0⟩ house.tail) = .ok (boundingBox ⟨0, 0⟩ house.tail, match allEvents (boundingBox ⟨0, 0⟩ house.tail) (edges house) with | .ok e => e | _ => []) := by
    decide +kernel
  show (if inBox (boundingBox ⟨0, 0⟩ house.tail) _ = true then (build (edges house) 1 (boundingBox ⟨0, 0⟩ house.tail)).bind _ else _) = _
  rw [if_pos (by decide +kernel), h]
  simp only [Res.bind]
  unfold gridTest
  rw [show cellIndex ((⟨501, 100001 / 100⟩ : Pt).y) (boundingBox ⟨0, 0⟩ house.tail).lo.y (boundingBox ⟨0, 0⟩ house.tail).dy = .ok 5 by decide +kernel,
    show cellIndex ((⟨501, 100001 / 100⟩ : Pt).x) (boundingBox ⟨0, 0⟩ house.tail).lo.x (boundingBox ⟨0, 0⟩ house.tail).dx = .ok 2 by decide +kernel]
  rfl

/-- A hexagon; no corner and not the point of the next theorem is on a line of the grid. -/
def hexagon : List Pt := [⟨385, 389⟩, ⟨886, 1⟩, ⟨479, 532⟩, ⟨425, 444⟩, ⟨51, 811⟩, ⟨357, 18⟩]

/-- **C193 is false of the code** for a corner on the way from the corner of the cell to the point, also in general position otherwise: a point inside is found
outside. -/
theorem C193_on_way_violated : inside hexagon ⟨38500167 / 100000, 22650081 / 50000⟩ = true ∧
    inPolygon nearEdge 1 hexagon ⟨38500167 / 100000, 22650081 / 50000⟩ = .ok false :=
  ⟨by decide +kernel, inPolygon_mono (by decide +kernel)⟩

/-- **C193 is false of the code** for a polygon without extent in one direction: asking for a point of it is undefined. -/
theorem C193_flat_violated : inPolygon nearEdge 1 [⟨0, 0⟩, ⟨0, 1000⟩] ⟨0, 500⟩ = .ub := by
  have h : build (edges [⟨0, 0⟩, ⟨0, 1000⟩]) 1 (boundingBox ⟨0, 0⟩ [⟨0, 1000⟩]) = .ub := by decide +kernel
  show (if inBox (boundingBox ⟨0, 0⟩ [⟨0, 1000⟩]) _ = true then (build (edges [⟨0, 0⟩, ⟨0, 1000⟩]) 1 (boundingBox ⟨0, 0⟩ [⟨0, 1000⟩])).bind _ else _) = _
  rw [if_pos (by decide +kernel), h]
  rfl

/-- An edge shorter than the epsilon is refused whatever the grid. -/
theorem edge_refused {b : Box} {va vb : Pt} (hx : va.x = vb.x) (hy : va.y < vb.y) (hc : vb.y - va.y < tol) (dx : 0 < b.dx) (dy : 0 < b.dy)
    (x0 : b.lo.x ≤ va.x) (x1 : va.x < b.hi.x) (y0 : b.lo.y ≤ va.y) (y1 : va.y < b.hi.y) : edgeEvents b (va, vb) = .corner := by
  have g5 : b.gx 5 = b.hi.x := by simp [Box.gx]
  have h5 : b.gy 5 = b.hi.y := by simp [Box.gy]
  have hne : va ≠ vb := by rintro rfl; exact lt_irrefl _ hy
  obtain ⟨a1, a2⟩ := floor_cell (v := va.x) (lo := b.lo.x) dx
  obtain ⟨c1, c2⟩ := floor_cell (v := va.y) (lo := b.lo.y) dy
  unfold edgeEvents
  simp only [ordered, if_pos hy, if_neg hne]
  rw [cellIndex_ok dx x0, cellIndex_ok dy y0]
  have i0 : 0 ≤ ⌊(va.x - b.lo.x) / b.dx⌋ := Int.floor_nonneg.2 (div_nonneg (by linarith) dx.le)
  have j0 : 0 ≤ ⌊(va.y - b.lo.y) / b.dy⌋ := Int.floor_nonneg.2 (div_nonneg (by linarith) dy.le)
  generalize ⌊(va.x - b.lo.x) / b.dx⌋ = i at *
  generalize ⌊(va.y - b.lo.y) / b.dy⌋ = j at *
  have i4 : i < 5 := (gx_lt dx).1 (show b.gx i < b.gx 5 by rw [g5, gx_eq]; linarith)
  have j4 : j < 5 := (gy_lt dy).1 (show b.gy j < b.gy 5 by rw [h5, gy_eq]; linarith)
  simp only [Res.bind]
  rw [show cellOf i j = .ok (j * 5 + i) from if_pos ⟨by omega, by omega⟩]
  simp only
  rw [walk]
  have hd : 0 < vb.y - va.y := by linarith
  have hτ : (b.dy * (j + 1) + b.lo.y - va.y) * (1 / (vb.y - va.y)) * (vb.y - va.y) = b.gy (j + 1) - va.y := by
    rw [gy_eq]; push_cast; field_simp; ring
  have hτ0 : 0 ≤ (b.dy * (j + 1) + b.lo.y - va.y) * (1 / (vb.y - va.y)) := by
    have : 0 ≤ b.dy * (j + 1) + b.lo.y - va.y := by linarith
    positivity
  have hfirst : xFirst (start b va vb i j).tx (start b va vb i j).ty = false := by
    simp only [start, if_pos hx, if_neg hy.ne, xFirst]
  rw [hfirst]
  simp only [start, if_neg hy.ne, Bool.false_eq_true, if_false]
  generalize (b.dy * (j + 1) + b.lo.y - va.y) * (1 / (vb.y - va.y)) = τ at *
  have hnx : ∀ y, (nearly va.x (y * (vb.x - va.x) + va.x)) = true := by
    intro y; rw [nearly_iff, hx]; simp [tol]
  by_cases ht : 0 + τ < 1
  · rw [if_pos ht, show line b.gy (j + 1) = .ok (b.gy (j + 1)) from if_pos ⟨by omega, by omega⟩]
    simp only [Res.bind]
    rw [if_pos]
    simp only [Piece.refused, Bool.and_eq_true]
    refine ⟨?_, hnx _⟩
    rw [nearly_iff, abs_sub_comm, ← hτ, abs_of_nonneg (by positivity)]
    nlinarith
  · rw [if_neg ht, if_pos]
    simp only [Piece.refused, Bool.and_eq_true]
    refine ⟨?_, ?_⟩
    · rw [nearly_iff, abs_sub_comm, abs_of_nonneg hd.le]; exact hc
    · rw [nearly_iff, hx]; simp [tol]

/-- **C193 is false of the code** for two corners closer than the epsilon: whatever the number of attempts, the grid is not made.  (For every polygon whose last corner is
less than a nanometre west of the first and that has an extent in both directions.) -/
theorem C193_close_corners_violated (n : ℕ) (v u : Pt) (r : List Pt) (p : Pt) (hx : u.x = v.x) (hy : u.y < v.y) (hc : v.y - u.y < 1 / 10 ^ 9)
    (hext : ∃ z ∈ v :: r, z.x ≠ v.x) (hp : inBox (boundingBox v (r ++ [u])) p = true) :
    inPolygon nearEdge n (v :: (r ++ [u])) p = .long := by
  obtain ⟨z, hz, hzx⟩ := hext
  have mv : v ∈ v :: (r ++ [u]) := by simp
  have mu : u ∈ v :: (r ++ [u]) := by simp
  have mz : z ∈ v :: (r ++ [u]) := by
    rcases List.mem_cons.1 hz with h | h
    · rw [h]; simp
    · simp [h]
  have dx : 0 < (boundingBox v (r ++ [u])).dx := by
    rcases lt_or_gt_of_ne hzx with h | h
    · exact (boundingBox_extent mz mv).1 h
    · exact (boundingBox_extent mv mz).1 h
  have dy : 0 < (boundingBox v (r ++ [u])).dy := (boundingBox_extent mu mv).2 hy
  obtain ⟨_, k1, k2⟩ := boundingBox_mem u mu
  have hedges : ∃ es, edges (v :: (r ++ [u])) = (u, v) :: es := by
    refine ⟨pairs v (r ++ [u]), ?_⟩
    rw [edges, pairs]
    congr 2
    rw [List.getLast_cons (by simp)]
    simp
  obtain ⟨es, hes⟩ := hedges
  have key : ∀ (n : ℕ) (b : Box), 0 < b.dx → 0 < b.dy → b.lo.x < u.x → u.x < b.hi.x → b.lo.y < u.y → u.y < b.hi.y → build ((u, v) :: es) n b = .long := by
    intro n
    induction n with
    | zero => intros; rfl
    | succ n ih =>
        intro b d1 d2 h1 h2 h3 h4
        have e1 := edge_refused (b := b) hx hy hc d1 d2 h1.le h2 h3.le h4
        rw [build, allEvents, e1]
        simp only [Res.bind]
        unfold Box.dx at d1
        unfold Box.dy at d2
        apply ih
        · simp only [Box.dx, stretch]; linarith
        · simp only [Box.dy, stretch]; linarith
        · simp only [stretch]; linarith
        · exact h2
        · simp only [stretch]; linarith
        · exact h4
  unfold inPolygon
  simp only
  rw [if_pos hp, hes, key n _ dx dy (k1 dx).1 (k1 dx).2 (k2 dy).1 (k2 dy).2]
  rfl

/-- Non-vacuity of `C193_close_corners_violated`: the bay with a corner a tenth of a nanometre off. -/
example : inBox (boundingBox ⟨0, 0⟩ (bay.tail ++ [⟨0, -1 / 10 ^ 10⟩])) ⟨300, 250⟩ = true ∧ (0 : ℚ) - -1 / 10 ^ 10 < 1 / 10 ^ 9 ∧
    ∃ z ∈ (⟨0, 0⟩ : Pt) :: bay.tail, z.x ≠ 0 := by
  decide +kernel

end Verif.Grid
