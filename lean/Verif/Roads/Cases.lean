/-
Concrete maps: the hypotheses of the theorems are met, and what is not true.
-/
import Verif.Roads.Given
import Mathlib.Tactic.NormNum

namespace Verif.Roads

open Verif.Visibility (Edge Link)

/-- The points of a road in the order of the file. -/
def fileOrder : Order := ⟨fun _ l => l, fun _ _ => .inl rfl⟩

/-- The first of the waiting vertices with the least sum. -/
def firstLeast (f : Nat → Nat) : List Nat → Nat
  | [] => 0
  | [x] => x
  | x :: y :: l => let z := firstLeast f (y :: l); if f x ≤ f z then x else z

theorem firstLeast_spec (f : Nat → Nat) : ∀ l : List Nat, l ≠ [] →
    firstLeast f l ∈ l ∧ ∀ x ∈ l, f (firstLeast f l) ≤ f x
  | [], h => absurd rfl h
  | [x], _ => ⟨by simp [firstLeast], fun y hy => by rw [List.mem_singleton.mp hy]; exact Nat.le_refl _⟩
  | x :: y :: l, _ => by
    obtain ⟨h₁, h₂⟩ := firstLeast_spec f (y :: l) (by simp)
    rw [firstLeast]
    split
    · rename_i h
      refine ⟨by simp, fun z hz => ?_⟩
      rcases List.mem_cons.mp hz with rfl | hz
      · exact Nat.le_refl _
      · exact le_trans h (h₂ z hz)
    · rename_i h
      refine ⟨List.mem_cons_of_mem _ h₁, fun z hz => ?_⟩
      rcases List.mem_cons.mp hz with rfl | hz
      · omega
      · exact h₂ z hz

/-- A queue. -/
def queue : Chooser where
  pick := firstLeast
  mem f l h := (firstLeast_spec f l h).1
  least f l x hx := (firstLeast_spec f l (by rintro rfl; cases hx)).2 x hx

/-- The pieces over each point, in the order of the table. -/
def tableListing (T : Table) : Listing T where
  f x := (T.map (·.1)).filter fun k => match T.get k with
    | some p => decide (x ∈ p.nodes)
    | none => false
  ok x k := by
    rw [List.mem_filter]
    constructor
    · rintro ⟨-, h⟩
      cases e : T.get k with
      | none => rw [e] at h; cases h
      | some p => rw [e] at h; exact ⟨p, rfl, by simpa using h⟩
    · rintro ⟨p, hp, hx⟩
      refine ⟨?_, by rw [hp]; simpa using hx⟩
      unfold Table.get at hp
      cases e : T.find? fun e => e.1 = k with
      | none => rw [e] at hp; cases hp
      | some y =>
        have h₁ := List.mem_of_find?_eq_some e
        have h₂ := List.find?_some e
        exact List.mem_map.mpr ⟨y, h₁, by simpa using h₂⟩

/-- A road along the north axis, with a point every 100 m. -/
def north (i : Int) : Pt := ⟨100 * i, 0⟩

/-- Not in the code: five nodes in a row, for the examples. -/
def five : List NodeEl := [1, 2, 3, 4, 5].map fun i => ⟨i, some (north i)⟩

/-- One road. -/
def oneRoad : List Way := [⟨7, true, [1, 2, 3, 4, 5]⟩]

theorem oneRoad_whole : Whole oneRoad five where
  ids := by decide
  minus := by decide
  there := by decide
  placed := by simp [five]

theorem oneRoad_build : ∃ M, build fileOrder oneRoad five = .ok M ∧
    M.table.map (fun e => (e.1, e.2.nodes)) = [((1, 5), [1, 2, 3, 4, 5]), ((5, 1), [5, 4, 3, 2, 1])] ∧
    M.pts = load (flags oneRoad fun _ => none) five := ⟨_, rfl, rfl, rfl⟩

/-- A point of the map is found at its own place. -/
theorem closest_at {pts : List (Id × Pt)} {i : Id} {q : Pt} (hi : (i, q) ∈ pts)
    (hne : ∀ x ∈ pts, dist q x.2 = 0 → x.1 = i) : closest pts q = some (i, 0) := by
  cases h : closest pts q with
  | none =>
    have := C156_none h (i, q) hi
    norm_num at this
  | some a =>
    obtain ⟨j, d⟩ := a
    obtain ⟨⟨p, hp, rfl⟩, hd⟩ := C156_found h
    have h0 : dist q p = 0 := by
      by_contra hn
      have h0 : 0 < dist q p := lt_of_le_of_ne (dist_nonneg _ _) (Ne.symm hn)
      have := hd (i, q) hi (by rw [dist_self]; exact h0)
      rw [dist_self] at this
      norm_num at this
    have hj : j = i := hne (j, p) hp h0
    rw [hj, h0]

theorem dist_north (p q : ℝ) : dist ⟨p, 0⟩ ⟨q, 0⟩ = |p - q| := by
  unfold dist
  rw [show ((⟨p, 0⟩ : Pt).e - (⟨q, 0⟩ : Pt).e) * ((⟨p, 0⟩ : Pt).e - (⟨q, 0⟩ : Pt).e) = 0 by norm_num, add_zero]
  exact Real.sqrt_mul_self_eq_abs _

theorem closest_north {l : List Int} (i : Int) (hi : i ∈ l) :
    closest (l.map fun j => (j, north j)) (north i) = some (i, 0) := by
  refine closest_at (List.mem_map.mpr ⟨i, hi, rfl⟩) fun x hx h => ?_
  obtain ⟨j, -, rfl⟩ := List.mem_map.mp hx
  unfold north at h
  rw [dist_north, abs_eq_zero, ← mul_sub] at h
  have : ((i : ℝ) - j) = 0 := by linarith
  have : (i : ℝ) = j := by linarith
  exact (Int.cast_inj.mp this).symm

/-- A line for a place near the fourth point to one near the third begins at the third point
and goes over the fourth to the end of the road. -/
theorem C160_back_violated : ∃ M, build fileOrder oneRoad five = .ok M ∧
    roadPoints M queue (tableListing M.table) (allPts M five) [⟨1, north 4, north 3⟩] =
      .ok (some [⟨1, [north 3, north 4, north 5]⟩]) := by
  refine ⟨_, rfl, ?_⟩
  unfold roadPoints pointsAll points1
  have e : ∀ M, M.pts = load (flags oneRoad fun _ => none) five → allPts M five =
      [1, 2, 3, 4, 5].map fun j => (j, north j) := by
    intro M hM
    unfold allPts
    rw [hM]
    rfl
  have h₄ := closest_north (l := [1, 2, 3, 4, 5]) 4 (by simp)
  have h₃ := closest_north (l := [1, 2, 3, 4, 5]) 3 (by simp)
  rw [e _ rfl]
  dsimp only
  rw [h₄, h₃]
  rfl

/-- Two roads between the points 1 and 2; the first, longer one goes over the point 3. -/
def twoRoads : List Way := [⟨7, true, [1, 3, 2]⟩, ⟨8, true, [1, 2]⟩]

/-- Not in the code: three nodes, for the examples. -/
def three : List NodeEl := [⟨1, some ⟨0, 0⟩⟩, ⟨2, some ⟨100, 0⟩⟩, ⟨3, some ⟨50, 1000⟩⟩]

theorem twoRoads_whole : Whole twoRoads three where
  ids := by decide
  minus := by decide
  there := by decide
  placed := by simp [three]

theorem twoRoads_build : ∃ M, build fileOrder twoRoads three = .ok M ∧
    M.table.map (fun e => (e.1, e.2.nodes)) = [((1, 2), [1, 3, 2]), ((2, 1), [2, 3, 1])] ∧
    M.pts = load (flags twoRoads fun _ => none) three ∧ M.size = 3 ∧
    M.edges = [⟨1, 2, ⌊dist ⟨100, 0⟩ ⟨50, 1000⟩ + (0 + dist ⟨50, 1000⟩ ⟨0, 0⟩)⌋₊⟩,
      ⟨1, 2, ⌊dist ⟨100, 0⟩ ⟨0, 0⟩ + 0⌋₊⟩] := ⟨_, rfl, rfl, rfl, rfl, rfl⟩

theorem astar_two (L k : Nat) (h : Nat → Nat) (hL : L < inf) (hk : k < L) :
    astar [⟨1, 2, L⟩, ⟨1, 2, k⟩] queue h 3 1 2 =
      .found ⟨upd (upd (begin₀ 1).d 2 L) 2 k, upd (upd (begin₀ 1).p 2 1) 2 1, [2]⟩ := by
  unfold astar
  obtain ⟨N, hN⟩ : ∃ N, 3 * inf * (3 + 1) + 2 = N + 1 + 1 := ⟨3 * inf * (3 + 1), rfl⟩
  rw [hN]
  simp [loop, begin₀, queue, firstLeast, expand, beside, relax, upd, hL, hk]


theorem floor_eq {x : ℝ} {n : Nat} (h₁ : (n : ℝ) ≤ x) (h₂ : x < n + 1) : ⌊x⌋₊ = n :=
  (Nat.floor_eq_iff (le_trans (Nat.cast_nonneg n) h₁)).mpr ⟨h₁, h₂⟩

theorem dist_between {a b c d : ℝ} {m k : ℝ} (hm : 0 ≤ m) (hk : 0 ≤ k)
    (h₁ : m * m ≤ (a - c) * (a - c) + (b - d) * (b - d))
    (h₂ : (a - c) * (a - c) + (b - d) * (b - d) ≤ k * k) :
    m ≤ dist ⟨a, b⟩ ⟨c, d⟩ ∧ dist ⟨a, b⟩ ⟨c, d⟩ ≤ k := by
  unfold dist
  dsimp only
  refine ⟨Real.le_sqrt_of_sq_le (by rw [sq]; exact h₁), ?_⟩
  rw [← Real.sqrt_mul_self hk]
  exact Real.sqrt_le_sqrt h₂

/-- The cost of a plan is that of the shorter road, the waypoints follow the longer one, which
is the only one kept: 100 m at 10 m/s, but the waypoints are more than 2 km. -/
theorem C158_cost_violated : ∃ M, build fileOrder twoRoads three = .ok M ∧ ∃ wps : List Wp,
    answer (some M) queue (fun _ => some 10) ⟨1, 2, 3, 4, false, [⟨5, ⟨0, 0⟩, ⟨100, 0⟩⟩]⟩ =
      .ok (some ⟨1, 2, 3, 4, [⟨5, 10000, wps⟩]⟩) ∧
    wps.map (·.at_) = [⟨0, 0⟩, ⟨0, 0⟩, ⟨50, 1000⟩, ⟨100, 0⟩, ⟨100, 0⟩, ⟨100, 0⟩] := by
  obtain ⟨M, hM, hT, hP, hS, hE⟩ := twoRoads_build
  refine ⟨M, hM, ?_⟩
  have pl : planPts M = [(1, ⟨0, 0⟩), (2, ⟨100, 0⟩)] := by
    unfold planPts
    rw [hP]
    rfl
  have c₁ : closest (planPts M) ⟨0, 0⟩ = some (1, 0) := by
    rw [pl]
    refine closest_at (by simp) fun x hx h => ?_
    simp only [List.mem_cons, List.not_mem_nil, or_false] at hx
    rcases hx with rfl | rfl
    · rfl
    · rw [dist_north] at h; norm_num at h
  have c₂ : closest (planPts M) ⟨100, 0⟩ = some (2, 0) := by
    rw [pl]
    refine closest_at (by simp) fun x hx h => ?_
    simp only [List.mem_cons, List.not_mem_nil, or_false] at hx
    rcases hx with rfl | rfl
    · rw [dist_north] at h; norm_num at h
    · rfl
  have hs : shortest M queue 1 2 = .ok (some (100, [1, 2])) := by
    unfold shortest
    have e₁ : M.pts.ix 1 = some 1 := by rw [hP]; rfl
    have e₂ : M.pts.ix 2 = some 2 := by rw [hP]; rfl
    have e₃ : M.pts.pos 2 = some ⟨100, 0⟩ := by rw [hP]; rfl
    have hk : ⌊dist ⟨100, 0⟩ ⟨0, 0⟩ + 0⌋₊ = 100 := by
      rw [dist_north]
      refine floor_eq ?_ ?_ <;> norm_num
    obtain ⟨l₁, l₂⟩ := dist_between (a := 100) (b := 0) (c := 50) (d := 1000) (m := 1000) (k := 2000)
      (by norm_num) (by norm_num) (by norm_num) (by norm_num)
    obtain ⟨l₃, l₄⟩ := dist_between (a := 50) (b := 1000) (c := 0) (d := 0) (m := 1000) (k := 2000)
      (by norm_num) (by norm_num) (by norm_num) (by norm_num)
    have hL₁ : ⌊dist ⟨100, 0⟩ ⟨50, 1000⟩ + (0 + dist ⟨50, 1000⟩ ⟨0, 0⟩)⌋₊ < inf :=
      (Nat.floor_lt (by linarith)).mpr (by unfold inf; norm_num; linarith)
    have hL₂ : 100 < ⌊dist ⟨100, 0⟩ ⟨50, 1000⟩ + (0 + dist ⟨50, 1000⟩ ⟨0, 0⟩)⌋₊ :=
      Nat.le_floor (by push_cast; linarith)
    rw [e₁, e₂, e₃, hE, hk, hS]
    dsimp only
    rw [if_pos ⟨by decide, by decide⟩, astar_two _ 100 _ hL₁ hL₂]
    dsimp only
    rw [hP]
    rfl
  have tab : ∃ p, M.table.get (1, 2) = some p ∧ p.nodes = [1, 3, 2] := by
    rcases hT' : M.table with _ | ⟨⟨k, p⟩, T⟩
    · rw [hT'] at hT; cases hT
    · rw [hT'] at hT
      simp only [List.map_cons, List.cons.injEq, Prod.mk.injEq] at hT
      refine ⟨p, ?_, hT.1.2⟩
      unfold Table.get
      rw [List.find?_cons_of_pos (by simp [hT.1.1])]
      rfl
  obtain ⟨p, hp, hn⟩ := tab
  refine ⟨waypoints 10 M [1, 2] ⟨0, 0⟩ ⟨100, 0⟩, ?_, ?_⟩
  · unfold answer
    dsimp only
    have sp : speedOf 10 = 10 := by unfold speedOf; rw [if_neg (by norm_num)]
    unfold plans plan1
    dsimp only
    rw [c₁, c₂, sp]
    dsimp only
    rw [hs]
    unfold plans
    simp only [Outcome.bind]
    norm_num
  · have e₃ : M.pts.pos 2 = some ⟨100, 0⟩ := by rw [hP]; rfl
    unfold waypoints
    rw [follow, hp]
    dsimp only
    rw [hn, follow, e₃, hP]
    rfl

/-- Three points: the second is 1.5 m from the first by a road; it can also be reached over
the third, by two roads of less than a metre each. -/
def short : List Way := [⟨7, true, [1, 2]⟩, ⟨8, true, [1, 3]⟩, ⟨9, true, [3, 2]⟩]

/-- Not in the code: nodes close together, for the examples. -/
noncomputable def shortEls : List NodeEl := [⟨1, some ⟨0, 0⟩⟩, ⟨2, some ⟨1.5, 0⟩⟩, ⟨3, some ⟨0.7, 0.5⟩⟩]

theorem short_whole : Whole short shortEls where
  ids := by decide
  minus := by decide
  there := by simp [onRoads, short, shortEls]
  placed := by simp [shortEls]

theorem astar_short (h : Nat → Nat) (h₂ : h 2 = 0) (h₃ : h 3 = 0) :
    astar [⟨1, 2, 1⟩, ⟨1, 3, 0⟩, ⟨3, 2, 0⟩] queue h 4 1 2 =
      .found ⟨upd (upd (upd (begin₀ 1).d 2 1) 3 0) 2 0, upd (upd (upd (begin₀ 1).p 2 1) 3 1) 2 3, [2]⟩ := by
  unfold astar
  obtain ⟨N, hN⟩ : ∃ N, 4 * inf * (4 + 1) + 2 = N + 1 + 1 + 1 := ⟨4 * inf * (4 + 1) - 1, rfl⟩
  rw [hN]
  simp [loop, begin₀, queue, firstLeast, expand, beside, relax, upd, h₂, h₃, inf]

/-- Lengths are cut to whole metres: the route given is more than 1.7 m, and given as 0 m,
though there is a road of 1.5 m. -/
theorem C157_length_violated : ∃ M, build fileOrder short shortEls = .ok M ∧
    shortest M queue 1 2 = .ok (some (0, [1, 3, 2])) ∧
    roadLen (posOf M.pts.pos) [1, 2] = 1.5 ∧ 1.7 < roadLen (posOf M.pts.pos) [1, 3, 2] := by
  obtain ⟨M, hM, hP, hS, hE⟩ : ∃ M, build fileOrder short shortEls = .ok M ∧
      M.pts = load (flags short fun _ => none) shortEls ∧ M.size = 4 ∧
      M.edges = [⟨1, 2, ⌊dist ⟨1.5, 0⟩ ⟨0, 0⟩ + 0⌋₊⟩, ⟨1, 3, ⌊dist ⟨0.7, 0.5⟩ ⟨0, 0⟩ + 0⌋₊⟩,
        ⟨3, 2, ⌊dist ⟨1.5, 0⟩ ⟨0.7, 0.5⟩ + 0⌋₊⟩] := ⟨_, rfl, rfl, rfl, rfl⟩
  obtain ⟨a₁, a₂⟩ := dist_between (a := 0.7) (b := 0.5) (c := 0) (d := 0) (m := 0.85) (k := 0.9)
    (by norm_num) (by norm_num) (by norm_num) (by norm_num)
  obtain ⟨b₁, b₂⟩ := dist_between (a := 1.5) (b := 0) (c := 0.7) (d := 0.5) (m := 0.9) (k := 0.95)
    (by norm_num) (by norm_num) (by norm_num) (by norm_num)
  have p₁ : posOf M.pts.pos 1 = ⟨0, 0⟩ := by rw [hP]; rfl
  have p₂ : posOf M.pts.pos 2 = ⟨1.5, 0⟩ := by rw [hP]; rfl
  have p₃ : posOf M.pts.pos 3 = ⟨0.7, 0.5⟩ := by rw [hP]; rfl
  refine ⟨M, hM, ?_, ?_, ?_⟩
  · unfold shortest
    have e₁ : M.pts.ix 1 = some 1 := by rw [hP]; rfl
    have e₂ : M.pts.ix 2 = some 2 := by rw [hP]; rfl
    have e₃ : M.pts.pos 2 = some ⟨1.5, 0⟩ := by rw [hP]; rfl
    have k₁ : ⌊dist ⟨1.5, 0⟩ ⟨0, 0⟩ + 0⌋₊ = 1 := by
      rw [dist_north]
      refine floor_eq ?_ ?_ <;> norm_num [abs_of_pos]
    have k₂ : ⌊dist ⟨0.7, 0.5⟩ ⟨0, 0⟩ + 0⌋₊ = 0 := Nat.floor_eq_zero.mpr (by linarith)
    have k₃ : ⌊dist ⟨1.5, 0⟩ ⟨0.7, 0.5⟩ + 0⌋₊ = 0 := Nat.floor_eq_zero.mpr (by linarith)
    rw [e₁, e₂, e₃, hE, k₁, k₂, k₃, hS]
    dsimp only
    rw [if_pos ⟨by decide, by decide⟩, astar_short]
    · dsimp only
      rw [hP]
      rfl
    · have : (M.pts.ids 2).bind M.pts.pos = some ⟨1.5, 0⟩ := by rw [hP]; rfl
      unfold estimate
      rw [this]
      dsimp only
      rw [dist_self]
      simp
    · have : (M.pts.ids 3).bind M.pts.pos = some ⟨0.7, 0.5⟩ := by rw [hP]; rfl
      unfold estimate
      rw [this]
      dsimp only
      exact Nat.floor_eq_zero.mpr (by linarith)
  · simp only [roadLen]
    rw [p₁, p₂, dist_north]
    norm_num [abs_of_pos]
  · simp only [roadLen]
    rw [p₁, p₂, p₃, dist_comm ⟨0, 0⟩ ⟨0.7, 0.5⟩, dist_comm ⟨0.7, 0.5⟩ ⟨1.5, 0⟩]
    linarith

/-- Three roads one after the other; the last comes first in the file. -/
def row : List Way := [⟨7, true, [3, 4]⟩, ⟨8, true, [1, 2]⟩, ⟨9, true, [2, 3]⟩]

/-- Not in the code: four nodes in a row, for the examples. -/
def four : List NodeEl := [1, 2, 3, 4].map fun i => ⟨i, some (north i)⟩

theorem row_whole : Whole row four where
  ids := by decide
  minus := by decide
  there := by decide
  placed := by simp [four]

/-- Not in the code: the edges of a row, for the examples. -/
abbrev rowEdges : List Edge := [⟨3, 4, 100⟩, ⟨1, 2, 100⟩, ⟨2, 3, 100⟩]

theorem row_build : ∃ M, build fileOrder row four = .ok M ∧
    M.table.map (fun e => (e.1, e.2.nodes)) = [((3, 4), [3, 4]), ((4, 3), [4, 3]), ((1, 2), [1, 2]),
      ((2, 1), [2, 1]), ((2, 3), [2, 3]), ((3, 2), [3, 2])] ∧
    M.pts = load (flags row fun _ => none) four ∧ M.size = 5 ∧ M.edges = rowEdges := by
  refine ⟨_, rfl, rfl, rfl, rfl, ?_⟩
  have k : ∀ i j : Int, |(100 * i : ℝ) - 100 * j| = 100 → ⌊dist (north i) (north j) + 0⌋₊ = 100 := by
    intro i j h
    unfold north
    rw [dist_north, h]
    exact floor_eq (by norm_num) (by norm_num)
  show [Edge.mk 3 4 ⌊dist (north 4) (north 3) + 0⌋₊, ⟨1, 2, ⌊dist (north 2) (north 1) + 0⌋₊⟩,
    ⟨2, 3, ⌊dist (north 3) (north 2) + 0⌋₊⟩] = _
  rw [k 4 3 (by norm_num), k 2 1 (by norm_num), k 3 2 (by norm_num)]

/-- The searches in this map, with the estimates they use. -/
theorem astar_row (h : Nat → Nat) :
    (∃ t, astar rowEdges queue h 5 1 3 = .found t ∧ t.d 3 = 200 ∧ t.p 3 = 2 ∧ t.p 2 = 1 ∧ t.p 1 = 1) ∧
    (∃ t, astar rowEdges queue h 5 1 4 = .found t ∧ t.d 4 = 300 ∧ t.p 4 = 3 ∧ t.p 3 = 2 ∧ t.p 2 = 1 ∧
      t.p 1 = 1) ∧
    (h 1 = 200 → h 3 = 0 →
      ∃ t, astar rowEdges queue h 5 2 3 = .found t ∧ t.d 3 = 100 ∧ t.p 3 = 2 ∧ t.p 2 = 2) ∧
    (h 1 = 300 → h 3 = 100 → h 4 = 0 →
      ∃ t, astar rowEdges queue h 5 2 4 = .found t ∧ t.d 4 = 200 ∧ t.p 4 = 3 ∧ t.p 3 = 2 ∧ t.p 2 = 2) := by
  obtain ⟨N, hN⟩ : ∃ N, 5 * inf * (5 + 1) + 2 = N + 1 + 1 + 1 + 1 + 1 :=
    ⟨5 * inf * (5 + 1) - 3, rfl⟩
  unfold astar
  rw [hN]
  refine ⟨?_, ?_, fun h₁ h₃ => ?_, fun h₁ h₃ h₄ => ?_⟩
  · simp [loop, begin₀, queue, firstLeast, expand, beside, relax, upd, inf]
  · simp [loop, begin₀, queue, firstLeast, expand, beside, relax, upd, inf]
  · simp [loop, begin₀, queue, firstLeast, expand, beside, relax, upd, inf, h₁, h₃]
  · simp [loop, begin₀, queue, firstLeast, expand, beside, relax, upd, inf, h₁, h₃, h₄]

theorem trunc_nat (n : Nat) : trunc (n : ℝ) = n := by
  unfold trunc
  rw [if_pos (Nat.cast_nonneg n)]
  simp

/-- The line to the crossing at the third point goes on to the fourth. -/
theorem C160_end_violated : ∃ M, build fileOrder row four = .ok M ∧
    roadPoints M queue (tableListing M.table) (allPts M four) [⟨1, north 1, north 3⟩] =
      .ok (some [⟨1, [1, 1, 2, 2, 3, 3, 4].map north⟩]) := by
  obtain ⟨M, hM, hT, hP, hS, hE⟩ := row_build
  refine ⟨M, hM, ?_⟩
  have e : allPts M four = [1, 2, 3, 4].map fun j => (j, north j) := by
    unfold allPts
    rw [hP]
    rfl
  have hpos : ∀ i : Int, i ∈ [1, 2, 3, 4] → M.pts.pos i = some (north i) := by
    intro i hi
    rw [hP]
    simp only [List.mem_cons, List.not_mem_nil, or_false] at hi
    rcases hi with rfl | rfl | rfl | rfl <;> rfl
  have hix : M.pts.ix 1 = some 1 ∧ M.pts.ix 2 = some 2 ∧ M.pts.ix 3 = some 3 ∧ M.pts.ix 4 = some 4 := by
    rw [hP]; exact ⟨rfl, rfl, rfl, rfl⟩
  have hids : M.pts.ids 1 = some 1 ∧ M.pts.ids 2 = some 2 ∧ M.pts.ids 3 = some 3 ∧
      M.pts.ids 4 = some 4 := by
    rw [hP]; exact ⟨rfl, rfl, rfl, rfl⟩
  have est : ∀ (g : Int) (i : Int) (v n : Nat), M.pts.ids v = some i → i ∈ [1, 2, 3, 4] →
      |(100 * g : ℝ) - 100 * i| = n → estimate M.pts (north g) v = n := by
    intro g i v n hv hi hd
    unfold estimate
    rw [hv]
    dsimp only [Option.bind]
    rw [hpos i hi]
    dsimp only
    unfold north
    rw [dist_north, hd, Nat.floor_natCast]
  have s₁₃ : shortest M queue 1 3 = .ok (some (200, [1, 2, 3])) := by
    obtain ⟨t, h₁, h₂, h₃, h₄, h₅⟩ := (astar_row (estimate M.pts (north 3))).1
    unfold shortest
    rw [hix.1, hix.2.2.1, hpos 3 (by simp), hE, hS]
    dsimp only
    rw [if_pos ⟨by decide, by decide⟩, h₁]
    dsimp only
    simp [trace, h₂, h₃, h₄, h₅, hids]
  have s₁₄ : shortest M queue 1 4 = .ok (some (300, [1, 2, 3, 4])) := by
    obtain ⟨t, h₁, h₂, h₃, h₄, h₅, h₆⟩ := (astar_row (estimate M.pts (north 4))).2.1
    unfold shortest
    rw [hix.1, hix.2.2.2, hpos 4 (by simp), hE, hS]
    dsimp only
    rw [if_pos ⟨by decide, by decide⟩, h₁]
    dsimp only
    simp [trace, h₂, h₃, h₄, h₅, h₆, hids]
  have s₂₃ : shortest M queue 2 3 = .ok (some (100, [2, 3])) := by
    obtain ⟨t, h₁, h₂, h₃, h₄⟩ := (astar_row (estimate M.pts (north 3))).2.2.1
      (est 3 1 1 200 hids.1 (by simp) (by norm_num)) (est 3 3 3 0 hids.2.2.1 (by simp) (by norm_num))
    unfold shortest
    rw [hix.2.1, hix.2.2.1, hpos 3 (by simp), hE, hS]
    dsimp only
    rw [if_pos ⟨by decide, by decide⟩, h₁]
    dsimp only
    simp [trace, h₂, h₃, h₄, hids]
  have s₂₄ : shortest M queue 2 4 = .ok (some (200, [2, 3, 4])) := by
    obtain ⟨t, h₁, h₂, h₃, h₄, h₅⟩ := (astar_row (estimate M.pts (north 4))).2.2.2
      (est 4 1 1 300 hids.1 (by simp) (by norm_num)) (est 4 3 3 100 hids.2.2.1 (by simp) (by norm_num))
      (est 4 4 4 0 hids.2.2.2 (by simp) (by norm_num))
    unfold shortest
    rw [hix.2.1, hix.2.2.2, hpos 4 (by simp), hE, hS]
    dsimp only
    rw [if_pos ⟨by decide, by decide⟩, h₁]
    dsimp only
    simp [trace, h₂, h₃, h₄, h₅, hids]
  have far : ∀ (i j a b : Int) (n : Nat), |(100 * i : ℝ) - 100 * j| + |(100 * a : ℝ) - 100 * b| = n →
      trunc (dist (north i) (north j) + dist (north a) (north b)) = n := by
    intro i j a b n h
    unfold north
    rw [dist_north, dist_north, h, trunc_nat]
  have hbest : bestOf M queue (north 1) (north 3) (1, 2) (3, 4) = .ok (some (200, [1, 2, 3])) := by
    unfold bestOf between cheaper
    rw [if_pos (by decide), if_pos (by decide), if_pos (by decide), if_pos (by decide), s₁₃, s₁₄, s₂₃,
      s₂₄, hpos 1 (by simp), hpos 2 (by simp), hpos 3 (by simp), hpos 4 (by simp)]
    simp only [Outcome.bind]
    rw [far 1 1 3 3 0 (by norm_num), far 1 1 3 4 100 (by norm_num), far 1 2 3 3 100 (by norm_num),
      far 1 2 3 4 200 (by norm_num)]
    rfl
  -- the table
  have hget : ∀ k, (M.table.get k).map (·.nodes) =
      (([((3, 4), [3, 4]), ((4, 3), [4, 3]), ((1, 2), [1, 2]), ((2, 1), [2, 1]), ((2, 3), [2, 3]),
        ((3, 2), [3, 2])] : List ((Id × Id) × List Id)).find? fun e => e.1 = k).map (·.2) := by
    intro k
    rw [← hT, List.find?_map]
    unfold Table.get
    rw [Option.map_map, Option.map_map]
    rfl
  have hon : ∀ k x y f l, (([((3, 4), [3, 4]), ((4, 3), [4, 3]), ((1, 2), [1, 2]), ((2, 1), [2, 1]),
      ((2, 3), [2, 3]), ((3, 2), [3, 2])] : List ((Id × Id) × List Id)).find? fun e => e.1 = k).map (·.2) =
        some l → onSegment M.table k x y f = along f x y l := by
    intro k x y f l hl
    rw [← hget] at hl
    unfold onSegment
    cases hk : M.table.get k with
    | none => rw [hk] at hl; cases hl
    | some p => rw [hk] at hl; cases hl; rfl
  have hf : ∀ x, (tableListing M.table).f x = ([(3, 4), (4, 3), (1, 2), (2, 1), (2, 3), (3, 2)] :
      List (Id × Id)).filter fun k => match (([((3, 4), [3, 4]), ((4, 3), [4, 3]), ((1, 2), [1, 2]),
        ((2, 1), [2, 1]), ((2, 3), [2, 3]), ((3, 2), [3, 2])] : List ((Id × Id) × List Id)).find?
          fun e => e.1 = k).map (·.2) with
      | some l => decide (x ∈ l)
      | none => false := by
    intro x
    have e₁ : M.table.map (·.1) = [(3, 4), (4, 3), (1, 2), (2, 1), (2, 3), (3, 2)] := by
      have := congrArg (List.map Prod.fst) hT
      rw [List.map_map] at this
      exact this
    unfold tableListing
    dsimp only
    rw [e₁]
    congr 1
    funext k
    rw [← hget]
    cases M.table.get k <;> rfl
  have hline : lineOver M queue (tableListing M.table) (north 1) (north 3) 1 3 =
      .ok (true, [1, 1, 2, 2, 3, 3, 4]) := by
    have f₁ : (tableListing M.table).f 1 = [(1, 2), (2, 1)] := by rw [hf]; decide
    have f₃ : (tableListing M.table).f 3 = [(3, 4), (4, 3), (2, 3), (3, 2)] := by rw [hf]; decide
    unfold lineOver
    rw [f₁, f₃]
    have : ([(1, 2), (2, 1)] : List (Id × Id)).find?
        (fun k => decide (k ∈ ([(3, 4), (4, 3), (2, 3), (3, 2)] : List (Id × Id)))) = none := by decide
    rw [this]
    dsimp only
    rw [hbest]
    simp only [Outcome.bind]
    unfold joined
    simp only [List.head?_cons, List.getLast?_cons_cons, List.getLast?_singleton, middle]
    rw [hon _ _ _ _ [2, 1] (by decide), hon _ _ _ _ [1, 2] (by decide),
      hon _ _ _ _ [2, 3] (by decide), hon _ _ _ _ [3, 4] (by decide)]
    decide
  unfold roadPoints pointsAll points1
  have h₁ := closest_north (l := [1, 2, 3, 4]) 1 (by simp)
  have h₃ := closest_north (l := [1, 2, 3, 4]) 3 (by simp)
  rw [e]
  dsimp only
  rw [h₁, h₃]
  dsimp only
  rw [if_pos rfl, hline]
  have all : (([1, 1, 2, 2, 3, 3, 4] : List Int).all fun z => (M.pts.pos z).isSome) = true := by
    simp [hpos]
  have p : ∀ i : Int, i ∈ [1, 2, 3, 4] → posOf M.pts.pos i = north i := fun i hi => posOf_some (hpos i hi)
  simp [Outcome.bind, pointsAll, hpos, p]

/-! ### Lengths, nearest points, single points, circles -/

/-- A road crossed by another one at its third point. -/
def crossed : List Way := [⟨7, true, [1, 2, 3, 4]⟩, ⟨8, true, [3, 5]⟩]

theorem crossed_whole : Whole crossed five where
  ids := by decide
  minus := by decide
  there := by decide
  placed := by simp [five]

/-- The piece from the third to the fourth point is 100 m long; in the graph it has 200 m,
for the length of the points between the first and the third is counted again. -/
theorem C155_length_violated : ∃ M, build fileOrder crossed five = .ok M ∧
    M.pts.ix 3 = some 2 ∧ M.pts.ix 4 = some 3 ∧
    (∀ k, Link M.edges 2 3 k → k = 200) ∧ roadLen (posOf M.pts.pos) [3, 4] = 100 := by
  obtain ⟨M, hM, hP, hE⟩ : ∃ M, build fileOrder crossed five = .ok M ∧
      M.pts = load (flags crossed fun _ => none) five ∧
      M.edges = [⟨1, 2, ⌊dist (north 3) (north 2) + (0 + dist (north 2) (north 1))⌋₊⟩,
        ⟨2, 3, ⌊dist (north 4) (north 3) + (0 + dist (north 2) (north 1))⌋₊⟩,
        ⟨2, 4, ⌊dist (north 5) (north 3) + 0⌋₊⟩] := ⟨_, rfl, rfl, rfl⟩
  refine ⟨M, hM, by rw [hP]; rfl, by rw [hP]; rfl, ?_, ?_⟩
  · rintro k ⟨g, hg, rfl, hor⟩
    rw [hE] at hg
    simp only [List.mem_cons, List.not_mem_nil, or_false] at hg
    rcases hg with rfl | rfl | rfl
    · dsimp only at hor; omega
    · unfold north
      rw [dist_north, dist_north]
      refine floor_eq ?_ ?_ <;> norm_num
    · dsimp only at hor; omega
  · have p₃ : posOf M.pts.pos 3 = north 3 := by rw [hP]; rfl
    have p₄ : posOf M.pts.pos 4 = north 4 := by rw [hP]; rfl
    simp only [roadLen]
    rw [p₃, p₄]
    unfold north
    rw [dist_north]
    norm_num

/-- Of two roads between the same crossings the second is not kept: no piece goes from the
point 1 straight to the point 2. -/
theorem C154_second_violated : ∃ M, build fileOrder twoRoads three = .ok M ∧
    ∀ k p, M.table.get k = some p → ¬ [1, 2] <:+: p.nodes ∧ ¬ [2, 1] <:+: p.nodes := by
  obtain ⟨M, hM, hT, -⟩ := twoRoads_build
  refine ⟨M, hM, fun k p hp => ?_⟩
  have : (k, p.nodes) ∈ M.table.map fun e => (e.1, e.2.nodes) := by
    unfold Table.get at hp
    cases e : M.table.find? fun e => e.1 = k with
    | none => rw [e] at hp; cases hp
    | some y =>
      rw [e] at hp
      cases hp
      have h₂ := List.find?_some e
      exact List.mem_map.mpr ⟨y, List.mem_of_find?_eq_some e, by
        simp only [decide_eq_true_eq] at h₂; rw [h₂]⟩
  rw [hT] at this
  simp only [List.mem_cons, Prod.mk.injEq, List.not_mem_nil, or_false] at this
  rcases this with ⟨-, e⟩ | ⟨-, e⟩ <;> rw [e] <;> decide

/-- The first point is found, 421 m away, though the second is 101 m away. -/
theorem C156_nearest_violated :
    ∃ d, closest [(1, ⟨-99, -99⟩), (2, ⟨300, 199⟩)] ⟨199, 199⟩ = some (1, d) ∧ 400 < d ∧
      dist ⟨199, 199⟩ ⟨300, 199⟩ < 102 := by
  have t₁ : trunc (199 / 100) = 1 := by
    unfold trunc
    rw [if_pos (by norm_num), Int.floor_eq_iff]
    norm_num
  have t₂ : trunc (300 / 100) = 3 := by
    unfold trunc
    rw [if_pos (by norm_num), Int.floor_eq_iff]
    norm_num
  have t₃ : trunc (-99 / 100) = 0 := by
    unfold trunc
    rw [if_neg (by norm_num), Int.ceil_eq_iff]
    norm_num
  have a₁ : apart (cellOf ⟨-99, -99⟩) (cellOf ⟨199, 199⟩) = 1 := by
    unfold cellOf
    dsimp only
    rw [t₁, t₃]
    rfl
  have a₂ : apart (cellOf ⟨300, 199⟩) (cellOf ⟨199, 199⟩) = 2 := by
    unfold cellOf
    dsimp only
    rw [t₁, t₂]
    rfl
  obtain ⟨d₁, -⟩ := dist_between (a := 199) (b := 199) (c := -99) (d := -99) (m := 401) (k := 500)
    (by norm_num) (by norm_num) (by norm_num) (by norm_num)
  obtain ⟨-, d₂⟩ := dist_between (a := 199) (b := 199) (c := 300) (d := 199) (m := 100) (k := 101)
    (by norm_num) (by norm_num) (by norm_num) (by norm_num)
  obtain ⟨R, h₁, h₂, h₃, h₄, h₅⟩ := closest_spec [(1, ⟨-99, -99⟩), (2, ⟨300, 199⟩)] ⟨199, 199⟩
  have hR : R = 1 := by
    by_contra hn
    refine hn (h₄ (by simp) (1, ⟨-99, -99⟩) (by simp) ?_)
    dsimp only
    omega
  subst hR
  cases e : closest [(1, ⟨-99, -99⟩), (2, ⟨300, 199⟩)] ⟨199, 199⟩ with
  | none =>
    have := h₅ e
    omega
  | some b =>
    rw [e] at h₃
    obtain ⟨⟨q, ⟨hq, ha⟩, hd⟩, -⟩ := h₃
    obtain ⟨i, d⟩ := b
    dsimp only at hq ha hd
    simp only [List.mem_cons, Prod.mk.injEq, List.not_mem_nil, or_false] at hq
    rcases hq with ⟨rfl, rfl⟩ | ⟨rfl, rfl⟩
    · exact ⟨d, rfl, by rw [hd]; linarith, by linarith⟩
    · omega

/-- A road with a single point. -/
def single : List Way := [⟨7, true, [1, 2]⟩, ⟨8, true, [3]⟩]

theorem single_whole : Whole single five where
  ids := by decide
  minus := by decide
  there := by decide
  placed := by simp [five]

/-- A request that begins at a road with a single point is undefined: the graph does not have
its vertex. -/
theorem C158_single_violated : ∃ M, build fileOrder single five = .ok M ∧
    answer (some M) queue (fun _ => some 10) ⟨1, 2, 3, 4, false, [⟨5, north 3, north 1⟩]⟩ = .ub := by
  obtain ⟨M, hM, hP, hS⟩ : ∃ M, build fileOrder single five = .ok M ∧
      M.pts = load (flags single fun _ => none) five ∧ M.size = 3 := ⟨_, rfl, rfl, rfl⟩
  refine ⟨M, hM, ?_⟩
  have pl : planPts M = [1, 2, 3].map fun j => (j, north j) := by
    unfold planPts
    rw [hP]
    rfl
  have c₃ := closest_north (l := [1, 2, 3]) 3 (by simp)
  have c₁ := closest_north (l := [1, 2, 3]) 1 (by simp)
  rw [← pl] at c₃ c₁
  have hs : shortest M queue 3 1 = .ub := by
    unfold shortest
    have e₁ : M.pts.ix 3 = some 3 := by rw [hP]; rfl
    have e₂ : M.pts.ix 1 = some 1 := by rw [hP]; rfl
    have e₃ : M.pts.pos 1 = some (north 1) := by rw [hP]; rfl
    rw [e₁, e₂, e₃, hS]
    dsimp only
    rw [if_neg (by omega)]
  unfold answer plans plan1
  dsimp only
  rw [c₃, c₁]
  dsimp only
  rw [hs]
  rfl

/-- A road of 10 km with a point in its middle. -/
def long : List Way := [⟨7, true, [1, 2, 3]⟩]

/-- Not in the code: nodes far apart, for the examples. -/
def longEls : List NodeEl := [⟨1, some ⟨-5000, 0⟩⟩, ⟨2, some ⟨0, 0⟩⟩, ⟨3, some ⟨5000, 0⟩⟩]

theorem trunc_int (n : Int) : trunc (n : ℝ) = n := by
  unfold trunc
  split <;> simp

/-- The road leaves the circle around its middle on two sides, and no place is given. -/
theorem C159_missed_violated : ∃ M, build fileOrder long longEls = .ok M ∧
    (∀ x ∈ [1, 3], ∃ p, M.pts.pos x = some p ∧ Beside long x 2 ∧ 1000 ≤ dist ⟨0, 0⟩ p) ∧
    (egressAnswer M (tableListing M.table) 1 ⟨0, 0⟩ 1000).places = [] := by
  obtain ⟨M, hM, hP⟩ : ∃ M, build fileOrder long longEls = .ok M ∧
      M.pts = load (flags long fun _ => none) longEls := ⟨_, rfl, rfl⟩
  refine ⟨M, hM, ?_, ?_⟩
  · intro x hx
    simp only [List.mem_cons, List.not_mem_nil, or_false] at hx
    rcases hx with rfl | rfl
    · refine ⟨⟨-5000, 0⟩, by rw [hP]; rfl, ⟨_, by simp [long]; rfl, rfl, .inl ⟨[], [3], rfl⟩⟩, ?_⟩
      rw [dist_north]; norm_num
    · refine ⟨⟨5000, 0⟩, by rw [hP]; rfl, ⟨_, by simp [long]; rfl, rfl, .inr ⟨[1], [], rfl⟩⟩, ?_⟩
      rw [dist_north]; norm_num [abs_of_pos]
  · have pl : planPts M = [(1, ⟨-5000, 0⟩), (3, ⟨5000, 0⟩)] := by
      unfold planPts
      rw [hP]
      rfl
    have t : ∀ n : Int, trunc (n : ℝ) = n := trunc_int
    have t₁ : trunc (0 - 1000) = -1000 := by have := t (-1000); push_cast at this; rw [zero_sub]; exact this
    have t₂ : trunc (0 + 1000) = 1000 := by have := t 1000; push_cast at this; rw [zero_add]; exact this
    have c₁ : cellOf ⟨-5000, 0⟩ = (-50, 0) := by
      unfold cellOf
      have := t (-50); have h0 := t 0
      push_cast at this h0
      dsimp only
      rw [show (-5000 / 100 : ℝ) = -50 by norm_num, show (0 / 100 : ℝ) = 0 by norm_num, this, h0]
    have c₂ : cellOf ⟨5000, 0⟩ = (50, 0) := by
      unfold cellOf
      have := t 50; have h0 := t 0
      push_cast at this h0
      dsimp only
      rw [show (5000 / 100 : ℝ) = 50 by norm_num, show (0 / 100 : ℝ) = 0 by norm_num, this, h0]
    have ha : around M ⟨0, 0⟩ 1000 = [] := by
      unfold around
      rw [pl]
      simp only [t₁, t₂]
      rw [List.map_eq_nil_iff, List.filter_eq_nil_iff]
      intro x hx
      simp only [List.mem_cons, List.not_mem_nil, or_false] at hx
      rcases hx with rfl | rfl
      · rw [c₁]; decide
      · rw [c₂]; decide
    unfold egressAnswer egress
    rw [ha]
    rfl

/-! ### The hypotheses are met -/

/-- The pieces of a road, `C154_piece` and `C154_all`. -/
example : ∃ M, build fileOrder oneRoad five = .ok M ∧ M.table.get (1, 5) ≠ none := by
  obtain ⟨M, hM, -⟩ := oneRoad_build
  refine ⟨M, hM, (C154_all oneRoad_whole.ids hM (w := ⟨7, true, [1, 2, 3, 4, 5]⟩) (by simp [oneRoad]) rfl
    (pre := []) (a := 1) (mid := [2, 3, 4]) (b := 5) (post := []) rfl
    (.inl ⟨_, by simp [oneRoad]; rfl, rfl, .inl rfl⟩) (.inl ⟨_, by simp [oneRoad]; rfl, rfl, .inr rfl⟩) ?_).1⟩
  intro x hx h
  rcases h with ⟨w, hw, -, h⟩ | h
  · have : w = ⟨7, true, [1, 2, 3, 4, 5]⟩ := by simpa [oneRoad] using hw
    subst this
    simp only [List.mem_cons, List.not_mem_nil, or_false] at hx
    rcases hx with rfl | rfl | rfl <;> simp at h
  · simp only [List.mem_cons, List.not_mem_nil, or_false] at hx
    rcases hx with rfl | rfl | rfl <;> revert h <;> decide

/-- A map can be made: `C154_made`, `C155_edges`, `C155_length_partial`. -/
example (o : Order) : ∃ M, build o crossed five = .ok M := C154_made crossed_whole

/-- A point is missing in the file: `C154_missing_violated`. -/
example (o : Order) : build o [⟨7, true, [1, 9]⟩] five = .ub :=
  C154_missing_violated (w := ⟨7, true, [1, 9]⟩) (x := 9) (by decide) (by simp) rfl (by simp) (by decide)

/-- A route is found between the first and the third point, and it is the shortest:
`C157_route`, `C157_short_partial`, `C157_shortest`. -/
example : ∃ M k l, build fileOrder short shortEls = .ok M ∧ shortest M queue 1 2 = .ok (some (k, l)) ∧
    ∀ x ∈ onRoads short, Planned short x := by
  obtain ⟨M, hM, hs, -⟩ := C157_length_violated
  refine ⟨M, _, _, hM, hs, fun x hx => ?_⟩
  have : x = 1 ∨ x = 2 ∨ x = 3 := by
    have h : x ∈ ([1, 2, 1, 3, 3, 2] : List Id) := hx
    simp only [List.mem_cons, List.not_mem_nil, or_false] at h
    tauto
  rcases this with rfl | rfl | rfl
  · exact .inl ⟨⟨7, true, [1, 2]⟩, by simp [short], rfl, .inl rfl⟩
  · exact .inl ⟨⟨7, true, [1, 2]⟩, by simp [short], rfl, .inr rfl⟩
  · exact .inl ⟨⟨8, true, [1, 3]⟩, by simp [short], rfl, .inr rfl⟩

/-- All of `C158` for a map with two roads: every request is answered, and there are plans with
waypoints. -/
example (c : Chooser) (o : Order) (r : PlanReq) : ∃ M, build o twoRoads three = .ok M ∧
    ∃ x, answer (some M) c (fun _ => some 10) r = .ok x := by
  obtain ⟨M, hM⟩ := C154_made (o := o) twoRoads_whole
  exact ⟨M, hM, C158_answered twoRoads_whole hM (by decide) r⟩

/-- A circle around the first point of a road, with the second point outside: it is found
(`C159_places`, `C159_found_partial`). -/
example : ∃ M, build fileOrder row four = .ok M ∧
    2 ∈ egress M (tableListing M.table) (north 1) 50 := by
  obtain ⟨M, hM, hT, hP, -⟩ := row_build
  refine ⟨M, hM, ?_⟩
  have hp : ∃ p, M.table.get (1, 2) = some p ∧ p.nodes = [1, 2] := by
    have : RoadPiece row [1, 2] 1 2 := by
      refine ⟨⟨⟨8, true, [1, 2]⟩, by simp [row], rfl, .inl ⟨[], [], rfl⟩⟩,
        .inl ⟨⟨8, true, [1, 2]⟩, by simp [row], rfl, .inl rfl⟩,
        .inl ⟨⟨8, true, [1, 2]⟩, by simp [row], rfl, .inr rfl⟩, [], rfl, by simp⟩
    obtain ⟨p, hp, -⟩ := table_piece row_whole hM this
    refine ⟨p, hp, ?_⟩
    have hm : ((1, 2), p.nodes) ∈ M.table.map fun e => (e.1, e.2.nodes) := by
      unfold Table.get at hp
      cases e : M.table.find? fun e => e.1 = (1, 2) with
      | none => rw [e] at hp; cases hp
      | some y =>
        rw [e] at hp
        cases hp
        have h₂ := List.find?_some e
        exact List.mem_map.mpr ⟨y, List.mem_of_find?_eq_some e, by
          simp only [decide_eq_true_eq] at h₂; rw [h₂]⟩
    rw [hT] at hm
    simpa using hm
  obtain ⟨p, hp, hn⟩ := hp
  refine C159_found_partial row_whole hM _ hp (c := 1) (.inl rfl) (pc := north 1) (by rw [hP]; rfl)
    (by norm_num) (by norm_num) (x := 2) (y := 1) (.inr ⟨[], [], by rw [hn]; rfl⟩) (px := north 2)
    (py := north 1) (by rw [hP]; rfl) (by rw [hP]; rfl) ?_ ?_
  · unfold north; rw [dist_north]; norm_num
  · rw [dist_self]; norm_num

/-- A line of two pieces: `C160_line`, `C160_order`, `C160_near` and `C160_ends_partial` are about
something. -/
example : ∃ M L, build fileOrder row four = .ok M ∧ L ≠ [] ∧ (∀ x ∈ onRoads row, 0 < x) ∧
    roadPoints M queue (tableListing M.table) (allPts M four) [⟨1, north 1, north 3⟩] = .ok (some L) := by
  obtain ⟨M, hM, h⟩ := C160_end_violated
  exact ⟨M, _, hM, by simp, by decide, h⟩

/-- A line of one piece: `C160_same_partial`. -/
example : ∃ M L, build fileOrder oneRoad five = .ok M ∧ L ≠ [] ∧ (∀ a, M.table.get (a, a) = none) ∧
    roadPoints M queue (tableListing M.table) (allPts M five) [⟨1, north 4, north 3⟩] = .ok (some L) := by
  obtain ⟨M, hM, h⟩ := C160_back_violated
  refine ⟨M, _, hM, by simp, fun a => ?_, h⟩
  cases hp : M.table.get (a, a) with
  | none => rfl
  | some p =>
    exfalso
    obtain ⟨w, hw, hh, -, hin, ⟨mid, e, -⟩, -⟩ := C154_piece oneRoad_whole.ids hM hp
    have : w = ⟨7, true, [1, 2, 3, 4, 5]⟩ := by simpa [oneRoad] using hw
    subst this
    have hn : p.nodes.Nodup := by
      rcases hin with k | k
      · exact k.sublist.nodup (by decide)
      · exact k.sublist.nodup (by decide)
    rw [e, List.nodup_cons] at hn
    exact hn.1 (by simp)

end Verif.Roads
