/-
Examples for the theorems of the visibility planner, and what is false of it.
-/
import Verif.Visibility.Props

namespace Verif.Visibility

/-! ### A geometry to compute with -/

/-- The integer square root. -/
def isqrt : Nat → Nat → Nat
  | 0, _ => 0
  | f + 1, n => let r := 2 * isqrt f (n / 4); if (r + 1) * (r + 1) ≤ n then r + 1 else r

/-- Lengths as the code computes them, and the inside of convex zones. -/
def euclid : Geo where
  len p q := isqrt 64 (((q.n - p.n) * (q.n - p.n) + (q.e - p.e) * (q.e - p.e)).floor.toNat)
  inside vs p := (sides vs).all (fun s => decide (0 < lineAt s.1 s.2 p)) ||
    (sides vs).all (fun s => decide (lineAt s.1 s.2 p < 0))

theorem euclid_symm (p q : Pt) : euclid.len p q = euclid.len q p := by
  show isqrt 64 _ = isqrt 64 _
  congr 3
  grind

theorem euclid_self (p : Pt) : euclid.len p p = 0 := by
  show isqrt 64 _ = 0
  rw [show (p.n - p.n) * (p.n - p.n) + (p.e - p.e) * (p.e - p.e) = 0 by grind]
  decide +kernel

/-- The tables of a region. -/
def tablesOf (zs : List (Bool × List Pt)) : Tables :=
  tables (build euclid zs).base (build euclid zs).pts.length

theorem tablesOf_shortest (zs : List (Bool × List Pt)) :
    Shortest (build euclid zs).base (build euclid zs).pts.length (tablesOf zs) :=
  tables_shortest fun _ h => base_bound euclid h

/-- A square zone to keep out of, 10 m wide. -/
def square : Bool × List Pt := (false, [⟨0, 0⟩, ⟨0, 10⟩, ⟨10, 10⟩, ⟨10, 0⟩])

instance (σ : Rat) (vs : List Pt) : Decidable (Convex σ vs) :=
  inferInstanceAs (Decidable (_ ∧ _ ∧ _))

instance (σ : Rat) (vs : List Pt) (p : Pt) : Decidable (Inside σ vs p) :=
  inferInstanceAs (Decidable (∀ s ∈ sides vs, _))

theorem square_convex : Convex (-1) square.2 := by decide +kernel

/-- Convex zones, either way round. -/
example : classify square.2 = .convexCW := C110_convex square_convex

example : classify square.2.reverse = .convexCCW :=
  C110_convex (σ := 1) (by decide +kernel)

/-- A zone with a dent, and a star whose sides cross (it turns the same way at
every corner). -/
example : classify [⟨0, 0⟩, ⟨0, 10⟩, ⟨2, 5⟩, ⟨10, 5⟩] = .notConvex ∧
    classify [⟨0, 0⟩, ⟨10, 6⟩, ⟨0, 12⟩, ⟨6, 0⟩, ⟨6, 12⟩] = .notConvex := by decide +kernel

/-- The way round the square: over two of its corners. -/
theorem round_square :
    findPath euclid (build euclid [square]) (tablesOf [square]) ⟨4, -5⟩ ⟨4, 15⟩ =
      .ok { first := 0, last := 1, len := 22, start := ⟨4, -5⟩, stop := ⟨4, 15⟩ } ∧
    positions (build euclid [square]) (tablesOf [square])
      { first := 0, last := 1, len := 22, start := ⟨4, -5⟩, stop := ⟨4, 15⟩ } =
      some [⟨4, -5⟩, ⟨0, 0⟩, ⟨0, 10⟩, ⟨4, 15⟩] := by decide +kernel

/-- The way round the square meets the hypotheses of C107. -/
example : ∃ m, positions (build euclid [square]) (tablesOf [square])
      { first := 0, last := 1, len := 22, start := ⟨4, -5⟩, stop := ⟨4, 15⟩ } =
        some (⟨4, -5⟩ :: (m ++ [⟨4, 15⟩])) ∧ m ≠ [] :=
  have hb : ¬ Clear [square] ⟨4, -5⟩ ⟨4, 15⟩ := by
    rw [← clear_iff euclid]; decide +kernel
  let ⟨m, h₁, h₂, _⟩ := C107_shortest euclid_symm euclid_self (tablesOf_shortest _) hb
    round_square.1 (by decide) (by decide)
  ⟨m, h₁, h₂⟩

/-- It keeps out of the square. -/
example : Avoids (-1) square.2 [⟨4, -5⟩, ⟨0, 0⟩, ⟨0, 10⟩, ⟨4, 15⟩] :=
  C108_keeps_out (geo := euclid) (zs := [square]) euclid_symm (tablesOf_shortest _) (by simp)
    square_convex
    (fun y hy h => absurd (List.mem_singleton.mp hy) h) (by decide +kernel) (by decide +kernel)
    round_square.1 (by decide) (by decide) round_square.2

/-- A clear way. -/
example : ∃ r, findPath euclid (build euclid [square]) (tablesOf [square]) ⟨-3, -5⟩ ⟨-3, 15⟩ = .ok r ∧
    r.len = 20 := by
  obtain ⟨r, h, e, -⟩ := C107_straight euclid [square] (tablesOf [square]) ⟨-3, -5⟩ ⟨-3, 15⟩
    (by rw [← clear_iff euclid]; decide +kernel)
  exact ⟨r, h, by rw [e]; decide +kernel⟩

/-- The graph of the square is connected: the search succeeds from everywhere to
everywhere near. -/
example : ∃ r, findPath euclid (build euclid [square]) (tablesOf [square]) ⟨4, -5⟩ ⟨4, 15⟩ = .ok r :=
  C107_found (geo := euclid) (tablesOf_shortest _) fun u v hu hv => by
    have base : ∀ i j : Fin 4, ∃ l w, Walk (build euclid [square]).base i.1 j.1 l w ∧ w ≤ 100 := by
      intro i j
      have key : ∀ i : Fin 4, ∀ j : Fin 4, Reach (build euclid [square]).base i.1 j.1 ∧
          (tablesOf [square]).dist i.1 j.1 ≤ 100 := by
        intro i j
        have link : ∀ a b, (∃ g ∈ (build euclid [square]).base,
            (g.a = a ∧ g.b = b) ∨ (g.a = b ∧ g.b = a)) → ∀ s, Reach (build euclid [square]).base s a →
              Reach (build euclid [square]).base s b := by
          rintro a b ⟨g, hg, h⟩ s ⟨l, w, hw⟩
          exact ⟨_, _, .step hw ⟨g, hg, rfl, h⟩⟩
        have h01 := link 0 1 (by decide +kernel)
        have h12 := link 1 2 (by decide +kernel)
        have h23 := link 2 3 (by decide +kernel)
        have h30 := link 3 0 (by decide +kernel)
        have d : ∀ i : Fin 4, ∀ j : Fin 4, (tablesOf [square]).dist i.1 j.1 ≤ 100 := by decide +kernel
        refine ⟨?_, d i j⟩
        have r0 : ∀ a, Reach (build euclid [square]).base a a := fun a => ⟨_, _, .here⟩
        match i, j with
        | 0, 0 => exact r0 0
        | 0, 1 => exact h01 _ (r0 0)
        | 0, 2 => exact h12 _ (h01 _ (r0 0))
        | 0, 3 => exact h23 _ (h12 _ (h01 _ (r0 0)))
        | 1, 1 => exact r0 1
        | 1, 2 => exact h12 _ (r0 1)
        | 1, 3 => exact h23 _ (h12 _ (r0 1))
        | 1, 0 => exact h30 _ (h23 _ (h12 _ (r0 1)))
        | 2, 2 => exact r0 2
        | 2, 3 => exact h23 _ (r0 2)
        | 2, 0 => exact h30 _ (h23 _ (r0 2))
        | 2, 1 => exact h01 _ (h30 _ (h23 _ (r0 2)))
        | 3, 3 => exact r0 3
        | 3, 0 => exact h30 _ (r0 3)
        | 3, 1 => exact h01 _ (h30 _ (r0 3))
        | 3, 2 => exact h12 _ (h01 _ (h30 _ (r0 3)))
      obtain ⟨hr, hd⟩ := key i j
      obtain ⟨l, hw, -⟩ := positions_spec (tablesOf_shortest [square])
        (show i.1 < (build euclid [square]).pts.length from i.2) hr 0 .origin .origin
      exact ⟨l, _, hw, hd⟩
    have n4 : (build euclid [square]).pts.length = 4 := by decide +kernel
    have hu' := hu.1
    have hv' := hv.1
    rw [n4] at hu' hv'
    obtain ⟨l, w, hw, hle⟩ := base ⟨u, hu'⟩ ⟨v, hv'⟩
    have du : ∀ i : Fin 4, euclid.len ⟨4, -5⟩ (pt (build euclid [square]).pts i.1) ≤ 100 ∧
        euclid.len ⟨4, 15⟩ (pt (build euclid [square]).pts i.1) ≤ 100 := by decide +kernel
    have h₁ := (du ⟨u, hu'⟩).1
    have h₂ := (du ⟨v, hv'⟩).2
    refine ⟨l, w, hw, ?_⟩
    unfold intMax
    dsimp only at h₁ h₂
    omega

/-! ### What is false -/

/-- A strip to keep in, and two walls across it to keep out of. -/
def walled : List (Bool × List Pt) :=
  [(true, [⟨-1, -10⟩, ⟨-1, 10⟩, ⟨1, 10⟩, ⟨1, -10⟩]),
   (false, [⟨-10, -4⟩, ⟨-10, -2⟩, ⟨10, -2⟩, ⟨10, -4⟩]),
   (false, [⟨-10, 2⟩, ⟨-10, 4⟩, ⟨10, 4⟩, ⟨10, 2⟩])]

/-- **An end that cannot be reached is reported as a route.**  The end is walled
in.  The search succeeds all the same; the path it reports has length -1, and its
positions are the origin, twice: neither the start nor the end of the request. -/
theorem C107_unreachable_violated :
    ∃ p q r, p ≠ Pt.origin ∧ q ≠ Pt.origin ∧
      findPath euclid (build euclid walled) (tablesOf walled) p q = .ok r ∧
      r.len = -1 ∧
      positions (build euclid walled) (tablesOf walled) r = some [Pt.origin, Pt.origin] :=
  ⟨⟨0, -7⟩, ⟨0, 1⟩, {}, by decide +kernel, by decide +kernel, by decide +kernel, rfl, by decide +kernel⟩

/-- A zone to keep in, inside one to keep out of. -/
def nested : List (Bool × List Pt) :=
  [(true, [⟨-10, -10⟩, ⟨-10, 10⟩, ⟨10, 10⟩, ⟨10, -10⟩]),
   (false, [⟨-20, -20⟩, ⟨-20, 20⟩, ⟨20, 20⟩, ⟨20, -20⟩])]

/-- **When the parts of the graph are not connected, the search is undefined.**
The start sees only corners of the inner zone, the end only those of the outer
one; the "length" of a way between them is out of the range of `int`. -/
theorem C107_apart_violated :
    findPath euclid (build euclid nested) (tablesOf nested) ⟨0, 0⟩ ⟨0, 50⟩ = .ub := by
  decide +kernel

/-- A zone to keep in, with a wall across it to keep out of. -/
def cut : List (Bool × List Pt) :=
  [(true, [⟨0, 0⟩, ⟨0, 30⟩, ⟨10, 30⟩, ⟨10, 0⟩]),
   (false, [⟨-5, 10⟩, ⟨-5, 20⟩, ⟨15, 20⟩, ⟨15, 10⟩])]

/-- **A route may lead through a zone to keep out of**, along the boundary of a
zone to keep in: that boundary is part of the graph whatever lies across it. -/
theorem C108_boundary_violated :
    ∃ p q r l, findPath euclid (build euclid cut) (tablesOf cut) p q = .ok r ∧
      0 ≤ r.len ∧ r.len < intMax ∧
      positions (build euclid cut) (tablesOf cut) r = some l ∧
      (∃ w ∈ cut, w.1 = false ∧ Convex (-1) w.2 ∧ ¬ Inside (-1) w.2 p ∧ ¬ Inside (-1) w.2 q ∧
        ¬ Avoids (-1) w.2 l) := by
  refine ⟨⟨1, 5⟩, ⟨1, 25⟩,
    { first := 0, last := 1, len := 40, start := ⟨1, 5⟩, stop := ⟨1, 25⟩ },
    [⟨1, 5⟩, ⟨0, 0⟩, ⟨0, 30⟩, ⟨1, 25⟩], by decide +kernel, by decide, by decide, by decide +kernel,
    (false, [⟨-5, 10⟩, ⟨-5, 20⟩, ⟨15, 20⟩, ⟨15, 10⟩]), by decide +kernel, rfl, by decide +kernel,
    by decide +kernel, by decide +kernel, ?_⟩
  intro h
  have := h (⟨0, 0⟩, ⟨0, 30⟩) (by decide +kernel) (1 / 2) (by decide +kernel) (by decide +kernel)
  exact absurd this (by decide +kernel)

/-- **An end inside a zone to keep out of is not rejected.** -/
theorem C108_end_violated :
    ∃ q r l, Inside (-1) square.2 q ∧
      findPath euclid (build euclid [square]) (tablesOf [square]) ⟨4, -5⟩ q = .ok r ∧
      0 ≤ r.len ∧ positions (build euclid [square]) (tablesOf [square]) r = some l ∧
      l.getLast? = some q :=
  ⟨⟨6, 6⟩, { first := 0, last := 0, len := 14, start := ⟨4, -5⟩, stop := ⟨6, 6⟩ },
    [⟨4, -5⟩, ⟨0, 0⟩, ⟨0, 0⟩, ⟨6, 6⟩], by decide +kernel, by decide +kernel, by decide,
    by decide +kernel, by decide +kernel⟩

/-! ### C109: the intersection of segments -/

/-- **C109.**  Two segments are found to intersect exactly if they have a point in
common and are not parallel. -/
theorem C109_intersects_partial (a b c d : Pt) :
    crosses a b c d = true ↔ Share a b c d ∧ ¬ Parallel a b c d := by
  rw [crosses_iff]
  exact And.comm

/-- **Segments that overlap are not found to intersect.** -/
theorem C109_overlap_violated :
    ∃ a b c d : Pt, a ≠ b ∧ c ≠ d ∧ Share a b c d ∧ crosses a b c d = false :=
  ⟨⟨0, 0⟩, ⟨0, 2⟩, ⟨0, 1⟩, ⟨0, 3⟩, by decide +kernel, by decide +kernel,
    ⟨1 / 2, 0, by decide +kernel, by decide +kernel, by decide +kernel, by decide +kernel,
      by decide +kernel⟩, by decide +kernel⟩

theorem lineAt_other (a b : Pt) (x : Pt) :
    lineAt a b x = (b.n - a.n) * x.e + (a.e - b.e) * x.n + (b.e * a.n - a.e * b.n) := rfl

theorem half_off {num den x : Rat} (h : den ≠ 0) (e : num = den * x) :
    (if num < 0 then num - (if den < 0 then -den / 2 else den / 2)
      else num + (if den < 0 then -den / 2 else den / 2)) / den - x = 1 / 2 ∨
    (if num < 0 then num - (if den < 0 then -den / 2 else den / 2)
      else num + (if den < 0 then -den / 2 else den / 2)) / den - x = -1 / 2 := by
  have key : ∀ k : Rat, (num + den * k) / den - x = k := by
    intro k
    rw [e]
    grind
  by_cases h₁ : num < 0 <;> by_cases h₂ : den < 0
  · rw [if_pos h₁, if_pos h₂]
    refine .inl ?_
    rw [show num - -den / 2 = num + den * (1 / 2) by grind, key]
  · rw [if_pos h₁, if_neg h₂]
    refine .inr ?_
    rw [show num - den / 2 = num + den * (-1 / 2) by grind, key]
  · rw [if_neg h₁, if_pos h₂]
    refine .inr ?_
    rw [show num + -den / 2 = num + den * (-1 / 2) by grind, key]
  · rw [if_neg h₁, if_neg h₂]
    refine .inl ?_
    rw [show num + den / 2 = num + den * (1 / 2) by grind, key]

/-- **C109.**  The point reported is half a metre off the point of intersection,
in each coordinate. -/
theorem C109_point_partial {a b c d : Pt} {t s : Rat} (h : ¬ Parallel a b c d)
    (e : along a b t = along c d s) :
    ((crossing a b c d).n - (along a b t).n = 1 / 2 ∨
      (crossing a b c d).n - (along a b t).n = -1 / 2) ∧
    ((crossing a b c d).e - (along a b t).e = 1 / 2 ∨
      (crossing a b c d).e - (along a b t).e = -1 / 2) := by
  rw [parallel_iff_denom] at h
  have h₁ : lineAt a b (along a b t) = 0 := lineAt_self a b t
  have h₂ : lineAt c d (along a b t) = 0 := by rw [e]; exact lineAt_self c d s
  generalize along a b t = x at h₁ h₂ ⊢
  rw [lineAt_other] at h₁ h₂
  unfold denom at h
  unfold crossing
  dsimp only
  generalize b.n - a.n = a₁ at *
  generalize a.e - b.e = b₁ at *
  generalize b.e * a.n - a.e * b.n = c₁ at *
  generalize d.n - c.n = a₂ at *
  generalize c.e - d.e = b₂ at *
  generalize d.e * c.n - c.e * d.n = c₂ at *
  generalize x.n = y at *
  generalize x.e = z at *
  constructor
  · refine half_off h ?_
    grind
  · refine half_off h ?_
    grind

/-- **The point reported is on neither segment.** -/
theorem C109_point_violated :
    ∃ a b c d : Pt, crosses a b c d = true ∧
      lineAt a b (crossing a b c d) ≠ 0 ∧ lineAt c d (crossing a b c d) ≠ 0 :=
  ⟨⟨0, 0⟩, ⟨0, 2⟩, ⟨-1, 1⟩, ⟨1, 1⟩, by decide +kernel, by decide +kernel, by decide +kernel⟩

example : ∃ a b c d : Pt, ∃ t s : Rat, ¬ Parallel a b c d ∧ along a b t = along c d s :=
  ⟨⟨0, 0⟩, ⟨0, 2⟩, ⟨-1, 1⟩, ⟨1, 1⟩, 1 / 2, 1 / 2,
    by rw [parallel_iff_denom]; decide +kernel, by decide +kernel⟩

end Verif.Visibility
