/-
C116: whether a point is in a polygon.
-/
import Verif.Visilib.Parity

namespace Verif.Visilib

open Verif.Visibility (Pt along lineAt Convex Inside Closed)
open Verif.RoutePlanner (Poly)

theorem inPoly_iff {eps : Rat} {x : Pt} {poly : Poly} {b : Bool} (h : inPoly eps x poly = .ok b) :
    b = true ↔ (∃ z, OnBoundary poly z ∧ d2 x z ≤ eps * eps) ∨ odd x poly = true := by
  unfold inPoly at h
  obtain ⟨c, hc, hb⟩ := Outcome.bind_eq_ok.mp h
  cases hb
  rw [Bool.or_eq_true, C115_boundary hc]

/-- **C116.**  The test has an answer for every polygon that is not empty, and only for those. -/
theorem C116_defined (eps : Rat) (x : Pt) (poly : Poly) :
    (∃ b, inPoly eps x poly = .ok b) ↔ poly ≠ [] := by
  rw [← C115_defined eps x poly]
  unfold inPoly
  cases onBoundary eps x poly <;> simp [Outcome.bind]

/-- **C116.**  A point is found in a convex polygon, whichever way round its corners are
given, exactly if it is on the inner side of, or on, every side, or within epsilon of
the boundary. -/
theorem C116_convex {eps σ : Rat} {x : Pt} {poly : Poly} {b : Bool} (hc : Convex σ poly)
    (h : inPoly eps x poly = .ok b) :
    b = true ↔ Closed σ poly x ∨ ∃ z, OnBoundary poly z ∧ d2 x z ≤ eps * eps := by
  rw [inPoly_iff h, or_comm]
  constructor
  · rintro (ho | hz)
    · left
      intro s hs
      false_or_by_contra
      rename_i k
      have := odd_separated (x := x) (vs := poly) (α := σ * (s.2.n - s.1.n))
        (β := σ * (s.1.e - s.2.e)) fun v hv => by
          have h₁ := hc.corner hv s hs
          simp only [lineAt] at h₁ k
          grind
      rw [this] at ho
      cases ho
    · exact .inr hz
  · rintro (hcl | hz)
    · by_cases hi : Inside σ poly x
      · exact .inl (odd_inside hc hi)
      · right
        simp only [Inside] at hi
        obtain ⟨s, hs, k⟩ : ∃ s, ∃ _ : s ∈ Visibility.sides poly, ¬ 0 < σ * lineAt s.1 s.2 x :=
          Classical.byContradiction fun no =>
            hi fun s hs => Classical.byContradiction fun k => no ⟨s, hs, k⟩
        obtain ⟨⟨w, hw, h₁⟩, v, hv, h₃⟩ := hc.turns hs
        have z : σ * lineAt s.1 s.2 x = 0 := by
          have := hcl s hs
          grind
        have z' : lineAt s.1 s.2 x = 0 :=
          Visibility.zero_of_mul (σ := σ) (y := lineAt s.2 v s.1) z h₃
        obtain ⟨r, r₀, r₁, e⟩ := Visibility.on_side z' h₁ (hcl (w, s.1) hw) h₃ (hcl (s.2, v) hv)
        refine ⟨x, onBoundary_iff_sides.mpr ⟨s, hs, r, r₀, r₁, e.symm⟩, ?_⟩
        rw [d2_self]
        exact sq_nonneg eps
    · exact .inr hz

/-- **C116.**  With an epsilon of 0 that is membership in the convex polygon with its
boundary. -/
theorem C116_convex_exact {σ : Rat} {x : Pt} {poly : Poly} (hc : Convex σ poly) :
    inPoly 0 x poly = .ok true ↔ Closed σ poly x := by
  have hne : poly ≠ [] := by
    intro e
    have := hc.1
    rw [e] at this
    simp at this
  obtain ⟨b, hb⟩ := (C116_defined 0 x poly).mpr hne
  have key := C116_convex hc hb
  have on : (∃ z, OnBoundary poly z ∧ d2 x z ≤ 0 * 0) → Closed σ poly x := by
    rintro ⟨z, hz, hd⟩
    have : x = z := d2_zero (by have := d2_nonneg x z; grind)
    subst this
    obtain ⟨s, hs, t, t₀, t₁, rfl⟩ := onBoundary_iff_sides.mp hz
    obtain ⟨i, hi, e₁, e₂⟩ := Visibility.mem_sides hs
    intro u hu
    have k₁ := hc.corner (p := s.1) (e₁ ▸ List.getElem_mem _) u hu
    have k₂ := hc.corner (p := s.2) (e₂ ▸ List.getElem_mem _) u hu
    have m₁ := Rat.mul_nonneg (show 0 ≤ 1 - t by grind) k₁
    have m₂ := Rat.mul_nonneg t₀ k₂
    rw [lineAt_along]
    grind
  rw [hb]
  constructor
  · intro e
    cases e
    rcases key.mp rfl with h | h
    · exact h
    · exact on h
  · intro h
    rw [key.mpr (.inl h)]

/-- No point of the way is on the boundary. -/
def KeepsOff (poly : Poly) (way : List Pt) : Prop :=
  ∀ i, ∀ _ : i + 1 < way.length, ∀ z, On way[i] way[i + 1] z → ¬ OnBoundary poly z

theorem odd_way {poly : Poly} {way : List Pt} (h : KeepsOff poly way) {x y : Pt}
    (hx : way.head? = some x) (hy : way.getLast? = some y) : odd x poly = odd y poly := by
  induction way generalizing x with
  | nil => cases hx
  | cons a l ih =>
    cases hx
    cases l with
    | nil => cases hy; rfl
    | cons b l =>
      rw [List.getLast?_cons_cons] at hy
      have h₁ : odd a poly = odd b poly := odd_apart fun s hs z hz k =>
        h 0 (by simp) z hz (onBoundary_iff_sides.mpr ⟨s, hs, k⟩)
      rw [h₁]
      exact ih (fun i hi z hz => h (i + 1) (by simp at hi ⊢; omega) z hz) rfl hy

/-- **C116.**  For every polygon, whatever its shape: two points joined by a way that keeps
off the boundary, neither of them within epsilon of it, get the same answer. -/
theorem C116_same {eps : Rat} {poly : Poly} {way : List Pt} {x y : Pt} {b c : Bool}
    (h : KeepsOff poly way) (hx : way.head? = some x) (hy : way.getLast? = some y)
    (nx : ∀ z, OnBoundary poly z → eps * eps < d2 x z)
    (ny : ∀ z, OnBoundary poly z → eps * eps < d2 y z)
    (hb : inPoly eps x poly = .ok b) (hc : inPoly eps y poly = .ok c) : b = c := by
  rw [Bool.eq_iff_iff, inPoly_iff hb, inPoly_iff hc, odd_way h hx hy]
  have k₁ : ¬ ∃ z, OnBoundary poly z ∧ d2 x z ≤ eps * eps := by
    rintro ⟨z, hz, k⟩
    have := nx z hz
    grind
  have k₂ : ¬ ∃ z, OnBoundary poly z ∧ d2 y z ≤ eps * eps := by
    rintro ⟨z, hz, k⟩
    have := ny z hz
    grind
  simp only [k₁, k₂]

/-- **C116.**  A point from which a way that keeps off the boundary leads to a point that a
line separates from all the corners (such as one further east than all of them) is not
found in the polygon, unless it is within epsilon of the boundary. -/
theorem C116_outside {eps α β : Rat} {poly : Poly} {way : List Pt} {x y : Pt} {b : Bool}
    (h : KeepsOff poly way) (hx : way.head? = some x) (hy : way.getLast? = some y)
    (sep : ∀ v ∈ poly, 0 < α * (v.e - y.e) + β * (v.n - y.n))
    (hb : inPoly eps x poly = .ok b) :
    b = true ↔ ∃ z, OnBoundary poly z ∧ d2 x z ≤ eps * eps := by
  rw [inPoly_iff hb, odd_way h hx hy, odd_separated sep]
  simp

/-- **C116.**  Two points between which the straight way crosses the boundary once, through
a side and not at a corner, neither of them within epsilon of it, get different
answers. -/
theorem C116_cross {eps : Rat} {poly : Poly} {x y : Pt} {b c : Bool} {i : Nat}
    (hi : i < poly.length)
    (cr : Cross x y poly[i] (poly[(i + 1) % poly.length]'(Nat.mod_lt _ (by omega))))
    (no : ∀ j, ∀ _ : j < poly.length, j ≠ i → ∀ z, On x y z →
      ¬ On poly[j] (poly[(j + 1) % poly.length]'(Nat.mod_lt _ (by omega))) z)
    (nx : ∀ z, OnBoundary poly z → eps * eps < d2 x z)
    (ny : ∀ z, OnBoundary poly z → eps * eps < d2 y z)
    (hb : inPoly eps x poly = .ok b) (hc : inPoly eps y poly = .ok c) : b = !c := by
  have hl : (sides poly).length = poly.length := Visibility.sides_length poly
  have hs : ∀ j, ∀ hj : j < poly.length, (sides poly)[j]'(by rw [hl]; exact hj) =
      (poly[j], poly[(j + 1) % poly.length]'(Nat.mod_lt _ (by omega))) :=
    fun j hj => Visibility.sides_get poly j hj
  have split : sides poly = (sides poly).take i ++
      (sides poly)[i]'(by rw [hl]; exact hi) :: (sides poly).drop (i + 1) := by
    rw [List.getElem_cons_drop, List.take_append_drop]
  have key := odd_cross (x := x) (y := y) split (by rw [hs i hi]; exact cr) (by
    intro u hu z hz
    rcases List.mem_append.mp hu with m | m
    · obtain ⟨j, hj, e⟩ := List.mem_iff_getElem.mp m
      rw [List.getElem_take] at e
      have hj' : j < i ∧ j < poly.length := by
        rw [List.length_take] at hj
        omega
      rw [← e, hs j hj'.2]
      exact no j hj'.2 (by omega) z hz
    · obtain ⟨j, hj, e⟩ := List.mem_iff_getElem.mp m
      rw [List.getElem_drop] at e
      have hj' : i + 1 + j < poly.length := by
        rw [List.length_drop, hl] at hj
        omega
      rw [← e, hs (i + 1 + j) hj']
      exact no (i + 1 + j) hj' (by omega) z hz)
  have k₁ : ¬ ∃ z, OnBoundary poly z ∧ d2 x z ≤ eps * eps := by
    rintro ⟨z, hz, k⟩
    have := nx z hz
    grind
  have k₂ : ¬ ∃ z, OnBoundary poly z ∧ d2 y z ≤ eps * eps := by
    rintro ⟨z, hz, k⟩
    have := ny z hz
    grind
  have e₁ := inPoly_iff hb
  have e₂ := inPoly_iff hc
  simp only [k₁, k₂, false_or] at e₁ e₂
  rw [key] at e₁
  revert e₁ e₂
  cases b <;> cases c <;> cases odd y poly <;> simp

/-! ### The hypotheses are met -/

/-- An L-shaped zone, not convex. -/
def ell : Poly := [⟨0, 0⟩, ⟨0, 10⟩, ⟨5, 10⟩, ⟨5, 5⟩, ⟨10, 5⟩, ⟨10, 0⟩]

/-- In the foot, in the leg, in the corner that is left out, outside, on a side and
near it. -/
example : inPoly (1 / 10) ⟨2, 8⟩ ell = .ok true ∧ inPoly (1 / 10) ⟨8, 2⟩ ell = .ok true ∧
    inPoly (1 / 10) ⟨8, 8⟩ ell = .ok false ∧ inPoly (1 / 10) ⟨2, 11⟩ ell = .ok false ∧
    inPoly 0 ⟨7, 5⟩ ell = .ok true ∧ inPoly 1 ⟨7, 11 / 2⟩ ell = .ok true := by decide +kernel

/-- `C116_convex`: a triangle. -/
example : Convex 1 [⟨0, 0⟩, ⟨10, 0⟩, ⟨0, 10⟩] ∧ Closed 1 [⟨0, 0⟩, ⟨10, 0⟩, ⟨0, 10⟩] ⟨5, 5⟩ := by
  refine ⟨⟨by decide, by decide, ?_⟩, ?_⟩
  · decide +kernel
  · unfold Closed; decide +kernel

/-- Every point on the boundary of `ell` is on the line of one of its sides. -/
theorem ell_boundary {z : Pt} (h : OnBoundary ell z) :
    (z.n = 0 ∧ 0 ≤ z.e ∧ z.e ≤ 10) ∨ (z.e = 10 ∧ 0 ≤ z.n ∧ z.n ≤ 5) ∨
      (z.n = 5 ∧ 5 ≤ z.e ∧ z.e ≤ 10) ∨ (z.e = 5 ∧ 5 ≤ z.n ∧ z.n ≤ 10) ∨
      (z.n = 10 ∧ 0 ≤ z.e ∧ z.e ≤ 5) ∨ (z.e = 0 ∧ 0 ≤ z.n ∧ z.n ≤ 10) := by
  obtain ⟨s, hs, t, t₀, t₁, rfl⟩ := onBoundary_iff_sides.mp h
  simp [ell, sides] at hs
  rcases hs with rfl | rfl | rfl | rfl | rfl | rfl <;> simp only [along] <;> grind

/-- `C116_same`: from the foot to the leg, around the inner corner. -/
example : KeepsOff ell [⟨2, 8⟩, ⟨2, 2⟩, ⟨8, 2⟩] := by
  rintro i hi z ⟨t, t₀, t₁, rfl⟩ hb
  have := ell_boundary hb
  match i, hi with
  | 0, _ => simp only [along, List.getElem_cons_zero, List.getElem_cons_succ] at this; grind
  | 1, _ => simp only [along, List.getElem_cons_zero, List.getElem_cons_succ] at this; grind

/-- `C116_outside`: from the corner that is left out, to the east of every corner. -/
example : KeepsOff ell [⟨8, 8⟩, ⟨8, 11⟩] ∧
    ∀ v ∈ ell, 0 < (-1 : Rat) * (v.e - (⟨8, 11⟩ : Pt).e) + 0 * (v.n - (⟨8, 11⟩ : Pt).n) := by
  constructor
  · rintro i hi z ⟨t, t₀, t₁, rfl⟩ hb
    have := ell_boundary hb
    match i, hi with
    | 0, _ => simp only [along, List.getElem_cons_zero, List.getElem_cons_succ] at this; grind
  · decide +kernel

/-- `C116_cross`: from the leg into the corner that is left out. -/
example : Cross ⟨8, 2⟩ ⟨8, 8⟩ ell[3] ell[4] ∧ ∀ j, ∀ _ : j < ell.length, j ≠ 3 →
    ∀ z, On ⟨8, 2⟩ ⟨8, 8⟩ z → ¬ On ell[j] (ell[(j + 1) % ell.length]'(Nat.mod_lt _ (by decide))) z := by
  constructor
  · refine ⟨by decide +kernel, 1 / 2, 3 / 5, ?_⟩
    decide +kernel
  · rintro j hj hne z ⟨t, t₀, t₁, rfl⟩ ⟨u, u₀, u₁, e⟩
    simp only [along, Pt.mk.injEq] at e
    match j, hj with
    | 0, _ => simp [ell] at e; grind
    | 1, _ => simp [ell] at e; grind
    | 2, _ => simp [ell] at e; grind
    | 3, _ => exact hne rfl
    | 4, _ => simp [ell] at e; grind
    | 5, _ => simp [ell] at e; grind

end Verif.Visilib
