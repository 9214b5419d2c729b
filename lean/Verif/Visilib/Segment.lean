/-
C115: the nearest point of a segment and of the boundary of a polygon.
-/
import Verif.Visilib.Model
import Verif.Visibility.Convex

namespace Verif.Visilib

open Verif.Visibility (Pt along)
open Verif.RoutePlanner (Poly)

/-- A point of the segment from `a` to `b`. -/
def On (a b x : Pt) : Prop := ∃ t : Rat, 0 ≤ t ∧ t ≤ 1 ∧ x = along a b t

theorem On.left (a b : Pt) : On a b a := ⟨0, by decide, by decide, by cases a; simp [along]; grind⟩

theorem On.right (a b : Pt) : On a b b := by
  refine ⟨1, by decide, by decide, ?_⟩
  cases a; cases b; simp [along]; grind

theorem On.symm {a b x : Pt} (h : On a b x) : On b a x := by
  obtain ⟨t, h₀, h₁, rfl⟩ := h
  exact ⟨1 - t, by grind, by grind, by simp only [along, Pt.mk.injEq]; grind⟩

theorem sq_nonneg (x : Rat) : 0 ≤ x * x := by
  rcases Rat.le_total (a := 0) (b := x) with h | h
  · exact Rat.mul_nonneg h h
  · have := Rat.mul_nonneg (a := -x) (b := -x) (by grind) (by grind)
    grind

theorem d2_nonneg (p q : Pt) : 0 ≤ d2 p q := by
  unfold d2
  have := sq_nonneg (p.e - q.e)
  have := sq_nonneg (p.n - q.n)
  grind

theorem d2_comm (p q : Pt) : d2 p q = d2 q p := by unfold d2; grind

theorem sq_zero {x : Rat} (h : x * x = 0) : x = 0 := by
  rcases Rat.mul_eq_zero.mp h with h | h <;> exact h

theorem d2_zero {p q : Pt} (h : d2 p q ≤ 0) : p = q := by
  unfold d2 at h
  have h₁ := sq_nonneg (p.e - q.e)
  have h₂ := sq_nonneg (p.n - q.n)
  have e₁ := sq_zero (x := p.e - q.e) (by grind)
  have e₂ := sq_zero (x := p.n - q.n) (by grind)
  cases p; cases q
  simp only [Pt.mk.injEq] at *
  grind

theorem d2_self (p : Pt) : d2 p p = 0 := by unfold d2; grind

theorem isPoint_zero (a b : Pt) : isPoint a b 0 = true ↔ a = b := by
  unfold isPoint
  rw [decide_eq_true_iff]
  constructor
  · intro h; exact d2_zero (by grind)
  · rintro rfl; rw [d2_self]; grind

theorem along_self (a : Pt) (t : Rat) : along a a t = a := by
  cases a; simp only [along, Pt.mk.injEq]; grind

/-- How far a point of the line is, seen from the foot of the perpendicular. -/
theorem d2_foot (p a b : Pt) (th t : Rat)
    (hth : th * d2 a b = (b.e - p.e) * (b.e - a.e) + (b.n - p.n) * (b.n - a.n)) :
    d2 p (along b a t) = d2 p (along b a th) + d2 a b * ((t - th) * (t - th)) := by
  unfold d2 along at *
  dsimp only
  grind

/-- **C115.**  The projection onto a segment is the point of the segment that is
nearest. -/
theorem C115_nearest (p a b : Pt) :
    On a b (proj p a b) ∧ ∀ x, On a b x → d2 p (proj p a b) ≤ d2 p x := by
  unfold proj
  by_cases k : isPoint a b 0 = true
  · rw [if_pos k]
    rw [isPoint_zero] at k
    subst k
    refine ⟨.left _ _, ?_⟩
    rintro x ⟨t, -, -, rfl⟩
    rw [along_self]; exact Rat.le_refl
  · rw [if_neg k]
    rw [isPoint_zero] at k
    have hL : 0 < d2 a b := by
      by_cases h : 0 < d2 a b
      · exact h
      · exact absurd (d2_zero (by grind)) k
    dsimp only
    generalize hth : ((b.e - p.e) * (b.e - a.e) + (b.n - p.n) * (b.n - a.n)) / d2 a b = th
    have hth' : th * d2 a b = (b.e - p.e) * (b.e - a.e) + (b.n - p.n) * (b.n - a.n) := by
      rw [← hth, Rat.div_mul_cancel (by grind)]
    have foot := d2_foot p a b th
    have e₀ : along b a 0 = b := by cases b; simp only [along, Pt.mk.injEq]; grind
    have e₁ : along b a 1 = a := by cases a; simp only [along, Pt.mk.injEq]; grind
    have f₀ := foot 0 hth'
    have f₁ := foot 1 hth'
    rw [e₀] at f₀
    rw [e₁] at f₁
    by_cases hin : 0 ≤ th ∧ th ≤ 1
    · rw [if_pos hin]
      have ep : (⟨th * a.n + (1 - th) * b.n, th * a.e + (1 - th) * b.e⟩ : Pt) = along b a th := by
        simp only [along, Pt.mk.injEq]; grind
      rw [ep]
      refine ⟨On.symm ⟨th, hin.1, hin.2, rfl⟩, fun x hx => ?_⟩
      obtain ⟨t, -, -, rfl⟩ := hx.symm
      rw [foot t hth']
      have := Rat.mul_nonneg (Rat.le_of_lt hL) (sq_nonneg (t - th))
      grind
    · rw [if_neg hin]
      have hlow : th < 0 → ∀ t, 0 ≤ t → d2 p b ≤ d2 p (along b a t) := by
        intro h t ht
        rw [f₀, foot t hth']
        have := Rat.mul_nonneg (Rat.le_of_lt hL) (Rat.mul_nonneg ht (show 0 ≤ t - 2 * th by grind))
        grind
      have hhigh : 1 < th → ∀ t, t ≤ 1 → d2 p a ≤ d2 p (along b a t) := by
        intro h t ht
        rw [f₁, foot t hth']
        have := Rat.mul_nonneg (Rat.le_of_lt hL)
          (Rat.mul_nonneg (show 0 ≤ 1 - t by grind) (show 0 ≤ 2 * th - t - 1 by grind))
        grind
      by_cases h : th < 0
      · have hb := hlow h 1 (by decide)
        rw [e₁] at hb
        rw [if_neg (by grind)]
        refine ⟨.right _ _, fun x hx => ?_⟩
        obtain ⟨t, t₀, -, rfl⟩ := hx.symm
        exact hlow h t t₀
      · have h' : 1 < th := by grind
        have ha := hhigh h' 0 (by decide)
        rw [e₀] at ha
        by_cases hab : d2 p a < d2 p b
        · rw [if_pos hab]
          refine ⟨.left _ _, fun x hx => ?_⟩
          obtain ⟨t, -, t₁, rfl⟩ := hx.symm
          exact hhigh h' t t₁
        · rw [if_neg hab]
          refine ⟨.right _ _, fun x hx => ?_⟩
          obtain ⟨t, -, t₁, rfl⟩ := hx.symm
          have := hhigh h' t t₁
          grind

/-- The distance from a segment is that of its nearest point. -/
theorem segD2_le {p a b : Pt} {r : Rat} : segD2 p a b ≤ r ↔ ∃ x, On a b x ∧ d2 p x ≤ r := by
  obtain ⟨h₁, h₂⟩ := C115_nearest p a b
  constructor
  · intro h; exact ⟨_, h₁, h⟩
  · rintro ⟨x, hx, h⟩
    have := h₂ x hx
    unfold segD2
    grind

/-! ### The boundary of a polygon -/

theorem fold_nearest (p : Pt) (l : List (Pt × Pt)) (m : Pt) :
    let r := l.foldl (fun m s => if segD2 p s.1 s.2 < d2 p m then proj p s.1 s.2 else m) m
    (r = m ∨ ∃ s ∈ l, r = proj p s.1 s.2) ∧ d2 p r ≤ d2 p m ∧ ∀ s ∈ l, d2 p r ≤ segD2 p s.1 s.2 := by
  induction l generalizing m with
  | nil => exact ⟨.inl rfl, Rat.le_refl, by simp⟩
  | cons s l ih =>
    rw [List.foldl_cons]
    by_cases k : segD2 p s.1 s.2 < d2 p m
    · rw [if_pos k]
      obtain ⟨h₁, h₂, h₃⟩ := ih (proj p s.1 s.2)
      have e : d2 p (proj p s.1 s.2) = segD2 p s.1 s.2 := rfl
      refine ⟨?_, by grind, ?_⟩
      · rcases h₁ with h₁ | ⟨s', hs', h₁⟩
        · exact .inr ⟨s, by simp, h₁⟩
        · exact .inr ⟨s', List.mem_cons_of_mem _ hs', h₁⟩
      · intro s' hs'
        rcases List.mem_cons.mp hs' with rfl | hs'
        · exact h₂
        · exact h₃ s' hs'
    · rw [if_neg k]
      obtain ⟨h₁, h₂, h₃⟩ := ih m
      refine ⟨?_, h₂, ?_⟩
      · rcases h₁ with h₁ | ⟨s', hs', h₁⟩
        · exact .inl h₁
        · exact .inr ⟨s', List.mem_cons_of_mem _ hs', h₁⟩
      · intro s' hs'
        rcases List.mem_cons.mp hs' with rfl | hs'
        · grind
        · exact h₃ s' hs'

/-- A point of the boundary: of a side from a corner to the next. -/
def OnBoundary (poly : Poly) (x : Pt) : Prop :=
  ∃ i, ∃ hi : i < poly.length,
    On poly[i] (poly[(i + 1) % poly.length]'(Nat.mod_lt _ (by omega))) x

theorem sides_eq (p : Poly) : sides p = Visibility.sides p := rfl

theorem onBoundary_iff_sides {poly : Poly} {x : Pt} :
    OnBoundary poly x ↔ ∃ s ∈ sides poly, On s.1 s.2 x := by
  rw [sides_eq]
  constructor
  · rintro ⟨i, hi, h⟩; exact ⟨_, Visibility.side_mem poly i hi, h⟩
  · rintro ⟨s, hs, h⟩
    obtain ⟨i, hi, e₁, e₂⟩ := Visibility.mem_sides hs
    exact ⟨i, hi, by rw [← e₁, ← e₂]; exact h⟩

/-- **C115.**  A point is found to be on the boundary of a polygon exactly if a
point of the boundary is not further away than epsilon. -/
theorem C115_boundary {eps : Rat} {p : Pt} {poly : Poly} {b : Bool}
    (h : onBoundary eps p poly = .ok b) :
    b = true ↔ ∃ x, OnBoundary poly x ∧ d2 p x ≤ eps * eps := by
  cases poly with
  | nil => cases h
  | cons v vs =>
    cases h
    rw [decide_eq_true_iff]
    obtain ⟨h₁, h₂, h₃⟩ := fold_nearest p (sides (v :: vs)) v
    unfold projBoundary
    generalize (sides (v :: vs)).foldl _ v = r at *
    simp only [onBoundary_iff_sides]
    constructor
    · intro h
      rcases h₁ with rfl | ⟨s, hs, rfl⟩
      · refine ⟨r, ⟨(r, (vs ++ [r]).headD r), ?_, .left _ _⟩, h⟩
        unfold sides
        cases vs <;> simp
      · exact ⟨_, ⟨s, hs, (C115_nearest p s.1 s.2).1⟩, h⟩
    · rintro ⟨x, ⟨s, hs, hx⟩, h⟩
      have h₄ := (C115_nearest p s.1 s.2).2 x hx
      have h₅ := h₃ s hs
      have e : d2 p (proj p s.1 s.2) = segD2 p s.1 s.2 := rfl
      grind

/-- Only for a polygon without corners is there no answer. -/
theorem C115_defined (eps : Rat) (p : Pt) (poly : Poly) :
    (∃ b, onBoundary eps p poly = .ok b) ↔ poly ≠ [] := by
  cases poly <;> simp [onBoundary]

/-- The foot is within the segment, or one of the ends is nearest. -/
example : proj ⟨3, 4⟩ ⟨0, 0⟩ ⟨0, 10⟩ = ⟨0, 4⟩ ∧ proj ⟨3, -4⟩ ⟨0, 0⟩ ⟨0, 10⟩ = ⟨0, 0⟩ ∧
    proj ⟨3, 40⟩ ⟨0, 0⟩ ⟨0, 10⟩ = ⟨0, 10⟩ := by decide +kernel

/-- Near the boundary of a square, and not. -/
example : onBoundary 1 ⟨1, 5⟩ [⟨0, 0⟩, ⟨0, 10⟩, ⟨10, 10⟩, ⟨10, 0⟩] = .ok true ∧
    onBoundary 1 ⟨2, 5⟩ [⟨0, 0⟩, ⟨0, 10⟩, ⟨10, 10⟩, ⟨10, 0⟩] = .ok false := by decide +kernel

end Verif.Visilib
