/-
The answer of the crossing test does not change along a way that keeps off the
boundary, and changes where the way crosses one side.
-/
import Verif.Visilib.Inside

namespace Verif.Visilib

open Verif.Visibility (Pt along lineAt legs)
open Verif.RoutePlanner (Poly)

/-! ### Parities -/

theorem countP_xor {α : Type} (p q : α → Bool) (l : List α) :
    (l.countP p + l.countP q) % 2 = (l.countP fun s => p s != q s) % 2 := by
  induction l with
  | nil => rfl
  | cons a l ih =>
    rw [List.countP_cons, List.countP_cons, List.countP_cons]
    cases p a <;> cases q a <;> simp <;> omega

theorem change_legs (P : Pt → Bool) (l : List Pt) (a z : Pt) :
    ((legs (a :: l ++ [z])).countP fun s => P s.1 != P s.2) % 2 = if P a = P z then 0 else 1 := by
  induction l generalizing a with
  | nil =>
    show ([(a, z)] : List (Pt × Pt)).countP _ % 2 = _
    rw [List.countP_singleton]
    cases P a <;> cases P z <;> simp
  | cons b l ih =>
    show ((a, b) :: legs (b :: l ++ [z])).countP _ % 2 = _
    rw [List.countP_cons, Nat.add_mod, ih]
    cases P a <;> cases P b <;> cases P z <;> simp

/-- Going around, a mark is taken up as often as it is laid down. -/
theorem change_even (P : Pt → Bool) (poly : Poly) :
    ((sides poly).countP fun s => P s.1 != P s.2) % 2 = 0 := by
  cases poly with
  | nil => rfl
  | cons a l => rw [sides_eq, ← Visibility.legs_sides, change_legs]; simp

theorem bne_swap (a b : Bool) : (a != b) = (b != a) := by cases a <;> cases b <;> rfl

/-! ### One side and two points -/

/-- Right of the way from `x` up to `y`, at a height it passes. -/
def right (x y v : Pt) : Bool := decide (x.n < v.n ∧ v.n ≤ y.n ∧ 0 < lineAt x y v)

theorem lineAt_along (x y a b : Pt) (t : Rat) :
    lineAt x y (along a b t) = (1 - t) * lineAt x y a + t * lineAt x y b := by
  simp only [lineAt, along]; grind

/-- Where a side is at a height between those of its ends. -/
theorem at_height {a b : Pt} {y : Rat} (h : a.n < b.n) (h₁ : a.n ≤ y) (h₂ : y ≤ b.n) :
    ∃ t, 0 ≤ t ∧ t ≤ 1 ∧ (along a b t).n = y := by
  have hc : (y - a.n) / (b.n - a.n) * (b.n - a.n) = y - a.n := Rat.div_mul_cancel (by grind)
  generalize (y - a.n) / (b.n - a.n) = t at hc
  refine ⟨t, ?_, ?_, by simp only [along]; grind⟩
  · exact Rat.le_of_mul_le_mul_right (c := b.n - a.n) (by grind) (by grind)
  · exact Rat.le_of_mul_le_mul_right (c := b.n - a.n) (by grind) (by grind)

theorem hit_at {x a b : Pt} {t : Rat} (h₁ : a.n ≤ x.n) (h₂ : x.n < b.n)
    (ht : (along a b t).n = x.n) : hit x a b = decide (x.e < (along a b t).e) := by
  rw [Bool.eq_iff_iff, hit_iff, decide_eq_true_iff]
  have hs : spans x.n (a, b) = true := spans_iff.mpr (.inl ⟨h₁, h₂⟩)
  constructor
  · rintro ⟨-, u, -, -, hn, he⟩
    have : u = t := by
      simp only [along] at hn ht
      have : (u - t) * (b.n - a.n) = 0 := by grind
      rcases Rat.mul_eq_zero.mp this with h | h <;> grind
    rw [← this]
    exact he
  · intro h
    obtain ⟨u, u₀, u₁, hu⟩ := at_height (a := a) (b := b) (by grind) h₁ (Rat.le_of_lt h₂)
    have : u = t := by
      simp only [along] at hu ht
      have : (u - t) * (b.n - a.n) = 0 := by grind
      rcases Rat.mul_eq_zero.mp this with h | h <;> grind
    subst this
    exact ⟨hs, u, u₀, u₁, ht.symm, h⟩

theorem hit_no {x a b : Pt} (h : ¬ (a.n ≤ x.n ∧ x.n < b.n)) (h' : a.n ≤ b.n) :
    hit x a b = false := by
  rw [← Bool.not_eq_true, hit_iff, spans_iff]
  rintro ⟨k, -⟩
  dsimp only at k
  grind

/-- Left and right of the way, at its two ends. -/
theorem line_low {x y q : Pt} (h : x.n < y.n) (hq : q.n = x.n) :
    decide (x.e < q.e) = decide (0 < lineAt x y q) := by
  have e : lineAt x y q = (y.n - x.n) * (q.e - x.e) := by simp only [lineAt, hq]; grind
  rw [e, decide_eq_decide]
  constructor
  · intro k; exact Rat.mul_pos (by grind) (by grind)
  · intro k
    false_or_by_contra
    rename_i m
    have := Rat.mul_nonneg (show 0 ≤ y.n - x.n by grind) (show 0 ≤ x.e - q.e by grind)
    grind

theorem line_high {x y q : Pt} (h : x.n < y.n) (hq : q.n = y.n) :
    decide (y.e < q.e) = decide (0 < lineAt x y q) := by
  have e : lineAt x y q = (y.n - x.n) * (q.e - y.e) := by simp only [lineAt, hq]; grind
  rw [e, decide_eq_decide]
  constructor
  · intro k; exact Rat.mul_pos (by grind) (by grind)
  · intro k
    false_or_by_contra
    rename_i m
    have := Rat.mul_nonneg (show 0 ≤ y.n - x.n by grind) (show 0 ≤ y.e - q.e by grind)
    grind

/-- A point of the line of `x` and `y`, at a height between, is between them. -/
theorem on_way {x y p : Pt} (h : x.n < y.n) (h₁ : x.n ≤ p.n) (h₂ : p.n ≤ y.n)
    (hp : lineAt x y p = 0) : On x y p := by
  obtain ⟨t, t₀, t₁, ht⟩ := at_height h h₁ h₂
  refine ⟨t, t₀, t₁, ?_⟩
  have : (y.n - x.n) * (p.e - (along x y t).e) = 0 := by
    simp only [along] at ht
    simp only [lineAt] at hp
    simp only [along]
    grind
  have he : p.e = (along x y t).e := by
    rcases Rat.mul_eq_zero.mp this with k | k <;> grind
  cases p
  simp only [along] at ht he ⊢
  subst he
  subst ht
  rfl

/-- A segment that keeps off the way, between its heights, stays on one side. -/
theorem stays {x y p q : Pt} (h : x.n < y.n) (p₁ : x.n ≤ p.n) (p₂ : p.n ≤ y.n) (q₁ : x.n ≤ q.n)
    (q₂ : q.n ≤ y.n) (no : ∀ z, On x y z → ¬ On p q z) :
    decide (0 < lineAt x y p) = decide (0 < lineAt x y q) := by
  have half : ∀ p q : Pt, x.n ≤ p.n → p.n ≤ y.n → x.n ≤ q.n → q.n ≤ y.n →
      (∀ z, On x y z → ¬ On p q z) → 0 < lineAt x y p → 0 < lineAt x y q := by
    intro p q p₁ p₂ q₁ q₂ no hp
    false_or_by_contra
    rename_i k
    have hd : lineAt x y p - lineAt x y q ≠ 0 := by grind
    have hc : lineAt x y p / (lineAt x y p - lineAt x y q) * (lineAt x y p - lineAt x y q) =
      lineAt x y p := Rat.div_mul_cancel hd
    generalize lineAt x y p / (lineAt x y p - lineAt x y q) = t at hc
    have t₀ : 0 ≤ t := Rat.le_of_mul_le_mul_right (c := lineAt x y p - lineAt x y q) (by grind)
      (by grind)
    have t₁ : t ≤ 1 := Rat.le_of_mul_le_mul_right (c := lineAt x y p - lineAt x y q) (by grind)
      (by grind)
    refine no (along p q t) (on_way h ?_ ?_ ?_) ⟨t, t₀, t₁, rfl⟩
    · have k₁ := Rat.mul_nonneg (show 0 ≤ 1 - t by grind) (show 0 ≤ p.n - x.n by grind)
      have k₂ := Rat.mul_nonneg t₀ (show 0 ≤ q.n - x.n by grind)
      simp only [along]; grind
    · have k₁ := Rat.mul_nonneg (show 0 ≤ 1 - t by grind) (show 0 ≤ y.n - p.n by grind)
      have k₂ := Rat.mul_nonneg t₀ (show 0 ≤ y.n - q.n by grind)
      simp only [along]; grind
    · rw [lineAt_along]; grind
  rw [decide_eq_decide]
  exact ⟨half p q p₁ p₂ q₁ q₂ no, half q p q₁ q₂ p₁ p₂ fun z hz k => no z hz k.symm⟩

theorem on_part {a b z : Pt} {t u : Rat} (t₀ : 0 ≤ t) (t₁ : t ≤ 1) (u₀ : 0 ≤ u) (u₁ : u ≤ 1)
    (h : On (along a b t) (along a b u) z) : On a b z := by
  obtain ⟨r, r₀, r₁, rfl⟩ := h
  refine ⟨t + r * (u - t), ?_, ?_, ?_⟩
  · have k₁ := Rat.mul_nonneg (show 0 ≤ 1 - r by grind) t₀
    have k₂ := Rat.mul_nonneg r₀ u₀
    grind
  · have k₁ := Rat.mul_nonneg (show 0 ≤ 1 - r by grind) (show 0 ≤ 1 - t by grind)
    have k₂ := Rat.mul_nonneg r₀ (show 0 ≤ 1 - u by grind)
    grind
  · simp only [along, Pt.mk.injEq]; grind

theorem along_zero (a b : Pt) : along a b 0 = a := by simp only [along]; cases a; grind
theorem along_one (a b : Pt) : along a b 1 = b := by simp only [along]; cases b; grind

/-- A side that does not meet the way. -/
theorem side_apart {x y a b : Pt} (hxy : x.n ≤ y.n) (hab : a.n ≤ b.n)
    (no : ∀ z, On x y z → ¬ On a b z) :
    (hit x a b != hit y a b) = (right x y a != right x y b) := by
  by_cases hs : x.n < y.n
  · by_cases a₁ : a.n ≤ x.n
    · have ra : right x y a = false := by simp [right]; grind
      by_cases b₁ : b.n ≤ x.n
      · have rb : right x y b = false := by simp [right]; grind
        rw [hit_no (by grind) hab, hit_no (by grind) hab, ra, rb]
      · obtain ⟨t, t₀, t₁, ht⟩ := at_height (a := a) (b := b) (y := x.n) (by grind) a₁ (by grind)
        rw [hit_at a₁ (by grind) ht, line_low hs ht, ra]
        by_cases b₂ : b.n ≤ y.n
        · rw [hit_no (by grind) hab]
          have rb : right x y b = decide (0 < lineAt x y b) := by
            simp only [right, decide_eq_decide]; grind
          rw [rb, stays (q := b) hs (by grind) (by grind) (by grind) b₂, bne_swap]
          intro z hz k
          refine no z hz (on_part t₀ t₁ (by decide) (by decide) (u := 1) ?_)
          rw [along_one]; exact k
        · have rb : right x y b = false := by simp [right]; grind
          obtain ⟨u, u₀, u₁, hu⟩ := at_height (a := a) (b := b) (y := y.n) (by grind) (by grind)
            (by grind)
          rw [hit_at (by grind) (by grind) hu, line_high hs hu, rb,
            stays (q := along a b u) hs (by grind) (by grind) (by grind) (by grind)]
          · simp
          · intro z hz k
            exact no z hz (on_part t₀ t₁ u₀ u₁ k)
    · rw [hit_no (x := x) (by grind) hab]
      by_cases a₂ : a.n ≤ y.n
      · have ra : right x y a = decide (0 < lineAt x y a) := by
          simp only [right, decide_eq_decide]; grind
        by_cases b₂ : b.n ≤ y.n
        · have rb : right x y b = decide (0 < lineAt x y b) := by
            simp only [right, decide_eq_decide]; grind
          rw [hit_no (by grind) hab, ra, rb,
            stays (q := b) hs (by grind) (by grind) (by grind) (by grind) no]
          simp
        · have rb : right x y b = false := by simp [right]; grind
          obtain ⟨u, u₀, u₁, hu⟩ := at_height (a := a) (b := b) (y := y.n) (by grind) (by grind)
            (by grind)
          rw [hit_at (by grind) (by grind) hu, line_high hs hu, rb, ra,
            stays (p := a) (q := along a b u) hs (by grind) (by grind) (by grind) (by grind),
            bne_swap]
          intro z hz k
          refine no z hz (on_part (t := 0) (by decide) (by decide) u₀ u₁ ?_)
          rw [along_zero]; exact k
      · have ra : right x y a = false := by simp [right]; grind
        have rb : right x y b = false := by simp [right]; grind
        rw [hit_no (by grind) hab, ra, rb]
  · have e : x.n = y.n := by grind
    have ra : right x y a = false := by simp [right]; grind
    have rb : right x y b = false := by simp [right]; grind
    rw [ra, rb]
    by_cases k : a.n ≤ x.n ∧ x.n < b.n
    · obtain ⟨t, t₀, t₁, ht⟩ := at_height (a := a) (b := b) (y := x.n) (by grind) k.1 (by grind)
      rw [hit_at k.1 k.2 ht, hit_at (by grind) (by grind) (ht.trans e)]
      have : (x.e < (along a b t).e) ↔ (y.e < (along a b t).e) := by
        have on : On a b (along a b t) := ⟨t, t₀, t₁, rfl⟩
        have flat : ∀ x y q : Pt, x.n = y.n → q.n = x.n → x.e < q.e → ¬ y.e < q.e → On x y q := by
          intro x y q e e' h₁ h₂
          have hc : (q.e - x.e) / (y.e - x.e) * (y.e - x.e) = q.e - x.e :=
            Rat.div_mul_cancel (by grind)
          generalize (q.e - x.e) / (y.e - x.e) = r at hc
          refine ⟨r, ?_, ?_, ?_⟩
          · exact Rat.le_of_mul_le_mul_right (c := y.e - x.e) (by grind) (by grind)
          · exact Rat.le_of_mul_le_mul_right (c := y.e - x.e) (by grind) (by grind)
          · cases q; simp only [along, Pt.mk.injEq] at *; grind
        constructor
        · intro h₁
          exact Classical.byContradiction fun h₂ => no _ (flat x y _ e ht h₁ h₂) on
        · intro h₁
          exact Classical.byContradiction fun h₂ =>
            no _ (flat y x _ e.symm (ht.trans e) h₁ h₂).symm on
      simp [this]
    · rw [hit_no k hab, hit_no (by grind) hab]

/-! ### The way crosses a side -/

/-- The segments of `x` and `y` and of `a` and `b` cross each other, at a point inside
both. -/
def Cross (x y a b : Pt) : Prop :=
  lineAt x y a ≠ 0 ∧ ∃ t u, 0 < t ∧ t < 1 ∧ 0 < u ∧ u < 1 ∧ along x y t = along a b u

theorem Cross.swap {x y a b : Pt} (h : Cross x y a b) : Cross y x a b := by
  obtain ⟨h₀, t, u, t₀, t₁, u₀, u₁, e⟩ := h
  refine ⟨fun k => h₀ ?_, 1 - t, u, by grind, by grind, u₀, u₁, ?_⟩
  · simp only [lineAt] at k ⊢; grind
  · rw [← e]; simp only [along, Pt.mk.injEq]; grind

theorem Cross.line {x y a b : Pt} {t u : Rat} (e : along x y t = along a b u) :
    (1 - u) * lineAt x y a + u * lineAt x y b = 0 := by
  rw [← lineAt_along, ← e, lineAt_along]
  simp only [lineAt]; grind

theorem Cross.turn {x y a b : Pt} (h : Cross x y a b) : Cross x y b a := by
  obtain ⟨h₀, t, u, t₀, t₁, u₀, u₁, e⟩ := h
  refine ⟨fun k => h₀ ?_, t, 1 - u, t₀, t₁, by grind, by grind, ?_⟩
  · have := Cross.line e
    rw [k] at this
    have : (1 - u) * lineAt x y a = 0 := by grind
    rcases Rat.mul_eq_zero.mp this with k | k <;> grind
  · rw [e]; simp only [along, Pt.mk.injEq]; grind

theorem mul_sign {a b : Rat} (ha : 0 < a) : 0 < a * b ↔ 0 < b := by
  constructor
  · intro h
    false_or_by_contra
    rename_i k
    have := Rat.mul_nonneg (Rat.le_of_lt ha) (show 0 ≤ -b by grind)
    grind
  · exact Rat.mul_pos ha

theorem less_of_height {a b : Pt} {t u : Rat} (h : a.n < b.n)
    (k : (along a b t).n < (along a b u).n) : t < u := by
  simp only [along] at k
  have := (mul_sign (show 0 < b.n - a.n by grind) (b := u - t)).mp (by grind)
  grind

/-- A side that the way crosses. -/
theorem side_cross {x y a b : Pt} (hxy : x.n ≤ y.n) (hab : a.n ≤ b.n) (hc : Cross x y a b) :
    (hit x a b != hit y a b) = !(right x y a != right x y b) := by
  obtain ⟨h₀, τ, ρ, τ₀, τ₁, ρ₀, ρ₁, e⟩ := hc
  have hl := Cross.line e
  have en : (along x y τ).n = (along a b ρ).n := by rw [e]
  have ee : (along x y τ).e = (along a b ρ).e := by rw [e]
  -- the value along the side, from the crossing
  have val : ∀ t, lineAt x y (along a b t) = (t - ρ) * (lineAt x y b - lineAt x y a) := by
    intro t; rw [lineAt_along]; grind
  have hK : lineAt x y b - lineAt x y a ≠ 0 := by
    intro k
    have : lineAt x y a = 0 := by grind
    exact h₀ this
  have va : lineAt x y a = (0 - ρ) * (lineAt x y b - lineAt x y a) := by grind
  have vb : lineAt x y b = (1 - ρ) * (lineAt x y b - lineAt x y a) := by grind
  have before : ∀ t v, v = (t - ρ) * (lineAt x y b - lineAt x y a) → t < ρ →
      (0 < v ↔ lineAt x y b - lineAt x y a < 0) := by
    intro t v hv ht
    have := mul_sign (show 0 < ρ - t by grind) (b := -(lineAt x y b - lineAt x y a))
    grind
  have after : ∀ t v, v = (t - ρ) * (lineAt x y b - lineAt x y a) → ρ < t →
      (0 < v ↔ 0 < lineAt x y b - lineAt x y a) := by
    intro t v hv ht
    have := mul_sign (show 0 < t - ρ by grind) (b := lineAt x y b - lineAt x y a)
    grind
  have hA := before 0 _ va ρ₀
  have hB := after 1 _ vb ρ₁
  have bound : a.n ≤ (along a b ρ).n ∧ (along a b ρ).n ≤ b.n := by
    have k₁ := Rat.mul_nonneg (Rat.le_of_lt ρ₀) (show 0 ≤ b.n - a.n by grind)
    have k₂ := Rat.mul_nonneg (show 0 ≤ 1 - ρ by grind) (show 0 ≤ b.n - a.n by grind)
    simp only [along]
    grind
  have opp : ∀ p q : Prop, [Decidable p] → [Decidable q] →
      (p ↔ lineAt x y b - lineAt x y a < 0) → (q ↔ 0 < lineAt x y b - lineAt x y a) →
      (decide p = !decide q) := by
    intro p q _ _ hp hq
    by_cases k : 0 < lineAt x y b - lineAt x y a
    · have : ¬ p := by rw [hp]; grind
      simp [this, hq.mpr k]
    · have h₁ : p := by rw [hp]; grind
      have h₂ : ¬ q := by rw [hq]; exact k
      simp [h₁, h₂]
  by_cases hs : x.n < y.n
  · have mid : x.n < (along a b ρ).n ∧ (along a b ρ).n < y.n := by
      rw [← en]
      have k₁ := Rat.mul_pos τ₀ (show 0 < y.n - x.n by grind)
      have k₂ := Rat.mul_pos (show 0 < 1 - τ by grind) (show 0 < y.n - x.n by grind)
      simp only [along]
      grind
    have b₁ : ¬ b.n ≤ x.n := by grind
    have a₂ : a.n ≤ y.n := by grind
    by_cases a₁ : a.n ≤ x.n
    · have ra : right x y a = false := by simp [right]; grind
      obtain ⟨t, t₀, t₁, ht⟩ := at_height (a := a) (b := b) (y := x.n) (by grind) a₁ (by grind)
      have lt := less_of_height (a := a) (b := b) (t := t) (u := ρ) (by grind) (by grind)
      rw [hit_at a₁ (by grind) ht, line_low hs ht, ra]
      by_cases b₂ : b.n ≤ y.n
      · rw [hit_no (by grind) hab]
        have rb : right x y b = decide (0 < lineAt x y b) := by
          simp only [right, decide_eq_decide]; grind
        rw [rb, opp _ _ (before t _ (val t) lt) hB]
        simp
      · have rb : right x y b = false := by simp [right]; grind
        obtain ⟨u, u₀, u₁, hu⟩ := at_height (a := a) (b := b) (y := y.n) (by grind) (by grind)
          (by grind)
        have lu := less_of_height (a := a) (b := b) (t := ρ) (u := u) (by grind) (by grind)
        rw [hit_at (by grind) (by grind) hu, line_high hs hu, rb,
          opp _ _ (before t _ (val t) lt) (after u _ (val u) lu)]
        simp
    · rw [hit_no (x := x) (by grind) hab]
      have ra : right x y a = decide (0 < lineAt x y a) := by
        simp only [right, decide_eq_decide]; grind
      by_cases b₂ : b.n ≤ y.n
      · have rb : right x y b = decide (0 < lineAt x y b) := by
          simp only [right, decide_eq_decide]; grind
        rw [hit_no (by grind) hab, ra, rb, opp _ _ hA hB]
        simp
      · have rb : right x y b = false := by simp [right]; grind
        obtain ⟨u, u₀, u₁, hu⟩ := at_height (a := a) (b := b) (y := y.n) (by grind) (by grind)
          (by grind)
        have lu := less_of_height (a := a) (b := b) (t := ρ) (u := u) (by grind) (by grind)
        rw [hit_at (by grind) (by grind) hu, line_high hs hu, rb, ra,
          opp _ _ hA (after u _ (val u) lu)]
        simp
  · have exy : x.n = y.n := by grind
    have ra : right x y a = false := by simp [right]; grind
    have rb : right x y b = false := by simp [right]; grind
    have cn : (along a b ρ).n = x.n := by rw [← en]; simp only [along]; grind
    have hlt : a.n < b.n := by
      false_or_by_contra
      rename_i k
      have k₁ : a.n = b.n := by grind
      have k₂ : a.n = x.n := by simp only [along] at cn; grind
      apply h₀
      simp only [lineAt]; grind
    have ha : a.n ≤ x.n := by grind
    have hb : x.n < b.n := by
      have := Rat.mul_pos (show 0 < 1 - ρ by grind) (show 0 < b.n - a.n by grind)
      simp only [along] at cn
      grind
    rw [ra, rb, hit_at ha hb cn, hit_at (by grind) (by grind) (cn.trans exy), ← ee]
    have hne : y.e - x.e ≠ 0 := by
      intro k
      apply h₀
      simp only [lineAt]; grind
    have : x.e < (along x y τ).e ↔ ¬ y.e < (along x y τ).e := by
      simp only [along]
      by_cases k : 0 < y.e - x.e
      · have k₁ := Rat.mul_pos τ₀ k
        have k₂ := Rat.mul_pos (show 0 < 1 - τ by grind) k
        grind
      · have k₁ := Rat.mul_pos τ₀ (show 0 < x.e - y.e by grind)
        have k₂ := Rat.mul_pos (show 0 < 1 - τ by grind) (show 0 < x.e - y.e by grind)
        grind
    by_cases k : y.e < (along x y τ).e <;> simp [this, k]

/-! ### The whole polygon -/

theorem right_swap (x y a b : Pt) : (right x y a != right x y b) = (right x y b != right x y a) :=
  bne_swap _ _

theorem side_apart' {x y a b : Pt} (hxy : x.n ≤ y.n) (no : ∀ z, On x y z → ¬ On a b z) :
    (hit x a b != hit y a b) = (right x y a != right x y b) := by
  rcases Rat.le_total (a := a.n) (b := b.n) with h | h
  · exact side_apart hxy h no
  · rw [hit_comm x, hit_comm y, right_swap]
    exact side_apart hxy h fun z hz k => no z hz k.symm

theorem side_cross' {x y a b : Pt} (hxy : x.n ≤ y.n) (h : Cross x y a b) :
    (hit x a b != hit y a b) = !(right x y a != right x y b) := by
  rcases Rat.le_total (a := a.n) (b := b.n) with k | k
  · exact side_cross hxy k h
  · rw [hit_comm x, hit_comm y, right_swap]
    exact side_cross hxy k h.turn

theorem odd_bne (x y : Pt) (poly : Poly) : (odd x poly != odd y poly) =
    decide (((sides poly).countP fun s => hit x s.1 s.2 != hit y s.1 s.2) % 2 = 1) := by
  rw [odd_iff, odd_iff, ← countP_xor]
  generalize (sides poly).countP (fun s => hit x s.1 s.2) = m
  generalize (sides poly).countP (fun s => hit y s.1 s.2) = n
  rcases Nat.mod_two_eq_zero_or_one m with h | h <;>
    rcases Nat.mod_two_eq_zero_or_one n with k | k <;> simp [h, k, Nat.add_mod]

theorem odd_apart {x y : Pt} {poly : Poly}
    (no : ∀ s ∈ sides poly, ∀ z, On x y z → ¬ On s.1 s.2 z) : odd x poly = odd y poly := by
  have main : ∀ x y : Pt, x.n ≤ y.n → (∀ s ∈ sides poly, ∀ z, On x y z → ¬ On s.1 s.2 z) →
      odd x poly = odd y poly := by
    intro x y hxy no
    have := odd_bne x y poly
    rw [List.countP_congr (q := fun s => right x y s.1 != right x y s.2) fun s hs => by
      rw [side_apart' hxy (no s hs)], change_even] at this
    simpa using this
  rcases Rat.le_total (a := x.n) (b := y.n) with h | h
  · exact main x y h no
  · exact (main y x h fun s hs z hz => no s hs z hz.symm).symm

theorem odd_cross {x y : Pt} {l r : List (Pt × Pt)} {s : Pt × Pt} {poly : Poly}
    (hp : sides poly = l ++ s :: r) (hc : Cross x y s.1 s.2)
    (no : ∀ u ∈ l ++ r, ∀ z, On x y z → ¬ On u.1 u.2 z) : odd x poly = !odd y poly := by
  have main : ∀ x y : Pt, x.n ≤ y.n → Cross x y s.1 s.2 →
      (∀ u ∈ l ++ r, ∀ z, On x y z → ¬ On u.1 u.2 z) → odd x poly = !odd y poly := by
    intro x y hxy hc no
    have := odd_bne x y poly
    have ev := change_even (right x y) poly
    rw [hp] at this ev
    rw [List.countP_append, List.countP_cons] at this ev
    rw [List.countP_congr (l := l) (q := fun s => right x y s.1 != right x y s.2) fun s hs => by
        rw [side_apart' hxy (no s (List.mem_append_left _ hs))],
      List.countP_congr (l := r) (q := fun s => right x y s.1 != right x y s.2) fun s hs => by
        rw [side_apart' hxy (no s (List.mem_append_right _ hs))], side_cross' hxy hc] at this
    generalize l.countP (fun s => right x y s.1 != right x y s.2) = m at *
    generalize r.countP (fun s => right x y s.1 != right x y s.2) = n at *
    have : (odd x poly != odd y poly) = true := by
      rw [this, decide_eq_true_iff]
      generalize (right x y s.1 != right x y s.2) = d at *
      cases d
      · rw [if_neg (by decide)] at ev
        rw [if_pos (by decide)]
        omega
      · rw [if_pos (by decide)] at ev
        rw [if_neg (by decide)]
        omega
    revert this
    cases odd x poly <;> cases odd y poly <;> simp
  rcases Rat.le_total (a := x.n) (b := y.n) with h | h
  · exact main x y h hc no
  · rw [main y x h hc.swap fun u hu z hz => no u hu z hz.symm]
    simp

end Verif.Visilib
