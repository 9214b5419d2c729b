/-
C116: whether a point is in a polygon.
-/
import Verif.Visilib.Segment
import Verif.Visibility.KeepIn
import Verif.Visibility.Classify

namespace Verif.Visilib

open Verif.Visibility (Pt along lineAt Convex Inside Closed legs)
open Verif.RoutePlanner (Poly)

/-! ### The sides, backwards -/

/-- The ray is within the height of the side. -/
def spans (y : Rat) (s : Pt × Pt) : Bool := decide (s.1.n ≤ y) != decide (s.2.n ≤ y)

theorem hit_comm (p a b : Pt) : hit p a b = hit p b a := by
  unfold hit
  by_cases h : a.n = b.n
  · rw [h]
    have : ¬ (b.n ≤ p.n ∧ p.n < b.n) := by grind
    simp [this]
  · rw [Bool.or_comm]
    congr 1
    have h₁ : b.n - a.n ≠ 0 := by grind
    have h₂ : a.n - b.n ≠ 0 := by grind
    have e₁ : (b.e - a.e) * (p.n - a.n) / (b.n - a.n) * (b.n - a.n) = (b.e - a.e) * (p.n - a.n) :=
      Rat.div_mul_cancel h₁
    have e₂ : (a.e - b.e) * (p.n - b.n) / (a.n - b.n) * (a.n - b.n) = (a.e - b.e) * (p.n - b.n) :=
      Rat.div_mul_cancel h₂
    have : (b.e - a.e) * (p.n - a.n) / (b.n - a.n) + a.e =
        (a.e - b.e) * (p.n - b.n) / (a.n - b.n) + b.e := by
      generalize (b.e - a.e) * (p.n - a.n) / (b.n - a.n) = x at *
      generalize (a.e - b.e) * (p.n - b.n) / (a.n - b.n) = y at *
      have : (x + a.e - (y + b.e)) * (b.n - a.n) = 0 := by grind
      rcases Rat.mul_eq_zero.mp this with h | h <;> grind
    rw [this]

theorem zip_legs (l : List Pt) (a z w : Pt) :
    (l ++ [z]).zip (a :: (l ++ [w])) = (legs (a :: l ++ [z])).map fun s => (s.2, s.1) := by
  induction l generalizing a with
  | nil => rfl
  | cons b l ih => rw [List.cons_append, List.cons_append, List.zip_cons_cons, ih]; rfl

theorem fold_odd {α : Type} (f : α → Bool) (l : List α) (c : Bool) :
    l.foldl (fun c s => if f s then !c else c) c = (c != decide (l.countP f % 2 = 1)) := by
  induction l generalizing c with
  | nil => simp
  | cons a l ih =>
    rw [List.foldl_cons, ih, List.countP_cons]
    cases f a with
    | false => simp
    | true =>
      simp only [↓reduceIte]
      rcases Nat.mod_two_eq_zero_or_one (l.countP f) with h | h
      · have : (l.countP f + 1) % 2 = 1 := by omega
        cases c <;> simp [h, this]
      · have : (l.countP f + 1) % 2 = 0 := by omega
        cases c <;> simp [h, this]

theorem backSides_count (p : Pt) (poly : Poly) :
    (backSides poly).countP (fun s => hit p s.1 s.2) = (sides poly).countP (fun s => hit p s.1 s.2) := by
  rcases List.eq_nil_or_concat poly with rfl | ⟨l, z, rfl⟩
  · rfl
  · rw [List.concat_eq_append]
    have e : backSides (l ++ [z]) = (legs (z :: l ++ [z])).map fun s => (s.2, s.1) := by
      unfold backSides
      rw [List.length_append, List.length_singleton, Nat.add_sub_cancel, List.drop_left,
        List.singleton_append, zip_legs]
    rw [e, List.countP_map]
    have f : ((fun s : Pt × Pt => hit p s.1 s.2) ∘ fun s : Pt × Pt => (s.2, s.1)) = fun s : Pt × Pt => hit p s.1 s.2 := by
      funext s; exact hit_comm p _ _
    rw [f]
    cases l with
    | nil => rfl
    | cons a l =>
      have g : sides (a :: l ++ [z]) = legs (a :: l ++ [z]) ++ [(z, a)] := by
        rw [sides_eq, ← Visibility.legs_snoc]
        exact (Visibility.legs_sides a (l ++ [z])).symm.trans (by simp)
      rw [g]
      show ((z, a) :: legs (a :: l ++ [z])).countP _ = _
      rw [List.countP_cons, List.countP_append, List.countP_singleton]

theorem odd_iff (p : Pt) (poly : Poly) :
    odd p poly = decide ((sides poly).countP (fun s => hit p s.1 s.2) % 2 = 1) := by
  unfold odd
  rw [fold_odd, backSides_count]
  simp

/-! ### A closed way crosses a height an even number of times -/

theorem spans_legs (y : Rat) (l : List Pt) (a z : Pt) :
    (legs (a :: l ++ [z])).countP (spans y) % 2 =
      if decide (a.n ≤ y) = decide (z.n ≤ y) then 0 else 1 := by
  induction l generalizing a with
  | nil =>
    show ([(a, z)] : List (Pt × Pt)).countP (spans y) % 2 = _
    rw [List.countP_singleton]
    unfold spans
    by_cases h : decide (a.n ≤ y) = decide (z.n ≤ y) <;> simp [h]
  | cons b l ih =>
    show ((a, b) :: legs (b :: l ++ [z])).countP (spans y) % 2 = _
    rw [List.countP_cons, Nat.add_mod, ih]
    unfold spans
    cases decide (a.n ≤ y) <;> cases decide (b.n ≤ y) <;> cases decide (z.n ≤ y) <;> simp

theorem spans_even (y : Rat) (poly : Poly) : (sides poly).countP (spans y) % 2 = 0 := by
  cases poly with
  | nil => rfl
  | cons a l => rw [sides_eq, ← Visibility.legs_sides, spans_legs]; simp

theorem spans_iff {y : Rat} {s : Pt × Pt} : spans y s = true ↔
    (s.1.n ≤ y ∧ y < s.2.n) ∨ (s.2.n ≤ y ∧ y < s.1.n) := by
  unfold spans
  by_cases h₁ : s.1.n ≤ y <;> by_cases h₂ : s.2.n ≤ y <;> simp [h₁, h₂] <;> grind

/-- Where the side is at the height of the ray. -/
theorem hit_iff {p a b : Pt} : hit p a b = true ↔ spans p.n (a, b) = true ∧
    ∃ t, 0 ≤ t ∧ t ≤ 1 ∧ p.n = (along a b t).n ∧ p.e < (along a b t).e := by
  unfold hit
  rw [Bool.and_eq_true, Bool.or_eq_true, decide_eq_true_iff, decide_eq_true_iff,
    decide_eq_true_iff, spans_iff]
  dsimp only
  refine and_congr_right fun hs => ?_
  have h₁ : b.n - a.n ≠ 0 := by grind
  have e₁ : (p.n - a.n) / (b.n - a.n) * (b.n - a.n) = p.n - a.n := Rat.div_mul_cancel h₁
  have e₂ : (b.e - a.e) * (p.n - a.n) / (b.n - a.n) = (b.e - a.e) * ((p.n - a.n) / (b.n - a.n)) := by
    rw [Rat.div_def, Rat.div_def, Rat.mul_assoc]
  rw [e₂]
  generalize (p.n - a.n) / (b.n - a.n) = t at *
  have ht : 0 ≤ t ∧ t ≤ 1 := by
    rcases hs with hs | hs
    · have hd : 0 < b.n - a.n := by grind
      constructor
      · exact Rat.le_of_mul_le_mul_right (c := b.n - a.n) (by grind) hd
      · exact Rat.le_of_mul_le_mul_right (c := b.n - a.n) (by grind) hd
    · have hd : 0 < a.n - b.n := by grind
      constructor
      · exact Rat.le_of_mul_le_mul_right (c := a.n - b.n) (by grind) hd
      · exact Rat.le_of_mul_le_mul_right (c := a.n - b.n) (by grind) hd
  constructor
  · intro h
    exact ⟨t, ht.1, ht.2, by simp only [along]; grind, by simp only [along]; grind⟩
  · rintro ⟨u, -, -, hn, he⟩
    simp only [along] at hn he
    have : (u - t) * (b.n - a.n) = 0 := by grind
    have : u = t := by
      rcases Rat.mul_eq_zero.mp this with h | h <;> grind
    subst this
    grind

/-! ### A point apart from the polygon -/

/-- If a line separates the point from every corner, the ray crosses an even number
of sides. -/
theorem odd_separated {α β : Rat} {x : Pt} {vs : Poly}
    (h : ∀ v ∈ vs, 0 < α * (v.e - x.e) + β * (v.n - x.n)) : odd x vs = false := by
  have key : ∀ s ∈ sides vs, hit x s.1 s.2 = (decide (0 < α) && spans x.n s) := by
    intro s hs
    have hs' := hs
    rw [sides_eq] at hs'
    obtain ⟨i, hi, e₁, e₂⟩ := Visibility.mem_sides hs'
    have p₁ := h s.1 (e₁ ▸ List.getElem_mem _)
    have p₂ := h s.2 (e₂ ▸ List.getElem_mem _)
    rw [Bool.eq_iff_iff, hit_iff, Bool.and_eq_true, decide_eq_true_iff]
    constructor
    · rintro ⟨hsp, t, t₀, t₁, hn, he⟩
      refine ⟨?_, hsp⟩
      false_or_by_contra
      rename_i k
      simp only [along] at hn he
      have q₁ := Rat.mul_nonneg (show 0 ≤ 1 - t by grind) (Rat.le_of_lt p₁)
      have q₂ := Rat.mul_nonneg t₀ (Rat.le_of_lt p₂)
      have q₃ := Rat.mul_nonneg (show 0 ≤ -α by grind)
        (Rat.le_of_lt (show 0 < s.1.e + t * (s.2.e - s.1.e) - x.e by grind))
      have e : (1 - t) * (α * (s.1.e - x.e) + β * (s.1.n - x.n)) +
          t * (α * (s.2.e - x.e) + β * (s.2.n - x.n)) =
          α * (s.1.e + t * (s.2.e - s.1.e) - x.e) + β * (s.1.n + t * (s.2.n - s.1.n) - x.n) := by
        grind
      rw [show s.1.n + t * (s.2.n - s.1.n) - x.n = 0 by grind, Rat.mul_zero] at e
      rcases Rat.le_total (a := t) (b := 1 / 2) with ht | ht
      · have := Rat.mul_pos (show 0 < 1 - t by grind) p₁
        grind
      · have := Rat.mul_pos (show 0 < t by grind) p₂
        grind
    · rintro ⟨ha, hsp⟩
      refine ⟨hsp, ?_⟩
      have hd : s.2.n - s.1.n ≠ 0 := by
        have := spans_iff.mp hsp
        grind
      have hc : (x.n - s.1.n) / (s.2.n - s.1.n) * (s.2.n - s.1.n) = x.n - s.1.n :=
        Rat.div_mul_cancel hd
      generalize (x.n - s.1.n) / (s.2.n - s.1.n) = t at hc
      have ht : 0 ≤ t ∧ t ≤ 1 := by
        rcases spans_iff.mp hsp with k | k
        · constructor
          · exact Rat.le_of_mul_le_mul_right (c := s.2.n - s.1.n) (by grind) (by grind)
          · exact Rat.le_of_mul_le_mul_right (c := s.2.n - s.1.n) (by grind) (by grind)
        · constructor
          · exact Rat.le_of_mul_le_mul_right (c := s.1.n - s.2.n) (by grind) (by grind)
          · exact Rat.le_of_mul_le_mul_right (c := s.1.n - s.2.n) (by grind) (by grind)
      refine ⟨t, ht.1, ht.2, by simp only [along]; grind, ?_⟩
      simp only [along]
      have e : (1 - t) * (α * (s.1.e - x.e) + β * (s.1.n - x.n)) +
          t * (α * (s.2.e - x.e) + β * (s.2.n - x.n)) =
          α * (s.1.e + t * (s.2.e - s.1.e) - x.e) + β * (s.1.n + t * (s.2.n - s.1.n) - x.n) := by
        grind
      rw [show s.1.n + t * (s.2.n - s.1.n) - x.n = 0 by grind, Rat.mul_zero] at e
      have q₁ := Rat.mul_nonneg (show 0 ≤ 1 - t by grind) (Rat.le_of_lt p₁)
      have q₂ := Rat.mul_nonneg ht.1 (Rat.le_of_lt p₂)
      have : 0 < α * (s.1.e + t * (s.2.e - s.1.e) - x.e) := by
        rcases Rat.le_total (a := t) (b := 1 / 2) with ht | ht
        · have := Rat.mul_pos (show 0 < 1 - t by grind) p₁
          grind
        · have := Rat.mul_pos (show 0 < t by grind) p₂
          grind
      false_or_by_contra
      rename_i k
      have := Rat.mul_nonneg (Rat.le_of_lt ha)
        (show 0 ≤ -(s.1.e + t * (s.2.e - s.1.e) - x.e) by grind)
      grind
  rw [odd_iff, List.countP_congr (q := fun s => decide (0 < α) && spans x.n s)
    fun s hs => by rw [key s hs]]
  by_cases ha : 0 < α
  · have := spans_even x.n vs
    simp [ha]
    omega
  · simp [ha]

/-! ### A point inside a convex polygon -/

theorem exists_change {P : Pt → Prop} {vs : Poly} {a b : Pt} (ha : a ∈ vs) (hb : b ∈ vs)
    (pa : P a) (pb : ¬ P b) : ∃ s ∈ sides vs, P s.1 ∧ ¬ P s.2 := by
  false_or_by_contra
  rename_i k
  have step : ∀ s ∈ sides vs, P s.1 → P s.2 := fun s hs h₁ =>
    Classical.byContradiction fun h₂ => k ⟨s, hs, h₁, h₂⟩
  obtain ⟨i, hi, e₁⟩ := List.mem_iff_getElem.mp ha
  obtain ⟨j, hj, e₂⟩ := List.mem_iff_getElem.mp hb
  have hn : 0 < vs.length := by omega
  have all : ∀ m, P (vs[(i + m) % vs.length]'(Nat.mod_lt _ hn)) := by
    intro m
    induction m with
    | zero => simp only [Nat.add_zero, Nat.mod_eq_of_lt hi]; rw [e₁]; exact pa
    | succ m ih =>
      have := step _ (Visibility.side_mem vs _ (Nat.mod_lt (i + m) hn)) ih
      simp only [Nat.mod_add_mod] at this
      exact this
  have := all (vs.length - i + j)
  have e : (i + (vs.length - i + j)) % vs.length = j := by
    rw [show i + (vs.length - i + j) = j + vs.length by omega, Nat.add_mod_right,
      Nat.mod_eq_of_lt hj]
  simp only [e, e₂] at this
  exact pb this

/-- `σ` and the direction of the side together: the side that a ray to the right
leaves the inside through. -/
def leaves (σ : Rat) (y : Rat) (s : Pt × Pt) : Prop :=
  spans y s = true ∧ σ * (s.2.n - s.1.n) < 0

theorem hit_inside {σ : Rat} {vs : Poly} {x : Pt} (h : Inside σ vs x) {s : Pt × Pt}
    (hs : s ∈ sides vs) : hit x s.1 s.2 = true ↔ leaves σ x.n s := by
  have hi := h s hs
  rw [hit_iff]
  unfold leaves
  refine and_congr_right fun hsp => ?_
  have line : ∀ t, x.n = (along s.1 s.2 t).n →
      σ * lineAt s.1 s.2 x = σ * (s.2.n - s.1.n) * (x.e - (along s.1 s.2 t).e) := by
    intro t ht
    simp only [along] at ht
    simp only [lineAt, along]
    grind
  constructor
  · rintro ⟨t, -, -, hn, he⟩
    rw [line t hn] at hi
    false_or_by_contra
    rename_i k
    have := Rat.mul_nonneg (show 0 ≤ σ * (s.2.n - s.1.n) by grind)
      (show 0 ≤ (along s.1 s.2 t).e - x.e by grind)
    grind
  · intro hl
    have hd : s.2.n - s.1.n ≠ 0 := by grind
    have hc : (x.n - s.1.n) / (s.2.n - s.1.n) * (s.2.n - s.1.n) = x.n - s.1.n :=
      Rat.div_mul_cancel hd
    generalize (x.n - s.1.n) / (s.2.n - s.1.n) = t at hc
    have ht : 0 ≤ t ∧ t ≤ 1 := by
      rcases spans_iff.mp hsp with k | k
      · constructor
        · exact Rat.le_of_mul_le_mul_right (c := s.2.n - s.1.n) (by grind) (by grind)
        · exact Rat.le_of_mul_le_mul_right (c := s.2.n - s.1.n) (by grind) (by grind)
      · constructor
        · exact Rat.le_of_mul_le_mul_right (c := s.1.n - s.2.n) (by grind) (by grind)
        · exact Rat.le_of_mul_le_mul_right (c := s.1.n - s.2.n) (by grind) (by grind)
    have hn : x.n = (along s.1 s.2 t).n := by simp only [along]; grind
    refine ⟨t, ht.1, ht.2, hn, ?_⟩
    rw [line t hn] at hi
    false_or_by_contra
    rename_i k
    have := Rat.mul_nonneg (show 0 ≤ -(σ * (s.2.n - s.1.n)) by grind)
      (show 0 ≤ x.e - (along s.1 s.2 t).e by grind)
    grind

/-- Of the corners of a convex polygon, one is above a point inside it and one is
not. -/
theorem below {σ : Rat} {vs : Poly} {x : Pt} (hc : Convex σ vs) (h : Inside σ vs x) :
    (∃ a ∈ vs, a.n ≤ x.n) ∧ ∃ b ∈ vs, ¬ b.n ≤ x.n := by
  have hne : vs ≠ [] := by
    intro e
    have := hc.1
    rw [e] at this
    simp at this
  have corner : ∀ m ∈ vs, ∃ o q, o ∈ vs ∧ q ∈ vs ∧ 0 < σ * lineAt o m q ∧
      0 < σ * lineAt o m x ∧ 0 < σ * lineAt m q x := by
    intro m hm
    obtain ⟨i, hi, e⟩ := List.mem_iff_getElem.mp hm
    have hs := Visibility.side_mem vs i hi
    obtain ⟨⟨w, hw, ht⟩, -⟩ := hc.turns hs
    dsimp only at hw ht
    rw [e] at hs hw ht
    refine ⟨w, _, ?_, List.getElem_mem _, ht, h _ hw, h _ hs⟩
    obtain ⟨j, hj, e₁, -⟩ := Visibility.mem_sides hw
    exact (show w = vs[j] from e₁) ▸ List.getElem_mem _
  -- the cross product identity, in heights
  have ident : ∀ o m q : Pt, σ * lineAt o m q * (x.n - m.n) =
      σ * lineAt o m x * (q.n - m.n) - σ * lineAt m q x * (m.n - o.n) := by
    intro o m q
    simp only [lineAt]
    grind
  constructor
  · obtain ⟨m, hm, hmax⟩ := Visibility.exists_greatest (fun v : Pt => -v.n) vs hne
    refine ⟨m, hm, ?_⟩
    obtain ⟨o, q, ho, hq, h₁, h₂, h₃⟩ := corner m hm
    have k₁ := hmax o ho
    have k₂ := hmax q hq
    have id := ident o m q
    false_or_by_contra
    rename_i k
    have r₁ := Rat.mul_pos h₁ (show 0 < m.n - x.n by grind)
    have r₂ := Rat.mul_nonneg (Rat.le_of_lt h₂) (show 0 ≤ q.n - m.n by grind)
    have r₃ := Rat.mul_nonneg (Rat.le_of_lt h₃) (show 0 ≤ o.n - m.n by grind)
    grind
  · obtain ⟨m, hm, hmax⟩ := Visibility.exists_greatest (fun v : Pt => v.n) vs hne
    refine ⟨m, hm, ?_⟩
    obtain ⟨o, q, ho, hq, h₁, h₂, h₃⟩ := corner m hm
    have k₁ := hmax o ho
    have k₂ := hmax q hq
    have id := ident o m q
    intro k
    have r₁ := Rat.mul_nonneg (Rat.le_of_lt h₁) (show 0 ≤ x.n - m.n by grind)
    have r₂ := Rat.mul_nonneg (Rat.le_of_lt h₂) (show 0 ≤ m.n - q.n by grind)
    have r₃ := Rat.mul_nonneg (Rat.le_of_lt h₃) (show 0 ≤ m.n - o.n by grind)
    have z₂ : σ * lineAt o m x * (q.n - m.n) = 0 := by grind
    have z₃ : σ * lineAt m q x * (m.n - o.n) = 0 := by grind
    have y₂ : q.n - m.n = 0 := by rcases Rat.mul_eq_zero.mp z₂ with h | h <;> grind
    have y₃ : m.n - o.n = 0 := by rcases Rat.mul_eq_zero.mp z₃ with h | h <;> grind
    have e₂ : q.n = m.n := by grind
    have e₃ : o.n = m.n := by grind
    have : lineAt o m q = 0 := by simp only [lineAt, e₂, e₃]; grind
    rw [this] at h₁
    grind

/-- Two sides that the ray leaves through are the same. -/
theorem leaves_unique {σ y : Rat} {vs : Poly} (hc : Convex σ vs) {s u : Pt × Pt}
    (hs : s ∈ sides vs) (hu : u ∈ sides vs) (ls : leaves σ y s) (lu : leaves σ y u) :
    s.1 = u.1 := by
  false_or_by_contra
  rename_i hne
  obtain ⟨i, hi, a₁, a₂⟩ := Visibility.mem_sides hs
  obtain ⟨j, hj, b₁, b₂⟩ := Visibility.mem_sides hu
  have hij : i ≠ j := by
    intro e
    subst e
    exact hne (a₁.trans b₁.symm)
  have hn : 0 < vs.length := by omega
  have hne₂ : s.2 ≠ u.2 := by
    rw [a₂, b₂]
    apply Visibility.nodup_ne hc.2.1 (Nat.mod_lt _ hn) (Nat.mod_lt _ hn)
    intro e
    apply hij
    have e₁ : (i + 1) % vs.length = if i + 1 = vs.length then 0 else i + 1 := by
      split
      · rename_i k; rw [k, Nat.mod_self]
      · exact Nat.mod_eq_of_lt (by omega)
    have e₂ : (j + 1) % vs.length = if j + 1 = vs.length then 0 else j + 1 := by
      split
      · rename_i k; rw [k, Nat.mod_self]
      · exact Nat.mod_eq_of_lt (by omega)
    rw [e₁, e₂] at e
    split at e <;> split at e <;> omega
  have ms₁ : s.1 ∈ vs := a₁ ▸ List.getElem_mem _
  have ms₂ : s.2 ∈ vs := a₂ ▸ List.getElem_mem _
  have mu₁ : u.1 ∈ vs := b₁ ▸ List.getElem_mem _
  have mu₂ : u.2 ∈ vs := b₂ ▸ List.getElem_mem _
  -- both go up or both go down
  have same : (s.1.n ≤ y ∧ y < s.2.n ∧ u.1.n ≤ y ∧ y < u.2.n) ∨
      (s.2.n ≤ y ∧ y < s.1.n ∧ u.2.n ≤ y ∧ y < u.1.n) := by
    have no : ∀ p q : Rat, 0 < p → 0 < q → σ * p < 0 → σ * (-q) < 0 → False := by
      intro p q hp hq h₁ h₂
      rcases Rat.le_total (a := σ) (b := 0) with k | k
      · have := Rat.mul_nonneg (show 0 ≤ -σ by grind) (Rat.le_of_lt hq); grind
      · have := Rat.mul_nonneg k (Rat.le_of_lt hp); grind
    rcases spans_iff.mp ls.1 with k | k <;> rcases spans_iff.mp lu.1 with k' | k'
    · exact .inl ⟨k.1, k.2, k'.1, k'.2⟩
    · exact absurd (no (s.2.n - s.1.n) (u.1.n - u.2.n) (by grind) (by grind) ls.2
        (by have := lu.2; grind)) id
    · exact absurd (no (u.2.n - u.1.n) (s.1.n - s.2.n) (by grind) (by grind) lu.2
        (by have := ls.2; grind)) id
    · exact .inr ⟨k.1, k.2, k'.1, k'.2⟩
  have d₁ : s.1 ≠ u.2 := by intro e; rw [e] at same; grind
  have d₂ : s.2 ≠ u.1 := by intro e; rw [e] at same; grind
  have f₁ := hc.2.2 s hs u.1 mu₁ (Ne.symm hne) (Ne.symm d₂)
  have f₂ := hc.2.2 s hs u.2 mu₂ (Ne.symm d₁) (Ne.symm hne₂)
  have f₃ := hc.2.2 u hu s.1 ms₁ hne d₁
  have f₄ := hc.2.2 u hu s.2 ms₂ d₂ hne₂
  -- where each is at the height
  have at' : ∀ w : Pt × Pt, spans y w = true → ∃ t, 0 ≤ t ∧ t ≤ 1 ∧ (along w.1 w.2 t).n = y := by
    intro w hw
    have hd : w.2.n - w.1.n ≠ 0 := by
      have := spans_iff.mp hw
      grind
    have hc : (y - w.1.n) / (w.2.n - w.1.n) * (w.2.n - w.1.n) = y - w.1.n :=
      Rat.div_mul_cancel hd
    generalize (y - w.1.n) / (w.2.n - w.1.n) = t at hc
    refine ⟨t, ?_, ?_, by simp only [along]; grind⟩
    · rcases spans_iff.mp hw with k | k
      · exact Rat.le_of_mul_le_mul_right (c := w.2.n - w.1.n) (by grind) (by grind)
      · exact Rat.le_of_mul_le_mul_right (c := w.1.n - w.2.n) (by grind) (by grind)
    · rcases spans_iff.mp hw with k | k
      · exact Rat.le_of_mul_le_mul_right (c := w.2.n - w.1.n) (by grind) (by grind)
      · exact Rat.le_of_mul_le_mul_right (c := w.1.n - w.2.n) (by grind) (by grind)
  obtain ⟨t, t₀, t₁, ht⟩ := at' s ls.1
  obtain ⟨r, r₀, r₁, hr⟩ := at' u lu.1
  have mix : ∀ (a b c d : Pt) (t : Rat), 0 ≤ t → t ≤ 1 → 0 < σ * lineAt a b c →
      0 < σ * lineAt a b d → 0 < σ * lineAt a b (along c d t) := by
    intro a b c d t t₀ t₁ h₁ h₂
    have e : σ * lineAt a b (along c d t) =
        (1 - t) * (σ * lineAt a b c) + t * (σ * lineAt a b d) := by
      simp only [lineAt, along]; grind
    rw [e]
    have q₁ := Rat.mul_nonneg (show 0 ≤ 1 - t by grind) (Rat.le_of_lt h₁)
    have q₂ := Rat.mul_nonneg t₀ (Rat.le_of_lt h₂)
    rcases Rat.le_total (a := t) (b := 1 / 2) with k | k
    · have := Rat.mul_pos (show 0 < 1 - t by grind) h₁
      grind
    · have := Rat.mul_pos (show 0 < t by grind) h₂
      grind
  have g₁ := mix s.1 s.2 u.1 u.2 r r₀ r₁ f₁ f₂
  have g₂ := mix u.1 u.2 s.1 s.2 t t₀ t₁ f₃ f₄
  have line : ∀ (w : Pt × Pt) (t : Rat) (z : Pt), (along w.1 w.2 t).n = z.n →
      σ * lineAt w.1 w.2 z = σ * (w.2.n - w.1.n) * (z.e - (along w.1 w.2 t).e) := by
    intro w t z ht
    simp only [along] at ht
    simp only [lineAt, along]
    grind
  rw [line s t _ (ht.trans hr.symm)] at g₁
  rw [line u r _ (hr.trans ht.symm)] at g₂
  generalize (along s.1 s.2 t).e = E at *
  generalize (along u.1 u.2 r).e = F at *
  have l₁ := ls.2
  have l₂ := lu.2
  rcases Rat.le_total (a := E) (b := F) with k | k
  · have := Rat.mul_nonneg (show 0 ≤ -(σ * (s.2.n - s.1.n)) by grind) (show 0 ≤ F - E by grind)
    grind
  · have := Rat.mul_nonneg (show 0 ≤ -(σ * (u.2.n - u.1.n)) by grind) (show 0 ≤ E - F by grind)
    grind

theorem countP_one {α β : Type} (p : α → Bool) (f : α → β) (l : List α) (hd : (l.map f).Nodup)
    {x : α} (hx : x ∈ l) (px : p x = true) (hu : ∀ y ∈ l, p y = true → f y = f x) :
    l.countP p = 1 := by
  induction l with
  | nil => cases hx
  | cons a l ih =>
    rw [List.map_cons, List.nodup_cons] at hd
    rw [List.countP_cons]
    rcases List.mem_cons.mp hx with rfl | hx
    · rw [if_pos px, List.countP_eq_zero.mpr]
      intro y hy py
      apply hd.1
      rw [← hu y (List.mem_cons_of_mem _ hy) py]
      exact List.mem_map_of_mem hy
    · rw [ih hd.2 hx fun y hy => hu y (List.mem_cons_of_mem _ hy)]
      have : ¬ p a = true := by
        intro pa
        apply hd.1
        rw [hu a List.mem_cons_self pa]
        exact List.mem_map_of_mem hx
      rw [if_neg this]

theorem odd_inside {σ : Rat} {vs : Poly} {x : Pt} (hc : Convex σ vs) (h : Inside σ vs x) :
    odd x vs = true := by
  obtain ⟨⟨a, ha, ka⟩, b, hb, kb⟩ := below hc h
  have ex : ∃ s ∈ sides vs, leaves σ x.n s := by
    have hσ : σ ≠ 0 := by
      intro e
      have hn : 0 < vs.length := by have := hc.1; omega
      have := h _ (Visibility.side_mem vs 0 hn)
      rw [e] at this
      grind
    by_cases k : 0 < σ
    · obtain ⟨s, hs, h₁, h₂⟩ := exists_change (P := fun v => ¬ v.n ≤ x.n) hb ha kb
        (fun h => h ka)
      refine ⟨s, hs, spans_iff.mpr (.inr (by grind)), ?_⟩
      have := Rat.mul_pos k (show 0 < s.1.n - s.2.n by grind)
      grind
    · obtain ⟨s, hs, h₁, h₂⟩ := exists_change (P := fun v => v.n ≤ x.n) ha hb ka kb
      refine ⟨s, hs, spans_iff.mpr (.inl (by grind)), ?_⟩
      have := Rat.mul_pos (show 0 < -σ by grind) (show 0 < s.2.n - s.1.n by grind)
      grind
  obtain ⟨s, hs, hl⟩ := ex
  have hd : ((sides vs).map Prod.fst).Nodup := by
    have : (sides vs).map Prod.fst = vs := by
      unfold sides
      rw [List.map_fst_zip]
      cases vs <;> simp
    rw [this]
    exact hc.2.1
  rw [odd_iff, countP_one _ Prod.fst _ hd hs ((hit_inside h hs).mpr hl)]
  · rfl
  · intro u hu pu
    exact leaves_unique hc hu hs ((hit_inside h hu).mp pu) hl

end Verif.Visilib
