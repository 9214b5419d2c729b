/-
C121: what a simple polygon is taken to be.
-/
import Verif.Visilib.Valid

namespace Verif.Visilib

open Verif.Visibility (Pt along)
open Verif.RoutePlanner (Poly area)

theorem segD2_near {eps : Rat} {p a b : Pt} :
    segD2 p a b ≤ eps * eps ↔ ∃ x, On a b x ∧ d2 p x ≤ eps * eps := by
  obtain ⟨h₁, h₂⟩ := C115_nearest p a b
  constructor
  · intro h; exact ⟨_, h₁, h⟩
  · rintro ⟨x, hx, h⟩
    exact Rat.le_trans (h₂ x hx) h

/-- The side from `b` to `c` does not lead back along the one from `a` to `b`: if an end
of the one is within epsilon of the other, it is also within epsilon of the corner. -/
def Turns (eps : Rat) (a b c : Pt) : Prop :=
  ((∃ x, On b c x ∧ d2 a x ≤ eps * eps) → d2 a b ≤ eps * eps) ∧
  ((∃ x, On a b x ∧ d2 c x ≤ eps * eps) → d2 b c ≤ eps * eps ∨ ∃ x, On b c x ∧ d2 a x ≤ eps * eps)

theorem meetSize_adjacent (eps : Rat) (a b c : Pt) : meetSize eps a b b c ≤ 1 ↔ Turns eps a b c := by
  have zero : segD2 b b c ≤ eps * eps ∧ segD2 b a b ≤ eps * eps := by
    have := sq_nonneg eps
    exact ⟨segD2_near.mpr ⟨b, .left _ _, by rw [d2_self]; exact this⟩,
      segD2_near.mpr ⟨b, .right _ _, by rw [d2_self]; exact this⟩⟩
  have hi : intersect eps a b b c = true :=
    (C117_intersect eps a b b c).mpr ⟨b, b, .right _ _, .left _ _, by
      rw [d2_self]; exact sq_nonneg eps⟩
  have hp : proper eps a b b c = false := by
    cases h : proper eps a b b c with
    | false => rfl
    | true =>
      obtain ⟨-, h₁, -⟩ := (C117_proper eps a b b c).mp h
      have := (h₁ b (.left _ _)).2
      rw [d2_self] at this
      have := sq_nonneg eps
      grind
  have two : ∀ p q : Pt, ends eps p q ≤ 1 ↔ d2 p q ≤ eps * eps := by
    intro p q
    unfold ends isPoint
    by_cases h : d2 p q ≤ eps * eps <;> simp [h]
  have bb : ends eps b b ≤ 1 := (two b b).mpr (by rw [d2_self]; exact sq_nonneg eps)
  unfold meetSize Turns
  rw [hi, hp, ← segD2_near, ← segD2_near]
  simp only [Bool.not_true, Bool.false_eq_true, ↓reduceIte, zero.1, zero.2, decide_true,
    Bool.and_true, Bool.true_and, decide_eq_true_iff]
  by_cases h₁ : segD2 a b c ≤ eps * eps
  · simp only [h₁, ↓reduceIte, forall_const, or_true, implies_true, and_true, two]
  · by_cases h₂ : segD2 c a b ≤ eps * eps
    · simp only [h₁, h₂, ↓reduceIte, two, forall_const, or_false, false_imp_iff, true_and]
    · simp only [h₁, h₂, ↓reduceIte, bb, false_imp_iff, true_and, decide_false, Bool.false_and,
        Bool.false_eq_true]

/-- **C121 (partial).**  A polygon is found simple exactly if it has three corners or more,
no side leads back along the one before, and of the sides but the last, any two that
do not share a corner are further apart than epsilon.  Missing: the last side, see
`C121_closing_violated`. -/
theorem C121_simple_partial (eps : Rat) (p : Poly) : isSimple eps p = true ↔
    3 ≤ p.length ∧
    (∀ i, ∀ _ : i < p.length, Turns eps p[i] (p[(i + 1) % p.length]'(Nat.mod_lt _ (by omega)))
      (p[(i + 2) % p.length]'(Nat.mod_lt _ (by omega)))) ∧
    ∀ i j, ∀ _ : i + 2 ≤ j, ∀ _ : j + 1 < p.length, ∀ x y,
      On (p[i]'(by omega)) (p[i + 1]'(by omega)) x → On p[j] p[j + 1] y → eps * eps < d2 x y := by
  have cm : ∀ i, (h : 0 < p.length) → corner p i = p[i % p.length]'(Nat.mod_lt _ h) := by
    intro i h
    unfold corner
    rw [List.getElem?_eq_getElem (Nat.mod_lt _ h), Option.getD_some]
  have cl : ∀ i, (h : i < p.length) → corner p i = p[i] := by
    intro i h
    unfold corner
    rw [Nat.mod_eq_of_lt h, List.getElem?_eq_getElem h, Option.getD_some]
  have far : ∀ a b c d : Pt, ¬ distD2 a b c d ≤ eps * eps ↔
      ∀ x y, On a b x → On c d y → eps * eps < d2 x y := by
    intro a b c d
    obtain ⟨⟨x, y, hx, hy, e⟩, least⟩ := C117_distance a b c d
    constructor
    · intro h x y hx hy
      have := least x y hx hy
      grind
    · intro h
      have := h x y hx hy
      grind
  unfold isSimple
  by_cases h : p.length ≤ 2
  · rw [if_pos h]
    simp only [Bool.false_eq_true, false_iff]
    rintro ⟨h', -⟩
    omega
  · rw [if_neg h]
    have h₃ : 3 ≤ p.length := by omega
    simp only [Bool.and_eq_true, List.all_eq_true, List.mem_range, decide_eq_true_iff, h₃, true_and,
      List.mem_range'_1, Bool.not_eq_true', Bool.and_eq_false_iff, decide_eq_false_iff_not,
      bne_eq_false_iff_eq, meetSize_adjacent, far]
    refine and_congr ?_ ?_
    · refine forall_congr' fun i => forall_congr' fun hi => ?_
      rw [cl i hi, cm _ (by omega), cm _ (by omega)]
    · constructor
      · intro k i j hij hj x y hx hy
        rcases k i (by omega) j ⟨hij, by omega⟩ with e | e
        · rw [Nat.mod_eq_of_lt hj] at e; omega
        · exact e x y (by rw [cl i (by omega), cl (i + 1) (by omega)]; exact hx)
            (by rw [cl j (by omega), cl (j + 1) hj]; exact hy)
      · intro k i hi j ⟨hij, hj⟩
        by_cases e : j + 1 = p.length
        · left; rw [e, Nat.mod_self]
        · right
          intro x y hx hy
          rw [cl i (by omega), cl (i + 1) (by omega)] at hx
          rw [cl j (by omega), cl (j + 1) (by omega)] at hy
          exact k i j hij (by omega) x y hx hy

/-- The sides of a polygon that a reader expects of a simple one: any two that do not
share a corner have no point in common. -/
def SidesApart (p : Poly) : Prop :=
  ∀ i j, ∀ _ : i + 2 ≤ j, ∀ _ : j < p.length, ¬ (i = 0 ∧ j + 1 = p.length) → ∀ x,
    On (p[i]'(by omega)) (p[i + 1]'(by omega)) x →
    ¬ On p[j] (p[(j + 1) % p.length]'(Nat.mod_lt _ (by omega))) x

/-- A polygon whose last side crosses its second. -/
def bow : Poly := [⟨0, 0⟩, ⟨0, 12⟩, ⟨10, 0⟩, ⟨10, 10⟩]

/-- **C121 (violated).**  The last side is compared with none but its neighbours: a polygon
whose last side crosses another one is found simple, and makes a valid environment. -/
theorem C121_closing_violated : isSimple (1 / 10000) bow = true ∧
    isValid (1 / 10000) bow [] = .ok true ∧ ¬ SidesApart bow := by
  refine ⟨by decide +kernel, by decide +kernel, fun h => ?_⟩
  refine h 1 3 (by decide) (by decide) (by decide) ⟨60 / 11, 60 / 11⟩ ⟨6 / 11, by decide +kernel,
    by decide +kernel, by decide +kernel⟩ ⟨5 / 11, by decide +kernel, by decide +kernel, ?_⟩
  show _ = along ⟨10, 10⟩ ⟨0, 0⟩ (5 / 11)
  decide +kernel

/-- The same corners listed from another one on are not found simple. -/
example : isSimple (1 / 10000) [⟨0, 12⟩, ⟨10, 0⟩, ⟨10, 10⟩, ⟨0, 0⟩] = false ∧
    isSimple (1 / 10000) [⟨0, 0⟩, ⟨0, 9⟩, ⟨9, 9⟩, ⟨9, 0⟩] = true ∧
    isSimple (1 / 10000) [⟨0, 0⟩, ⟨0, 9⟩, ⟨0, 5⟩, ⟨9, 0⟩] = false := by decide +kernel

/-- A valid environment, and one whose hole sticks out. -/
example : let o : Poly := [⟨0, 0⟩, ⟨0, 9⟩, ⟨9, 9⟩, ⟨9, 0⟩]
    isValid (1/10000) o [[⟨3, 3⟩, ⟨6, 3⟩, ⟨6, 6⟩, ⟨3, 6⟩]] = .ok true ∧
    isValid (1/10000) o [[⟨3, 3⟩, ⟨16, 3⟩, ⟨16, 6⟩, ⟨3, 6⟩]] = .ok false ∧
    isValid (1/10000) o [[⟨3, 3⟩, ⟨6, 3⟩, ⟨6, 6⟩, ⟨3, 6⟩], [⟨4, 4⟩, ⟨5, 4⟩, ⟨5, 5⟩]] = .ok false := by
  decide +kernel

end Verif.Visilib
