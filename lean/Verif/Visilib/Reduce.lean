/-
C119: the corners of a polygon that the library takes to be needless.
-/
import Verif.Visilib.Standard

namespace Verif.Visilib

open Verif.Visibility (Pt along legs)
open Verif.RoutePlanner (Poly)

/-! ### Corners that are kept -/

/-- Each corner is further than epsilon from the segment of the corners before and
after it, and those are further than epsilon apart. -/
def Pronounced (eps : Rat) (p : Poly) : Prop :=
  ∀ i, ∀ h : i < p.length,
    eps * eps < d2 p[i] (p[(i + 2) % p.length]'(Nat.mod_lt _ (by omega))) ∧
    ∀ x, On p[i] (p[(i + 2) % p.length]'(Nat.mod_lt _ (by omega))) x →
      eps * eps < d2 (p[(i + 1) % p.length]'(Nat.mod_lt _ (by omega))) x

/-- The same, along a chain. -/
def Chain (eps : Rat) : List Pt → Prop
  | a :: b :: c :: l => (eps * eps < d2 a c ∧ eps * eps < segD2 b a c) ∧ Chain eps (b :: c :: l)
  | _ => True

theorem keep_chain {eps : Rat} {a b : Pt} {l : List Pt} (h : Chain eps (a :: b :: l)) :
    keep eps a b l = (b :: l).dropLast := by
  induction l generalizing a b with
  | nil => rfl
  | cons c l ih =>
    obtain ⟨⟨h₁, h₂⟩, h₃⟩ := h
    unfold keep
    have k₁ : ¬ isPoint a c eps = true := by unfold isPoint; simp; grind
    have k₂ : ¬ segD2 b a c ≤ eps * eps := by grind
    rw [if_neg k₁, if_neg k₂, ih h₃]
    rfl

theorem chain_of_get {eps : Rat} (l : List Pt)
    (h : ∀ i, ∀ hi : i + 2 < l.length, eps * eps < d2 l[i] l[i + 2] ∧
      eps * eps < segD2 l[i + 1] l[i] l[i + 2]) : Chain eps l := by
  induction l with
  | nil => trivial
  | cons a l ih =>
    match l with
    | [] => trivial
    | [b] => trivial
    | b :: c :: l =>
      refine ⟨h 0 (by simp), ih ?_⟩
      intro i hi
      have := h (i + 1) (by simp at hi ⊢; omega)
      exact this

theorem pronounced_seg {eps : Rat} {p : Poly} (h : Pronounced eps p) (i : Nat) (hi : i < p.length) :
    eps * eps < d2 p[i] (p[(i + 2) % p.length]'(Nat.mod_lt _ (by omega))) ∧
    eps * eps < segD2 (p[(i + 1) % p.length]'(Nat.mod_lt _ (by omega))) p[i]
      (p[(i + 2) % p.length]'(Nat.mod_lt _ (by omega))) :=
  ⟨(h i hi).1, (h i hi).2 _ (C115_nearest _ _ _).1⟩

/-- **C119 (partial).**  If every corner stands out by more than epsilon, every corner
is kept, in the same order: the list begins with the second one. -/
theorem C119_kept_partial {eps : Rat} {p : Poly} (h : Pronounced eps p) (h₄ : 4 ≤ p.length) :
    reduce eps p = p.drop 1 ++ p.take 1 := by
  match p with
  | [] | [_] | [_, _] | [_, _, _] => simp at h₄
  | a :: b :: c :: d :: cs =>
    have hk : keep eps a b (c :: d :: cs ++ [a]) = b :: c :: d :: cs := by
      rw [keep_chain]
      · show (b :: (c :: d :: cs ++ [a])).dropLast = _
        rw [← List.cons_append, List.dropLast_concat]
      · apply chain_of_get
        intro i hi
        have len : (a :: b :: (c :: d :: cs ++ [a])).length = (a :: b :: c :: d :: cs).length + 1 := by
          simp
        have hi' : i < (a :: b :: c :: d :: cs).length := by
          rw [len] at hi
          omega
        have key := pronounced_seg h i hi'
        have get : ∀ j, ∀ hj : j < (a :: b :: (c :: d :: cs ++ [a])).length,
            (a :: b :: (c :: d :: cs ++ [a]))[j] = (a :: b :: c :: d :: cs)[j %
              (a :: b :: c :: d :: cs).length]'(Nat.mod_lt _ (by simp)) := by
          intro j hj
          rw [len] at hj
          rcases Nat.lt_or_ge j (a :: b :: c :: d :: cs).length with k | k
          · simp only [Nat.mod_eq_of_lt k]
            have : a :: b :: (c :: d :: cs ++ [a]) = (a :: b :: c :: d :: cs) ++ [a] := by simp
            simp only [this]
            exact List.getElem_append_left k
          · have e : j = (a :: b :: c :: d :: cs).length := by omega
            subst e
            simp only [Nat.mod_self]
            have : a :: b :: (c :: d :: cs ++ [a]) = (a :: b :: c :: d :: cs) ++ [a] := by simp
            simp only [this]
            rw [List.getElem_append_right (Nat.le_refl _)]
            simp
        rw [get i, get (i + 1), get (i + 2)]
        simp only [Nat.mod_eq_of_lt hi']
        exact key
    unfold reduce
    dsimp only
    rw [hk]
    dsimp only
    have last := pronounced_seg h (cs.length + 3) (by simp)
    have e₁ : (cs.length + 3 + 1) % (a :: b :: c :: d :: cs).length = 0 := by
      simp
    have e₂ : (cs.length + 3 + 2) % (a :: b :: c :: d :: cs).length = 1 := by
      have : cs.length + 3 + 2 = 1 + (a :: b :: c :: d :: cs).length := by simp; omega
      rw [this, Nat.add_mod_right]
      exact Nat.mod_eq_of_lt (by simp)
    have e₃ : (a :: b :: c :: d :: cs)[cs.length + 3]'(by simp) = (c :: d :: cs).getLastD b := by
      simp only [List.getElem_cons_succ]
      rw [List.getLastD_eq_getLast?, List.getLast?_cons_cons, List.getLast?_eq_getElem?]
      simp
    simp only [e₁, e₂, e₃] at last
    have sym : segD2 a b ((c :: d :: cs).getLastD b) = segD2 a ((c :: d :: cs).getLastD b) b := by
      have k₁ : segD2 a b ((c :: d :: cs).getLastD b) ≤ segD2 a ((c :: d :: cs).getLastD b) b :=
        (C115_nearest _ _ _).2 _ (C115_nearest _ _ _).1.symm
      have k₂ : segD2 a ((c :: d :: cs).getLastD b) b ≤ segD2 a b ((c :: d :: cs).getLastD b) :=
        (C115_nearest _ _ _).2 _ (C115_nearest _ _ _).1.symm
      grind
    rw [if_pos (by rw [sym]; exact last.2)]
    rfl

/-- **C119.**  Up to three corners are left as they are. -/
theorem C119_few (eps : Rat) {p : Poly} (h : p.length < 4) : reduce eps p = p := by
  match p with
  | [] | [_] | [_, _] | [_, _, _] => rfl
  | _ :: _ :: _ :: _ :: _ => simp at h; omega

/-- Then the boundary is the same. -/
theorem boundary_reduce {eps : Rat} {p : Poly} (h : Pronounced eps p) (z : Pt) :
    OnBoundary (reduce eps p) z ↔ OnBoundary p z := by
  by_cases h₄ : 4 ≤ p.length
  · rw [C119_kept_partial h h₄]
    refine boundary_congr (.inl ?_) z
    have := sides_rotate (p.take 1) (p.drop 1)
    rw [List.take_append_drop] at this
    exact this
  · rw [C119_few eps (by omega)]

/-- **C119 (partial).**  Then the same points are in the polygon. -/
theorem C119_same_partial {eps : Rat} {p : Poly} (h : Pronounced eps p) (e : Rat) (x : Pt) :
    inPoly e x (reduce eps p) = inPoly e x p := by
  by_cases h₄ : 4 ≤ p.length
  · rw [C119_kept_partial h h₄]
    refine inPoly_congr (.inl ?_) e x
    have := sides_rotate (p.take 1) (p.drop 1)
    rw [List.take_append_drop] at this
    exact this
  · rw [C119_few eps (by omega)]

/-- A square of three metres stands out by more than one. -/
theorem square_pronounced : Pronounced 1 [⟨0, 0⟩, ⟨0, 3⟩, ⟨3, 3⟩, ⟨3, 0⟩] := by
  intro i hi
  have far : ∀ {p a b : Pt} {e : Rat}, e < segD2 p a b → ∀ x, On a b x → e < d2 p x := by
    intro p a b e h x hx
    have := (C115_nearest p a b).2 x hx
    unfold segD2 at h
    grind
  match i with
  | 0 => exact ⟨by show 1 * 1 < d2 ⟨0, 0⟩ ⟨3, 3⟩; decide +kernel,
      far (by show 1 * 1 < segD2 ⟨0, 3⟩ ⟨0, 0⟩ ⟨3, 3⟩; decide +kernel)⟩
  | 1 => exact ⟨by show 1 * 1 < d2 ⟨0, 3⟩ ⟨3, 0⟩; decide +kernel,
      far (by show 1 * 1 < segD2 ⟨3, 3⟩ ⟨0, 3⟩ ⟨3, 0⟩; decide +kernel)⟩
  | 2 => exact ⟨by show 1 * 1 < d2 ⟨3, 3⟩ ⟨0, 0⟩; decide +kernel,
      far (by show 1 * 1 < segD2 ⟨3, 0⟩ ⟨3, 3⟩ ⟨0, 0⟩; decide +kernel)⟩
  | 3 => exact ⟨by show 1 * 1 < d2 ⟨3, 0⟩ ⟨0, 3⟩; decide +kernel,
      far (by show 1 * 1 < segD2 ⟨0, 0⟩ ⟨3, 0⟩ ⟨0, 3⟩; decide +kernel)⟩
  | i + 4 => simp at hi; omega

/-! ### Corners that are lost -/

/-- Each corner of the chain is within epsilon of the one after the next. -/
def Dense (eps : Rat) : List Pt → Prop
  | a :: b :: c :: l => d2 a c ≤ eps * eps ∧ Dense eps (b :: c :: l)
  | _ => True

theorem Dense.tail {eps : Rat} {a : Pt} {l : List Pt} (h : Dense eps (a :: l)) : Dense eps l := by
  match l with
  | [] => trivial
  | [_] => trivial
  | _ :: _ :: _ => exact h.2

theorem keep_dense (eps : Rat) (n : Nat) (a b : Pt) (l : List Pt) (hn : l.length ≤ n)
    (h : Dense eps (a :: b :: l)) : keep eps a b l = [] := by
  induction n generalizing a b l with
  | zero =>
    have : l = [] := List.length_eq_zero_iff.mp (by omega)
    subst this
    rfl
  | succ n ih =>
    cases l with
    | nil => rfl
    | cons c l =>
      unfold keep
      have k : isPoint a c eps = true := by unfold isPoint; simp; exact h.1
      rw [if_pos k]
      cases l with
      | nil => rfl
      | cons d l => exact ih c d l (by simp at hn; omega) h.2.2

/-- Every side of the chain is at most half of epsilon long. -/
theorem dense_of_short {eps : Rat} (l : List Pt)
    (h : ∀ s ∈ legs l, 4 * d2 s.1 s.2 ≤ eps * eps) : Dense eps l := by
  induction l with
  | nil => trivial
  | cons a l ih =>
    match l with
    | [] => trivial
    | [b] => trivial
    | b :: c :: l =>
      have h₁ := h (a, b) List.mem_cons_self
      have h₂ := h (b, c) (List.mem_cons_of_mem _ List.mem_cons_self)
      refine ⟨?_, ih fun s hs => h s (List.mem_cons_of_mem _ hs)⟩
      have k₁ := sq_nonneg (a.e - b.e - (b.e - c.e))
      have k₂ := sq_nonneg (a.n - b.n - (b.n - c.n))
      simp only [d2] at *
      grind

theorem reduce_short {eps : Rat} {p : Poly} (h₄ : 4 ≤ p.length)
    (h : ∀ s ∈ sides p, 4 * d2 s.1 s.2 ≤ eps * eps) : reduce eps p = [] := by
  match p with
  | [] | [_] | [_, _] | [_, _, _] => simp at h₄
  | a :: b :: c :: d :: cs =>
    rw [sides_cons] at h
    have := keep_dense eps _ a b (c :: d :: cs ++ [a]) (Nat.le_refl _) (dense_of_short _ h)
    unfold reduce
    dsimp only
    rw [this]

/-! ### More corners on the same sides -/

/-- The middle of a side. -/
def mid (s : Pt × Pt) : Pt := along s.1 s.2 (1 / 2)

/-- A corner more in the middle of each side. -/
def halve (p : Poly) : Poly := (sides p).flatMap fun s => [s.1, mid s]

theorem legs_halve (l : List Pt) (a : Pt) :
    legs ((legs (a :: l)).flatMap (fun s => [s.1, mid s]) ++ [(a :: l).getLast (by simp)]) =
      (legs (a :: l)).flatMap fun s => [(s.1, mid s), (mid s, s.2)] := by
  induction l generalizing a with
  | nil => rfl
  | cons b l ih =>
    have e : legs (a :: b :: l) = (a, b) :: legs (b :: l) := rfl
    rw [e, List.flatMap_cons, List.flatMap_cons, List.getLast_cons (by simp)]
    have hd : ∃ r, (legs (b :: l)).flatMap (fun s => [s.1, mid s]) ++ [(b :: l).getLast (by simp)] =
        b :: r := by
      cases l with
      | nil => exact ⟨[], rfl⟩
      | cons c l => exact ⟨_, rfl⟩
    obtain ⟨r, hr⟩ := hd
    have ih' := ih b
    rw [hr] at ih'
    rw [List.append_assoc, hr, ← ih']
    rfl

theorem sides_halve (p : Poly) :
    sides (halve p) = (sides p).flatMap fun s => [(s.1, mid s), (mid s, s.2)] := by
  cases p with
  | nil => rfl
  | cons a l =>
    have h := legs_halve (l ++ [a]) a
    have hl : (a :: (l ++ [a])).getLast (by simp) = a :=
      List.getLast_concat (l := a :: l) (a := a)
    rw [hl] at h
    unfold halve
    rw [sides_cons]
    have hd : ∃ r, (legs (a :: l ++ [a])).flatMap (fun s => [s.1, mid s]) = a :: r := by
      cases l with
      | nil => exact ⟨_, rfl⟩
      | cons c l => exact ⟨_, rfl⟩
    obtain ⟨r, hr⟩ := hd
    have h' : legs ((legs (a :: l ++ [a])).flatMap (fun s => [s.1, mid s]) ++ [a]) =
      (legs (a :: l ++ [a])).flatMap fun s => [(s.1, mid s), (mid s, s.2)] := h
    rw [hr] at h' ⊢
    rw [sides_cons, h']

theorem halve_length (p : Poly) : (halve p).length = 2 * p.length := by
  have : ∀ l : List (Pt × Pt), (l.flatMap fun s => [s.1, mid s]).length = 2 * l.length := by
    intro l
    induction l with
    | nil => rfl
    | cons a l ih => rw [List.flatMap_cons, List.length_append, ih]; simp; omega
  unfold halve
  rw [this, sides_eq, Visibility.sides_length]

theorem on_half {a b z : Pt} : On a b z ↔ On a (mid (a, b)) z ∨ On (mid (a, b)) b z := by
  constructor
  · rintro ⟨t, t₀, t₁, rfl⟩
    rcases Rat.le_total (a := t) (b := 1 / 2) with k | k
    · exact .inl ⟨2 * t, by grind, by grind, by simp only [mid, along, Pt.mk.injEq]; grind⟩
    · exact .inr ⟨2 * t - 1, by grind, by grind, by simp only [mid, along, Pt.mk.injEq]; grind⟩
  · rintro (⟨t, t₀, t₁, rfl⟩ | ⟨t, t₀, t₁, rfl⟩)
    · exact ⟨t / 2, by grind, by grind, by simp only [mid, along, Pt.mk.injEq]; grind⟩
    · exact ⟨(t + 1) / 2, by grind, by grind, by simp only [mid, along, Pt.mk.injEq]; grind⟩

theorem hit_half (x a b : Pt) :
    hit x a b = (hit x a (mid (a, b)) != hit x (mid (a, b)) b) := by
  have main : ∀ a b : Pt, a.n ≤ b.n →
      hit x a b = (hit x a (mid (a, b)) != hit x (mid (a, b)) b) := by
    intro a b hab
    have mn : (mid (a, b)).n = (a.n + b.n) / 2 := by simp only [mid, along]; grind
    have m₁ : a.n ≤ (mid (a, b)).n := by rw [mn]; grind
    have m₂ : (mid (a, b)).n ≤ b.n := by rw [mn]; grind
    by_cases h : a.n ≤ x.n ∧ x.n < b.n
    · by_cases k : x.n < (mid (a, b)).n
      · obtain ⟨t, -, -, ht⟩ := at_height (a := a) (b := mid (a, b)) (y := x.n) (by grind) h.1 (by grind)
        have e : along a (mid (a, b)) t = along a b (t / 2) := by
          simp only [mid, along, Pt.mk.injEq]; grind
        rw [hit_at h.1 k ht, hit_no (by grind) m₂, hit_at h.1 h.2 (t := t / 2) (by rw [← e]; exact ht), e]
        simp
      · obtain ⟨t, -, -, ht⟩ := at_height (a := mid (a, b)) (b := b) (y := x.n) (by grind) (by grind)
          (by grind)
        have e : along (mid (a, b)) b t = along a b ((t + 1) / 2) := by
          simp only [mid, along, Pt.mk.injEq]; grind
        rw [hit_no (b := mid (a, b)) (by grind) m₁, hit_at (by grind) h.2 ht,
          hit_at h.1 h.2 (t := (t + 1) / 2) (by rw [← e]; exact ht), e]
        simp
    · rw [hit_no h hab, hit_no (by grind) m₁, hit_no (by grind) m₂]
      rfl
  rcases Rat.le_total (a := a.n) (b := b.n) with h | h
  · exact main a b h
  · have e : mid (b, a) = mid (a, b) := by simp only [mid, along, Pt.mk.injEq]; grind
    rw [hit_comm x a b, main b a h, e, hit_comm x b, hit_comm x _ a, bne_swap]

/-- A corner more on each side changes no answer. -/
theorem inPoly_halve (eps : Rat) (x : Pt) (p : Poly) : inPoly eps x (halve p) = inPoly eps x p := by
  by_cases hp : p = []
  · rw [hp]; rfl
  · have hq : halve p ≠ [] := by
      rw [← List.length_pos_iff, halve_length]
      have := List.length_pos_iff.mpr hp
      omega
    obtain ⟨b, hb⟩ := (C116_defined eps x p).mpr hp
    obtain ⟨c, hc⟩ := (C116_defined eps x (halve p)).mpr hq
    rw [hb, hc]
    congr 1
    have bd : ∀ z, OnBoundary (halve p) z ↔ OnBoundary p z := by
      intro z
      rw [onBoundary_iff_sides, onBoundary_iff_sides, sides_halve]
      constructor
      · rintro ⟨s, hs, k⟩
        obtain ⟨u, hu, hs⟩ := List.mem_flatMap.mp hs
        refine ⟨u, hu, on_half.mpr ?_⟩
        simp only [List.mem_cons, List.not_mem_nil, or_false] at hs
        rcases hs with rfl | rfl
        · exact .inl k
        · exact .inr k
      · rintro ⟨s, hs, k⟩
        rcases on_half.mp k with k | k
        · exact ⟨(s.1, mid s), List.mem_flatMap.mpr ⟨s, hs, by simp⟩, k⟩
        · exact ⟨(mid s, s.2), List.mem_flatMap.mpr ⟨s, hs, by simp⟩, k⟩
    have od : odd x (halve p) = odd x p := by
      rw [odd_iff, odd_iff, sides_halve]
      have : ∀ l : List (Pt × Pt), ((l.flatMap fun s => [(s.1, mid s), (mid s, s.2)]).countP
          fun s => hit x s.1 s.2) % 2 = (l.countP fun s => hit x s.1 s.2) % 2 := by
        intro l
        induction l with
        | nil => rfl
        | cons s l ih =>
          have one : [(s.1, mid s), (mid s, s.2)].countP (fun s => hit x s.1 s.2) % 2 =
              (if hit x s.1 s.2 = true then 1 else 0) % 2 := by
            rw [hit_half x s.1 s.2, List.countP_cons, List.countP_cons, List.countP_nil]
            show (0 + (if hit x (mid (s.1, s.2)) s.2 = true then 1 else 0) +
              (if hit x s.1 (mid (s.1, s.2)) = true then 1 else 0)) % 2 = _
            cases hit x s.1 (mid (s.1, s.2)) <;> cases hit x (mid (s.1, s.2)) s.2 <;> simp
          rw [List.flatMap_cons, List.countP_append, List.countP_cons (a := s) (l := l)]
          omega
      rw [this]
    rw [Bool.eq_iff_iff, inPoly_iff hb, inPoly_iff hc, od]
    simp only [bd]

theorem halve_short {r : Rat} {p : Poly} (h : ∀ s ∈ sides p, d2 s.1 s.2 ≤ 4 * r) :
    ∀ s ∈ sides (halve p), d2 s.1 s.2 ≤ r := by
  intro s hs
  rw [sides_halve] at hs
  obtain ⟨u, hu, hs⟩ := List.mem_flatMap.mp hs
  have := h u hu
  simp only [List.mem_cons, List.not_mem_nil, or_false] at hs
  rcases hs with rfl | rfl
  · simp only [d2, mid, along] at *
    grind
  · simp only [d2, mid, along] at *
    grind

/-- **C119.**  Every polygon, however large, can be given by so many corners that it is
lost: the same points are in it, but with all corners taken to be needless none are
left. -/
theorem C119_lost_violated {eps : Rat} (he : 0 < eps) (p : Poly) :
    ∃ q, (∀ e x, inPoly e x q = inPoly e x p) ∧ reduce eps q = [] := by
  by_cases hp : p = []
  · exact ⟨[], fun e x => by rw [hp], rfl⟩
  have hlen := List.length_pos_iff.mpr hp
  obtain ⟨r, hr⟩ : ∃ r : Rat, ∀ s ∈ sides p, d2 s.1 s.2 ≤ r := by
    have : ∀ l : List (Pt × Pt), ∃ r : Rat, ∀ s ∈ l, d2 s.1 s.2 ≤ r := by
      intro l
      induction l with
      | nil => exact ⟨0, by simp⟩
      | cons a l ih =>
        obtain ⟨r, hr⟩ := ih
        refine ⟨if r ≤ d2 a.1 a.2 then d2 a.1 a.2 else r, ?_⟩
        intro s hs
        rcases List.mem_cons.mp hs with rfl | hs
        · split <;> grind
        · have := hr s hs
          split <;> grind
    exact this _
  have many : ∀ k : Nat, ∀ q : Poly, 0 < q.length →
      (∀ s ∈ sides q, d2 s.1 s.2 ≤ 4 ^ (k + 2) * (eps * eps / 4)) →
      ∃ q', 4 ≤ q'.length ∧ (∀ e x, inPoly e x q' = inPoly e x q) ∧
        ∀ s ∈ sides q', d2 s.1 s.2 ≤ eps * eps / 4 := by
    intro k
    induction k with
    | zero =>
      intro q hq h
      refine ⟨halve (halve q), ?_, ?_, ?_⟩
      · rw [halve_length, halve_length]; omega
      · intro e x; rw [inPoly_halve, inPoly_halve]
      · apply halve_short
        apply halve_short
        intro s hs
        have := h s hs
        grind
    | succ k ih =>
      intro q hq h
      obtain ⟨q', h₁, h₂, h₃⟩ := ih (halve q) (by rw [halve_length]; omega) (halve_short (by
        intro s hs
        have := h s hs
        rw [Rat.pow_succ] at this
        grind))
      exact ⟨q', h₁, fun e x => by rw [h₂, inPoly_halve], h₃⟩
  have hee : 0 < eps * eps / 4 := by
    have := Rat.mul_pos he he
    grind
  obtain ⟨k, hk⟩ : ∃ k : Nat, r ≤ 4 ^ (k + 2) * (eps * eps / 4) := by
    have big : ∀ k : Nat, (k : Rat) + 1 ≤ 4 ^ (k + 2) := by
      intro k
      induction k with
      | zero => decide +kernel
      | succ k ih =>
        have h₀ : (0 : Rat) ≤ k := Rat.natCast_nonneg
        rw [show k + 1 + 2 = (k + 2) + 1 from rfl, Rat.pow_succ, Rat.natCast_add]
        have : ((1 : Nat) : Rat) = 1 := rfl
        grind
    have hx := Rat.le_ceil (x := r / (eps * eps / 4))
    have hn : ((r / (eps * eps / 4)).ceil : Rat) ≤ ((r / (eps * eps / 4)).ceil.toNat : Rat) := by
      rw [← Rat.intCast_natCast]
      exact Rat.intCast_le_intCast.mpr (Int.self_le_toNat _)
    refine ⟨(r / (eps * eps / 4)).ceil.toNat, ?_⟩
    have := big (r / (eps * eps / 4)).ceil.toNat
    have le : r / (eps * eps / 4) ≤ 4 ^ ((r / (eps * eps / 4)).ceil.toNat + 2) := by grind
    have := Rat.mul_le_mul_of_nonneg_right le (Rat.le_of_lt hee)
    rw [Rat.div_mul_cancel (by grind)] at this
    exact this
  obtain ⟨q, h₁, h₂, h₃⟩ := many k p hlen fun s hs => Rat.le_trans (hr s hs) hk
  exact ⟨q, h₂, reduce_short h₁ fun s hs => by have := h₃ s hs; grind⟩

/-- A square that is kept, and the same square with a corner at each half metre or
less that is lost. -/
example : reduce 1 [⟨0, 0⟩, ⟨0, 2⟩, ⟨2, 2⟩, ⟨2, 0⟩] = [⟨0, 2⟩, ⟨2, 2⟩, ⟨2, 0⟩, ⟨0, 0⟩] ∧
    reduce 1 (halve (halve [⟨0, 0⟩, ⟨0, 2⟩, ⟨2, 2⟩, ⟨2, 0⟩])) = [] ∧
    inPoly 0 ⟨1, 1⟩ (halve (halve [⟨0, 0⟩, ⟨0, 2⟩, ⟨2, 2⟩, ⟨2, 0⟩])) = .ok true := by decide +kernel

end Verif.Visilib
