/-
C118: the order in which the corners of a polygon are listed.
-/
import Verif.Visilib.Props
import Verif.RoutePlanner.Zones

namespace Verif.Visilib

open Verif.Visibility (Pt along lineAt Convex legs)
open Verif.RoutePlanner (Poly area rev chainArea)

/-! ### The sides, in other orders -/

theorem sides_cons (a : Pt) (l : List Pt) : sides (a :: l) = legs (a :: l ++ [a]) :=
  (Visibility.legs_sides a l).symm

theorem sides_rotate_one (a : Pt) (l : List Pt) : (sides (l ++ [a])).Perm (sides (a :: l)) := by
  cases l with
  | nil => exact .rfl
  | cons b l =>
    have e₁ : sides (b :: l ++ [a]) = legs (b :: l ++ [a]) ++ [(a, b)] := by
      rw [← Visibility.legs_snoc]
      exact (sides_cons b (l ++ [a])).trans (by simp)
    have e₂ : sides (a :: b :: l) = (a, b) :: legs (b :: l ++ [a]) := sides_cons a (b :: l)
    rw [e₁, e₂]
    exact List.perm_append_comm

theorem sides_rotate (l r : List Pt) : (sides (r ++ l)).Perm (sides (l ++ r)) := by
  induction l generalizing r with
  | nil => rw [List.append_nil]; exact .rfl
  | cons a l ih =>
    have h := ih (r ++ [a])
    rw [List.append_assoc, List.singleton_append] at h
    refine h.trans ?_
    rw [← List.append_assoc]
    exact sides_rotate_one a (l ++ r)

theorem legs_reverse (l : List Pt) : legs l.reverse = ((legs l).map fun s => (s.2, s.1)).reverse := by
  induction l with
  | nil => rfl
  | cons a l ih =>
    cases l with
    | nil => rfl
    | cons b l =>
      rw [List.reverse_cons, List.reverse_cons, List.append_assoc, List.singleton_append,
        Visibility.legs_snoc, ← List.reverse_cons, ih]
      show _ = (((a, b) :: legs (b :: l)).map _).reverse
      rw [List.map_cons, List.reverse_cons]

theorem sides_rev (p : Poly) : (sides (rev p)).Perm ((sides p).map fun s => (s.2, s.1)) := by
  unfold rev
  match p with
  | [] => exact .rfl
  | [a] => exact .rfl
  | [a, b] =>
    rw [if_neg (by simp)]
    show [(a, b), (b, a)].Perm [(b, a), (a, b)]
    exact List.Perm.swap ..
  | a :: b :: c :: l =>
    rw [if_pos (by simp)]
    show (sides (a :: (b :: c :: l).reverse)).Perm _
    have e : a :: (b :: c :: l).reverse ++ [a] = (a :: (b :: c :: l) ++ [a]).reverse := by simp
    rw [sides_cons, e, legs_reverse, sides_cons]
    exact List.reverse_perm _

theorem on_swap {a b x : Pt} : On a b x ↔ On b a x := ⟨On.symm, On.symm⟩

/-- The same sides, in whichever order and direction: the same boundary. -/
theorem boundary_congr {p q : Poly} (h : (sides q).Perm (sides p) ∨
    (sides q).Perm ((sides p).map fun s => (s.2, s.1))) (z : Pt) : OnBoundary q z ↔ OnBoundary p z := by
  rw [onBoundary_iff_sides, onBoundary_iff_sides]
  rcases h with h | h
  · constructor
    · rintro ⟨s, hs, k⟩; exact ⟨s, h.mem_iff.mp hs, k⟩
    · rintro ⟨s, hs, k⟩; exact ⟨s, h.mem_iff.mpr hs, k⟩
  · constructor
    · rintro ⟨s, hs, k⟩
      obtain ⟨u, hu, rfl⟩ := List.mem_map.mp (h.mem_iff.mp hs)
      exact ⟨u, hu, k.symm⟩
    · rintro ⟨s, hs, k⟩
      exact ⟨(s.2, s.1), h.mem_iff.mpr (List.mem_map.mpr ⟨s, hs, rfl⟩), k.symm⟩

/-- The same sides, in whichever order and direction: the same answers. -/
theorem inPoly_congr {p q : Poly} (h : (sides q).Perm (sides p) ∨
    (sides q).Perm ((sides p).map fun s => (s.2, s.1))) (eps : Rat) (x : Pt) :
    inPoly eps x q = inPoly eps x p := by
  have ne : q ≠ [] ↔ p ≠ [] := by
    have len : q.length = p.length := by
      rcases h with h | h
      · have := h.length_eq
        rwa [sides_eq, sides_eq, Visibility.sides_length, Visibility.sides_length] at this
      · have := h.length_eq
        rwa [List.length_map, sides_eq, sides_eq, Visibility.sides_length,
          Visibility.sides_length] at this
    rw [← List.length_pos_iff, ← List.length_pos_iff, len]
  have bd := boundary_congr h
  have od : odd x q = odd x p := by
    rw [odd_iff, odd_iff]
    rcases h with h | h
    · rw [h.countP_eq]
    · rw [h.countP_eq, List.countP_map]
      have : ((fun s : Pt × Pt => hit x s.1 s.2) ∘ fun s : Pt × Pt => (s.2, s.1)) =
          fun s : Pt × Pt => hit x s.1 s.2 := by funext s; exact hit_comm x _ _
      rw [this]
  by_cases hp : p = []
  · have hq : q = [] := Classical.byContradiction fun k => ne.mp k hp
    rw [hp, hq]
  · obtain ⟨b, hb⟩ := (C116_defined eps x p).mpr hp
    obtain ⟨c, hc⟩ := (C116_defined eps x q).mpr (ne.mpr hp)
    rw [hb, hc]
    congr 1
    rw [Bool.eq_iff_iff, inPoly_iff hb, inPoly_iff hc, od]
    simp only [bd]

/-- **C118.**  Listing the corners the other way round changes no answer about which
points are in the polygon. -/
theorem C118_reversed (p : Poly) (eps : Rat) (x : Pt) : inPoly eps x (rev p) = inPoly eps x p :=
  inPoly_congr (.inr (sides_rev p)) eps x

/-! ### Standard form -/

/-- The corner found is not greater than any. -/
theorem leastAt_spec (pre : List Pt) (j : Nat) (b : Pt) (cs : List Pt) (hj : pre[j]? = some b)
    (hb : ∀ c ∈ pre, less c b = false) :
    ∃ m, (pre ++ cs)[leastAt pre.length j b cs]? = some m ∧ ∀ c ∈ pre ++ cs, less c m = false := by
  induction cs generalizing pre j b with
  | nil => exact ⟨b, by simp only [List.append_nil, leastAt]; exact hj, by simpa using hb⟩
  | cons c cs ih =>
    have hlen : (pre ++ [c]).length = pre.length + 1 := by simp
    have self : less c c = false := by unfold less; simp
    unfold leastAt
    by_cases k : less c b = true
    · rw [if_pos k]
      have := ih (pre ++ [c]) pre.length c (by simp) (by
        intro d hd
        rcases List.mem_append.mp hd with hd | hd
        · have := hb d hd
          unfold less at *
          simp at *
          grind
        · rw [List.mem_singleton.mp hd]; exact self)
      rw [hlen, List.append_assoc, List.singleton_append] at this
      exact this
    · rw [if_neg k]
      have := ih (pre ++ [c]) j b (by
        rw [List.getElem?_append_left]
        · exact hj
        · exact (List.getElem?_eq_some_iff.mp hj).1) (by
        intro d hd
        rcases List.mem_append.mp hd with hd | hd
        · exact hb d hd
        · rw [List.mem_singleton.mp hd]; exact Bool.eq_false_iff.mpr k)
      rw [hlen, List.append_assoc, List.singleton_append] at this
      exact this

/-- **C118.**  The standard form lists the same corners in the same order, from
another one on: one that no corner is west of, nor south of where it is as far west. -/
theorem C118_standard (p : Poly) :
    (∃ l r, p = l ++ r ∧ standard p = r ++ l) ∧
      ∀ f, (standard p).head? = some f → ∀ c ∈ p, f.e ≤ c.e ∧ (f.e = c.e → f.n ≤ c.n) := by
  have tr : ∀ {c f : Pt}, less c f = false → f.e ≤ c.e ∧ (f.e = c.e → f.n ≤ c.n) := by
    intro c f h
    unfold less at h
    simp at h
    grind
  unfold standard
  match p with
  | [] => exact ⟨⟨[], [], rfl, rfl⟩, fun f hf => by cases hf⟩
  | [a] =>
    refine ⟨⟨[a], [], rfl, rfl⟩, ?_⟩
    intro f hf c hc
    cases hf
    rw [List.mem_singleton.mp hc]
    grind
  | a :: b :: l =>
    dsimp only
    have self : less a a = false := by unfold less; simp
    obtain ⟨m, hm, hl⟩ := leastAt_spec [a] 0 a (b :: l) rfl (by
      intro c hc; rw [List.mem_singleton.mp hc]; exact self)
    refine ⟨⟨_, _, (List.take_append_drop (leastAt 1 0 a (b :: l)) _).symm, rfl⟩, ?_⟩
    intro f hf c hc
    have lt : leastAt 1 0 a (b :: l) < (a :: b :: l).length := (List.getElem?_eq_some_iff.mp hm).1
    have : f = m := by
      rw [List.head?_append, List.head?_drop] at hf
      have hm' : (a :: b :: l)[leastAt 1 0 a (b :: l)]? = some m := hm
      rw [hm'] at hf
      simpa using hf.symm
    rw [this]
    exact tr (hl c hc)

theorem sides_standard (p : Poly) : (sides (standard p)).Perm (sides p) := by
  obtain ⟨⟨l, r, e₁, e₂⟩, -⟩ := C118_standard p
  rw [e₂, e₁]
  exact sides_rotate l r

/-- **C118.**  The standard form changes no answer about which points are in the
polygon. -/
theorem C118_same (p : Poly) (eps : Rat) (x : Pt) : inPoly eps x (standard p) = inPoly eps x p :=
  inPoly_congr (.inl (sides_standard p)) eps x

theorem area_rotate' (l r : List Pt) : area (r ++ l) = area (l ++ r) := by
  induction l generalizing r with
  | nil => rw [List.append_nil]; rfl
  | cons a l ih =>
    have h := ih (r ++ [a])
    rw [List.append_assoc, List.singleton_append] at h
    rw [h, ← List.append_assoc, RoutePlanner.area_rotate]
    rfl

/-- **C118.**  The standard form keeps the area, with its sign. -/
theorem C118_area (p : Poly) : area (standard p) = area p := by
  obtain ⟨⟨l, r, e₁, e₂⟩, -⟩ := C118_standard p
  rw [e₂, e₁]
  exact area_rotate' l r

/-- **C118.**  The code's test of the form is passed by what it has brought into it. -/
theorem C118_recognised (p : Poly) : isStandard (standard p) = true := by
  obtain ⟨⟨l, r, e₁, e₂⟩, least⟩ := C118_standard p
  unfold isStandard
  cases h : standard p with
  | nil => rfl
  | cons f cs =>
    dsimp only
    rw [List.all_eq_true]
    intro c hc
    have := least f (by rw [h]; rfl) c (by
      have : c ∈ r ++ l := by rw [← e₂, h]; exact List.mem_cons_of_mem _ hc
      rw [e₁]
      simp at this ⊢
      grind)
    unfold less
    simp
    grind

/-! ### Areas and the way round -/

theorem chain_area_from (o : Pt) (l : List Pt) (a z : Pt) :
    chainArea (a :: l ++ [z]) = ((legs (a :: l ++ [z])).map fun s => -lineAt s.1 s.2 o).sum +
      (o.e * (z.n - a.n) - o.n * (z.e - a.e)) := by
  induction l generalizing a with
  | nil =>
    show _ = ([(a, z)].map fun s => -lineAt s.1 s.2 o).sum + _
    simp only [List.cons_append, List.nil_append, chainArea, List.map_cons, List.map_nil,
      List.sum_cons, List.sum_nil, lineAt]
    grind
  | cons b l ih =>
    have := ih b
    show (a.e * b.n - b.e * a.n) + chainArea (b :: l ++ [z]) =
      (((a, b) :: legs (b :: l ++ [z])).map fun s => -lineAt s.1 s.2 o).sum + _
    rw [this, List.map_cons, List.sum_cons]
    simp only [lineAt]
    grind

theorem area_from (o : Pt) (p : Poly) :
    2 * area p = ((sides p).map fun s => -lineAt s.1 s.2 o).sum := by
  cases p with
  | nil => show 2 * area [] = 0; decide +kernel
  | cons a l =>
    rw [RoutePlanner.area_cons, chain_area_from o, sides_cons]
    grind

theorem sum_pos {α : Type} (f : α → Rat) (l : List α) (h : ∀ x ∈ l, 0 ≤ f x) {x : α} (hx : x ∈ l)
    (k : 0 < f x) : 0 < (l.map f).sum := by
  have nn : ∀ l : List α, (∀ x ∈ l, 0 ≤ f x) → 0 ≤ (l.map f).sum := by
    intro l h
    induction l with
    | nil => simp
    | cons a l ih =>
      rw [List.map_cons, List.sum_cons]
      have := h a List.mem_cons_self
      have := ih fun x hx => h x (List.mem_cons_of_mem _ hx)
      grind
  induction l with
  | nil => cases hx
  | cons a l ih =>
    rw [List.map_cons, List.sum_cons]
    rcases List.mem_cons.mp hx with rfl | hx
    · have := nn l fun x hx => h x (List.mem_cons_of_mem _ hx)
      grind
    · have := ih (fun x hx => h x (List.mem_cons_of_mem _ hx)) hx
      have := h a List.mem_cons_self
      grind

theorem sum_mul (σ : Rat) (l : List Rat) : (l.map fun x => σ * x).sum = σ * l.sum := by
  induction l with
  | nil => simp
  | cons a l ih => rw [List.map_cons, List.sum_cons, List.sum_cons, ih]; grind

/-- **C118.**  The area of a convex polygon is positive exactly if its corners are
listed counterclockwise, so that its inside is to the left of each side. -/
theorem C118_orientation {σ : Rat} {p : Poly} (h : Convex σ p) : σ * area p < 0 := by
  have hn : 0 < p.length := by have := h.1; omega
  have hs := Visibility.side_mem p 0 hn
  obtain ⟨-, x, hx, hpos⟩ := h.turns hs
  dsimp only at hx hpos
  have mem : p[0] ∈ p := List.getElem_mem _
  have hp := sum_pos (fun s : Pt × Pt => σ * lineAt s.1 s.2 p[0]) (sides p)
    (fun s hs => h.corner mem s hs) hx hpos
  have ar := area_from p[0] p
  have e : ((sides p).map fun s => σ * lineAt s.1 s.2 p[0]).sum =
      σ * -((sides p).map fun s => -lineAt s.1 s.2 p[0]).sum := by
    have : ((sides p).map fun s => σ * lineAt s.1 s.2 p[0]) =
        ((sides p).map fun s => -lineAt s.1 s.2 p[0]).map fun x => (-σ) * x := by
      rw [List.map_map]
      apply List.map_congr_left
      intro s _
      simp only [Function.comp_apply]
      grind
    rw [this, sum_mul]
    grind
  rw [e, ← ar] at hp
  grind

/-- A triangle listed from its northern corner. -/
example : standard [⟨10, 5⟩, ⟨0, 10⟩, ⟨0, 0⟩] = [⟨0, 0⟩, ⟨10, 5⟩, ⟨0, 10⟩] ∧
    area [⟨10, 5⟩, ⟨0, 10⟩, ⟨0, 0⟩] = -50 ∧
    rev [⟨10, 5⟩, ⟨0, 10⟩, ⟨0, 0⟩] = [⟨10, 5⟩, ⟨0, 0⟩, ⟨0, 10⟩] ∧ area (rev [⟨10, 5⟩, ⟨0, 10⟩, ⟨0, 0⟩]) = 50 := by
  decide +kernel

example : Convex 1 [⟨10, 5⟩, ⟨0, 10⟩, ⟨0, 0⟩] := ⟨by decide, by decide, by decide +kernel⟩

end Verif.Visilib
