/-
C120, C121: points in an environment, and what a valid environment is.
-/
import Verif.Visilib.EnvModel
import Verif.Visilib.Props
import Verif.Visilib.Distance

namespace Verif.Visilib

open Verif.Visibility (Pt along)
open Verif.RoutePlanner (Poly area)

/-! ### C120 -/

/-- Some point of the boundary is within epsilon. -/
def Near (eps : Rat) (p : Poly) (x : Pt) : Prop := ∃ z, OnBoundary p z ∧ d2 x z ≤ eps * eps

theorem projPoly_near {eps : Rat} {x m : Pt} {p : Poly} (h : projPoly x p = .ok m) :
    d2 x m ≤ eps * eps ↔ Near eps p x := by
  cases p with
  | nil => cases h
  | cons v vs =>
    cases h
    have := C115_boundary (eps := eps) (p := x) (poly := v :: vs) rfl
    rw [decide_eq_true_iff] at this
    exact this

theorem projHoles_near {eps : Rat} {x : Pt} {hs : List Poly} {m m' : Pt}
    (h : projHoles x m hs = .ok m') :
    d2 x m' ≤ eps * eps ↔ d2 x m ≤ eps * eps ∨ ∃ k ∈ hs, Near eps k x := by
  induction hs generalizing m with
  | nil => cases h; simp
  | cons k hs ih =>
    obtain ⟨q, hq, h⟩ := Outcome.bind_eq_ok.mp h
    rw [ih h]
    have := projPoly_near (eps := eps) hq
    have key : d2 x (if d2 x q < d2 x m then q else m) ≤ eps * eps ↔
        d2 x m ≤ eps * eps ∨ Near eps k x := by
      rw [← this]
      split <;> grind
    rw [key]
    simp only [List.mem_cons, exists_eq_or_imp, or_assoc]

theorem inNoHole_iff {x : Pt} {hs : List Poly} {b : Bool} (h : inNoHole x hs = .ok b) :
    b = true ↔ ∀ k ∈ hs, inPoly 0 x k = .ok false := by
  induction hs with
  | nil => cases h; simp
  | cons k hs ih =>
    obtain ⟨c, hc, h⟩ := Outcome.bind_eq_ok.mp h
    cases c with
    | true =>
      cases h
      simp [hc]
    | false =>
      rw [ih h]
      simp [hc]

/-- **C120.**  A point is found in an environment exactly if it is within epsilon of one of
the boundaries, or in the outer boundary and in no hole. -/
theorem C120_in {eps : Rat} {x : Pt} {o : Poly} {hs : List Poly} {b : Bool}
    (h : inEnv eps x o hs = .ok b) :
    b = true ↔ (∃ p ∈ o :: hs, ∃ z, OnBoundary p z ∧ d2 x z ≤ eps * eps) ∨
      (inPoly eps x o = .ok true ∧ ∀ k ∈ hs, inPoly 0 x k = .ok false) := by
  obtain ⟨m, hm, h⟩ := Outcome.bind_eq_ok.mp h
  obtain ⟨m', hm', h⟩ := Outcome.bind_eq_ok.mp h
  have near : d2 x m' ≤ eps * eps ↔ ∃ p ∈ o :: hs, ∃ z, OnBoundary p z ∧ d2 x z ≤ eps * eps := by
    rw [projHoles_near hm', projPoly_near hm]
    simp only [List.mem_cons, exists_eq_or_imp, Near]
  by_cases k : d2 x m' ≤ eps * eps
  · rw [if_pos k] at h
    cases h
    simp only [true_iff]
    exact .inl (near.mp k)
  · rw [if_neg k] at h
    obtain ⟨c, hc, h⟩ := Outcome.bind_eq_ok.mp h
    have hn : ¬ ∃ p ∈ o :: hs, ∃ z, OnBoundary p z ∧ d2 x z ≤ eps * eps := fun h => k (near.mpr h)
    cases c with
    | false =>
      cases h
      simp only [Bool.false_eq_true, false_iff]
      rintro (h | ⟨h, -⟩)
      · exact hn h
      · rw [hc] at h; cases h
    | true =>
      rw [inNoHole_iff h]
      constructor
      · intro h; exact .inr ⟨hc, h⟩
      · rintro (h | ⟨-, h⟩)
        · exact absurd h hn
        · exact h

/-- **C120.**  There is an answer exactly if no polygon of the environment is empty. -/
theorem C120_defined (eps : Rat) (x : Pt) (o : Poly) (hs : List Poly) :
    (∃ b, inEnv eps x o hs = .ok b) ↔ ∀ p ∈ o :: hs, p ≠ [] := by
  have pp : ∀ p : Poly, (∃ m, projPoly x p = .ok m) ↔ p ≠ [] := by
    intro p; cases p <;> simp [projPoly]
  have ph : ∀ (hs : List Poly) (m : Pt), (∃ m', projHoles x m hs = .ok m') ↔ ∀ k ∈ hs, k ≠ [] := by
    intro hs
    induction hs with
    | nil => intro m; simp [projHoles]
    | cons k hs ih =>
      intro m
      rw [List.forall_mem_cons]
      constructor
      · rintro ⟨m', h⟩
        obtain ⟨q, hq, h⟩ := Outcome.bind_eq_ok.mp h
        exact ⟨(pp k).mp ⟨q, hq⟩, (ih _).mp ⟨m', h⟩⟩
      · rintro ⟨h₁, h₂⟩
        obtain ⟨q, hq⟩ := (pp k).mpr h₁
        obtain ⟨m', h⟩ := (ih (if d2 x q < d2 x m then q else m)).mpr h₂
        exact ⟨m', Outcome.bind_eq_ok.mpr ⟨q, hq, h⟩⟩
  have pn : ∀ hs : List Poly, (∀ k ∈ hs, k ≠ []) → ∃ b, inNoHole x hs = .ok b := by
    intro hs
    induction hs with
    | nil => intro _; exact ⟨_, rfl⟩
    | cons k hs ih =>
      intro h
      rw [List.forall_mem_cons] at h
      obtain ⟨c, hc⟩ := (C116_defined 0 x k).mpr h.1
      obtain ⟨b, hb⟩ := ih h.2
      unfold inNoHole
      rw [hc, Outcome.bind_ok]
      cases c
      · exact ⟨b, hb⟩
      · exact ⟨false, rfl⟩
  rw [List.forall_mem_cons]
  constructor
  · rintro ⟨b, h⟩
    obtain ⟨m, hm, h⟩ := Outcome.bind_eq_ok.mp h
    obtain ⟨m', hm', -⟩ := Outcome.bind_eq_ok.mp h
    exact ⟨(pp o).mp ⟨m, hm⟩, (ph hs m).mp ⟨m', hm'⟩⟩
  · rintro ⟨h₁, h₂⟩
    obtain ⟨m, hm⟩ := (pp o).mpr h₁
    obtain ⟨m', hm'⟩ := (ph hs m).mpr h₂
    unfold inEnv
    rw [hm, Outcome.bind_ok, hm', Outcome.bind_ok]
    split
    · exact ⟨_, rfl⟩
    · obtain ⟨c, hc⟩ := (C116_defined eps x o).mpr h₁
      rw [hc, Outcome.bind_ok]
      cases c
      · exact ⟨_, rfl⟩
      · exact pn hs h₂

/-- A square with a square hole: between them, in the hole, near the boundary of the
hole, outside. -/
example : let o : Poly := [⟨0, 0⟩, ⟨0, 9⟩, ⟨9, 9⟩, ⟨9, 0⟩]
    let h : Poly := [⟨3, 3⟩, ⟨6, 3⟩, ⟨6, 6⟩, ⟨3, 6⟩]
    inEnv (1/10) ⟨1, 1⟩ o [h] = .ok true ∧ inEnv (1/10) ⟨4, 4⟩ o [h] = .ok false ∧
    inEnv (1/10) ⟨61/20, 4⟩ o [h] = .ok true ∧ inEnv (1/10) ⟨4, 10⟩ o [h] = .ok false ∧
    inEnv (1/10) ⟨4, 4⟩ o [[]] = .ub := by decide +kernel

/-! ### The distance of two boundaries -/

theorem fold_min {α : Type} (f : α → Rat) (l : List α) (m : Rat) :
    let r := l.foldl (fun m s => if f s < m then f s else m) m
    r ≤ m ∧ (∀ s ∈ l, r ≤ f s) ∧ (r = m ∨ ∃ s ∈ l, r = f s) := by
  induction l generalizing m with
  | nil => simp
  | cons a l ih =>
    dsimp only
    rw [List.foldl_cons]
    obtain ⟨h₁, h₂, h₃⟩ := ih (if f a < m then f a else m)
    refine ⟨by split at h₁ <;> grind, ?_, ?_⟩
    · intro s hs
      rcases List.mem_cons.mp hs with rfl | hs
      · split at h₁ <;> grind
      · exact h₂ s hs
    · rcases h₃ with h₃ | ⟨s, hs, h₃⟩
      · by_cases k : f a < m
        · rw [if_pos k] at h₃ ⊢
          exact .inr ⟨a, List.mem_cons_self, h₃⟩
        · rw [if_neg k] at h₃ ⊢
          exact .inl h₃
      · exact .inr ⟨s, List.mem_cons_of_mem _ hs, h₃⟩

theorem fold_min₂ {α β : Type} (f : α → β → Rat) (l : List α) (k : List β) (m : Rat) :
    let r := l.foldl (fun m s => k.foldl (fun m t => if f s t < m then f s t else m) m) m
    r ≤ m ∧ (∀ s ∈ l, ∀ t ∈ k, r ≤ f s t) ∧ (r = m ∨ ∃ s ∈ l, ∃ t ∈ k, r = f s t) := by
  induction l generalizing m with
  | nil => simp
  | cons a l ih =>
    dsimp only
    rw [List.foldl_cons]
    obtain ⟨g₁, g₂, g₃⟩ := fold_min (f a) k m
    obtain ⟨h₁, h₂, h₃⟩ := ih (k.foldl (fun m t => if f a t < m then f a t else m) m)
    refine ⟨Rat.le_trans h₁ g₁, ?_, ?_⟩
    · intro s hs t ht
      rcases List.mem_cons.mp hs with rfl | hs
      · exact Rat.le_trans h₁ (g₂ t ht)
      · exact h₂ s hs t ht
    · rcases h₃ with h₃ | ⟨s, hs, h₃⟩
      · rw [h₃]
        rcases g₃ with g₃ | ⟨t, ht, g₃⟩
        · exact .inl g₃
        · exact .inr ⟨a, List.mem_cons_self, t, ht, g₃⟩
      · exact .inr ⟨s, List.mem_cons_of_mem _ hs, h₃⟩

theorem corner_on {p : Poly} {v : Pt} (h : v ∈ p) : OnBoundary p v := by
  obtain ⟨i, hi, rfl⟩ := List.mem_iff_getElem.mp h
  exact ⟨i, hi, .left _ _⟩

theorem pointD2_spec (x v : Pt) (vs : List Pt) :
    (∃ z, OnBoundary (v :: vs) z ∧ d2 x z = pointD2 x v vs) ∧
      ∀ z, OnBoundary (v :: vs) z → pointD2 x v vs ≤ d2 x z := by
  obtain ⟨h₁, h₂, h₃⟩ := fold_min (fun s : Pt × Pt => segD2 x s.1 s.2)
    (sides (v :: vs) ++ (sides (v :: vs)).take 1) (d2 x v)
  change pointD2 x v vs ≤ _ at h₁
  change ∀ s ∈ _, pointD2 x v vs ≤ _ at h₂
  change pointD2 x v vs = _ ∨ ∃ s ∈ _, pointD2 x v vs = _ at h₃
  constructor
  · rcases h₃ with h₃ | ⟨s, hs, h₃⟩
    · exact ⟨v, corner_on List.mem_cons_self, h₃.symm⟩
    · have hs : s ∈ sides (v :: vs) := by
        rcases List.mem_append.mp hs with hs | hs
        · exact hs
        · exact List.mem_of_mem_take hs
      exact ⟨proj x s.1 s.2, onBoundary_iff_sides.mpr ⟨s, hs, (C115_nearest x _ _).1⟩, h₃.symm⟩
  · intro z hz
    obtain ⟨s, hs, hz⟩ := onBoundary_iff_sides.mp hz
    exact Rat.le_trans (h₂ s (List.mem_append_left _ hs)) ((C115_nearest x _ _).2 z hz)

/-- **C121.**  The distance of the boundaries of two polygons is that of the two nearest
points of them. -/
theorem C121_distance {p q : Poly} {d : Rat} (h : boundaryD2 p q = .ok d) :
    (∃ z w, OnBoundary p z ∧ OnBoundary q w ∧ d2 z w = d) ∧
      ∀ z w, OnBoundary p z → OnBoundary q w → d ≤ d2 z w := by
  have single : ∀ {a z : Pt}, OnBoundary [a] z → z = a := by
    rintro a z ⟨i, hi, t, -, -, e⟩
    have : i = 0 := by simp at hi; exact hi
    subst this
    simp only [List.getElem_cons_zero, List.length_cons, List.length_nil, Nat.zero_add,
      Nat.mod_self] at e
    rw [e]
    cases a
    simp [along]
    grind
  have many : ∀ (v : Pt) (vs : List Pt) (w : Pt) (ws : List Pt),
      let r := (sides (v :: vs)).foldl (fun m s =>
        (sides (w :: ws)).foldl (fun m t =>
          if distD2 s.1 s.2 t.1 t.2 < m then distD2 s.1 s.2 t.1 t.2 else m) m)
        (pointD2 v w ws)
      (∃ z u, OnBoundary (v :: vs) z ∧ OnBoundary (w :: ws) u ∧ d2 z u = r) ∧
        ∀ z u, OnBoundary (v :: vs) z → OnBoundary (w :: ws) u → r ≤ d2 z u := by
    intro v vs w ws
    obtain ⟨h₁, h₂, h₃⟩ := fold_min₂ (fun s t : Pt × Pt => distD2 s.1 s.2 t.1 t.2)
      (sides (v :: vs)) (sides (w :: ws)) (pointD2 v w ws)
    refine ⟨?_, ?_⟩
    · rcases h₃ with h₃ | ⟨s, hs, t, ht, h₃⟩
      · obtain ⟨⟨z, hz, e⟩, -⟩ := pointD2_spec v w ws
        exact ⟨v, z, corner_on List.mem_cons_self, hz, by rw [e]; exact h₃.symm⟩
      · obtain ⟨⟨z, u, hz, hu, e⟩, -⟩ := C117_distance s.1 s.2 t.1 t.2
        exact ⟨z, u, onBoundary_iff_sides.mpr ⟨s, hs, hz⟩, onBoundary_iff_sides.mpr ⟨t, ht, hu⟩,
          by rw [e]; exact h₃.symm⟩
    · intro z u hz hu
      obtain ⟨s, hs, hz⟩ := onBoundary_iff_sides.mp hz
      obtain ⟨t, ht, hu⟩ := onBoundary_iff_sides.mp hu
      exact Rat.le_trans (h₂ s hs t ht) ((C117_distance _ _ _ _).2 z u hz hu)
  match p, q with
  | [], _ => cases h
  | [_], [] => cases h
  | _ :: _ :: _, [] => cases h
  | [a], w :: ws =>
    cases h
    obtain ⟨⟨z, hz, e⟩, least⟩ := pointD2_spec a w ws
    refine ⟨⟨a, z, corner_on List.mem_cons_self, hz, e⟩, fun z' u hz' hu => ?_⟩
    rw [single hz']
    exact least u hu
  | a :: b :: vs, [w] =>
    cases h
    obtain ⟨⟨z, hz, e⟩, least⟩ := pointD2_spec w a (b :: vs)
    refine ⟨⟨z, w, hz, corner_on List.mem_cons_self, by rw [d2_comm]; exact e⟩,
      fun z' u hz' hu => ?_⟩
    rw [single hu, d2_comm]
    exact least z' hz'
  | a :: b :: vs, w :: x :: ws =>
    cases h
    exact many a (b :: vs) w (x :: ws)

theorem boundaryD2_defined {p q : Poly} (hp : p ≠ []) (hq : q ≠ []) : ∃ d, boundaryD2 p q = .ok d := by
  match p, q with
  | [], _ => exact absurd rfl hp
  | _ :: _, [] => exact absurd rfl hq
  | [_], _ :: _ => exact ⟨_, rfl⟩
  | _ :: _ :: _, [_] => exact ⟨_, rfl⟩
  | _ :: _ :: _, _ :: _ :: _ => exact ⟨_, rfl⟩

end Verif.Visilib
