/-
C119: needless corners that lie on the sides exactly.
-/
import Verif.Visilib.Reduce

namespace Verif.Visilib

open Verif.Visibility (Pt along legs)
open Verif.RoutePlanner (Poly)

/-! ### One corner more on a side -/

theorem On.trans {a b c x : Pt} (h : On a c b) (h' : On a b x) : On a c x := by
  obtain ⟨u, u₀, u₁, rfl⟩ := h
  obtain ⟨t, t₀, t₁, rfl⟩ := h'
  refine ⟨u * t, Rat.mul_nonneg u₀ t₀, ?_, by simp only [along, Pt.mk.injEq]; grind⟩
  have := Rat.mul_le_mul_of_nonneg_right u₁ t₀
  grind

theorem on_split {f s t z : Pt} (h : On f t s) : On f t z ↔ On f s z ∨ On s t z := by
  constructor
  · obtain ⟨u, u₀, u₁, rfl⟩ := h
    rintro ⟨w, w₀, w₁, rfl⟩
    rcases Rat.le_total (a := w) (b := u) with k | k
    · left
      by_cases hu : u = 0
      · have : w = 0 := by grind
        subst hu; subst this
        exact ⟨0, by grind, by grind, by simp only [along, Pt.mk.injEq]; grind⟩
      · have hc : w / u * u = w := Rat.div_mul_cancel hu
        generalize w / u = r at hc
        have u₀' : 0 < u := by grind
        refine ⟨r, Rat.le_of_mul_le_mul_right (c := u) (by grind) u₀',
          Rat.le_of_mul_le_mul_right (c := u) (by grind) u₀', by simp only [along, Pt.mk.injEq]; grind⟩
    · right
      by_cases hu : 1 - u = 0
      · have h1 : u = 1 := by grind
        have : w = 1 := by grind
        subst h1; subst this
        exact ⟨0, by grind, by grind, by simp only [along, Pt.mk.injEq]; grind⟩
      · have hc : (w - u) / (1 - u) * (1 - u) = w - u := Rat.div_mul_cancel hu
        generalize (w - u) / (1 - u) = r at hc
        have u₀' : 0 < 1 - u := by grind
        refine ⟨r, Rat.le_of_mul_le_mul_right (c := 1 - u) (by grind) u₀',
          Rat.le_of_mul_le_mul_right (c := 1 - u) (by grind) u₀', by simp only [along, Pt.mk.injEq]; grind⟩
  · rintro (k | k)
    · exact h.trans k
    · exact (h.symm.trans k.symm).symm

theorem hit_split (x : Pt) {f s t : Pt} (h : On f t s) : hit x f t = (hit x f s != hit x s t) := by
  have main : ∀ f s t : Pt, On f t s → f.n ≤ t.n → hit x f t = (hit x f s != hit x s t) := by
    rintro f s t ⟨u, u₀, u₁, rfl⟩ hft
    have d₀ : 0 ≤ u * (t.n - f.n) := Rat.mul_nonneg u₀ (by grind)
    have d₁ : 0 ≤ (1 - u) * (t.n - f.n) := Rat.mul_nonneg (by grind) (by grind)
    have m₁ : f.n ≤ (along f t u).n := by simp only [along]; grind
    have m₂ : (along f t u).n ≤ t.n := by simp only [along]; grind
    by_cases h : f.n ≤ x.n ∧ x.n < t.n
    · by_cases k : x.n < (along f t u).n
      · obtain ⟨w, -, -, hw⟩ := at_height (a := f) (b := along f t u) (y := x.n) (by grind) h.1 (by grind)
        have e : along f (along f t u) w = along f t (u * w) := by
          simp only [along, Pt.mk.injEq]; grind
        rw [hit_at h.1 k hw, hit_no (by grind) m₂, hit_at h.1 h.2 (t := u * w) (by rw [← e]; exact hw), e]
        simp
      · obtain ⟨w, -, -, hw⟩ := at_height (a := along f t u) (b := t) (y := x.n) (by grind) (by grind)
          (by grind)
        have e : along (along f t u) t w = along f t (u + (1 - u) * w) := by
          simp only [along, Pt.mk.injEq]; grind
        rw [hit_no (b := along f t u) (by grind) m₁, hit_at (by grind) h.2 hw,
          hit_at h.1 h.2 (t := u + (1 - u) * w) (by rw [← e]; exact hw), e]
        simp
    · rw [hit_no h hft, hit_no (by grind) m₁, hit_no (by grind) m₂]
      rfl
  rcases Rat.le_total (a := f.n) (b := t.n) with k | k
  · exact main f s t h k
  · rw [hit_comm x f t, main t s f h.symm k, hit_comm x t, hit_comm x s f, bne_swap]

/-! ### Ways that are the same -/

/-- Ways with the same points, crossed by each ray the same number of times up to an even number. -/
def Same (l l' : List (Pt × Pt)) : Prop :=
  (∀ z, (∃ s ∈ l, On s.1 s.2 z) ↔ ∃ s ∈ l', On s.1 s.2 z) ∧
    ∀ x, (l.countP fun s => hit x s.1 s.2) % 2 = (l'.countP fun s => hit x s.1 s.2) % 2

theorem Same.refl (l : List (Pt × Pt)) : Same l l := ⟨fun _ => Iff.rfl, fun _ => rfl⟩

theorem Same.trans {l m n : List (Pt × Pt)} (h : Same l m) (h' : Same m n) : Same l n :=
  ⟨fun z => (h.1 z).trans (h'.1 z), fun x => (h.2 x).trans (h'.2 x)⟩

theorem Same.cons {l m : List (Pt × Pt)} (s : Pt × Pt) (h : Same l m) : Same (s :: l) (s :: m) := by
  refine ⟨fun z => ?_, fun x => ?_⟩
  · simp only [List.mem_cons, exists_eq_or_imp, h.1 z]
  · rw [List.countP_cons, List.countP_cons]
    have := h.2 x
    omega

theorem Same.perm {l m : List (Pt × Pt)} (h : l.Perm m) : Same l m :=
  ⟨fun z => ⟨fun ⟨s, hs, k⟩ => ⟨s, h.mem_iff.mp hs, k⟩, fun ⟨s, hs, k⟩ => ⟨s, h.mem_iff.mpr hs, k⟩⟩,
    fun x => by rw [h.countP_eq]⟩

theorem Same.symm {l m : List (Pt × Pt)} (h : Same l m) : Same m l :=
  ⟨fun z => (h.1 z).symm, fun x => (h.2 x).symm⟩

theorem same_split {f s t : Pt} (h : On f t s) (l : List (Pt × Pt)) : Same ((f, s) :: (s, t) :: l) ((f, t) :: l) := by
  refine ⟨fun z => ?_, fun x => ?_⟩
  · simp only [List.mem_cons, exists_eq_or_imp]
    rw [on_split h, or_assoc]
  · rw [List.countP_cons, List.countP_cons, List.countP_cons, hit_split x h]
    cases hit x f s <;> cases hit x s t <;> simp
    omega

theorem inPoly_same {p q : Poly} (hp : p ≠ []) (hq : q ≠ []) (h : Same (sides q) (sides p)) (eps : Rat) (x : Pt) :
    inPoly eps x q = inPoly eps x p := by
  obtain ⟨b, hb⟩ := (C116_defined eps x p).mpr hp
  obtain ⟨c, hc⟩ := (C116_defined eps x q).mpr hq
  rw [hb, hc]
  congr 1
  rw [Bool.eq_iff_iff, inPoly_iff hb, inPoly_iff hc]
  have bd : ∀ z, OnBoundary q z ↔ OnBoundary p z := fun z => by
    rw [onBoundary_iff_sides, onBoundary_iff_sides]; exact h.1 z
  have od : odd x q = odd x p := by rw [odd_iff, odd_iff, h.2 x]
  rw [od]
  simp only [bd]

/-! ### Corners that are kept and left out -/

/-- Specification: of three corners the middle one is on the segment of the others or further than epsilon from it, and those are
further than epsilon apart. -/
def Distinct (eps : Rat) (f s t : Pt) : Prop :=
  eps * eps < d2 f t ∧ (On f t s ∨ ∀ z, On f t z → eps * eps < d2 s z)

/-- Specification: so are each two corners that follow each other, with each one before. -/
def Sharp (eps : Rat) : List Pt → Prop
  | [] => True
  | f :: l => (∀ e ∈ legs l, Distinct eps f e.1 e.2) ∧ Sharp eps l

/-- Specification: a polygon of at least four corners whose corners are all on the sides or stand out by more than epsilon. -/
structure Clear (eps : Rat) (a : Pt) (l : List Pt) : Prop where
  sharp : Sharp eps (a :: l)
  /-- The last corner. -/
  last : ∀ f ∈ l.dropLast, Distinct eps f (l.getLastD a) a
  /-- The first corner. -/
  first : ∀ u ∈ l, ∀ v ∈ l, On u v a ∨ ∀ z, On u v z → eps * eps < d2 a z
  /-- Not all corners are on a segment from the first. -/
  wide : ∃ c ∈ l, ¬ On a (l.getLastD a) c

theorem getLastD_mem {α : Type} (a d : α) (l : List α) : (a :: l).getLastD d ∈ a :: l := by
  rw [List.getLastD_eq_getLast?, List.getLast?_eq_some_getLast (by simp)]
  exact List.getLast_mem _

theorem keep_mem {eps : Rat} {l : List Pt} {f s c : Pt} (h : c ∈ keep eps f s l) : c = s ∨ c ∈ l := by
  suffices H : ∀ n, ∀ l : List Pt, l.length ≤ n → ∀ f s, c ∈ keep eps f s l → c = s ∨ c ∈ l from H _ l (Nat.le_refl _) f s h
  intro n
  induction n with
  | zero =>
    intro l hl f s h
    cases l with
    | nil => cases h
    | cons t l => simp at hl
  | succ n ih =>
    intro l hl f s h
    cases l with
    | nil => cases h
    | cons t l =>
      unfold keep at h
      simp only [List.length_cons] at hl
      split at h
      · cases l with
        | nil => cases h
        | cons u us =>
          simp only [List.length_cons] at hl
          rcases ih us (by omega) t u h with rfl | h
          · simp
          · simp [h]
      · split at h
        · rcases ih l (by omega) f t h with rfl | h
          · simp
          · simp [h]
        · rcases List.mem_cons.mp h with rfl | h
          · simp
          · rcases ih l (by omega) s t h with rfl | h
            · simp
            · simp [h]

/-- What is kept of a way is the same way. -/
theorem keep_same {eps : Rat} {t0 : Pt} : ∀ (l : List Pt) (f s : Pt), Sharp eps (f :: s :: l) →
    (∀ u ∈ (s :: l).dropLast, Distinct eps u ((s :: l).getLastD f) t0) →
    (Distinct eps f ((s :: l).getLastD f) t0 ∨ ∃ c ∈ s :: l, ¬ On f ((s :: l).getLastD f) c) →
    Same (legs (f :: s :: l ++ [t0])) (legs (f :: keep eps f s (l ++ [t0]) ++ [t0])) ∧
      ((∃ c ∈ s :: l, ¬ On f ((s :: l).getLastD f) c) → keep eps f s (l ++ [t0]) ≠ [])
  | [], f, s, _, _, h3 => by
    have hon : ¬ ∃ c ∈ [s], ¬ On f ([s].getLastD f) c := by
      rintro ⟨c, hc, hn⟩
      rw [List.mem_singleton] at hc
      subst hc
      exact hn (On.right _ _)
    have hd : Distinct eps f s t0 := by
      rcases h3 with h | h
      · exact h
      · exact absurd h hon
    refine ⟨?_, fun h => absurd h hon⟩
    have k1 : ¬ isPoint f t0 eps = true := by unfold isPoint; have := hd.1; simp; grind
    by_cases hs : segD2 s f t0 ≤ eps * eps
    · have hk : keep eps f s ([] ++ [t0]) = [] := by
        simp only [List.nil_append, keep]
        rw [if_neg k1, if_pos hs]
      rw [hk]
      have ho : On f t0 s := by
        rcases hd.2 with h | h
        · exact h
        · have := h _ (C115_nearest s f t0).1
          unfold segD2 at hs
          grind
      exact same_split ho []
    · have hk : keep eps f s ([] ++ [t0]) = [s] := by
        simp only [List.nil_append, keep]
        rw [if_neg k1, if_neg hs]
      rw [hk]
      exact Same.refl _
  | t :: l, f, s, h1, h2, h3 => by
    have hd : Distinct eps f s t := h1.1 (s, t) (by simp [legs])
    have elast : ∀ d d', (s :: t :: l).getLastD d = (t :: l).getLastD d' := by
      intro d d'
      rw [List.getLastD_eq_getLast?, List.getLastD_eq_getLast?, List.getLast?_cons_cons,
        List.getLast?_eq_some_getLast (l := t :: l) (by simp)]
      rfl
    have edrop : (s :: t :: l).dropLast = s :: (t :: l).dropLast := rfl
    have k1 : ¬ isPoint f t eps = true := by unfold isPoint; have := hd.1; simp; grind
    by_cases hs : segD2 s f t ≤ eps * eps
    · have hk : keep eps f s (t :: l ++ [t0]) = keep eps f t (l ++ [t0]) := by
        rw [List.cons_append]
        conv => lhs; unfold keep
        rw [if_neg k1, if_pos hs]
      rw [hk]
      have ho : On f t s := by
        rcases hd.2 with h | h
        · exact h
        · have := h _ (C115_nearest s f t).1
          unfold segD2 at hs
          grind
      have wide : (∃ c ∈ s :: t :: l, ¬ On f ((s :: t :: l).getLastD f) c) → ∃ c ∈ t :: l, ¬ On f ((t :: l).getLastD f) c := by
        rintro ⟨c, hc, hn⟩
        rw [elast f f] at hn
        rcases List.mem_cons.mp hc with rfl | hc
        · exact ⟨t, by simp, fun k => hn (k.trans ho)⟩
        · exact ⟨c, hc, hn⟩
      have sh : Sharp eps (f :: t :: l) :=
        ⟨fun e he => h1.1 e (by show e ∈ (s, t) :: legs (t :: l); exact .tail _ he), h1.2.2⟩
      have ih := keep_same l f t sh (fun u hu => by
        rw [← elast f f]; exact h2 u (by rw [edrop]; exact .tail _ hu))
        (h3.imp (fun h => by rw [← elast f f]; exact h) wide)
      refine ⟨?_, fun h => ih.2 (wide h)⟩
      exact (same_split ho (legs (t :: l ++ [t0]))).trans ih.1
    · have hk : keep eps f s (t :: l ++ [t0]) = s :: keep eps s t (l ++ [t0]) := by
        rw [List.cons_append]
        conv => lhs; unfold keep
        rw [if_neg k1, if_neg hs]
      rw [hk]
      have ih := keep_same l s t h1.2 (fun u hu => by
        rw [← elast f s]; exact h2 u (by rw [edrop]; exact .tail _ hu))
        (.inl (by rw [← elast f s]; exact h2 s (by rw [edrop]; simp)))
      refine ⟨?_, fun _ => by simp⟩
      exact ih.1.cons (f, s)

theorem legs_last : ∀ (l : List Pt) (p q d : Pt), legs (p :: l ++ [q]) = legs (p :: l) ++ [((p :: l).getLastD d, q)]
  | [], _, _, _ => rfl
  | r :: l, p, q, d => by
    show (p, r) :: legs (r :: l ++ [q]) = (p, r) :: (legs (r :: l) ++ [((p :: r :: l).getLastD d, q)])
    rw [legs_last l r q d]
    rfl

/-- **C119 (partial).**  If every corner is on the side it would be left out from or stands out by more than epsilon, the same
points are in the polygon after its needless corners are eliminated. -/
theorem C119_clear_partial {eps : Rat} {a : Pt} {l : List Pt} (h : Clear eps a l) (e : Rat) (x : Pt) :
    inPoly e x (reduce eps (a :: l)) = inPoly e x (a :: l) := by
  match l, h with
  | [], _ => rfl
  | [_], _ => rfl
  | [_, _], _ => rfl
  | b :: c :: d :: cs, h =>
    have hk := keep_same (eps := eps) (t0 := a) (c :: d :: cs) a b h.sharp h.last (.inr h.wide)
    have hne := hk.2 h.wide
    have hs := hk.1
    have hmem : ∀ u ∈ keep eps a b (c :: d :: cs ++ [a]), u = a ∨ u ∈ b :: c :: d :: cs := by
      intro u hu
      rcases keep_mem hu with rfl | hu
      · simp
      · rcases List.mem_append.mp hu with hu | hu
        · right; exact .tail _ hu
        · left; simpa using hu
    unfold reduce
    dsimp only
    generalize hkk : keep eps a b (c :: d :: cs ++ [a]) = k at *
    match k, hne with
    | y :: ys, _ =>
      have s1 : Same (sides (a :: b :: c :: d :: cs)) (sides (a :: y :: ys)) := by
        rw [sides_cons, sides_cons]; exact hs
      dsimp only
      split
      · refine inPoly_same (by simp) (by simp) ?_ e x
        exact (Same.perm (sides_rotate_one a (y :: ys))).trans s1.symm
      · rename_i hseg
        refine inPoly_same (by simp) (by simp) ?_ e x
        refine Same.trans ?_ s1.symm
        have on : On (ys.getLastD y) y a := by
          have hseg' : d2 a (proj a y (ys.getLastD y)) ≤ eps * eps := Rat.not_lt.mp hseg
          have hy : y = a ∨ y ∈ b :: c :: d :: cs := hmem y (by simp)
          have hz : ys.getLastD y = a ∨ ys.getLastD y ∈ b :: c :: d :: cs := by
            apply hmem
            cases ys with
            | nil => simp
            | cons w ws => exact .tail _ (getLastD_mem w y ws)
          rcases hy with hy | hy
          · rw [hy]; exact On.right _ _
          rcases hz with hz | hz
          · rw [hz]; exact On.left _ _
          rcases h.first y hy _ hz with k | k
          · exact k.symm
          · have := k _ (C115_nearest a y (ys.getLastD y)).1
            grind
        cases ys with
        | nil =>
          exact (same_split (f := y) (s := a) (t := y) on []).symm.trans (Same.perm (List.Perm.swap _ _ _))
        | cons w ws =>
          have e1 : sides (y :: w :: ws) = legs (y :: w :: ws) ++ [((w :: ws).getLastD y, y)] := by
            rw [sides_cons, legs_last _ _ _ y]
            rfl
          have e2 : sides (a :: y :: w :: ws) = (a, y) :: (legs (y :: w :: ws) ++ [((w :: ws).getLastD y, a)]) := by
            rw [sides_cons]
            have h3 := legs_last (w :: ws) y a y
            show (a, y) :: legs (y :: w :: ws ++ [a]) = _
            rw [h3]
            rfl
          rw [e1, e2]
          refine (Same.perm List.perm_append_comm).trans ?_
          refine (same_split on (legs (y :: w :: ws))).symm.trans (Same.perm ?_)
          refine (List.Perm.swap _ _ _).trans (List.Perm.cons _ ?_)
          exact (List.perm_append_comm (l₁ := [((w :: ws).getLastD y, a)]) (l₂ := legs (y :: w :: ws)))

/-! ### An example -/

theorem on_or_far {eps : Rat} {s f t : Pt} (h : segD2 s f t = 0 ∨ eps * eps < segD2 s f t) :
    On f t s ∨ ∀ z, On f t z → eps * eps < d2 s z := by
  rcases h with h | h
  · left
    have : s = proj s f t := d2_zero (by unfold segD2 at h; rw [h]; exact Rat.le_refl)
    rw [this]
    exact (C115_nearest s f t).1
  · right
    intro z hz
    have := (C115_nearest s f t).2 z hz
    unfold segD2 at h
    grind

/-- For the example: `Sharp`, computed. -/
def sharpB (eps : Rat) : List Pt → Bool
  | [] => true
  | f :: l => ((legs l).all fun e => decide (eps * eps < d2 f e.2 ∧ (segD2 e.1 f e.2 = 0 ∨ eps * eps < segD2 e.1 f e.2))) &&
      sharpB eps l

/-- A square of three metres with a corner more in the middle of each side: those four are left out. -/
example : Clear (1 / 2) ⟨0, 0⟩ [⟨0, 3 / 2⟩, ⟨0, 3⟩, ⟨3 / 2, 3⟩, ⟨3, 3⟩, ⟨3, 3 / 2⟩, ⟨3, 0⟩, ⟨3 / 2, 0⟩] ∧
    reduce (1 / 2) [⟨0, 0⟩, ⟨0, 3 / 2⟩, ⟨0, 3⟩, ⟨3 / 2, 3⟩, ⟨3, 3⟩, ⟨3, 3 / 2⟩, ⟨3, 0⟩, ⟨3 / 2, 0⟩] =
      [⟨0, 3⟩, ⟨3, 3⟩, ⟨3, 0⟩, ⟨0, 0⟩] := by
  have dist : ∀ {eps : Rat} {f s t : Pt}, eps * eps < d2 f t ∧ (segD2 s f t = 0 ∨ eps * eps < segD2 s f t) → Distinct eps f s t :=
    fun h => ⟨h.1, on_or_far h.2⟩
  have sharp : ∀ {eps : Rat} (l : List Pt), sharpB eps l = true → Sharp eps l := by
    intro eps l
    induction l with
    | nil => intro _; trivial
    | cons f l ih =>
      intro h
      unfold sharpB at h
      rw [Bool.and_eq_true] at h
      refine ⟨fun e he => dist ?_, ih h.2⟩
      have := List.all_eq_true.mp h.1 e he
      simpa using this
  refine ⟨⟨sharp _ (by decide +kernel), ?_, ?_, ?_⟩, by decide +kernel⟩
  · intro f hf
    refine dist ?_
    revert f
    decide +kernel
  · intro u hu v hv
    refine on_or_far ?_
    revert u v
    decide +kernel
  · refine ⟨⟨3, 3⟩, by simp, ?_⟩
    rintro ⟨t, -, -, h⟩
    simp only [List.getLastD, along, Pt.mk.injEq] at h
    grind

end Verif.Visilib
