/-
C121: what a valid environment is, and where its points are.
-/
import Verif.Visilib.Environment

namespace Verif.Visilib

open Verif.Visibility (Pt along)
open Verif.RoutePlanner (Poly area)

/-! ### Boundaries that are apart -/

/-- No point of the one boundary is within epsilon of a point of the other. -/
def Apart (eps : Rat) (p q : Poly) : Prop :=
  ∀ z w, OnBoundary p z → OnBoundary q w → eps * eps < d2 z w

theorem Apart.symm {eps : Rat} {p q : Poly} (h : Apart eps p q) : Apart eps q p :=
  fun z w hz hw => by rw [d2_comm]; exact h w z hw hz

theorem apart_iff {eps : Rat} {p q : Poly} {b : Bool} (h : apart eps p q = .ok b) :
    b = true ↔ Apart eps p q := by
  obtain ⟨d, hd, h⟩ := Outcome.bind_eq_ok.mp h
  cases h
  obtain ⟨⟨z, w, hz, hw, e⟩, least⟩ := C121_distance hd
  rw [Bool.not_eq_true', decide_eq_false_iff_not]
  constructor
  · intro h z w hz hw
    have := least z w hz hw
    grind
  · intro h
    have := h z w hz hw
    grind

theorem Apart.off {eps : Rat} {p q : Poly} (h : Apart eps p q) {z : Pt} (hz : OnBoundary p z) :
    ¬ OnBoundary q z := by
  intro hq
  have := h z z hz hq
  rw [d2_self] at this
  have := sq_nonneg eps
  grind

theorem On.sub {a b y z : Pt} (hy : On a b y) (hz : On a y z) : On a b z := by
  obtain ⟨t, t₀, t₁, rfl⟩ := hy
  obtain ⟨u, u₀, u₁, rfl⟩ := hz
  have := Rat.mul_nonneg u₀ t₀
  have := Rat.mul_nonneg u₀ (show 0 ≤ 1 - t by grind)
  exact ⟨u * t, by grind, by grind, by simp only [along, Pt.mk.injEq]; grind⟩

/-- All points of a boundary are on the same side of another one that is apart. -/
theorem Apart.parity {eps : Rat} {p q : Poly} (h : Apart eps p q) {y z : Pt}
    (hy : OnBoundary p y) (hz : OnBoundary p z) : odd y q = odd z q := by
  have step : ∀ s ∈ sides p, ∀ y, On s.1 s.2 y → odd s.1 q = odd y q := by
    intro s hs y hy
    apply odd_apart
    intro u hu w hw hw'
    exact h.off (onBoundary_iff_sides.mpr ⟨s, hs, hy.sub hw⟩) (onBoundary_iff_sides.mpr ⟨u, hu, hw'⟩)
  obtain ⟨s, hs, hy⟩ := onBoundary_iff_sides.mp hy
  obtain ⟨t, ht, hz⟩ := onBoundary_iff_sides.mp hz
  rw [← step s hs y hy, ← step t ht z hz]
  false_or_by_contra
  rename_i hne
  have mem : ∀ s ∈ sides p, s.1 ∈ p := by
    intro s hs
    obtain ⟨i, hi, e, -⟩ := Visibility.mem_sides (by rw [← sides_eq]; exact hs)
    rw [e]; exact List.getElem_mem _
  obtain ⟨u, hu, h₁, h₂⟩ := exists_change (P := fun v => odd v q = odd s.1 q) (mem s hs) (mem t ht)
    rfl (fun h => hne h.symm)
  exact h₂ ((step u hu u.2 (.right _ _)).symm.trans h₁)

theorem d2_along (a b : Pt) (t : Rat) : d2 (along a b t) a = t * t * d2 b a := by
  simp only [d2, along]; grind

/-- A point within epsilon of a boundary is on the same side of another one that is
apart. -/
theorem Apart.near {eps : Rat} {p q : Poly} (h : Apart eps p q) {x z : Pt} (hz : OnBoundary p z)
    (hx : d2 x z ≤ eps * eps) : odd z q = odd x q := by
  apply odd_apart
  rintro s hs w ⟨t, t₀, t₁, rfl⟩ hw
  have h₁ := h z _ hz (onBoundary_iff_sides.mpr ⟨s, hs, hw⟩)
  rw [d2_comm, d2_along] at h₁
  have h₂ := d2_nonneg x z
  have h₃ : t * t ≤ 1 := by
    have := Rat.mul_nonneg t₀ (show 0 ≤ 1 - t by grind)
    grind
  have h₄ := Rat.mul_nonneg (show 0 ≤ 1 - t * t by grind) h₂
  grind

/-- A point in a polygon has a corner further east. -/
theorem odd_east {x : Pt} {p : Poly} (h : odd x p = true) : ∃ v ∈ p, x.e < v.e := by
  false_or_by_contra
  rename_i k
  have le : ∀ v ∈ p, v.e ≤ x.e := by
    intro v hv
    false_or_by_contra
    exact k ⟨v, hv, by grind⟩
  rw [odd_iff, List.countP_eq_zero.mpr] at h
  · simp at h
  · intro s hs hh
    obtain ⟨i, hi, e₁, e₂⟩ := Visibility.mem_sides (by rw [← sides_eq]; exact hs)
    have l₁ := le s.1 (e₁ ▸ List.getElem_mem _)
    have l₂ := le s.2 (e₂ ▸ List.getElem_mem _)
    obtain ⟨-, t, t₀, t₁, -, he⟩ := hit_iff.mp hh
    simp only [along] at he
    have := Rat.mul_nonneg t₀ (show 0 ≤ x.e - s.2.e by grind)
    have := Rat.mul_nonneg (show 0 ≤ 1 - t by grind) (show 0 ≤ x.e - s.1.e by grind)
    grind

theorem exists_max (p : Poly) (hp : p ≠ []) : ∃ v ∈ p, ∀ w ∈ p, w.e ≤ v.e := by
  induction p with
  | nil => exact absurd rfl hp
  | cons a l ih =>
    cases l with
    | nil => exact ⟨a, List.mem_cons_self, fun w hw => by
        rw [List.mem_singleton] at hw; rw [hw]; exact Rat.le_refl⟩
    | cons b l =>
      obtain ⟨v, hv, hm⟩ := ih (by simp)
      rcases Rat.le_total (a := a.e) (b := v.e) with h | h
      · refine ⟨v, List.mem_cons_of_mem _ hv, fun w hw => ?_⟩
        rcases List.mem_cons.mp hw with rfl | hw
        · exact h
        · exact hm w hw
      · refine ⟨a, List.mem_cons_self, fun w hw => ?_⟩
        rcases List.mem_cons.mp hw with rfl | hw
        · exact Rat.le_refl
        · exact Rat.le_trans (hm w hw) h

/-- Two polygons are not in each other. -/
theorem not_mutual {p q : Poly} (hp : p ≠ []) (h₁ : ∀ v ∈ p, odd v q = true)
    (h₂ : ∀ v ∈ q, odd v p = true) : False := by
  obtain ⟨v, hv, hm⟩ := exists_max p hp
  obtain ⟨w, hw, e₁⟩ := odd_east (h₁ v hv)
  obtain ⟨u, hu, e₂⟩ := odd_east (h₂ w hw)
  have := hm u hu
  grind

/-! ### C121 -/

theorem allM_true {α : Type} {f : α → Outcome Bool} {l : List α} :
    allM f l = .ok true ↔ ∀ a ∈ l, f a = .ok true := by
  induction l with
  | nil => simp [allM]
  | cons a l ih =>
    rw [List.forall_mem_cons, ← ih]
    show ((f a).bind fun b => if b then allM f l else .ok false) = .ok true ↔ _
    cases h : f a with
    | ok b => cases b <;> simp [Outcome.bind]
    | throws => simp [Outcome.bind]
    | ub => simp [Outcome.bind]

theorem allM_defined {α : Type} {f : α → Outcome Bool} {l : List α}
    (h : ∀ a ∈ l, ∃ b, f a = .ok b) : ∃ b, allM f l = .ok b := by
  induction l with
  | nil => exact ⟨_, rfl⟩
  | cons a l ih =>
    rw [List.forall_mem_cons] at h
    obtain ⟨b, hb⟩ := h.1
    obtain ⟨c, hc⟩ := ih h.2
    unfold allM
    rw [hb, Outcome.bind_ok]
    cases b
    · exact ⟨_, rfl⟩
    · exact ⟨c, hc⟩

theorem pairs_pairwise {R : Poly → Poly → Prop} {hs : List Poly} :
    hs.Pairwise R ↔ ∀ p ∈ pairs hs, R p.1 p.2 := by
  induction hs with
  | nil => simp [pairs]
  | cons h hs ih =>
    rw [List.pairwise_cons, ih]
    simp only [pairs, List.mem_append, List.mem_map]
    constructor
    · rintro ⟨h₁, h₂⟩ p (⟨k, hk, rfl⟩ | hp)
      · exact h₁ k hk
      · exact h₂ p hp
    · intro h'
      exact ⟨fun k hk => h' (h, k) (.inl ⟨k, hk, rfl⟩), fun p hp => h' p (.inr hp)⟩

theorem simple_length {eps : Rat} {p : Poly} (h : isSimple eps p = true) : 2 < p.length := by
  unfold isSimple at h
  split at h
  · cases h
  · omega

theorem simple_ne {eps : Rat} {p : Poly} (h : isSimple eps p = true) : p ≠ [] := by
  have := simple_length h
  intro e; rw [e] at this; simp at this

theorem mem_pairs {hs : List Poly} {p : Poly × Poly} (h : p ∈ pairs hs) : p.1 ∈ hs ∧ p.2 ∈ hs := by
  induction hs with
  | nil => cases h
  | cons a hs ih =>
    simp only [pairs, List.mem_append, List.mem_map] at h
    rcases h with ⟨k, hk, rfl⟩ | h
    · exact ⟨List.mem_cons_self, List.mem_cons_of_mem _ hk⟩
    · exact ⟨List.mem_cons_of_mem _ (ih h).1, List.mem_cons_of_mem _ (ih h).2⟩

theorem apart_defined {eps : Rat} {p q : Poly} (hp : p ≠ []) (hq : q ≠ []) :
    ∃ b, apart eps p q = .ok b := by
  obtain ⟨d, hd⟩ := boundaryD2_defined hp hq
  exact ⟨_, Outcome.bind_eq_ok.mpr ⟨d, hd, rfl⟩⟩

theorem holeOk_defined {eps : Rat} {o : Poly} {hs : List Poly} {i : Nat} (ho : o ≠ [])
    (hh : ∀ k ∈ hs, k ≠ []) : ∃ b, holeOk eps o hs i = .ok b := by
  apply allM_defined
  intro v _
  obtain ⟨c, hc⟩ := (C116_defined eps v o).mpr ho
  rw [hc, Outcome.bind_ok]
  cases c
  · exact ⟨_, rfl⟩
  · apply allM_defined
    intro k hk
    obtain ⟨b, hb⟩ := (C116_defined eps v k).mpr (hh k (List.mem_of_mem_eraseIdx hk))
    exact ⟨_, Outcome.bind_eq_ok.mpr ⟨b, hb, rfl⟩⟩

/-- **C121.**  Whether an environment is valid is answered for every environment. -/
theorem C121_defined (eps : Rat) (o : Poly) (hs : List Poly) : ∃ b, isValid eps o hs = .ok b := by
  unfold isValid
  split
  · exact ⟨_, rfl⟩
  split
  · exact ⟨_, rfl⟩
  rename_i h₁
  split
  · exact ⟨_, rfl⟩
  rename_i h₂
  have ho : o ≠ [] := simple_ne (eps := eps) (by simpa using h₁)
  have hh : ∀ k ∈ hs, k ≠ [] := by
    simp at h₂
    exact fun k hk => simple_ne (h₂ k hk)
  obtain ⟨b, hb⟩ := allM_defined (f := apart eps o) (l := hs) fun k hk => apart_defined ho (hh k hk)
  rw [hb, Outcome.bind_ok]
  split
  · exact ⟨_, rfl⟩
  obtain ⟨b, hb⟩ := allM_defined (f := fun p : Poly × Poly => apart eps p.1 p.2) (l := pairs hs)
    fun p hp => apart_defined (hh _ (mem_pairs hp).1) (hh _ (mem_pairs hp).2)
  rw [hb, Outcome.bind_ok]
  split
  · exact ⟨_, rfl⟩
  obtain ⟨b, hb⟩ := allM_defined (f := holeOk eps o hs) (l := List.range hs.length)
    fun i _ => holeOk_defined ho hh
  rw [hb, Outcome.bind_ok]
  split
  · exact ⟨_, rfl⟩
  split
  · exact ⟨_, rfl⟩
  · exact ⟨_, rfl⟩

/-- What a valid environment is: the boundaries are simple and further than epsilon from
each other, those of the holes are in the outer one and not in other holes, the outer
one is counterclockwise and the others are clockwise. -/
structure Valid (eps : Rat) (o : Poly) (hs : List Poly) : Prop where
  simple : ∀ p ∈ o :: hs, isSimple eps p = true
  apart : (o :: hs).Pairwise fun p q => ∀ z w, OnBoundary p z → OnBoundary q w → eps * eps < d2 z w
  inside : ∀ k ∈ hs, ∀ z, OnBoundary k z → inPoly 0 z o = .ok true
  disjoint : ∀ (i j : Nat) (h k : Poly), i ≠ j → hs[i]? = some h → hs[j]? = some k →
    ∀ z, OnBoundary h z → inPoly 0 z k = .ok false
  outerArea : 0 < area o
  holeArea : ∀ h ∈ hs, area h < 0

/-- The answer, by parity. -/
theorem inPoly_off {eps : Rat} {x : Pt} {p : Poly} (hp : p ≠ [])
    (h : ∀ z, OnBoundary p z → eps * eps < d2 x z) : inPoly eps x p = .ok (odd x p) := by
  obtain ⟨b, hb⟩ := (C116_defined eps x p).mpr hp
  have := inPoly_iff hb
  rw [hb]
  congr 1
  rw [Bool.eq_iff_iff, this]
  constructor
  · rintro (⟨z, hz, k⟩ | h')
    · have := h z hz; grind
    · exact h'
  · exact .inr

theorem zero_le_sq (eps : Rat) : (0 : Rat) * 0 ≤ eps * eps := by
  have := sq_nonneg eps; grind

theorem Apart.inPoly {eps : Rat} {p q : Poly} (h : Apart eps p q) (hq : q ≠ []) {z : Pt}
    (hz : OnBoundary p z) : inPoly eps z q = .ok (odd z q) ∧ Visilib.inPoly 0 z q = .ok (odd z q) := by
  refine ⟨inPoly_off hq fun w hw => h z w hz hw, inPoly_off hq fun w hw => ?_⟩
  have := h z w hz hw
  have := zero_le_sq eps
  grind

theorem holeOk_true {eps : Rat} {o : Poly} {hs : List Poly} {i : Nat} {h : Poly}
    (hi : hs[i]? = some h) : holeOk eps o hs i = .ok true ↔ ∀ v ∈ h, inPoly eps v o = .ok true ∧
      ∀ (j : Nat) (k : Poly), j ≠ i → hs[j]? = some k → inPoly eps v k = .ok false := by
  unfold holeOk
  rw [allM_true, hi, Option.getD_some]
  refine forall_congr' fun v => imp_congr_right fun hv => ?_
  have nb : ∀ k : Poly, ((inPoly eps v k).bind fun c => Outcome.ok (!c)) = .ok true ↔
      inPoly eps v k = .ok false := by
    intro k
    cases inPoly eps v k with
    | ok c => cases c <;> simp [Outcome.bind]
    | throws => simp [Outcome.bind]
    | ub => simp [Outcome.bind]
  have key : allM (fun k => (inPoly eps v k).bind fun c => Outcome.ok (!c)) (hs.eraseIdx i) = .ok true ↔
      ∀ (j : Nat) (k : Poly), j ≠ i → hs[j]? = some k → inPoly eps v k = .ok false := by
    rw [allM_true]
    constructor
    · intro h j k hj hk
      exact (nb k).mp (h k (List.mem_eraseIdx_iff_getElem?.mpr ⟨j, hj, hk⟩))
    · intro h k hk
      obtain ⟨j, hj, hk⟩ := List.mem_eraseIdx_iff_getElem?.mp hk
      exact (nb k).mpr (h j k hj hk)
  rw [← key]
  cases hb : inPoly eps v o with
  | ok b => cases b <;> simp [Outcome.bind]
  | throws => simp [Outcome.bind]
  | ub => simp [Outcome.bind]

/-- **C121.**  An environment is found valid exactly if it is. -/
theorem C121_valid (eps : Rat) (o : Poly) (hs : List Poly) :
    isValid eps o hs = .ok true ↔ Valid eps o hs := by
  have unfolded : isValid eps o hs = .ok true ↔ isSimple eps o = true ∧ (∀ k ∈ hs, isSimple eps k = true) ∧
      (∀ k ∈ hs, apart eps o k = .ok true) ∧
      (∀ p ∈ pairs hs, Visilib.apart eps p.1 p.2 = .ok true) ∧
      (∀ i ∈ List.range hs.length, holeOk eps o hs i = .ok true) ∧ 0 < area o ∧
      ∀ h ∈ hs, area h < 0 := by
    rw [← allM_true, ← allM_true, ← allM_true]
    unfold isValid
    constructor
    · intro h
      split at h
      · cases h
      split at h
      · cases h
      rename_i h₁
      split at h
      · cases h
      rename_i h₂
      obtain ⟨b, hb, h⟩ := Outcome.bind_eq_ok.mp h
      cases b
      · cases h
      obtain ⟨c, hc, h⟩ := Outcome.bind_eq_ok.mp h
      cases c
      · cases h
      obtain ⟨d, hd, h⟩ := Outcome.bind_eq_ok.mp h
      cases d
      · cases h
      replace h : (if area o ≤ 0 then Outcome.ok false else .ok (hs.all fun h => area h < 0)) = .ok true := h
      split at h
      · cases h
      rename_i h₃
      rw [Outcome.ok.injEq, List.all_eq_true] at h
      refine ⟨by simpa using h₁, by simpa using h₂, hb, hc, hd, by grind, ?_⟩
      intro k hk
      simpa using h k hk
    · rintro ⟨h₁, h₂, h₃, h₄, h₅, h₆, h₇⟩
      have l := simple_length h₁
      rw [if_neg (by omega), if_neg (by simp [h₁]), if_neg (by simpa using h₂), h₃, Outcome.bind_ok,
        if_neg (by simp), h₄, Outcome.bind_ok, if_neg (by simp), h₅, Outcome.bind_ok,
        if_neg (by simp), if_neg (by grind)]
      simpa using h₇
  rw [unfolded]
  constructor
  · rintro ⟨h₁, h₂, h₃, h₄, h₅, h₆, h₇⟩
    have ho := simple_ne h₁
    have hh : ∀ k ∈ hs, k ≠ [] := fun k hk => simple_ne (h₂ k hk)
    have ap : ∀ k ∈ hs, Apart eps o k := fun k hk => (apart_iff (h₃ k hk)).mp rfl
    have pw : hs.Pairwise (Apart eps) := pairs_pairwise.mpr fun p hp => (apart_iff (h₄ p hp)).mp rfl
    have pwi : ∀ (i j : Nat) (h k : Poly), i ≠ j → hs[i]? = some h → hs[j]? = some k → Apart eps h k := by
      intro i j h k hij hi hj
      obtain ⟨li, ei⟩ := List.getElem?_eq_some_iff.mp hi
      obtain ⟨lj, ej⟩ := List.getElem?_eq_some_iff.mp hj
      rw [← ei, ← ej]
      rcases Nat.lt_or_gt_of_ne hij with l | l
      · exact List.pairwise_iff_getElem.mp pw i j li lj l
      · exact (List.pairwise_iff_getElem.mp pw j i lj li l).symm
    have hole : ∀ (i : Nat) (h : Poly), hs[i]? = some h → ∀ v ∈ h, inPoly eps v o = .ok true ∧
      ∀ (j : Nat) (k : Poly), j ≠ i → hs[j]? = some k → inPoly eps v k = .ok false := by
      intro i h hi
      obtain ⟨li, -⟩ := List.getElem?_eq_some_iff.mp hi
      exact (holeOk_true hi).mp (h₅ i (List.mem_range.mpr li))
    have head : ∀ k : Poly, k ≠ [] → ∃ v, v ∈ k := by
      intro k hk
      cases k with
      | nil => exact absurd rfl hk
      | cons v _ => exact ⟨v, List.mem_cons_self⟩
    refine ⟨List.forall_mem_cons.mpr ⟨h₁, h₂⟩, List.pairwise_cons.mpr ⟨ap, pw⟩, ?_, ?_, h₆, h₇⟩
    · intro k hk z hz
      obtain ⟨v, hv⟩ := head k (hh k hk)
      obtain ⟨i, hi⟩ := List.mem_iff_getElem?.mp hk
      have e := (hole i k hi v hv).1
      have a := (ap k hk).symm
      rw [(a.inPoly ho (corner_on hv)).1, a.parity (corner_on hv) hz] at e
      rw [(a.inPoly ho hz).2, e]
    · intro i j h k hij hi hj z hz
      have mh := List.mem_of_getElem? hi
      have mk := List.mem_of_getElem? hj
      obtain ⟨v, hv⟩ := head h (hh h mh)
      have e := (hole i h hi v hv).2 j k (Ne.symm hij) hj
      have a := pwi i j h k hij hi hj
      rw [(a.inPoly (hh k mk) (corner_on hv)).1, a.parity (corner_on hv) hz] at e
      rw [(a.inPoly (hh k mk) hz).2, e]
  · intro v
    obtain ⟨ap, pw⟩ := List.pairwise_cons.mp v.apart
    have h₁ := v.simple o List.mem_cons_self
    have h₂ : ∀ k ∈ hs, isSimple eps k = true := fun k hk => v.simple k (List.mem_cons_of_mem _ hk)
    have ho := simple_ne h₁
    have hh : ∀ k ∈ hs, k ≠ [] := fun k hk => simple_ne (h₂ k hk)
    refine ⟨h₁, h₂, fun k hk => ?_, fun p hp => ?_, fun i hi => ?_, v.outerArea, v.holeArea⟩
    · obtain ⟨b, hb⟩ := apart_defined (eps := eps) ho (hh k hk)
      rw [hb, (apart_iff hb).mpr (ap k hk)]
    · obtain ⟨b, hb⟩ := apart_defined (eps := eps) (hh _ (mem_pairs hp).1) (hh _ (mem_pairs hp).2)
      rw [hb, (apart_iff hb).mpr (pairs_pairwise.mp pw p hp)]
    · have li := List.mem_range.mp hi
      have hi := List.getElem?_eq_getElem li
      rw [holeOk_true hi]
      have mi : hs[i] ∈ hs := List.getElem_mem _
      intro w hw
      constructor
      · have a : Apart eps hs[i] o := Apart.symm (ap hs[i] mi)
        have e := v.inside _ mi w (corner_on hw)
        have := a.inPoly ho (corner_on hw)
        rw [this.2] at e
        rw [this.1, e]
      · intro j k hj hk
        have mk := List.mem_of_getElem? hk
        obtain ⟨lj, ej⟩ := List.getElem?_eq_some_iff.mp hk
        have a : Apart eps hs[i] k := by
          rw [← ej]
          rcases Nat.lt_or_gt_of_ne hj with l | l
          · exact Apart.symm (List.pairwise_iff_getElem.mp pw j i lj li l)
          · exact List.pairwise_iff_getElem.mp pw i j li lj l
        have e := v.disjoint i j _ k (Ne.symm hj) hi hk w (corner_on hw)
        have := a.inPoly (hh k mk) (corner_on hw)
        rw [this.2] at e
        rw [this.1, e]

/-! ### Where the points of a valid environment are -/

/-- **C121.**  A point found in a valid environment is found in its outer boundary. -/
theorem C121_within {eps : Rat} {o : Poly} {hs : List Poly} {x : Pt}
    (hv : isValid eps o hs = .ok true) (hx : inEnv eps x o hs = .ok true) :
    inPoly eps x o = .ok true := by
  have v := (C121_valid eps o hs).mp hv
  have ho := simple_ne (v.simple o List.mem_cons_self)
  obtain ⟨b, hb⟩ := (C116_defined eps x o).mpr ho
  rw [hb, (inPoly_iff hb).mpr]
  rcases (C120_in hx).mp rfl with ⟨p, hp, z, hz, hd⟩ | ⟨h, -⟩
  · rcases List.mem_cons.mp hp with rfl | hp
    · exact .inl ⟨z, hz, hd⟩
    · right
      have a : Apart eps p o := Apart.symm ((List.pairwise_cons.mp v.apart).1 p hp)
      have e := v.inside p hp z hz
      rw [(a.inPoly ho hz).2, a.near hz hd, Outcome.ok.injEq] at e
      exact e
  · exact (inPoly_iff h).mp rfl

/-- **C121.**  A point found in a valid environment is in no hole, other than within epsilon
of the boundary of the hole. -/
theorem C121_no_hole {eps : Rat} {o : Poly} {hs : List Poly} {x : Pt} {h : Poly}
    (hv : isValid eps o hs = .ok true) (hx : inEnv eps x o hs = .ok true) (hh : h ∈ hs)
    (hin : inPoly 0 x h = .ok true) : ∃ z, OnBoundary h z ∧ d2 x z ≤ eps * eps := by
  have v := (C121_valid eps o hs).mp hv
  have ho := simple_ne (v.simple o List.mem_cons_self)
  have hne := simple_ne (v.simple h (List.mem_cons_of_mem _ hh))
  obtain ⟨ap, pw⟩ := List.pairwise_cons.mp v.apart
  have od : (∃ z, OnBoundary h z ∧ d2 x z ≤ eps * eps) ∨ odd x h = true := by
    rcases (inPoly_iff hin).mp rfl with ⟨z, hz, hd⟩ | k
    · exact .inl ⟨z, hz, Rat.le_trans hd (zero_le_sq eps)⟩
    · exact .inr k
  rcases od with k | od
  · exact k
  rcases (C120_in hx).mp rfl with ⟨p, hp, z, hz, hd⟩ | ⟨-, k⟩
  · rcases List.mem_cons.mp hp with rfl | hp
    · exfalso
      have a : Apart eps p h := ap h hh
      rw [← a.near hz hd] at od
      refine not_mutual (p := p) (q := h) ho (fun w hw => ?_) (fun w hw => ?_)
      · rw [← a.parity hz (corner_on hw)]; exact od
      · have e := v.inside h hh w (corner_on hw)
        rw [(a.symm.inPoly ho (corner_on hw)).2, Outcome.ok.injEq] at e
        exact e
    · by_cases e : p = h
      · exact ⟨z, e ▸ hz, hd⟩
      · exfalso
        obtain ⟨i, hi⟩ := List.mem_iff_getElem?.mp hp
        obtain ⟨j, hj⟩ := List.mem_iff_getElem?.mp hh
        have hij : i ≠ j := by
          intro k; subst k; rw [hi] at hj; cases hj; exact e rfl
        have a : Apart eps p h := by
          obtain ⟨li, ei⟩ := List.getElem?_eq_some_iff.mp hi
          obtain ⟨lj, ej⟩ := List.getElem?_eq_some_iff.mp hj
          rw [← ei, ← ej]
          rcases Nat.lt_or_gt_of_ne hij with l | l
          · exact List.pairwise_iff_getElem.mp pw i j li lj l
          · exact Apart.symm (List.pairwise_iff_getElem.mp pw j i lj li l)
        have e := v.disjoint i j p h hij hi hj z hz
        rw [(a.inPoly hne hz).2, a.near hz hd, od] at e
        cases e
  · have := k h hh
    rw [hin] at this
    cases this

end Verif.Visilib
