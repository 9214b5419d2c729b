import Verif.Common
import Mathlib.Data.Set.Lattice
import Mathlib.Data.List.Sort

/-!
The merging of zones: `Polygon::boost_union` and `find_overlap` of `src/cpp/VisilibityLib/visilibity.cpp`
(4097-4207), which `Polygon::offset_polygons` (1801) calls for the keep-out and for the keep-in zones of a route
planner (C196).

The geometry of Boost is not in the repository and is a parameter (`Geo`); so is `snap_near` (4048-4095), which
moves corners by less than epsilon.
-/

namespace Verif.Visilib.Merge

open Verif

/-- What is used of Boost and of `snap_near` (visilibity.cpp 4048-4095): `boost::geometry::is_valid`, `distance(p, q) > 0`
and `union_`, and `to_visiLibity` (4006-4046), the rings of a polygon. -/
structure Geo (P R : Type) where
  valid : P → Bool
  apart : P → P → Bool
  union : P → P → List P
  snap : List P → List P
  rings : P → List R

variable {P R : Type}

/-- visilibity.cpp 4097-4124: `find_overlap`. -/
def overlaps (g : Geo P R) (ps : List P) : List (Nat × Nat) :=
  (List.range ps.length).flatMap fun i =>
    (List.range' (i + 1) (ps.length - (i + 1))).filter (fun j =>
      match ps[i]?, ps[j]? with
      | some p, some q => g.valid p && g.valid q && !g.apart p q
      | _, _ => false) |>.map fun j => (i, j)

/-- visilibity.cpp 4148-4154: the state of one pass: `bPolyList`, `toRemove` and `tangent`. -/
structure Pass (P : Type) where
  ps : List P
  remove : List Nat := []
  tangent : List (Nat × Nat) := []
deriving Repr

/-- visilibity.cpp 4156-4183: one pair of polygons that overlap.  Indices are always within the list. -/
def mergePair (g : Geo P R) (s : Pass P) (ij : Nat × Nat) : Pass P :=
  match s.ps[ij.1]?, s.ps[ij.2]? with
  | some p, some q =>
    match g.union p q with
    | [r] =>
      { s with
        ps := s.ps.set ij.1 r
        remove := if s.remove.contains ij.2 then s.remove else s.remove ++ [ij.2] }
    | _ => { s with tangent := s.tangent ++ [ij] }
  | _, _ => s

/-- visilibity.cpp 4152-4183: one pass, over the pairs from the last to the first. -/
def pass (g : Geo P R) (ps : List P) (ov : List (Nat × Nat)) : Pass P :=
  ov.reverse.foldl (mergePair g) { ps := ps }

/-- visilibity.cpp 4184-4188: `erase` one after the other; undefined when there is no such element. -/
def eraseAll : List P → List Nat → Outcome (List P)
  | ps, [] => .ok ps
  | ps, i :: is => if i < ps.length then eraseAll (ps.eraseIdx i) is else .ub

/-- visilibity.cpp 4149-4191: the loop, as far as `fuel` passes go. -/
def loop (g : Geo P R) : Nat → List P → List (Nat × Nat) → List (Nat × Nat) → Outcome (Option (List P))
  | 0, ps, ov, tan => if ov.isEmpty || ov == tan then .ok (some ps) else .ok none
  | fuel + 1, ps, ov, tan =>
    if ov.isEmpty || ov == tan then .ok (some ps)
    else
      let s := pass g ps ov
      (eraseAll s.ps s.remove).bind fun ps' => loop g fuel ps' (overlaps g ps') s.tangent

/-- visilibity.cpp 4126-4207: `Polygon::boost_union`: whether it succeeds and the rings; `none` when it has not ended
after `fuel` passes. -/
def boostUnion (g : Geo P R) (fuel : Nat) (polys : List P) : Outcome (Option (Bool × List R)) :=
  let ps := g.snap (polys.filter g.valid)
  (loop g fuel ps (overlaps g ps) []).bind fun r =>
    .ok (r.map fun ps' => (polys.all g.valid && !(ps'.flatMap g.rings).isEmpty, ps'.flatMap g.rings))

/-! ### What is required of Boost -/

/-- The places of a polygon; when `union_` gives one polygon it has the places of both. -/
structure Places (g : Geo P R) (α : Type) where
  at_ : P → Set α
  union : ∀ p q r, g.union p q = [r] → at_ r = at_ p ∪ at_ q

/-- The places of a list of polygons. -/
def Places.all {g : Geo P R} {α : Type} (pl : Places g α) (ps : List P) : Set α := {x | ∃ p ∈ ps, x ∈ pl.at_ p}

/-! ### The pairs -/

theorem mem_overlaps {g : Geo P R} {ps : List P} {i j : Nat} : (i, j) ∈ overlaps g ps ↔
    i < j ∧ ∃ p q, ps[i]? = some p ∧ ps[j]? = some q ∧ g.valid p = true ∧ g.valid q = true ∧ g.apart p q = false := by
  unfold overlaps
  simp only [List.mem_flatMap, List.mem_range, List.mem_map, List.mem_filter, List.mem_range'_1, Prod.mk.injEq]
  constructor
  · rintro ⟨a, _, b, ⟨⟨h1, _⟩, h3⟩, rfl, rfl⟩
    refine ⟨by omega, ?_⟩
    split at h3
    · next p q hp hq =>
      simp only [Bool.and_eq_true, Bool.not_eq_true'] at h3
      exact ⟨p, q, hp, hq, h3.1.1, h3.1.2, h3.2⟩
    · simp at h3
  · rintro ⟨hij, p, q, hp, hq, h1, h2, h3⟩
    have hi := (List.getElem?_eq_some_iff.1 hp).1
    have hj := (List.getElem?_eq_some_iff.1 hq).1
    exact ⟨i, hi, j, ⟨⟨by omega, by omega⟩, by simp [hp, hq, h1, h2, h3]⟩, rfl, rfl⟩

/-- The pairs are in the order of their first and then of their second numbers. -/
theorem overlaps_sorted (g : Geo P R) (ps : List P) :
    (overlaps g ps).Pairwise fun a b => a.1 < b.1 ∨ (a.1 = b.1 ∧ a.2 < b.2) := by
  unfold overlaps
  rw [List.pairwise_flatMap]
  refine ⟨?_, ?_⟩
  · intro i _
    rw [List.pairwise_map]
    refine List.Pairwise.imp ?_ (List.Pairwise.filter _ (List.pairwise_lt_range' ..))
    intro a b hab
    exact .inr ⟨rfl, hab⟩
  · refine List.Pairwise.imp ?_ List.pairwise_lt_range
    intro a b hab x hx y hy
    simp only [List.mem_map] at hx hy
    obtain ⟨_, _, rfl⟩ := hx
    obtain ⟨_, _, rfl⟩ := hy
    exact .inl hab

/-! ### One pass -/

/-- What holds while the pairs of a pass are worked off; all pairs so far have their first number at `m` or above. -/
structure PInv {g : Geo P R} {α : Type} (pl : Places g α) (ps : List P) (m : Nat) (s : Pass P) : Prop where
  length : s.ps.length = ps.length
  all : pl.all s.ps = pl.all ps
  above : ∀ j ∈ s.remove, m < j ∧ j < ps.length
  nodup : s.remove.Nodup
  absorbed : ∀ j ∈ s.remove, ∃ i p q, i < j ∧ s.ps[i]? = some p ∧ s.ps[j]? = some q ∧ pl.at_ q ⊆ pl.at_ p

theorem mem_set {ps : List P} {i : Nat} {r x : P} (hi : i < ps.length) :
    x ∈ ps.set i r ↔ x = r ∨ ∃ k, k ≠ i ∧ ps[k]? = some x := by
  rw [List.mem_iff_getElem?]
  constructor
  · rintro ⟨k, hk⟩
    rw [List.getElem?_set] at hk
    by_cases h : i = k
    · rw [if_pos h, if_pos hi] at hk
      exact .inl (Option.some.inj hk).symm
    · rw [if_neg h] at hk
      exact .inr ⟨k, fun e => h e.symm, hk⟩
  · rintro (rfl | ⟨k, hk, h⟩)
    · exact ⟨i, by rw [List.getElem?_set, if_pos rfl, if_pos hi]⟩
    · exact ⟨k, by rw [List.getElem?_set, if_neg (fun e => hk e.symm)]; exact h⟩

theorem pinv_step {g : Geo P R} {α : Type} {pl : Places g α} {ps : List P} {m : Nat} {s : Pass P}
    (h : PInv pl ps m s) {ij : Nat × Nat} (hm : ij.1 ≤ m) (hij : ij.1 < ij.2) (hj : ij.2 < ps.length) :
    PInv pl ps ij.1 (mergePair g s ij) := by
  have hlow : PInv pl ps ij.1 s :=
    ⟨h.length, h.all, fun j hj => ⟨by have := (h.above j hj).1; omega, (h.above j hj).2⟩, h.nodup, h.absorbed⟩
  unfold mergePair
  split
  · next p q hp hq =>
    split
    · next r hr =>
      have hi : ij.1 < s.ps.length := by rw [h.length]; omega
      have hu := pl.union p q r hr
      refine ⟨?_, ?_, ?_, ?_, ?_⟩
      · simp [h.length]
      · rw [← h.all]
        ext x
        simp only [Places.all, Set.mem_setOf_eq]
        constructor
        · rintro ⟨y, hy, hx⟩
          rcases (mem_set hi).1 hy with rfl | ⟨k, _, hk⟩
          · rw [hu] at hx
            rcases hx with hx | hx
            · exact ⟨p, List.mem_of_getElem? hp, hx⟩
            · exact ⟨q, List.mem_of_getElem? hq, hx⟩
          · exact ⟨y, List.mem_of_getElem? hk, hx⟩
        · rintro ⟨y, hy, hx⟩
          obtain ⟨k, hk⟩ := List.mem_iff_getElem?.1 hy
          by_cases hki : k = ij.1
          · subst hki
            rw [hp] at hk
            obtain rfl := Option.some.inj hk
            exact ⟨r, (mem_set hi).2 (.inl rfl), by rw [hu]; exact .inl hx⟩
          · exact ⟨y, (mem_set hi).2 (.inr ⟨k, hki, hk⟩), hx⟩
      · intro j hj'
        simp only at hj'
        split at hj'
        · exact hlow.above j hj'
        · rcases List.mem_append.1 hj' with hj' | hj'
          · exact hlow.above j hj'
          · rw [List.mem_singleton.1 hj']; exact ⟨hij, hj⟩
      · simp only
        split
        · exact h.nodup
        · next hc =>
          have hc' : ij.2 ∉ s.remove := by simpa using hc
          exact List.nodup_append.2 ⟨h.nodup, by simp, by
            intro a ha b hb e
            rw [List.mem_singleton] at hb
            exact hc' (by rw [← hb, ← e]; exact ha)⟩
      · have old : ∀ j ∈ s.remove, ∃ i p q, i < j ∧ (s.ps.set ij.1 r)[i]? = some p ∧ (s.ps.set ij.1 r)[j]? = some q ∧
            pl.at_ q ⊆ pl.at_ p := by
          intro j hj'
          obtain ⟨i, p', q', a1, a2, a3, a4⟩ := h.absorbed j hj'
          have hne : ij.1 ≠ j := by have := (hlow.above j hj').1; omega
          have hjj : (s.ps.set ij.1 r)[j]? = some q' := by rw [List.getElem?_set, if_neg hne]; exact a3
          by_cases hii : ij.1 = i
          · subst hii
            rw [hp] at a2
            obtain rfl := Option.some.inj a2
            exact ⟨ij.1, r, q', a1, by rw [List.getElem?_set, if_pos rfl, if_pos hi], hjj,
              a4.trans (by rw [hu]; exact Set.subset_union_left)⟩
          · exact ⟨i, p', q', a1, by rw [List.getElem?_set, if_neg hii]; exact a2, hjj, a4⟩
        intro j hj'
        simp only at hj'
        split at hj'
        · exact old j hj'
        · rcases List.mem_append.1 hj' with hj' | hj'
          · exact old j hj'
          · rw [List.mem_singleton.1 hj']
            exact ⟨ij.1, r, q, hij, by rw [List.getElem?_set, if_pos rfl, if_pos hi],
              by rw [List.getElem?_set, if_neg (by omega)]; exact hq, by rw [hu]; exact Set.subset_union_right⟩
    · exact ⟨hlow.length, hlow.all, hlow.above, hlow.nodup, hlow.absorbed⟩
  · exact hlow

theorem pinv_fold {g : Geo P R} {α : Type} {pl : Places g α} {ps : List P} : ∀ (l : List (Nat × Nat)) (m : Nat) (s : Pass P),
    PInv pl ps m s → l.Pairwise (fun a b => b.1 ≤ a.1) → (∀ a ∈ l, a.1 ≤ m ∧ a.1 < a.2 ∧ a.2 < ps.length) →
    ∃ m', PInv pl ps m' (l.foldl (mergePair g) s) := by
  intro l
  induction l with
  | nil => intro m s h _ _; exact ⟨m, h⟩
  | cons a l ih =>
    intro m s h hl hb
    rw [List.pairwise_cons] at hl
    obtain ⟨b1, b2, b3⟩ := hb a (by simp)
    exact ih a.1 _ (pinv_step h b1 b2 b3) hl.2 fun c hc => ⟨hl.1 c hc, (hb c (by simp [hc])).2⟩

/-- After a pass over all pairs. -/
theorem pinv_pass {g : Geo P R} {α : Type} (pl : Places g α) (ps : List P) :
    ∃ m, PInv pl ps m (pass g ps (overlaps g ps)) := by
  refine pinv_fold _ ps.length { ps := ps } ⟨rfl, rfl, by simp, List.nodup_nil, by simp⟩ ?_ ?_
  · rw [List.pairwise_reverse]
    exact (overlaps_sorted g ps).imp fun h => by rcases h with h | h <;> omega
  · intro a ha
    obtain ⟨h1, p, q, h2, h3, -⟩ := mem_overlaps.1 (List.mem_reverse.1 ha)
    have := (List.getElem?_eq_some_iff.1 h2).1
    have := (List.getElem?_eq_some_iff.1 h3).1
    omega

/-- What is not removed has all places. -/
theorem pinv_kept {g : Geo P R} {α : Type} {pl : Places g α} {ps : List P} {m : Nat} {s : Pass P} (h : PInv pl ps m s) :
    {x | ∃ k p, k ∉ s.remove ∧ s.ps[k]? = some p ∧ x ∈ pl.at_ p} = pl.all ps := by
  rw [← h.all]
  ext x
  simp only [Set.mem_setOf_eq, Places.all]
  constructor
  · rintro ⟨k, p, _, hp, hx⟩
    exact ⟨p, List.mem_of_getElem? hp, hx⟩
  · rintro ⟨p, hp, hx⟩
    obtain ⟨k, hk⟩ := List.mem_iff_getElem?.1 hp
    induction k using Nat.strongRecOn generalizing p with
    | ind k ih =>
      by_cases hr : k ∈ s.remove
      · obtain ⟨i, p', q', a1, a2, a3, a4⟩ := h.absorbed k hr
        rw [hk] at a3
        obtain rfl := Option.some.inj a3
        exact ih i a1 p' (List.mem_of_getElem? a2) (a4 hx) a2
      · exact ⟨k, p, hr, hk, hx⟩

/-! ### Removal -/

/-- Numbers that fall are removed as meant. -/
theorem eraseAll_falling : ∀ (rm : List Nat) (ps : List P), rm.Pairwise (· > ·) → (∀ i ∈ rm, i < ps.length) →
    ∃ ps', eraseAll ps rm = .ok ps' ∧ ps'.length + rm.length = ps.length ∧
      ∀ p, p ∈ ps' ↔ ∃ k, k ∉ rm ∧ ps[k]? = some p := by
  intro rm
  induction rm with
  | nil => intro ps _ _; exact ⟨ps, rfl, by simp, fun p => by simp [List.mem_iff_getElem?]⟩
  | cons i rm ih =>
    intro ps hp hb
    rw [List.pairwise_cons] at hp
    have hi := hb i (by simp)
    obtain ⟨ps', h1, h2, h3⟩ := ih (ps.eraseIdx i) hp.2 (by
      intro k hk
      rw [List.length_eraseIdx_of_lt hi]
      have := hp.1 k hk
      omega)
    refine ⟨ps', by rw [eraseAll, if_pos hi]; exact h1, ?_, fun p => ?_⟩
    · rw [List.length_eraseIdx_of_lt hi] at h2
      simp only [List.length_cons]
      omega
    · rw [h3]
      constructor
      · rintro ⟨k, k1, k2⟩
        rw [List.getElem?_eraseIdx] at k2
        split at k2
        · next hlt => exact ⟨k, by simp only [List.mem_cons, not_or]; exact ⟨by omega, k1⟩, k2⟩
        · next hge =>
          refine ⟨k + 1, ?_, k2⟩
          simp only [List.mem_cons, not_or]
          exact ⟨by omega, fun hk => by have := hp.1 _ hk; omega⟩
      · rintro ⟨k, k1, k2⟩
        simp only [List.mem_cons, not_or] at k1
        by_cases hlt : k < i
        · exact ⟨k, k1.2, by rw [List.getElem?_eraseIdx, if_pos hlt]; exact k2⟩
        · refine ⟨k - 1, fun hk => ?_, ?_⟩
          · have := hp.1 _ hk
            have := k1.1
            omega
          · rw [List.getElem?_eraseIdx, if_neg (by have := k1.1; omega)]
            rw [show k - 1 + 1 = k from by have := k1.1; omega]
            exact k2

end Verif.Visilib.Merge
