import Verif.Visilib.Merge

/-!
C196: the merging of zones loses no place, where polygons are removed in falling order; where they are not, a zone
can vanish, memory outside the list is touched, and zones that touch at corners keep the loop going for ever.
-/

namespace Verif.Visilib.Merge

open Verif

variable {P R : Type}

/-! ### Removal in falling order keeps all places -/

/-- One pass, when the numbers to remove fall. -/
theorem pass_falling {g : Geo P R} {α : Type} (pl : Places g α) {ps : List P}
    (hf : (pass g ps (overlaps g ps)).remove.Pairwise (· > ·)) :
    ∃ ps', eraseAll (pass g ps (overlaps g ps)).ps (pass g ps (overlaps g ps)).remove = .ok ps' ∧
      ps'.length + (pass g ps (overlaps g ps)).remove.length = ps.length ∧ pl.all ps' = pl.all ps := by
  obtain ⟨m, h⟩ := pinv_pass pl ps
  obtain ⟨ps', h1, h2, h3⟩ := eraseAll_falling _ _ hf (fun i hi => by rw [h.length]; exact (h.above i hi).2)
  refine ⟨ps', h1, by rw [h2, h.length], ?_⟩
  rw [← pinv_kept h]
  ext x
  simp only [Places.all, Set.mem_setOf_eq]
  constructor
  · rintro ⟨p, hp, hx⟩
    obtain ⟨k, k1, k2⟩ := (h3 p).1 hp
    exact ⟨k, p, k1, k2, hx⟩
  · rintro ⟨k, p, k1, k2, hx⟩
    exact ⟨p, (h3 p).2 ⟨k, k1, k2⟩, hx⟩

/-- The lists of polygons a merge comes through. -/
inductive Reach (g : Geo P R) (ps : List P) : List P → Prop
  | start : Reach g ps ps
  | next {qs qs' : List P} : Reach g ps qs →
      eraseAll (pass g qs (overlaps g qs)).ps (pass g qs (overlaps g qs)).remove = .ok qs' → Reach g ps qs'

theorem loop_falling {g : Geo P R} {α : Type} (pl : Places g α) {ps : List P}
    (hf : ∀ qs, Reach g ps qs → (pass g qs (overlaps g qs)).remove.Pairwise (· > ·)) :
    ∀ (fuel : Nat) (qs : List P) (tan : List (Nat × Nat)), Reach g ps qs →
      ∃ r, loop g fuel qs (overlaps g qs) tan = .ok r ∧
        ∀ out, r = some out → pl.all out = pl.all qs ∧ out.length ≤ qs.length := by
  intro fuel
  induction fuel with
  | zero =>
    intro qs tan _
    unfold loop
    split
    · exact ⟨_, rfl, fun out h => by cases h; exact ⟨rfl, le_refl _⟩⟩
    · exact ⟨_, rfl, fun out h => by cases h⟩
  | succ fuel ih =>
    intro qs tan hr
    unfold loop
    split
    · exact ⟨_, rfl, fun out h => by cases h; exact ⟨rfl, le_refl _⟩⟩
    · obtain ⟨qs', h1, h2, h3⟩ := pass_falling pl (hf qs hr)
      obtain ⟨r, r1, r2⟩ := ih qs' (pass g qs (overlaps g qs)).tangent (.next hr h1)
      refine ⟨r, ?_, fun out ho => ?_⟩
      · simp only [h1, Outcome.bind_ok]
        exact r1
      · obtain ⟨o1, o2⟩ := r2 out ho
        exact ⟨o1.trans h3, by omega⟩

/-- **C196 (in general).**  If in every pass the numbers of the polygons that were merged into others come in falling
order, no memory outside the list is touched, and once the merge has ended, the places of the polygons that remain
are exactly the places of the polygons that were given.  Missing: what is done when the numbers do not fall
(`C196_lost_violated`, `C196_outside_violated`) and that the merge ends (`C196_forever_violated`). -/
theorem C196_kept_partial {g : Geo P R} {α : Type} (pl : Places g α) (ps : List P) (fuel : Nat)
    (hf : ∀ qs, Reach g ps qs → (pass g qs (overlaps g qs)).remove.Pairwise (· > ·)) :
    ∃ r, loop g fuel ps (overlaps g ps) [] = .ok r ∧
      ∀ out, r = some out → pl.all out = pl.all ps ∧ out.length ≤ ps.length :=
  loop_falling pl hf fuel ps [] .start

/-! ### Up to three polygons -/

/-- What is removed are second numbers, in the order of the pairs. -/
theorem remove_sublist {g : Geo P R} : ∀ (l : List (Nat × Nat)) (s : Pass P),
    ∃ t, (l.foldl (mergePair g) s).remove = s.remove ++ t ∧ t.Sublist (l.map (·.2)) := by
  intro l
  induction l with
  | nil => intro s; exact ⟨[], by simp, by simp⟩
  | cons a l ih =>
    intro s
    obtain ⟨t, h1, h2⟩ := ih (mergePair g s a)
    have key : (mergePair g s a).remove = s.remove ∨ (mergePair g s a).remove = s.remove ++ [a.2] := by
      unfold mergePair
      split
      · split
        · dsimp only; split
          · exact .inl rfl
          · exact .inr rfl
        · exact .inl rfl
      · exact .inl rfl
    rcases key with k | k
    · exact ⟨t, by rw [List.foldl_cons, h1, k], h2.trans (List.sublist_cons_self ..)⟩
    · refine ⟨a.2 :: t, by rw [List.foldl_cons, h1, k]; simp, ?_⟩
      simpa using h2.cons_cons a.2

theorem three_falling {g : Geo P R} {α : Type} (pl : Places g α) {ps : List P} (h3 : ps.length ≤ 3) :
    (pass g ps (overlaps g ps)).remove.Pairwise (· > ·) := by
  obtain ⟨m, h⟩ := pinv_pass pl ps
  obtain ⟨t, t1, t2⟩ := remove_sublist (g := g) (overlaps g ps).reverse { ps := ps }
  have hge : ((overlaps g ps).reverse.map (·.2)).Pairwise (· ≥ ·) := by
    rw [List.pairwise_map, List.pairwise_reverse]
    refine List.Pairwise.imp_of_mem ?_ (overlaps_sorted g ps)
    intro a b ha hb hab
    obtain ⟨a1, p, q, a2, a3, -⟩ := mem_overlaps.1 ha
    obtain ⟨b1, p', q', b2, b3, -⟩ := mem_overlaps.1 hb
    have := (List.getElem?_eq_some_iff.1 a3).1
    have := (List.getElem?_eq_some_iff.1 b3).1
    show b.2 ≥ a.2
    omega
  have hr : (pass g ps (overlaps g ps)).remove = t := by simpa [pass] using t1
  have hn := h.nodup
  rw [hr] at hn ⊢
  exact (List.Pairwise.and (hge.sublist t2) hn).imp fun ⟨a, b⟩ => lt_of_le_of_ne a (fun e => b e.symm)

theorem reach_length {g : Geo P R} {α : Type} (pl : Places g α) {ps qs : List P} (h3 : ps.length ≤ 3)
    (hr : Reach g ps qs) : qs.length ≤ 3 := by
  induction hr with
  | start => exact h3
  | next _ he ih =>
    obtain ⟨qs', h1, h2, _⟩ := pass_falling pl (three_falling pl ih)
    rw [h1] at he
    cases he
    omega

/-- **C196 (at most three).**  However three or fewer valid polygons lie, merging them touches no memory outside the
list, and once it has ended, what comes out are the rings of polygons whose places are exactly those given.
Missing: that it ends, which needs that no two polygons merely touch (`C196_three`). -/
theorem C196_three_partial {g : Geo P R} {α : Type} (pl : Places g α) (polys : List P) (h3 : polys.length ≤ 3)
    (hv : ∀ p ∈ polys, g.valid p = true) (hsnap : g.snap polys = polys) (fuel : Nat) :
    ∃ r, boostUnion g fuel polys = .ok r ∧
      ∀ ok rings, r = some (ok, rings) → ∃ out, rings = out.flatMap g.rings ∧ ok = !rings.isEmpty ∧
        pl.all out = pl.all polys ∧ out.length ≤ polys.length := by
  obtain ⟨r, h1, h2⟩ := C196_kept_partial pl polys fuel fun _ hr => three_falling pl (reach_length pl h3 hr)
  have hf : polys.filter g.valid = polys := List.filter_eq_self.2 hv
  refine ⟨_, by unfold boostUnion; simp only [hf, hsnap, h1, Outcome.bind_ok]; rfl, ?_⟩
  intro ok rings hr
  cases r with
  | none => cases hr
  | some out =>
    simp only [Option.map_some, Option.some.injEq, Prod.mk.injEq] at hr
    obtain ⟨rfl, rfl⟩ := hr
    obtain ⟨o1, o2⟩ := h2 out rfl
    refine ⟨out, rfl, ?_, o1, o2⟩
    have : polys.all g.valid = true := by rw [List.all_eq_true]; exact hv
    rw [this, Bool.true_and]

/-! ### Polygons that are apart, and polygons that all meet -/

theorem overlaps_apart {g : Geo P R} {ps : List P}
    (h : ∀ (i j : Nat) (p q : P), i < j → ps[i]? = some p → ps[j]? = some q → g.apart p q = true) : overlaps g ps = [] := by
  rw [List.eq_nil_iff_forall_not_mem]
  rintro ⟨i, j⟩ hij
  obtain ⟨h1, p, q, h2, h3, -, -, h4⟩ := mem_overlaps.1 hij
  rw [h i j p q h1 h2 h3] at h4
  cases h4

/-- **C196 (apart).**  When no two polygons meet, all come out as they are, at once; the merge fails exactly if one of
them was invalid or nothing came out. -/
theorem C196_apart (g : Geo P R) (polys : List P) (fuel : Nat)
    (h : ∀ (i j : Nat) (p q : P), i < j → (g.snap (polys.filter g.valid))[i]? = some p → (g.snap (polys.filter g.valid))[j]? = some q →
      g.apart p q = true) :
    boostUnion g fuel polys = .ok (some
      (polys.all g.valid && !((g.snap (polys.filter g.valid)).flatMap g.rings).isEmpty,
        (g.snap (polys.filter g.valid)).flatMap g.rings)) := by
  unfold boostUnion
  dsimp only
  rw [overlaps_apart h]
  cases fuel <;> simp [loop]

/-- What is needed to know which polygons a pass merges. -/
structure Grown {g : Geo P R} {α : Type} (pl : Places g α) (ps : List P) (s : Pass P) : Prop where
  length : s.ps.length = ps.length
  grown : ∀ (k : Nat) (p : P), ps[k]? = some p → ∃ p', s.ps[k]? = some p' ∧ pl.at_ p ⊆ pl.at_ p'

theorem grown_step {g : Geo P R} {α : Type} {pl : Places g α} {ps : List P} {s : Pass P} (h : Grown pl ps s)
    {i j : Nat} {p q : P} (hp : ps[i]? = some p) (hq : ps[j]? = some q)
    (hs : ∀ p q x, x ∈ pl.at_ p → x ∈ pl.at_ q → ∃ r, g.union p q = [r]) (hx : ∃ x, x ∈ pl.at_ p ∧ x ∈ pl.at_ q) :
    Grown pl ps (mergePair g s (i, j)) ∧ (mergePair g s (i, j)).tangent = s.tangent ∧
      (mergePair g s (i, j)).remove = if s.remove.contains j then s.remove else s.remove ++ [j] := by
  obtain ⟨x, x1, x2⟩ := hx
  obtain ⟨p', p1, p2⟩ := h.grown i p hp
  obtain ⟨q', q1, q2⟩ := h.grown j q hq
  obtain ⟨r, hr⟩ := hs p' q' x (p2 x1) (q2 x2)
  have hi : i < s.ps.length := (List.getElem?_eq_some_iff.1 p1).1
  have e : mergePair g s (i, j) = { s with
      ps := s.ps.set i r
      remove := if s.remove.contains j then s.remove else s.remove ++ [j] } := by
    unfold mergePair
    simp only [p1, q1, hr]
  rw [e]
  refine ⟨⟨by simp [h.length], ?_⟩, rfl, rfl⟩
  intro k y hy
  obtain ⟨y', y1, y2⟩ := h.grown k y hy
  by_cases hk : i = k
  · subst hk
    rw [p1] at y1
    obtain rfl := Option.some.inj y1
    exact ⟨r, by simp only; rw [List.getElem?_set, if_pos rfl, if_pos hi],
      y2.trans (by rw [pl.union _ _ _ hr]; exact Set.subset_union_left)⟩
  · exact ⟨y', by simp only; rw [List.getElem?_set, if_neg hk]; exact y1, y2⟩

/-- The second numbers in the order in which they are met first. -/
theorem remove_falls {g : Geo P R} {α : Type} {pl : Places g α} {ps : List P}
    (hs : ∀ p q x, x ∈ pl.at_ p → x ∈ pl.at_ q → ∃ r, g.union p q = [r])
    (hx : ∀ (i j : Nat) (p q : P), (i, j) ∈ overlaps g ps → ps[i]? = some p → ps[j]? = some q → ∃ x, x ∈ pl.at_ p ∧ x ∈ pl.at_ q)
    (hfall : ∀ i j i' j', (i, j) ∈ overlaps g ps → (i', j') ∈ overlaps g ps → j < j' →
      ∃ i'', i ≤ i'' ∧ (i'', j') ∈ overlaps g ps) :
    ∀ (l2 l1 : List (Nat × Nat)) (s : Pass P), (overlaps g ps).reverse = l1 ++ l2 → Grown pl ps s →
      s.remove.Pairwise (· > ·) → (∀ k, k ∈ s.remove ↔ ∃ i, (i, k) ∈ l1) →
      (l2.foldl (mergePair g) s).remove.Pairwise (· > ·) ∧
        (l2.foldl (mergePair g) s).tangent = s.tangent ∧
        ∀ k, k ∈ (l2.foldl (mergePair g) s).remove ↔ ∃ i, (i, k) ∈ l1 ++ l2 := by
  have hrev : (overlaps g ps).reverse.Pairwise fun a b => b.1 < a.1 ∨ (b.1 = a.1 ∧ b.2 < a.2) := by
    rw [List.pairwise_reverse]; exact overlaps_sorted g ps
  intro l2
  induction l2 with
  | nil => intro l1 s _ _ h1 h2; exact ⟨h1, rfl, by simpa using h2⟩
  | cons a l2 ih =>
    intro l1 s he hg h1 h2
    obtain ⟨i, j⟩ := a
    have hmem : (i, j) ∈ overlaps g ps := by rw [← List.mem_reverse, he]; simp
    obtain ⟨hij, p, q, hp, hq, -⟩ := mem_overlaps.1 hmem
    obtain ⟨g1, g2, g3⟩ := grown_step hg hp hq hs (hx i j p q hmem hp hq)
    have he' : (overlaps g ps).reverse = (l1 ++ [(i, j)]) ++ l2 := by rw [he]; simp
    rw [he, List.pairwise_append, List.pairwise_cons] at hrev
    have hnew : j ∉ s.remove → ∀ k ∈ s.remove, k > j := by
      intro hj k hk
      obtain ⟨i', hi'⟩ := (h2 k).1 hk
      have hbefore := hrev.2.2 _ hi' (i, j) (by simp)
      by_contra hlt
      have hne : k ≠ j := fun e => hj (e ▸ hk)
      have hkj : k < j := by omega
      have hm' : (i', k) ∈ overlaps g ps := by rw [← List.mem_reverse, he]; simp [hi']
      obtain ⟨i'', h3, h4⟩ := hfall i' k i j hm' hmem hkj
      rcases hbefore with hb | hb
      · simp only at hb
        have h5 : (i'', j) ∈ l1 ++ (i, j) :: l2 := by rw [← he]; simpa using h4
        rcases List.mem_append.1 h5 with h6 | h6
        · exact hj ((h2 j).2 ⟨i'', h6⟩)
        · rcases List.mem_cons.1 h6 with h6 | h6
          · simp only [Prod.mk.injEq] at h6; omega
          · have h7 := hrev.2.1.1 _ h6
            simp only at h7
            omega
      · simp only at hb; omega
    have := ih (l1 ++ [(i, j)]) (mergePair g s (i, j)) he' g1 (by
      rw [g3]
      split
      · exact h1
      · next hc =>
        have hc' : j ∉ s.remove := by simpa using hc
        rw [List.pairwise_append]
        exact ⟨h1, List.pairwise_singleton .., fun a ha b hb => by
          rw [List.mem_singleton] at hb; subst hb; exact hnew hc' a ha⟩) (by
      intro k
      rw [g3]
      have hsplit : (∃ i', (i', k) ∈ l1 ++ [(i, j)]) ↔ (∃ i', (i', k) ∈ l1) ∨ k = j := by
        constructor
        · rintro ⟨i', h⟩
          rcases List.mem_append.1 h with h | h
          · exact .inl ⟨i', h⟩
          · simp only [List.mem_singleton, Prod.mk.injEq] at h; exact .inr h.2
        · rintro (⟨i', h⟩ | rfl)
          · exact ⟨i', by simp [h]⟩
          · exact ⟨i, by simp⟩
      rw [hsplit, ← h2]
      split
      · next hc =>
        have hc' : j ∈ s.remove := by simpa using hc
        exact ⟨.inl, fun h => h.elim id fun e => e ▸ hc'⟩
      · simp)
    rw [List.foldl_cons]
    refine ⟨this.1, this.2.1.trans g2, fun k => ?_⟩
    rw [this.2.2 k]
    simp

/-- When polygons that meet share a place, nothing is noted as touching only, and something is removed. -/
theorem pass_solid {g : Geo P R} {α : Type} {pl : Places g α} {ps : List P}
    (hs : ∀ p q x, x ∈ pl.at_ p → x ∈ pl.at_ q → ∃ r, g.union p q = [r])
    (hx : ∀ p q, g.apart p q = false → ∃ x, x ∈ pl.at_ p ∧ x ∈ pl.at_ q) :
    (pass g ps (overlaps g ps)).tangent = [] ∧
      (overlaps g ps ≠ [] → (pass g ps (overlaps g ps)).remove ≠ []) := by
  have key : ∀ (l : List (Nat × Nat)) (s : Pass P), (∀ a ∈ l, a ∈ overlaps g ps) → Grown pl ps s →
      (l.foldl (mergePair g) s).tangent = s.tangent ∧
        (l ≠ [] ∨ s.remove ≠ [] → (l.foldl (mergePair g) s).remove ≠ []) := by
    intro l
    induction l with
    | nil => intro s _ _; exact ⟨rfl, fun h => h.elim (fun h => absurd rfl h) id⟩
    | cons a l ih =>
      intro s ha hg
      obtain ⟨i, j⟩ := a
      obtain ⟨hij, p, q, hp, hq, -, -, h⟩ := mem_overlaps.1 (ha (i, j) (by simp))
      obtain ⟨g1, g2, g3⟩ := grown_step hg hp hq hs (hx p q h)
      obtain ⟨i1, i2⟩ := ih _ (fun a h => ha a (by simp [h])) g1
      rw [List.foldl_cons]
      refine ⟨i1.trans g2, fun _ => i2 (.inr ?_)⟩
      rw [g3]
      split
      · next hc => intro e; rw [e] at hc; simp at hc
      · simp
  obtain ⟨k1, k2⟩ := key (overlaps g ps).reverse { ps := ps } (fun a h => List.mem_reverse.1 h)
    ⟨rfl, fun k p hp => ⟨p, hp, le_refl _⟩⟩
  exact ⟨k1, fun h => k2 (.inl (by simpa using h))⟩

/-- Then the merge ends after at most as many passes as there are polygons, and no two that remain meet. -/
theorem loop_ends {g : Geo P R} {α : Type} (pl : Places g α) {ps : List P}
    (hs : ∀ p q x, x ∈ pl.at_ p → x ∈ pl.at_ q → ∃ r, g.union p q = [r])
    (hx : ∀ p q, g.apart p q = false → ∃ x, x ∈ pl.at_ p ∧ x ∈ pl.at_ q)
    (hf : ∀ qs, Reach g ps qs → (pass g qs (overlaps g qs)).remove.Pairwise (· > ·)) :
    ∀ (fuel : Nat) (qs : List P), Reach g ps qs → qs.length ≤ fuel →
      ∃ out, loop g fuel qs (overlaps g qs) [] = .ok (some out) ∧ overlaps g out = [] ∧ pl.all out = pl.all qs ∧
        out.length ≤ qs.length := by
  intro fuel
  induction fuel with
  | zero =>
    intro qs _ hl
    have : qs = [] := List.length_eq_zero_iff.1 (by omega)
    subst this
    exact ⟨[], rfl, rfl, rfl, le_refl _⟩
  | succ fuel ih =>
    intro qs hr hl
    by_cases he : overlaps g qs = []
    · exact ⟨qs, by rw [loop, he]; rfl, he, rfl, le_refl _⟩
    · obtain ⟨s1, s2⟩ := pass_solid (ps := qs) hs hx
      obtain ⟨qs', h1, h2, h3⟩ := pass_falling pl (hf qs hr)
      have hpos := List.length_pos_iff.2 (s2 he)
      obtain ⟨out, o1, o2, o3, o4⟩ := ih qs' (.next hr h1) (by omega)
      refine ⟨out, ?_, o2, o3.trans h3, by omega⟩
      rw [loop, if_neg (by
        cases hh : overlaps g qs with
        | nil => exact absurd hh he
        | cons a b => simp)]
      simp only [h1, s1, Outcome.bind_ok]
      exact o1

/-- **C196 (at most three, none merely touching).**  When polygons at distance zero share a place, and polygons that
share a place have a union of one piece, merging three or fewer valid polygons ends; what comes out are the rings of
polygons whose places are exactly those given and of which no two valid ones meet. -/
theorem C196_three {g : Geo P R} {α : Type} (pl : Places g α) (polys : List P) (h3 : polys.length ≤ 3)
    (hs : ∀ p q x, x ∈ pl.at_ p → x ∈ pl.at_ q → ∃ r, g.union p q = [r])
    (hx : ∀ p q, g.apart p q = false → ∃ x, x ∈ pl.at_ p ∧ x ∈ pl.at_ q)
    (hv : ∀ p ∈ polys, g.valid p = true) (hsnap : g.snap polys = polys) :
    ∃ out, boostUnion g 3 polys = .ok (some (!(out.flatMap g.rings).isEmpty, out.flatMap g.rings)) ∧
      pl.all out = pl.all polys ∧ out.length ≤ polys.length ∧
      ∀ (i j : Nat) (p q : P), i < j → out[i]? = some p → out[j]? = some q → g.valid p = true → g.valid q = true →
        g.apart p q = true := by
  obtain ⟨out, o1, o2, o3, o4⟩ := loop_ends pl hs hx (fun _ hr => three_falling pl (reach_length pl h3 hr)) 3 polys .start h3
  have hf : polys.filter g.valid = polys := List.filter_eq_self.2 hv
  have ha : polys.all g.valid = true := by rw [List.all_eq_true]; exact hv
  refine ⟨out, ?_, o3, o4, ?_⟩
  · unfold boostUnion
    simp only [hf, hsnap, o1, Outcome.bind_ok, ha, Bool.true_and, Option.map_some]
  · intro i j p q hij hp hq vp vq
    by_contra hne
    have : (i, j) ∈ overlaps g out := mem_overlaps.2 ⟨hij, p, q, hp, hq, vp, vq, by simpa using hne⟩
    rw [o2] at this
    cases this

/-- **C196 (all meet).**  When every two of the polygons share a place (and polygons that share a place have a union of
one piece), one pass merges them all: one polygon comes out, with all places. -/
theorem C196_clique {g : Geo P R} {α : Type} (pl : Places g α) (p0 : P) (ps : List P) (fuel : Nat)
    (hs : ∀ p q x, x ∈ pl.at_ p → x ∈ pl.at_ q → ∃ r, g.union p q = [r])
    (hv : ∀ p ∈ p0 :: ps, g.valid p = true)
    (ha : ∀ (i j : Nat) (p q : P), i < j → (p0 :: ps)[i]? = some p → (p0 :: ps)[j]? = some q →
      g.apart p q = false ∧ ∃ x, x ∈ pl.at_ p ∧ x ∈ pl.at_ q) :
    ∃ m, loop g (fuel + 1) (p0 :: ps) (overlaps g (p0 :: ps)) [] = .ok (some [m]) ∧ pl.at_ m = pl.all (p0 :: ps) := by
  have hall : ∀ i j, (i, j) ∈ overlaps g (p0 :: ps) ↔ i < j ∧ j < (p0 :: ps).length := by
    intro i j
    rw [mem_overlaps]
    constructor
    · rintro ⟨h, p, q, _, hq, -⟩
      exact ⟨h, (List.getElem?_eq_some_iff.1 hq).1⟩
    · rintro ⟨h, hj⟩
      have hi : i < (p0 :: ps).length := by omega
      refine ⟨h, _, _, List.getElem?_eq_getElem hi, List.getElem?_eq_getElem hj, hv _ (List.getElem_mem _),
        hv _ (List.getElem_mem _), (ha i j _ _ h (List.getElem?_eq_getElem hi) (List.getElem?_eq_getElem hj)).1⟩
  obtain ⟨f1, f2, f3⟩ := remove_falls (pl := pl) (ps := p0 :: ps) hs
    (fun i j p q hij hp hq => (ha i j p q ((hall i j).1 hij).1 hp hq).2)
    (fun i j i' j' h h' hj => ⟨i, le_refl _, (hall i j').2 ⟨by have := ((hall i j).1 h).1; omega, ((hall i' j').1 h').2⟩⟩)
    (overlaps g (p0 :: ps)).reverse [] { ps := p0 :: ps } rfl ⟨rfl, fun k p hp => ⟨p, hp, le_refl _⟩⟩ (by simp) (by simp)
  obtain ⟨qs', h1, h2, h3⟩ := pass_falling pl (show (pass g (p0 :: ps) (overlaps g (p0 :: ps))).remove.Pairwise (· > ·) from f1)
  have hrm : ∀ k, k ∈ (pass g (p0 :: ps) (overlaps g (p0 :: ps))).remove ↔ 0 < k ∧ k < (p0 :: ps).length := by
    intro k
    refine (f3 k).trans ?_
    simp only [List.nil_append, List.mem_reverse, hall]
    exact ⟨fun ⟨i, a, b⟩ => ⟨by omega, b⟩, fun ⟨a, b⟩ => ⟨0, a, b⟩⟩
  have hcount : (pass g (p0 :: ps) (overlaps g (p0 :: ps))).remove.length = ps.length := by
    have hn : (pass g (p0 :: ps) (overlaps g (p0 :: ps))).remove.Nodup := (show List.Pairwise _ _ from f1).imp fun h => by
      exact Nat.ne_of_gt h
    have hperm : (pass g (p0 :: ps) (overlaps g (p0 :: ps))).remove.Perm (List.range' 1 ps.length) := by
      rw [List.perm_ext_iff_of_nodup hn (List.nodup_range' ..)]
      intro k
      rw [hrm, List.mem_range'_1, List.length_cons]
      omega
    simpa using hperm.length_eq
  have hlen : qs'.length = 1 := by
    rw [hcount, List.length_cons] at h2
    omega
  obtain ⟨m, rfl⟩ := List.length_eq_one_iff.1 hlen
  refine ⟨m, ?_, ?_⟩
  · cases ps with
    | nil =>
      have : overlaps g [p0] = [] := by
        rw [List.eq_nil_iff_forall_not_mem]
        rintro ⟨i, j⟩ h
        have := (hall i j).1 h
        simp only [List.length_cons, List.length_nil] at this
        omega
      have hm : m = p0 := by
        rw [this] at h1
        simp only [pass, List.reverse_nil, List.foldl_nil, eraseAll, Outcome.ok.injEq, List.cons.injEq, and_true] at h1
        exact h1.symm
      rw [this, hm]
      simp [loop]
    | cons p1 ps =>
      have hne : overlaps g (p0 :: p1 :: ps) ≠ [] := by
        intro e
        have := (hall 0 1).2 ⟨by omega, by simp⟩
        rw [e] at this
        cases this
      have h0 : (List.isEmpty (overlaps g (p0 :: p1 :: ps)) || overlaps g (p0 :: p1 :: ps) == []) = false := by
        cases hh : overlaps g (p0 :: p1 :: ps) with
        | nil => exact absurd hh hne
        | cons a b => rfl
      have hm0 : overlaps g [m] = [] := by
        rw [List.eq_nil_iff_forall_not_mem]
        rintro ⟨i, j⟩ h
        obtain ⟨a, p, q, _, b, -⟩ := mem_overlaps.1 h
        have := (List.getElem?_eq_some_iff.1 b).1
        simp only [List.length_cons, List.length_nil] at this
        omega
      rw [loop, h0]
      simp only [Bool.false_eq_true, if_false, h1, Outcome.bind_ok, hm0]
      cases fuel <;> simp [loop]
  · rw [← h3]
    ext x
    simp [Places.all]

/-! ### When it goes wrong: polygons made of the cells of a grid -/

/-- A polygon given by cells of a grid; two cells are at distance zero when they are the same or next to each other,
also across a corner. -/
abbrev Cells := List (Int × Int)

/-- Cells that have a whole edge in common, or are the same. -/
def edge (a b : Int × Int) : Bool :=
  (a.1 == b.1 && (a.2 - b.2).natAbs ≤ 1) || (a.2 == b.2 && (a.1 - b.1).natAbs ≤ 1)

/-- The geometry of polygons given by cells: the union of two that have no edge in common is two polygons. -/
def grid : Geo Cells Cells where
  valid p := !p.isEmpty
  apart p q := !(p.any fun a => q.any fun b => (a.1 - b.1).natAbs ≤ 1 && (a.2 - b.2).natAbs ≤ 1)
  union p q := if p.any fun a => q.any fun b => edge a b then [p ++ q] else [p, q]
  snap := id
  rings p := [p]

/-- The cells are the places of such a polygon, and `grid` meets what is required of Boost. -/
def gridPlaces : Places grid (Int × Int) where
  at_ p := {x | x ∈ p}
  union p q r h := by
    simp only [grid] at h
    split at h
    · simp only [List.cons.injEq, and_true] at h
      subst h
      ext x
      simp
    · simp at h

/-- Five zones: the first overlaps the fourth, the second the third, and the fifth is far from all of them. -/
def five : List Cells := [[(0, 0), (1, 0)], [(10, 0), (11, 0)], [(11, 0), (12, 0)], [(1, 0), (2, 0)], [(20, 0)]]

/-- **C196 (a zone vanishes).**  Of these five zones the fifth, which meets no other, is removed in place of the fourth:
the merge succeeds and the cell of the fifth zone is no longer covered. -/
theorem C196_lost_violated :
    (∃ fuel, boostUnion grid fuel five = .ok (some (true, [[(0, 0), (1, 0), (1, 0), (2, 0), (1, 0), (2, 0)],
      [(10, 0), (11, 0), (11, 0), (12, 0)]]))) ∧
    ((20, 0) : Int × Int) ∈ gridPlaces.all five ∧
    (∀ q ∈ five.take 4, grid.apart q [(20, 0)] = true) :=
  ⟨⟨2, by decide +kernel⟩, ⟨[(20, 0)], by decide, by simp [gridPlaces]⟩, by decide +kernel⟩

/-- **C196 (outside the list).**  With the first four of these zones an element behind the end of the list is
removed. -/
theorem C196_outside_violated (fuel : Nat) : boostUnion grid (fuel + 1) (five.take 4) = .ub := by
  unfold boostUnion
  have h : grid.snap ((five.take 4).filter grid.valid) = five.take 4 := by decide +kernel
  have h0 : overlaps grid (five.take 4) = [(0, 3), (1, 2)] := by decide +kernel
  simp only [h]
  rw [h0, loop]
  rw [if_neg (by decide)]
  have h1 : eraseAll (pass grid (five.take 4) [(0, 3), (1, 2)]).ps (pass grid (five.take 4) [(0, 3), (1, 2)]).remove = .ub := by
    decide +kernel
  simp only [h1, Outcome.bind_ub]

/-- Three squares, each touching the next at a corner. -/
def stairs : List Cells := [[(0, 0)], [(1, 1)], [(2, 2)]]

/-- **C196 (for ever).**  For three zones of which each touches the next at a corner only the loop never ends: the pairs
that cannot be merged are noted in the opposite order of the pairs found. -/
theorem C196_forever_violated (fuel : Nat) : boostUnion grid fuel stairs = .ok none := by
  have h0 : overlaps grid stairs = [(0, 1), (1, 2)] := by decide +kernel
  have key : ∀ fuel tan, tan ≠ [(0, 1), (1, 2)] → loop grid fuel stairs [(0, 1), (1, 2)] tan = .ok none := by
    intro fuel
    induction fuel with
    | zero =>
      intro tan ht
      rw [loop, if_neg]
      simpa using fun h => ht h.symm
    | succ fuel ih =>
      intro tan ht
      rw [loop, if_neg (by simpa using fun h => ht h.symm)]
      have h1 : eraseAll (pass grid stairs [(0, 1), (1, 2)]).ps (pass grid stairs [(0, 1), (1, 2)]).remove = .ok stairs := by
        decide +kernel
      have h2 : (pass grid stairs [(0, 1), (1, 2)]).tangent = [(1, 2), (0, 1)] := by decide +kernel
      simp only [h1, h2, Outcome.bind_ok, h0]
      exact ih _ (by decide)
  have h : grid.snap (stairs.filter grid.valid) = stairs := by decide +kernel
  unfold boostUnion
  simp only [h, h0]
  rw [key fuel [] (by decide)]
  rfl

/-! ### Cases -/

/-- The geometry of `grid`, with polygons that have no cell in common taken as apart. -/
def grid' : Geo Cells Cells := { grid with apart := fun p q => !(p.any fun a => q.contains a) }

/-- Its places. -/
def gridPlaces' : Places grid' (Int × Int) where
  at_ p := {x | x ∈ p}
  union p q r h := gridPlaces.union p q r h

/-- It meets the conditions of `C196_three`. -/
example : (∀ p q x, x ∈ gridPlaces'.at_ p → x ∈ gridPlaces'.at_ q → ∃ r, grid'.union p q = [r]) ∧
    (∀ p q, grid'.apart p q = false → ∃ x, x ∈ gridPlaces'.at_ p ∧ x ∈ gridPlaces'.at_ q) ∧
    boostUnion grid' 3 [[(0, 0), (1, 0)], [(5, 5)], [(1, 0), (2, 0)]] =
      .ok (some (true, [[(0, 0), (1, 0), (1, 0), (2, 0)], [(5, 5)]])) := by
  refine ⟨fun p q x hp hq => ⟨p ++ q, ?_⟩, fun p q h => ?_, by decide +kernel⟩
  · have : (p.any fun a => q.any fun b => edge a b) = true := by
      rw [List.any_eq_true]
      exact ⟨x, hp, by rw [List.any_eq_true]; exact ⟨x, hq, by simp [edge]⟩⟩
    simp only [grid', grid, this, if_true]
  · simp only [grid', Bool.not_eq_false', List.any_eq_true] at h
    obtain ⟨x, h1, h2⟩ := h
    exact ⟨x, h1, by simpa [gridPlaces'] using h2⟩

/-- Two overlapping zones and one apart meet the condition of `C196_three_partial`, and two remain. -/
example : ([[(0, 0), (1, 0)], [(5, 5)], [(1, 0), (2, 0)]] : List Cells).length ≤ 3 ∧
    boostUnion grid 1 [[(0, 0), (1, 0)], [(5, 5)], [(1, 0), (2, 0)]] =
      .ok (some (true, [[(0, 0), (1, 0), (1, 0), (2, 0)], [(5, 5)]])) := by decide +kernel

/-- Cells in common make one polygon of two. -/
theorem grid_solid (p q : Cells) (x : Int × Int) (hp : x ∈ gridPlaces.at_ p) (hq : x ∈ gridPlaces.at_ q) :
    ∃ r, grid.union p q = [r] := by
  refine ⟨p ++ q, ?_⟩
  have : (p.any fun a => q.any fun b => edge a b) = true := by
    rw [List.any_eq_true]
    exact ⟨x, hp, by rw [List.any_eq_true]; exact ⟨x, hq, by simp [edge]⟩⟩
  simp only [grid, this, if_true]

/-- Any polygons with a cell in common meet the conditions of `C196_clique`; here four. -/
example : ∃ m, loop grid 1 [[(0, 0), (1, 0)], [(0, 0), (0, 1)], [(0, 0), (-1, 0)], [(0, 0)]]
      (overlaps grid [[(0, 0), (1, 0)], [(0, 0), (0, 1)], [(0, 0), (-1, 0)], [(0, 0)]]) [] = .ok (some [m]) ∧
    gridPlaces.at_ m = gridPlaces.all [[(0, 0), (1, 0)], [(0, 0), (0, 1)], [(0, 0), (-1, 0)], [(0, 0)]] := by
  have hz : ∀ p ∈ ([[(0, 0), (1, 0)], [(0, 0), (0, 1)], [(0, 0), (-1, 0)], [(0, 0)]] : List Cells), ((0 : Int), (0 : Int)) ∈ p := by
    decide
  refine C196_clique gridPlaces _ _ 0 grid_solid (by decide) fun i j p q _ hp hq => ?_
  have h1 := hz p (List.mem_of_getElem? hp)
  have h2 := hz q (List.mem_of_getElem? hq)
  refine ⟨?_, (0, 0), h1, h2⟩
  simp only [grid, Bool.not_eq_false', List.any_eq_true]
  exact ⟨(0, 0), h1, (0, 0), h2, by decide⟩

/-- Zones that are apart, one of them invalid: the others come out, and the merge reports failure. -/
example : boostUnion grid 0 [[(0, 0)], [], [(5, 5)]] = .ok (some (false, [[(0, 0)], [(5, 5)]])) := by decide +kernel

end Verif.Visilib.Merge
