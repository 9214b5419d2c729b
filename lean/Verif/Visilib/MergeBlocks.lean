import Verif.Visilib.MergeProps

/-!
What a merge does with the pieces around several zones (C200): the pairs that are sure to be merged decide in which order polygons
are removed.
-/

namespace Verif.Visilib.Merge

open Verif

variable {P R : Type}

/-- Not in the code: a pair that is found and merged, also after both polygons have grown. -/
def Sure (g : Geo P R) {α : Type} (pl : Places g α) (ps : List P) (i j : Nat) : Prop :=
  (i, j) ∈ overlaps g ps ∧ ∀ p q, ps[i]? = some p → ps[j]? = some q →
    ∀ p' q', pl.at_ p ⊆ pl.at_ p' → pl.at_ q ⊆ pl.at_ q' → ∃ r, g.union p' q' = [r]

theorem grown_any {g : Geo P R} {α : Type} {pl : Places g α} {ps : List P} {s : Pass P} (h : Grown pl ps s) (ij : Nat × Nat) :
    Grown pl ps (mergePair g s ij) := by
  unfold mergePair
  split
  · next p q hp hq =>
    split
    · next r hr =>
      have hi : ij.1 < s.ps.length := (List.getElem?_eq_some_iff.1 hp).1
      refine ⟨by simp [h.length], ?_⟩
      intro k y hy
      obtain ⟨y', y1, y2⟩ := h.grown k y hy
      by_cases hk : ij.1 = k
      · subst hk
        rw [hp] at y1
        obtain rfl := Option.some.inj y1
        exact ⟨r, by simp only; rw [List.getElem?_set, if_pos rfl, if_pos hi],
          y2.trans (by rw [pl.union _ _ _ hr]; exact Set.subset_union_left)⟩
      · exact ⟨y', by simp only; rw [List.getElem?_set, if_neg hk]; exact y1, y2⟩
    · exact ⟨h.length, h.grown⟩
  · exact h

theorem remove_any (g : Geo P R) (s : Pass P) (ij : Nat × Nat) :
    (mergePair g s ij).remove = s.remove ∨ ij.2 ∉ s.remove ∧ (mergePair g s ij).remove = s.remove ++ [ij.2] := by
  unfold mergePair
  split
  · split
    · simp only
      split
      · exact .inl rfl
      · next h => exact .inr ⟨by simpa using h, rfl⟩
    · exact .inl rfl
  · exact .inl rfl

theorem sure_removed {g : Geo P R} {α : Type} {pl : Places g α} {ps : List P} {s : Pass P} (h : Grown pl ps s) {i j : Nat}
    (hs : Sure g pl ps i j) : j ∈ (mergePair g s (i, j)).remove := by
  obtain ⟨hij, p, q, hp, hq, -⟩ := mem_overlaps.1 hs.1
  obtain ⟨p', p1, p2⟩ := h.grown i p hp
  obtain ⟨q', q1, q2⟩ := h.grown j q hq
  obtain ⟨r, hr⟩ := hs.2 p q hp hq p' q' p2 q2
  unfold mergePair
  simp only [p1, q1, hr]
  split
  · next hc => simpa using hc
  · simp

/-- What is removed falls if each polygon that meets one before it is sure to be merged with one of the two before it. -/
theorem near_falls {g : Geo P R} {α : Type} {pl : Places g α} {ps : List P}
    (hnear : ∀ i j, (i, j) ∈ overlaps g ps → ∃ i', j ≤ i' + 2 ∧ Sure g pl ps i' j) :
    ∀ (l2 l1 : List (Nat × Nat)) (s : Pass P), (overlaps g ps).reverse = l1 ++ l2 → Grown pl ps s →
      s.remove.Pairwise (· > ·) → (∀ k ∈ s.remove, ∃ i, (i, k) ∈ l1) → (∀ i k, (i, k) ∈ l1 → Sure g pl ps i k → k ∈ s.remove) →
      (l2.foldl (mergePair g) s).remove.Pairwise (· > ·) ∧
        (∀ k ∈ (l2.foldl (mergePair g) s).remove, ∃ i, (i, k) ∈ l1 ++ l2) ∧
        (∀ i k, (i, k) ∈ l1 ++ l2 → Sure g pl ps i k → k ∈ (l2.foldl (mergePair g) s).remove) := by
  have hrev : (overlaps g ps).reverse.Pairwise fun a b => b.1 < a.1 ∨ (b.1 = a.1 ∧ b.2 < a.2) := by
    rw [List.pairwise_reverse]; exact overlaps_sorted g ps
  intro l2
  induction l2 with
  | nil => intro l1 s _ _ h1 h2 h3; simpa using ⟨h1, h2, h3⟩
  | cons a l2 ih =>
    intro l1 s he hg h1 h2 h3
    obtain ⟨i, j⟩ := a
    have hmem : (i, j) ∈ overlaps g ps := by rw [← List.mem_reverse, he]; simp
    have he' : (overlaps g ps).reverse = (l1 ++ [(i, j)]) ++ l2 := by rw [he]; simp
    rw [he, List.pairwise_append, List.pairwise_cons] at hrev
    have hnew : j ∉ s.remove → ∀ k ∈ s.remove, k > j := by
      intro hj k hk
      obtain ⟨i', hi'⟩ := h2 k hk
      have hbefore := hrev.2.2 _ hi' (i, j) (by simp)
      by_contra hlt
      have hne : k ≠ j := fun e => hj (e ▸ hk)
      have hm' : (i', k) ∈ overlaps g ps := by rw [← List.mem_reverse, he]; simp [hi']
      have hik : i' < k := (mem_overlaps.1 hm').1
      obtain ⟨i'', h4, h5⟩ := hnear i j hmem
      have h6 : (i'', j) ∈ l1 ++ (i, j) :: l2 := by rw [← he]; simpa using h5.1
      rcases List.mem_append.1 h6 with h7 | h7
      · exact hj (h3 i'' j h7 h5)
      · simp only at hbefore
        rcases List.mem_cons.1 h7 with h7 | h7
        · simp only [Prod.mk.injEq] at h7; omega
        · have h8 := hrev.2.1.1 _ h7
          simp only at h8
          omega
    have hrm := remove_any g s (i, j)
    have := ih (l1 ++ [(i, j)]) (mergePair g s (i, j)) he' (grown_any hg _) (by
      rcases hrm with e | ⟨hc, e⟩
      · rw [e]; exact h1
      · rw [e, List.pairwise_append]
        exact ⟨h1, List.pairwise_singleton .., fun a ha b hb => by
          rw [List.mem_singleton] at hb; subst hb; exact hnew hc a ha⟩) (by
      intro k hk
      rcases hrm with e | ⟨hc, e⟩
      · rw [e] at hk
        obtain ⟨i', h⟩ := h2 k hk
        exact ⟨i', by simp [h]⟩
      · rw [e, List.mem_append, List.mem_singleton] at hk
        rcases hk with hk | rfl
        · obtain ⟨i', h⟩ := h2 k hk
          exact ⟨i', by simp [h]⟩
        · exact ⟨i, by simp⟩) (by
      intro i' k hk hsure
      rcases List.mem_append.1 hk with hk | hk
      · have := h3 i' k hk hsure
        rcases hrm with e | ⟨-, e⟩ <;> rw [e]
        · exact this
        · exact List.mem_append_left _ this
      · rw [List.mem_singleton, Prod.mk.injEq] at hk
        obtain ⟨rfl, rfl⟩ := hk
        exact sure_removed hg hsure)
    rw [List.foldl_cons]
    simpa using this

/-- The same for a whole pass: what is removed are the polygons that meet one before them, in falling order. -/
theorem pass_near {g : Geo P R} {α : Type} {pl : Places g α} {ps : List P}
    (hnear : ∀ i j, (i, j) ∈ overlaps g ps → ∃ i', j ≤ i' + 2 ∧ Sure g pl ps i' j) :
    (pass g ps (overlaps g ps)).remove.Pairwise (· > ·) ∧
      ∀ k, k ∈ (pass g ps (overlaps g ps)).remove ↔ ∃ i, (i, k) ∈ overlaps g ps := by
  obtain ⟨h1, h2, h3⟩ := near_falls hnear (overlaps g ps).reverse [] { ps := ps } rfl ⟨rfl, fun k p hp => ⟨p, hp, le_refl _⟩⟩
    (by simp) (by simp) (by simp)
  refine ⟨h1, fun k => ⟨fun hk => ?_, fun ⟨i, hi⟩ => ?_⟩⟩
  · obtain ⟨i, hi⟩ := h2 k hk
    exact ⟨i, by simpa using hi⟩
  · obtain ⟨i', -, hs⟩ := hnear i k hi
    exact h3 i' k (by simpa using hs.1) hs

/-- Each polygon stays within what it belongs to. -/
theorem within_fold {g : Geo P R} {α : Type} {pl : Places g α} {ps : List P} {B : Nat → Set α}
    (hB : ∀ i j, (i, j) ∈ overlaps g ps → B i = B j) : ∀ (l : List (Nat × Nat)) (s : Pass P), (∀ a ∈ l, a ∈ overlaps g ps) →
      (∀ k p, s.ps[k]? = some p → pl.at_ p ⊆ B k) → ∀ k p, (l.foldl (mergePair g) s).ps[k]? = some p → pl.at_ p ⊆ B k := by
  intro l
  induction l with
  | nil => intro s _ h; exact h
  | cons a l ih =>
    intro s ha h
    rw [List.foldl_cons]
    refine ih _ (fun b hb => ha b (by simp [hb])) ?_
    intro k p hk
    unfold mergePair at hk
    split at hk
    · next p' q' hp hq =>
      split at hk
      · next r hr =>
        simp only at hk
        rw [List.getElem?_set] at hk
        split at hk
        · next e =>
          split at hk
          · obtain rfl := Option.some.inj hk
            rw [pl.union _ _ _ hr, ← e]
            refine Set.union_subset (h _ _ hp) ?_
            rw [hB a.1 a.2 (ha a (by simp))]
            exact h _ _ hq
          · cases hk
        · exact h k p hk
      · exact h k p hk
    · exact h k p hk

/-- Removal in falling order keeps the order of the others. -/
theorem eraseAll_mono : ∀ (rm : List Nat) (ps : List P), rm.Pairwise (· > ·) → (∀ i ∈ rm, i < ps.length) →
    ∃ ps', eraseAll ps rm = .ok ps' ∧ ps'.length + rm.length = ps.length ∧
      ∃ f : Nat → Nat, StrictMono f ∧ ∀ a, ps'[a]? = ps[f a]? ∧ f a ∉ rm := by
  intro rm
  induction rm with
  | nil => intro ps _ _; exact ⟨ps, rfl, by simp, id, strictMono_id, fun a => ⟨rfl, by simp⟩⟩
  | cons i rm ih =>
    intro ps hp hb
    rw [List.pairwise_cons] at hp
    have hi := hb i (by simp)
    obtain ⟨ps', h1, h2, f, f1, f2⟩ := ih (ps.eraseIdx i) hp.2 (by
      intro k hk
      rw [List.length_eraseIdx_of_lt hi]
      have := hp.1 k hk
      omega)
    refine ⟨ps', by rw [eraseAll, if_pos hi]; exact h1, ?_, fun a => if f a < i then f a else f a + 1, ?_, ?_⟩
    · rw [List.length_eraseIdx_of_lt hi] at h2
      simp only [List.length_cons]
      omega
    · intro a b hab
      have := f1 hab
      dsimp only
      split <;> split <;> omega
    · intro a
      obtain ⟨e1, e2⟩ := f2 a
      dsimp only
      rw [e1, List.getElem?_eraseIdx]
      split
      · refine ⟨rfl, ?_⟩
        simp only [List.mem_cons, not_or]
        exact ⟨by omega, e2⟩
      · refine ⟨rfl, ?_⟩
        simp only [List.mem_cons, not_or]
        exact ⟨by omega, fun h => by have := hp.1 _ h; omega⟩

/-- Merging polygons that belong to groups: one polygon for each group remains, with the places of the group.  `c i` is the group
of the polygon with the number `i`. -/
theorem merge_groups {g : Geo P R} {α : Type} (pl : Places g α) {ps : List P} {c : Nat → Nat} {B : Nat → Set α}
    (hnear : ∀ i j, (i, j) ∈ overlaps g ps → ∃ i', j ≤ i' + 2 ∧ Sure g pl ps i' j)
    (hgroup : ∀ i j, (i, j) ∈ overlaps g ps → c i = c j)
    (hB : ∀ i p, ps[i]? = some p → pl.at_ p ⊆ B (c i)) (hdisj : ∀ a b, a ≠ b → Disjoint (B a) (B b))
    (hfirst : ∀ i j, i < j → j < ps.length → c i = c j → ∃ i', (i', j) ∈ overlaps g ps)
    (hx : ∀ p q, g.apart p q = false → ∃ x, x ∈ pl.at_ p ∧ x ∈ pl.at_ q) (fuel : Nat) :
    ∃ out, loop g (fuel + 1) ps (overlaps g ps) [] = .ok (some out) ∧ pl.all out = pl.all ps ∧
      ∃ f : Nat → Nat, StrictMono f ∧ (∀ a b, a < b → b < out.length → c (f a) ≠ c (f b)) ∧
        ∀ a m, out[a]? = some m → f a < ps.length ∧ pl.at_ m ⊆ B (c (f a)) := by
  obtain ⟨h1, h2⟩ := pass_near hnear
  obtain ⟨m, hinv⟩ := pinv_pass pl ps
  obtain ⟨out, o1, o2, f, f1, f2⟩ := eraseAll_mono _ _ h1 (fun i hi => by rw [hinv.length]; exact (hinv.above i hi).2)
  obtain ⟨out', o1', -, o3⟩ := pass_falling pl h1
  rw [o1] at o1'
  obtain rfl := Outcome.ok.inj o1'
  have hlen : ∀ a, a < out.length → f a < ps.length := by
    intro a ha
    have e := (f2 a).1
    rw [List.getElem?_eq_getElem ha] at e
    have := (List.getElem?_eq_some_iff.1 e.symm).1
    rwa [hinv.length] at this
  have hwithin : ∀ a m, out[a]? = some m → f a < ps.length ∧ pl.at_ m ⊆ B (c (f a)) := by
    intro a m ha
    refine ⟨hlen a (List.getElem?_eq_some_iff.1 ha).1, ?_⟩
    rw [(f2 a).1] at ha
    exact within_fold (B := fun i => B (c i)) (fun i j h => by rw [hgroup i j h]) _ { ps := ps } (fun a h => List.mem_reverse.1 h)
      hB (f a) m ha
  have hne : ∀ a b, a < b → b < out.length → c (f a) ≠ c (f b) := by
    intro a b hab hb e
    obtain ⟨i', hi'⟩ := hfirst (f a) (f b) (f1 hab) (hlen b hb) e
    exact (f2 b).2 ((h2 (f b)).2 ⟨i', hi'⟩)
  have hover : overlaps g out = [] := by
    rw [List.eq_nil_iff_forall_not_mem]
    rintro ⟨a, b⟩ h
    obtain ⟨hab, p, q, hp, hq, -, -, hap⟩ := mem_overlaps.1 h
    obtain ⟨x, x1, x2⟩ := hx p q hap
    exact Set.disjoint_left.1 (hdisj _ _ (hne a b hab (List.getElem?_eq_some_iff.1 hq).1)) ((hwithin a p hp).2 x1) ((hwithin b q hq).2 x2)
  refine ⟨out, ?_, o3, f, f1, hne, hwithin⟩
  by_cases he : overlaps g ps = []
  · have hrm : (pass g ps (overlaps g ps)).remove = [] := by rw [he]; rfl
    rw [hrm] at o1
    have hps : (pass g ps (overlaps g ps)).ps = ps := by rw [he]; rfl
    rw [hps] at o1
    have : out = ps := by simpa [eraseAll, eq_comm] using o1
    rw [this, loop, he]; rfl
  · rw [loop, if_neg (by
      cases hh : overlaps g ps with
      | nil => exact absurd hh he
      | cons a b => simp)]
    simp only [o1, Outcome.bind_ok, hover]
    cases fuel <;> simp [loop]

/-! ### When the numbers do not fall -/

/-- When all polygons but the first are to be removed, only the falling order stays within the list. -/
theorem eraseAll_ok_falls : ∀ (rm : List Nat) (ps ps' : List P), eraseAll ps rm = .ok ps' → ps.length = rm.length + 1 → rm.Nodup →
    (∀ r ∈ rm, 1 ≤ r) → rm = (List.range' 1 rm.length).reverse
  | [], _, _, _, _, _, _ => rfl
  | i :: rm, ps, ps', h, hl, hn, h1 => by
    unfold eraseAll at h
    split at h
    · next hi =>
      rw [List.nodup_cons] at hn
      have ih := eraseAll_ok_falls rm _ ps' h (by
        rw [List.length_eraseIdx_of_lt hi]; simp only [List.length_cons] at hl; omega) hn.2 (fun r hr => h1 r (by simp [hr]))
      have hi1 : i = rm.length + 1 := by
        have hm : i ∉ List.range' 1 rm.length := by
          intro hm
          exact hn.1 (by rw [ih]; simpa using hm)
        rw [List.mem_range'_1] at hm
        have := h1 i (by simp)
        simp only [List.length_cons] at hl
        omega
      rw [List.length_cons, List.range'_concat, List.reverse_append]
      simp only [List.reverse_cons, List.reverse_nil, List.nil_append, List.singleton_append, Nat.one_mul, List.cons.injEq]
      exact ⟨by omega, ih⟩
    · cases h

/-- When all polygons are merged into the first, but the one with the number `n + 1` meets those before `m` only and the one with
the number `n` is merged with the one with the number `m` or above, then an element behind the end of the list is removed. -/
theorem merge_outside {g : Geo P R} {α : Type} (pl : Places g α) {ps : List P} {m n : Nat}
    (hall : ∀ j, 1 ≤ j → j < ps.length → ∃ i, Sure g pl ps i j) (hlen : n + 1 < ps.length)
    (hlast : ∃ i, m ≤ i ∧ Sure g pl ps i n) (hfar : ∀ i, (i, n + 1) ∈ overlaps g ps → i < m) (fuel : Nat) :
    loop g (fuel + 1) ps (overlaps g ps) [] = .ub := by
  have hg0 : Grown pl ps { ps := ps } := ⟨rfl, fun k p hp => ⟨p, hp, le_refl _⟩⟩
  have hgrow : ∀ (l : List (Nat × Nat)) (s : Pass P), Grown pl ps s → Grown pl ps (l.foldl (mergePair g) s) := by
    intro l
    induction l with
    | nil => intro s h; exact h
    | cons a l ih => intro s h; exact ih _ (grown_any h a)
  have hstay : ∀ (l : List (Nat × Nat)) (s : Pass P) (k : Nat), k ∈ s.remove → k ∈ (l.foldl (mergePair g) s).remove := by
    intro l s k hk
    obtain ⟨t, h, -⟩ := remove_sublist (g := g) l s
    rw [h]
    exact List.mem_append_left _ hk
  have hsure : ∀ (l : List (Nat × Nat)) (s : Pass P) (i k : Nat), Grown pl ps s → (i, k) ∈ l → Sure g pl ps i k →
      k ∈ (l.foldl (mergePair g) s).remove := by
    intro l s i k hs hik hsure
    obtain ⟨l1, l2, rfl⟩ := List.append_of_mem hik
    rw [List.foldl_append, List.foldl_cons]
    exact hstay l2 _ k (sure_removed (hgrow l1 s hs) hsure)
  obtain ⟨mm, hinv⟩ := pinv_pass pl ps
  obtain ⟨i, hmi, hsi⟩ := hlast
  -- the pairs up to `(i, n)`
  obtain ⟨l1, l2, hsplit⟩ := List.append_of_mem (show (i, n) ∈ (overlaps g ps).reverse by simpa using hsi.1)
  have hrev : (overlaps g ps).reverse.Pairwise fun a b => b.1 < a.1 ∨ (b.1 = a.1 ∧ b.2 < a.2) := by
    rw [List.pairwise_reverse]; exact overlaps_sorted g ps
  have hfirst : n + 1 ∉ ((l1 ++ [(i, n)]).foldl (mergePair g) { ps := ps }).remove := by
    intro hmem
    obtain ⟨t, h, ht⟩ := remove_sublist (g := g) (l1 ++ [(i, n)]) { ps := ps }
    rw [h, List.nil_append] at hmem
    obtain ⟨⟨i', k⟩, hk, hkk⟩ := List.mem_map.1 (ht.subset hmem)
    simp only at hkk
    subst hkk
    have hin : (i', n + 1) ∈ overlaps g ps := by
      rw [← List.mem_reverse, hsplit]
      rcases List.mem_append.1 hk with h | h
      · simp [h]
      · rw [List.mem_singleton] at h; simp [h]
    have hlt := hfar i' hin
    rcases List.mem_append.1 hk with h | h
    · rw [hsplit, List.pairwise_append] at hrev
      have := hrev.2.2 _ h (i, n) (by simp)
      simp only at this
      omega
    · simp only [List.mem_singleton, Prod.mk.injEq] at h
      omega
  have hpass : (pass g ps (overlaps g ps)) = l2.foldl (mergePair g) ((l1 ++ [(i, n)]).foldl (mergePair g) { ps := ps }) := by
    unfold pass
    rw [hsplit, List.foldl_append, List.foldl_cons, List.foldl_append, List.foldl_cons, List.foldl_nil]
  obtain ⟨t, ht, -⟩ := remove_sublist (g := g) l2 ((l1 ++ [(i, n)]).foldl (mergePair g) { ps := ps })
  rw [← hpass] at ht
  have hn1 : n ∈ ((l1 ++ [(i, n)]).foldl (mergePair g) { ps := ps }).remove := hsure _ _ i n hg0 (by simp) hsi
  have hmem : ∀ k, k ∈ (pass g ps (overlaps g ps)).remove ↔ 1 ≤ k ∧ k < ps.length := by
    intro k
    constructor
    · intro hk
      have := hinv.above k hk
      omega
    · rintro ⟨k1, k2⟩
      obtain ⟨i', hs⟩ := hall k k1 k2
      exact hsure _ _ i' k hg0 (by simpa using hs.1) hs
  have hcount : (pass g ps (overlaps g ps)).remove.length + 1 = ps.length := by
    have hperm : (pass g ps (overlaps g ps)).remove.Perm (List.range' 1 (ps.length - 1)) := by
      rw [List.perm_ext_iff_of_nodup hinv.nodup (List.nodup_range' ..)]
      intro k
      rw [hmem, List.mem_range'_1]
      omega
    have := hperm.length_eq
    rw [List.length_range'] at this
    omega
  have hub : eraseAll (pass g ps (overlaps g ps)).ps (pass g ps (overlaps g ps)).remove = .ub := by
    have : ∀ (rm : List Nat) (qs : List P), eraseAll qs rm = .ub ∨ ∃ qs', eraseAll qs rm = .ok qs' := by
      intro rm
      induction rm with
      | nil => intro qs; exact .inr ⟨qs, rfl⟩
      | cons r rm ih =>
        intro qs
        unfold eraseAll
        split
        · exact ih _
        · exact .inl rfl
    rcases this (pass g ps (overlaps g ps)).remove (pass g ps (overlaps g ps)).ps with h | ⟨qs', h⟩
    · exact h
    · exfalso
      have hfall := eraseAll_ok_falls _ _ _ h (by rw [hinv.length]; omega) hinv.nodup (fun r hr => ((hmem r).1 hr).1)
      have hp : (pass g ps (overlaps g ps)).remove.Pairwise (· > ·) := by
        rw [hfall, List.pairwise_reverse]
        exact List.pairwise_lt_range' ..
      have hn2 : n + 1 ∈ t := by
        have : n + 1 ∈ (pass g ps (overlaps g ps)).remove := (hmem _).2 ⟨by omega, hlen⟩
        rw [ht] at this
        exact (List.mem_append.1 this).resolve_left hfirst
      rw [ht, List.pairwise_append] at hp
      have := hp.2.2 n hn1 (n + 1) hn2
      omega
  rw [loop, if_neg (by
    cases hh : overlaps g ps with
    | nil => have := hsi.1; rw [hh] at this; cases this
    | cons a b => simp)]
  simp only [hub, Outcome.bind_ub]

end Verif.Visilib.Merge
