import Mathlib.Data.List.Sort
import Mathlib.Data.List.Induction

/-!
# Ordered maps

`std::map<int64_t, …>` where its order counts: the entries in increasing order of their keys.
-/

namespace Verif.Stare

variable {β : Type*}

/-- `std::map::operator[]` followed by an assignment. -/
def put (k : ℤ) (v : β) : List (ℤ × β) → List (ℤ × β)
  | [] => [(k, v)]
  | (j, w) :: m => if k < j then (k, v) :: (j, w) :: m else if k = j then (k, v) :: m else (j, w) :: put k v m

/-- A map filled by assignments in turn. -/
def build (l : List (ℤ × β)) : List (ℤ × β) := l.foldl (fun m x => put x.1 x.2 m) []

/-- `std::map::lower_bound` (and the first of `equal_range`): the first entry whose key is not less, with the entry before
it.  `none` is `end()`. -/
def lowerBound (n : ℤ) : Option (ℤ × β) → List (ℤ × β) → Option (Option (ℤ × β) × (ℤ × β))
  | _, [] => none
  | prev, x :: m => if n ≤ x.1 then some (prev, x) else lowerBound n (some x) m

/-- The keys increase. -/
def Sorted (m : List (ℤ × β)) : Prop := m.Pairwise (fun x y => x.1 < y.1)

theorem mem_put {k : ℤ} {v : β} : ∀ {m : List (ℤ × β)}, Sorted m → ∀ x, x ∈ put k v m ↔ x = (k, v) ∨ (x ∈ m ∧ x.1 ≠ k)
  | [], _, x => by simp [put]
  | (j, w) :: m, hs, x => by
      obtain ⟨hj, hm⟩ := List.pairwise_cons.1 hs
      unfold put
      rcases lt_trichotomy k j with h | h | h
      · rw [if_pos h]
        constructor
        · intro hx
          rcases List.mem_cons.1 hx with hx | hx
          · exact Or.inl hx
          · refine Or.inr ⟨hx, ?_⟩
            rcases List.mem_cons.1 hx with rfl | hx
            · exact h.ne'
            · exact (h.trans (hj x hx)).ne'
        · rintro (hx | hx)
          · exact List.mem_cons.2 (Or.inl hx)
          · exact List.mem_cons.2 (Or.inr hx.1)
      · subst h
        rw [if_neg (lt_irrefl _), if_pos rfl]
        constructor
        · intro hx
          rcases List.mem_cons.1 hx with hx | hx
          · exact Or.inl hx
          · exact Or.inr ⟨List.mem_cons_of_mem _ hx, (hj x hx).ne'⟩
        · rintro (hx | ⟨hx, hne⟩)
          · exact List.mem_cons.2 (Or.inl hx)
          · rcases List.mem_cons.1 hx with rfl | hx
            · exact absurd rfl hne
            · exact List.mem_cons.2 (Or.inr hx)
      · rw [if_neg h.not_gt, if_neg h.ne']
        rw [List.mem_cons, mem_put hm x, List.mem_cons]
        constructor
        · rintro (rfl | hx | ⟨hx, hne⟩)
          · exact Or.inr ⟨Or.inl rfl, h.ne⟩
          · exact Or.inl hx
          · exact Or.inr ⟨Or.inr hx, hne⟩
        · rintro (hx | ⟨rfl | hx, hne⟩)
          · exact Or.inr (Or.inl hx)
          · exact Or.inl rfl
          · exact Or.inr (Or.inr ⟨hx, hne⟩)

theorem sorted_put {k : ℤ} {v : β} : ∀ {m : List (ℤ × β)}, Sorted m → Sorted (put k v m)
  | [], _ => List.pairwise_singleton _ _
  | (j, w) :: m, hs => by
      obtain ⟨hj, hm⟩ := List.pairwise_cons.1 hs
      unfold put
      rcases lt_trichotomy k j with h | h | h
      · rw [if_pos h]
        refine List.pairwise_cons.2 ⟨?_, hs⟩
        intro x hx
        rcases List.mem_cons.1 hx with rfl | hx
        · exact h
        · exact h.trans (hj x hx)
      · subst h
        rw [if_neg (lt_irrefl _), if_pos rfl]
        exact List.pairwise_cons.2 ⟨hj, hm⟩
      · rw [if_neg h.not_gt, if_neg h.ne']
        refine List.pairwise_cons.2 ⟨?_, sorted_put hm⟩
        intro x hx
        rcases (mem_put hm x).1 hx with rfl | ⟨hx, -⟩
        · exact h
        · exact hj x hx

theorem build_append (l : List (ℤ × β)) (x : ℤ × β) : build (l ++ [x]) = put x.1 x.2 (build l) := by
  simp [build]

theorem sorted_build (l : List (ℤ × β)) : Sorted (build l) := by
  induction l using List.reverseRecOn with
  | nil => exact List.Pairwise.nil
  | append_singleton l x ih => rw [build_append]; exact sorted_put ih

/-- An entry of the map is the last of those given with its key. -/
theorem mem_build {l : List (ℤ × β)} {x : ℤ × β} :
    x ∈ build l ↔ ∃ i, ∃ h : i < l.length, l[i] = x ∧ ∀ j, ∀ hj : j < l.length, i < j → l[j].1 ≠ x.1 := by
  induction l using List.reverseRecOn with
  | nil => simp [build]
  | append_singleton l y ih =>
      rw [build_append, mem_put (sorted_build l), ih]
      constructor
      · rintro (rfl | ⟨⟨i, hi, h1, h2⟩, h3⟩)
        · refine ⟨l.length, by simp, by simp, ?_⟩
          intro j hj hlt
          simp at hj; omega
        · refine ⟨i, by simp; omega, by rw [List.getElem_append_left hi, h1], ?_⟩
          intro j hj hlt
          rcases lt_or_ge j l.length with h | h
          · rw [List.getElem_append_left h]; exact h2 j h hlt
          · simp only [List.length_append, List.length_singleton] at hj
            have : j = l.length := by omega
            subst this
            simp only [List.getElem_concat_length]
            exact fun e => h3 e.symm
      · rintro ⟨i, hi, h1, h2⟩
        rcases lt_or_ge i l.length with h | h
        · refine Or.inr ⟨⟨i, h, by rw [← h1, List.getElem_append_left h], ?_⟩, ?_⟩
          · intro j hj hlt
            have := h2 j (by simp; omega) hlt
            rwa [List.getElem_append_left hj] at this
          · have := h2 l.length (by simp) h
            simp only [List.getElem_concat_length] at this
            exact fun e => this e.symm
        · simp only [List.length_append, List.length_singleton] at hi
          have : i = l.length := by omega
          subst this
          simp only [List.getElem_concat_length] at h1
          exact Or.inl h1.symm

theorem lowerBound_none {n : ℤ} : ∀ {m : List (ℤ × β)} {prev}, lowerBound n prev m = none ↔ ∀ x ∈ m, x.1 < n
  | [], prev => by simp [lowerBound]
  | x :: m, prev => by
      unfold lowerBound
      by_cases h : n ≤ x.1
      · rw [if_pos h]
        simp [h]
      · rw [if_neg h, lowerBound_none]
        simp [not_le.1 h]

theorem lowerBound_some {n : ℤ} : ∀ {m : List (ℤ × β)} {prev p x}, Sorted m → lowerBound n prev m = some (p, x) →
    x ∈ m ∧ n ≤ x.1 ∧ (∀ y ∈ m, n ≤ y.1 → x.1 ≤ y.1) ∧
    ((p = prev ∧ ∀ y ∈ m, n ≤ y.1) ∨ ∃ y ∈ m, p = some y ∧ y.1 < n ∧ ∀ z ∈ m, z.1 < n → z.1 ≤ y.1)
  | [], _, _, _, _, h => by cases h
  | y :: m, prev, p, x, hs, h => by
      obtain ⟨hj, hm⟩ := List.pairwise_cons.1 hs
      unfold lowerBound at h
      by_cases hn : n ≤ y.1
      · rw [if_pos hn] at h
        cases h
        have hall : ∀ z ∈ y :: m, y.1 ≤ z.1 := by
          intro z hz
          rcases List.mem_cons.1 hz with rfl | hz
          · exact le_refl _
          · exact (hj z hz).le
        exact ⟨List.mem_cons_self, hn, fun z hz _ => hall z hz, Or.inl ⟨rfl, fun z hz => hn.trans (hall z hz)⟩⟩
      · rw [if_neg hn] at h
        obtain ⟨h1, h2, h3, h4⟩ := lowerBound_some hm h
        refine ⟨List.mem_cons_of_mem _ h1, h2, ?_, ?_⟩
        · intro z hz hnz
          rcases List.mem_cons.1 hz with rfl | hz
          · exact absurd hnz hn
          · exact h3 z hz hnz
        · right
          rcases h4 with ⟨rfl, h4⟩ | ⟨z, hz, rfl, hzn, h4⟩
          · refine ⟨y, List.mem_cons_self, rfl, not_le.1 hn, ?_⟩
            intro z hz hzn
            rcases List.mem_cons.1 hz with rfl | hz
            · exact le_refl _
            · exact absurd (h4 z hz) (not_le.2 hzn)
          · refine ⟨z, List.mem_cons_of_mem _ hz, rfl, hzn, ?_⟩
            intro u hu hun
            rcases List.mem_cons.1 hu with rfl | hu
            · exact (hj z hz).le
            · exact h4 u hu hun

end Verif.Stare
