import Verif.Options.Rendezvous
import Verif.Permute.Props

/-!
`std::next_permutation` gives the next permutation in lexicographic order, so going on from the first one visits all.
-/

namespace Verif.Options

open Verif

/-- A strict linear order. -/
structure Linear (lt : Nat → Nat → Bool) : Prop where
  irrefl : ∀ a, lt a a = false
  trans : ∀ a b c, lt a b = true → lt b c = true → lt a c = true
  total : ∀ a b, lt a b = true ∨ a = b ∨ lt b a = true

theorem linear_lt : Linear (fun a b => decide (a < b)) where
  irrefl a := by simp
  trans a b c h₁ h₂ := by simp at *; omega
  total a b := by simp; omega

theorem linear_gt : Linear (fun a b => decide (b < a)) where
  irrefl a := by simp
  trans a b c h₁ h₂ := by simp at *; omega
  total a b := by simp; omega

/-- Lexicographic order. -/
inductive LexLt (lt : Nat → Nat → Bool) : List Nat → List Nat → Prop where
  | head {a b as bs} : lt a b = true → LexLt lt (a :: as) (b :: bs)
  | tail {a as bs} : LexLt lt as bs → LexLt lt (a :: as) (a :: bs)

variable {lt : Nat → Nat → Bool}

theorem LexLt.irrefl (hl : Linear lt) : ∀ {l : List Nat}, ¬ LexLt lt l l
  | [], h => by cases h
  | a :: l, h => by
    cases h with
    | head h => rw [hl.irrefl] at h; cases h
    | tail h => exact LexLt.irrefl hl h

theorem LexLt.trans (hl : Linear lt) : ∀ {l m n : List Nat}, LexLt lt l m → LexLt lt m n → LexLt lt l n
  | _, _, _, .head h, .head h' => .head (hl.trans _ _ _ h h')
  | _, _, _, .head h, .tail _ => .head h
  | _, _, _, .tail _, .head h => .head h
  | _, _, _, .tail h, .tail h' => .tail (LexLt.trans hl h h')

/-- Nothing smaller follows. -/
abbrev Ascending (lt : Nat → Nat → Bool) (l : List Nat) : Prop := l.Pairwise fun a b => lt b a = false

/-- Not in the code: in descending order. -/
abbrev Descending (lt : Nat → Nat → Bool) (l : List Nat) : Prop := l.Pairwise fun a b => lt a b = false

theorem ascending_first (hl : Linear lt) : ∀ {l m : List Nat}, Ascending lt l → m.Perm l → m = l ∨ LexLt lt l m
  | [], m, _, hp => .inl (List.perm_nil.mp hp)
  | a :: l, m, ha, hp => by
    cases m with
    | nil => have := hp.length_eq; simp at this
    | cons b m =>
      obtain ⟨h₁, h₂⟩ := List.pairwise_cons.mp ha
      rcases hl.total a b with h | rfl | h
      · exact .inr (.head h)
      · rcases ascending_first hl h₂ (List.Perm.cons_inv hp) with rfl | h
        · exact .inl rfl
        · exact .inr (.tail h)
      · have : b ∈ a :: l := hp.subset (by simp)
        rcases List.mem_cons.mp this with rfl | hb
        · rw [hl.irrefl] at h; cases h
        · rw [h₁ b hb] at h; cases h

theorem descending_last (hl : Linear lt) : ∀ {l m : List Nat}, Descending lt l → m.Perm l → ¬ LexLt lt l m
  | [], m, _, _, h => by cases h
  | a :: l, m, hd, hp, h => by
    obtain ⟨h₁, h₂⟩ := List.pairwise_cons.mp hd
    cases h with
    | @head _ b _ bs h =>
      have : b ∈ a :: l := hp.subset (by simp)
      rcases List.mem_cons.mp this with rfl | hb
      · rw [hl.irrefl] at h; cases h
      · rw [h₁ b hb] at h; cases h
    | tail h => exact descending_last hl h₂ (List.Perm.cons_inv hp) h

theorem takeWhile_drop (p : Nat → Bool) (s : List Nat) : s.drop (s.takeWhile p).length = s.dropWhile p := by
  induction s with
  | nil => rfl
  | cons a s ih =>
    by_cases h : p a
    · simp [List.takeWhile, List.dropWhile, h, ih]
    · simp [List.takeWhile, List.dropWhile, h]

/-- The shape of the step at the place of the exchange. -/
theorem nextPerm_cons_none {x : Nat} {xs : List Nat} (h : nextPerm lt xs = none) :
    (nextPerm lt (x :: xs) = none ∧ ∀ y ∈ xs, lt x y = false) ∨
    ∃ a y b, xs.reverse = a ++ y :: b ∧ (∀ z ∈ a, lt x z = false) ∧ lt x y = true ∧
      nextPerm lt (x :: xs) = some (y :: (a ++ x :: b)) := by
  rw [nextPerm]
  simp only [h, takeWhile_drop]
  have hs := List.takeWhile_append_dropWhile (p := fun z => !lt x z) (l := xs.reverse)
  have ha : ∀ z ∈ xs.reverse.takeWhile (fun z => !lt x z), lt x z = false := by
    intro z hz
    have := List.all_takeWhile (p := fun z => !lt x z) (l := xs.reverse)
    rw [List.all_eq_true] at this
    simpa using this z hz
  cases hd : xs.reverse.dropWhile (fun z => !lt x z) with
  | nil =>
    left
    refine ⟨rfl, ?_⟩
    intro y hy
    rw [hd, List.append_nil] at hs
    exact ha y (by rw [hs]; simpa using hy)
  | cons y b =>
    right
    refine ⟨_, y, b, by rw [← hd, hs], ha, ?_, rfl⟩
    have := List.head_dropWhile_not (p := fun z => !lt x z) (l := xs.reverse) (by rw [hd]; simp)
    simp only [hd, List.head_cons] at this
    simpa using this

theorem nextPerm_none : ∀ {l : List Nat}, nextPerm lt l = none → Descending lt l
  | [], _ => by simp
  | x :: xs, h => by
    cases hn : nextPerm lt xs with
    | some ys => rw [nextPerm, hn] at h; cases h
    | none =>
      rcases nextPerm_cons_none (x := x) hn with ⟨-, hx⟩ | ⟨a, y, b, -, -, -, e⟩
      · exact List.pairwise_cons.mpr ⟨hx, nextPerm_none hn⟩
      · rw [e] at h; cases h

/-- The next permutation: a later one, and none is in between. -/
theorem nextPerm_some (hl : Linear lt) : ∀ {l l' : List Nat}, nextPerm lt l = some l' →
    l'.Perm l ∧ LexLt lt l l' ∧ ∀ m, m.Perm l → LexLt lt l m → m = l' ∨ LexLt lt l' m
  | [], _, h => by simp [nextPerm] at h
  | x :: xs, l', h => by
    cases hn : nextPerm lt xs with
    | some ys =>
      rw [nextPerm, hn] at h
      simp only [Option.some.injEq] at h
      subst h
      obtain ⟨h₁, h₂, h₃⟩ := nextPerm_some hl hn
      refine ⟨h₁.cons x, .tail h₂, ?_⟩
      intro m hm hlt
      cases hlt with
      | head h => exact .inr (.head h)
      | tail h =>
        rcases h₃ _ (List.Perm.cons_inv hm) h with rfl | h
        · exact .inl rfl
        · exact .inr (.tail h)
    | none =>
      rcases nextPerm_cons_none (x := x) hn with ⟨e, -⟩ | ⟨a, y, b, hs, ha, hy, e⟩
      · rw [e] at h; cases h
      · rw [e, Option.some.injEq] at h
        subst h
        have hd := nextPerm_none hn
        have hasc : Ascending lt (a ++ y :: b) := by
          rw [← hs]
          exact List.pairwise_reverse.mpr hd
        obtain ⟨i₁, i₂, i₃⟩ := List.pairwise_append.mp hasc
        obtain ⟨i₄, i₅⟩ := List.pairwise_cons.mp i₂
        have hxs : xs.Perm (a ++ y :: b) := by rw [← hs]; exact (List.reverse_perm xs).symm
        have hge : ∀ z ∈ b, lt z x = false := by
          intro z hz
          have h₁ := i₄ z hz
          cases hc : lt z x with
          | false => rfl
          | true => rw [hl.trans z x y hc hy] at h₁; cases h₁
        have hle : ∀ z ∈ a, lt x z = false := ha
        have hasc' : Ascending lt (a ++ x :: b) := by
          refine List.pairwise_append.mpr ⟨i₁, List.pairwise_cons.mpr ⟨hge, i₅⟩, ?_⟩
          intro z hz w hw
          rcases List.mem_cons.mp hw with rfl | hw
          · exact hle z hz
          · exact i₃ z hz w (by simp [hw])
        refine ⟨?_, .head hy, ?_⟩
        · refine (List.Perm.cons y List.perm_middle).trans ((List.Perm.swap x y _).trans (List.Perm.cons x ?_))
          exact (List.perm_middle.symm).trans hxs.symm
        · intro m hm hlt
          cases hlt with
          | tail h => exact absurd h (descending_last hl hd (List.Perm.cons_inv hm))
          | @head _ z _ zs h =>
            have hz : z ∈ a ++ y :: b := by
              have : z ∈ x :: xs := hm.subset (by simp)
              rcases List.mem_cons.mp this with rfl | hz
              · rw [hl.irrefl] at h; cases h
              · exact hxs.subset hz
            have hz' : z ∈ y :: b := by
              rcases List.mem_append.mp hz with hz | hz
              · rw [ha z hz] at h; cases h
              · exact hz
            rcases hl.total y z with h' | rfl | h'
            · exact .inr (.head h')
            · have hp : zs.Perm (a ++ x :: b) := by
                have h₁ : (y :: zs).Perm (y :: (a ++ x :: b)) := by
                  refine hm.trans ((List.Perm.cons x (hxs.trans List.perm_middle)).trans ((List.Perm.swap y x _).trans (List.Perm.cons y ?_)))
                  exact List.perm_middle.symm
                exact List.Perm.cons_inv h₁
              rcases ascending_first hl hasc' hp with rfl | h'
              · exact .inl rfl
              · exact .inr (.tail h')
            · rcases List.mem_cons.mp hz' with rfl | hz'
              · rw [hl.irrefl] at h'; cases h'
              · rw [i₄ z hz'] at h'; cases h'

/-- Each list of the rounds is a permutation, they are different, and if the rounds ended before the limit, every later
permutation was visited. -/
theorem permRounds_facts (hl : Linear lt) : ∀ {n : Nat} {l : List Nat},
    (∀ m ∈ permRounds lt n l, m.Perm l ∧ (m = l ∨ LexLt lt l m)) ∧ (permRounds lt n l).Pairwise (LexLt lt) ∧
    ((permRounds lt n l).length < n → ∀ m, m.Perm l → (m = l ∨ LexLt lt l m) → m ∈ permRounds lt n l)
  | 0, l => by simp [permRounds]
  | n + 1, l => by
    rw [permRounds]
    cases h : nextPerm lt l with
    | none =>
      simp only [List.mem_singleton, List.pairwise_singleton, true_and]
      refine ⟨?_, ?_⟩
      · rintro m rfl; exact ⟨.refl _, .inl rfl⟩
      · rintro - m hp (rfl | hm)
        · rfl
        · exact absurd hm (descending_last hl (nextPerm_none h) hp)
    | some l' =>
      obtain ⟨h₁, h₂, h₃⟩ := nextPerm_some hl h
      obtain ⟨i₁, i₂, i₃⟩ := permRounds_facts hl (n := n) (l := l')
      have hlt : ∀ m ∈ permRounds lt n l', LexLt lt l m := by
        intro m hm
        rcases (i₁ m hm).2 with rfl | h
        · exact h₂
        · exact h₂.trans hl h
      refine ⟨?_, List.pairwise_cons.mpr ⟨hlt, i₂⟩, ?_⟩
      · intro m hm
        rcases List.mem_cons.mp hm with rfl | hm
        · exact ⟨.refl _, .inl rfl⟩
        · exact ⟨(i₁ m hm).1.trans h₁, .inr (hlt m hm)⟩
      · rintro hlen m hp (rfl | hm)
        · simp
        · exact List.mem_cons_of_mem _ (i₃ (by simpa using hlen) m (hp.trans h₁.symm) (h₃ m hp hm))

theorem permRounds_length {n : Nat} {l : List Nat} : (permRounds lt n l).length ≤ n := by
  induction n generalizing l with
  | zero => simp [permRounds]
  | succ n ih =>
    rw [permRounds]
    cases nextPerm lt l with
    | none => simp
    | some l' => simpa using ih

theorem LexLt.ne (hl : Linear lt) {l m : List Nat} (h : LexLt lt l m) : l ≠ m := by
  rintro rfl; exact h.irrefl hl

/-- The two loops together. -/
theorem meetRounds_facts {mask : List Nat} : ∀ {left : Nat} {korder : List Nat},
    (∀ p ∈ meetRounds mask left korder, p.1.Perm korder ∧ p.2.Perm mask ∧
      (p.1 = korder ∨ LexLt (fun a b => decide (a < b)) korder p.1)) ∧
    (meetRounds mask left korder).Nodup ∧ (meetRounds mask left korder).length ≤ left ∧
    ((meetRounds mask left korder).length < left → Ascending (fun a b => decide (b < a)) mask →
      ∀ k m, k.Perm korder → (k = korder ∨ LexLt (fun a b => decide (a < b)) korder k) → m.Perm mask →
        (k, m) ∈ meetRounds mask left korder) := by
  intro left
  induction left using Nat.strongRecOn with
  | _ left ih =>
    intro korder
    rw [meetRounds]
    by_cases h0 : left = 0
    · subst h0; simp
    · simp only [h0, dif_neg, not_false_eq_true]
      obtain ⟨i₁, i₂, i₃⟩ := permRounds_facts linear_gt (n := left) (l := mask)
      have hpos := permRounds_pos (fun a b => decide (b < a)) h0 mask
      have hlen := permRounds_length (lt := fun a b => decide (b < a)) (n := left) (l := mask)
      generalize permRounds (fun a b => decide (b < a)) left mask = ms at i₁ i₂ i₃ hpos hlen ⊢
      have hin : (ms.map fun m => (korder, m)).Nodup :=
        Verif.Permute.nodup_map (fun a b h => by simpa using h)
          (List.nodup_iff_pairwise_ne.mpr (i₂.imp fun h => h.ne linear_gt))
      cases hn : nextPerm (fun a b => decide (a < b)) korder with
      | none =>
        simp only [List.append_nil]
        refine ⟨?_, hin, by simpa using hlen, ?_⟩
        · intro p hp
          obtain ⟨m, hm, rfl⟩ := List.mem_map.mp hp
          exact ⟨.refl _, (i₁ m hm).1, .inl rfl⟩
        · intro hlt hasc k m hk hk' hm
          rcases hk' with rfl | hk'
          · exact List.mem_map.mpr ⟨m, i₃ (by simpa using hlt) m hm (ascending_first linear_gt hasc hm), rfl⟩
          · exact absurd hk' (descending_last linear_lt (nextPerm_none hn) hk)
      | some k' =>
        obtain ⟨h₁, h₂, h₃⟩ := nextPerm_some linear_lt hn
        obtain ⟨j₁, j₂, j₃, j₄⟩ := ih (left - ms.length) (by omega) (korder := k')
        have hlater : ∀ p ∈ meetRounds mask (left - ms.length) k', LexLt (fun a b => decide (a < b)) korder p.1 := by
          intro p hp
          rcases (j₁ p hp).2.2 with h | h
          · rw [h]; exact h₂
          · exact h₂.trans linear_lt h
        simp only
        refine ⟨?_, ?_, by simp; omega, ?_⟩
        · intro p hp
          rcases List.mem_append.mp hp with hp | hp
          · obtain ⟨m, hm, rfl⟩ := List.mem_map.mp hp
            exact ⟨.refl _, (i₁ m hm).1, .inl rfl⟩
          · exact ⟨(j₁ p hp).1.trans h₁, (j₁ p hp).2.1, .inr (hlater p hp)⟩
        · refine List.nodup_append.mpr ⟨hin, j₂, ?_⟩
          intro a ha b hb e
          subst e
          obtain ⟨m, -, rfl⟩ := List.mem_map.mp ha
          exact (hlater _ hb).irrefl linear_lt
        · intro hlt hasc k m hk hk' hm
          simp only [List.length_append, List.length_map] at hlt
          rcases hk' with rfl | hk'
          · refine List.mem_append.mpr (.inl (List.mem_map.mpr ⟨m, i₃ (by omega) m hm (ascending_first linear_gt hasc hm), rfl⟩))
          · exact List.mem_append.mpr (.inr (j₄ (by omega) hasc k m (hk.trans h₁.symm) (h₃ k hk hk') hm))

end Verif.Options
