import Verif.Log.Model
import Verif.Manager.Replace

/-! # Escaping for XML (C187): `src/cpp/Utilities/UxAS_XmlUtil.h` -/

namespace Verif.Log

open Verif
open Verif.Manager (subst subst_cons_eq subst_cons_ne prefix_subst)

/-- `std::string::rfind`: where the last occurrence starts. -/
def rfind (old : Str) : Str → Option ℕ
  | [] => if old = [] then some 0 else none
  | c :: s =>
      match rfind old s with
      | some i => some (i + 1)
      | none => if old.isPrefixOf (c :: s) then some 0 else none

/-- UxAS_XmlUtil.h 42-50 (the other loops are the same with other texts): the last occurrence is replaced as long as there is one.
`none` when that is not done after `n` rounds. -/
def swap (old new : Str) : ℕ → Str → Option Str
  | 0, _ => none
  | n + 1, s =>
      match rfind old s with
      | none => some s
      | some i => swap old new n (s.take i ++ new ++ s.drop (i + old.length))

/-- UxAS_XmlUtil.h 39-60. -/
def escapeQuotes (n : ℕ) (s : Str) : Option Str := (swap ['"'] "&quot;".toList n s).bind (swap ['\''] "&apos;".toList n)

/-- UxAS_XmlUtil.h 63-93. -/
def escapeOthers (n : ℕ) (s : Str) : Option Str :=
  ((swap ['&'] "&amp;".toList n s).bind (swap ['<'] "&lt;".toList n)).bind (swap ['>'] "&gt;".toList n)

/-- UxAS_XmlUtil.h 102-123. -/
def unescapeQuotes (n : ℕ) (s : Str) : Option Str := (swap "&quot;".toList ['"'] n s).bind (swap "&apos;".toList ['\''] n)

theorem rfind_none {old : Str} (ho : old ≠ []) : ∀ {s : Str}, rfind old s = none ↔ ¬ old <:+: s
  | [] => by simp [rfind, ho]
  | c :: s => by
      rw [rfind, List.infix_cons_iff]
      have ih := rfind_none ho (s := s)
      cases h : rfind old s with
      | some i => simp only [reduceCtorEq, false_iff]; rw [h] at ih; simp at ih; simp [ih]
      | none =>
          rw [h] at ih
          simp only [true_iff] at ih
          simp only
          split
          · rename_i hp; simp [List.isPrefixOf_iff_prefix.1 hp]
          · rename_i hp; simp only [true_iff]; rintro (h' | h')
            · exact hp (List.isPrefixOf_iff_prefix.2 h')
            · exact ih h'

/-- The last occurrence, from its text. -/
theorem rfind_split {old : Str} (ho : old ≠ []) : ∀ {a b : Str}, ¬ old <:+: (old ++ b).tail → rfind old (a ++ old ++ b) = some a.length
  | [], b, h => by
      obtain ⟨x, o, rfl⟩ : ∃ x o, old = x :: o := by cases old with | nil => exact absurd rfl ho | cons x o => exact ⟨x, o, rfl⟩
      simp only [List.cons_append, List.tail_cons, List.nil_append] at h ⊢
      rw [rfind, (rfind_none ho).2 h]
      simp only [List.length_nil]
      rw [if_pos]
      rw [List.isPrefixOf_iff_prefix]
      exact ⟨b, by simp⟩
  | c :: a, b, h => by
      rw [List.cons_append, List.cons_append, rfind, rfind_split ho h]
      rfl

theorem swap_mono {old new : Str} : ∀ {n : ℕ} {s t : Str}, swap old new n s = some t → ∀ m, n ≤ m → swap old new m s = some t
  | 0, s, t, h, _, _ => by simp [swap] at h
  | n + 1, s, t, h, m, hm => by
      obtain ⟨m, rfl⟩ : ∃ k, m = k + 1 := ⟨m - 1, by omega⟩
      rw [swap] at h ⊢
      cases hr : rfind old s with
      | none => rw [hr] at h; exact h
      | some i =>
          rw [hr] at h
          exact swap_mono h m (by omega)

/-- The loop ends with a text. -/
def Ends (f : ℕ → Str → Option Str) (s t : Str) : Prop := ∃ N, ∀ n, N ≤ n → f n s = some t

theorem ends_of {old new : Str} {n : ℕ} {s t : Str} (h : swap old new n s = some t) : Ends (swap old new) s t := ⟨n, swap_mono h⟩

theorem ends_bind {f g : ℕ → Str → Option Str} {s t u : Str} (h : Ends f s t) (h' : Ends g t u) :
    Ends (fun n s => (f n s).bind (g n)) s u := by
  obtain ⟨N, hN⟩ := h
  obtain ⟨M, hM⟩ := h'
  refine ⟨max N M, fun n hn => ?_⟩
  simp only [hN n (by omega), Option.bind_some]
  exact hM n (by omega)

theorem swap_step {old new a b : Str} (ho : old ≠ []) (h : ¬ old <:+: (old ++ b).tail) (n : ℕ) :
    swap old new (n + 1) (a ++ old ++ b) = swap old new n (a ++ new ++ b) := by
  rw [swap, rfind_split ho h]
  simp only [List.append_assoc, List.take_left']
  congr 2
  congr 1
  rw [← List.append_assoc a old b, List.drop_left' (by simp)]

theorem single_infix {c : Char} {s : Str} : [c] <:+: s ↔ c ∈ s := by
  constructor
  · rintro ⟨a, b, rfl⟩; simp
  · intro h
    obtain ⟨a, b, rfl⟩ := List.append_of_mem h
    exact ⟨a, b, by simp⟩

theorem split_last {c : Char} : ∀ {s : Str}, c ∈ s → ∃ a b, s = a ++ c :: b ∧ c ∉ b
  | x :: s, h => by
      by_cases hs : c ∈ s
      · obtain ⟨a, b, rfl, hb⟩ := split_last hs
        exact ⟨x :: a, b, rfl, hb⟩
      · obtain rfl : c = x := by simpa [hs] using h
        exact ⟨[], s, rfl, hs⟩

theorem subst_append (c : Char) (new a b : Str) : subst c new (a ++ b) = subst c new a ++ subst c new b := by
  simp [subst]

theorem subst_none {c : Char} {new : Str} : ∀ {s : Str}, c ∉ s → subst c new s = s
  | [], _ => rfl
  | x :: s, h => by
      rw [subst_cons_ne (fun e => h (by simp [e])), subst_none (fun hm => h (by simp [hm]))]

/-- A character is replaced by a text without it. -/
theorem swap_char {c : Char} {new : Str} (hc : c ∉ new) : ∀ (n : ℕ) (s : Str), s.count c < n → swap [c] new n s = some (subst c new s)
  | 0, s, h => absurd h (by omega)
  | n + 1, s, h => by
      by_cases hs : c ∈ s
      · obtain ⟨a, b, rfl, hb⟩ := split_last hs
        have e : a ++ c :: b = a ++ [c] ++ b := by simp
        have hn : (new).count c = 0 := List.count_eq_zero.2 hc
        have hb' : b.count c = 0 := List.count_eq_zero.2 hb
        have hcount : (a ++ new ++ b).count c < n := by
          simp only [List.count_append, List.count_cons_self] at h ⊢; omega
        rw [e, swap_step (by simp) (by simpa [single_infix] using hb), swap_char hc n _ hcount]
        rw [subst_append, subst_append, subst_append, subst_append, subst_none hc, subst_none hb]
        simp [subst]
      · rw [swap, (rfind_none (by simp)).2 (by rwa [single_infix]), subst_none hs]

theorem ends_char {c : Char} {new : Str} (hc : c ∉ new) (s : Str) : Ends (swap [c] new) s (subst c new s) :=
  ends_of (swap_char hc (s.count c + 1) s (by omega))

/-- The text of one character: quotes and apostrophes are escaped. -/
def quoted (c : Char) : Str := if c = '"' then "&quot;".toList else if c = '\'' then "&apos;".toList else [c]

theorem subst_quoted : ∀ s : Str, subst '\'' "&apos;".toList (subst '"' "&quot;".toList s) = s.flatMap quoted
  | [] => rfl
  | c :: s => by
      rw [List.flatMap_cons]
      by_cases h1 : c = '"'
      · subst h1
        rw [subst_cons_eq, subst_append, subst_quoted s]
        rfl
      · rw [subst_cons_ne h1]
        by_cases h2 : c = '\''
        · subst h2
          rw [subst_cons_eq, subst_quoted s]
          rfl
        · rw [subst_cons_ne h2, subst_quoted s]
          simp [quoted, h1, h2]

/-- **C187.**  Escaping quotes and apostrophes ends, and does that to each of them and nothing else. -/
theorem C187_escape (s : Str) : Ends escapeQuotes s (s.flatMap quoted) := by
  rw [← subst_quoted]
  exact ends_bind (ends_char (by decide) s) (ends_char (by decide) _)

/-- **C187.**  The result has no quotes or apostrophes. -/
theorem C187_clean (s : Str) : '"' ∉ s.flatMap quoted ∧ '\'' ∉ s.flatMap quoted := by
  have : ∀ c, '"' ∉ quoted c ∧ '\'' ∉ quoted c := by
    intro c
    unfold quoted
    split
    · decide
    split
    · decide
    · rename_i h1 h2
      simp only [List.mem_singleton]
      exact ⟨fun h => h1 h.symm, fun h => h2 h.symm⟩
  simp only [List.mem_flatMap, not_exists, not_and]
  exact ⟨fun c _ => (this c).1, fun c _ => (this c).2⟩

/-! ### And back -/

theorem swap_back {c y : Char} {new : Str} (hy : y ∉ new) : ∀ (n : ℕ) (u v : Str), u.count c < n →
    ¬ (y :: new) <:+: (u ++ v) → swap (y :: new) [c] n (subst c (y :: new) u ++ v) = some (u ++ v)
  | 0, u, v, h, _ => absurd h (by omega)
  | n + 1, u, v, h, hi => by
      by_cases hu : c ∈ u
      · obtain ⟨a, b, rfl, hb⟩ := split_last hu
        have e : subst c (y :: new) (a ++ c :: b) ++ v = subst c (y :: new) a ++ (y :: new) ++ (b ++ v) := by
          rw [subst_append, subst_cons_eq, subst_none hb]; simp [List.append_assoc]
        have hn : ¬ (y :: new) <:+: (y :: new ++ (b ++ v)).tail := by
          simp only [List.cons_append, List.tail_cons]
          have : ∀ (w z : Str), y ∉ w → ¬ (y :: new) <:+: z → ¬ (y :: new) <:+: w ++ z := by
            intro w
            induction w with
            | nil => intro z _ hz; exact hz
            | cons x w ih =>
                intro z hw hz
                rw [List.cons_append, List.infix_cons_iff]
                rintro (hp | hp)
                · rw [List.cons_prefix_cons] at hp
                  exact hw (by simp [hp.1])
                · exact ih z (fun hm => hw (by simp [hm])) hz hp
          refine this new (b ++ v) hy fun hh => hi ?_
          obtain ⟨p, q, hpq⟩ := hh
          exact ⟨a ++ c :: p, q, by
            have : a ++ c :: b ++ v = a ++ c :: (b ++ v) := by simp
            rw [this, ← hpq]; simp [List.append_assoc]⟩
        rw [e, swap_step (by simp) hn]
        have e2 : subst c (y :: new) a ++ [c] ++ (b ++ v) = subst c (y :: new) a ++ (c :: (b ++ v)) := by simp
        have e3 : a ++ c :: b ++ v = a ++ (c :: (b ++ v)) := by simp
        rw [e2, e3]
        refine swap_back hy n a _ ?_ (by rwa [← e3])
        simp only [List.count_append, List.count_cons_self] at h
        omega
      · rw [subst_none hu, swap, (rfind_none (by simp)).2 hi]

theorem ends_back {c y : Char} {new : Str} (hy : y ∉ new) {s : Str} (h : ¬ (y :: new) <:+: s) :
    Ends (swap (y :: new) [c]) (subst c (y :: new) s) s := by
  have := swap_back (c := c) hy (s.count c + 1) s [] (by omega) (by simpa using h)
  rw [List.append_nil, List.append_nil] at this
  exact ends_of this

theorem quot_infix {s : Str} : ¬ "&quot;".toList <:+: s → ¬ "&quot;".toList <:+: subst '\'' "&apos;".toList s := by
  show ¬ ['&', 'q', 'u', 'o', 't', ';'] <:+: s → ¬ ['&', 'q', 'u', 'o', 't', ';'] <:+: subst '\'' ['&', 'a', 'p', 'o', 's', ';'] s
  induction s with
  | nil => exact id
  | cons x s ih =>
      intro h
      rw [List.infix_cons_iff] at h
      have ih := ih fun hh => h (.inr hh)
      by_cases hx : x = '\''
      · subst hx
        rw [subst_cons_eq]
        simp only [List.cons_append, List.nil_append]
        simp only [List.infix_cons_iff, List.cons_prefix_cons]
        rintro (hh | hh | hh | hh | hh | hh | hh)
        · exact absurd hh.2.1 (by decide)
        · exact absurd hh.1 (by decide)
        · exact absurd hh.1 (by decide)
        · exact absurd hh.1 (by decide)
        · exact absurd hh.1 (by decide)
        · exact absurd hh.1 (by decide)
        · exact ih hh
      · rw [subst_cons_ne hx, List.infix_cons_iff]
        rintro (hh | hh)
        · rw [List.cons_prefix_cons] at hh
          refine h (.inl ?_)
          rw [List.cons_prefix_cons]
          exact ⟨hh.1, prefix_subst (by decide) (by decide) hh.2⟩
        · exact ih hh

theorem subst_quoted' : ∀ s : Str, subst '"' "&quot;".toList (subst '\'' "&apos;".toList s) = s.flatMap quoted
  | [] => rfl
  | c :: s => by
      rw [List.flatMap_cons]
      by_cases h2 : c = '\''
      · subst h2
        rw [subst_cons_eq, subst_append, subst_quoted' s]
        rfl
      · rw [subst_cons_ne h2]
        by_cases h1 : c = '"'
        · subst h1
          rw [subst_cons_eq, subst_quoted' s]
          rfl
        · rw [subst_cons_ne h1, subst_quoted' s]
          simp [quoted, h1, h2]

/-- **C187.**  A text that does not contain an escape already is got back. -/
theorem C187_back {s : Str} (h1 : ¬ "&quot;".toList <:+: s) (h2 : ¬ "&apos;".toList <:+: s) : Ends unescapeQuotes (s.flatMap quoted) s := by
  rw [← subst_quoted']
  exact ends_bind (ends_back (by decide) (quot_infix h1)) (ends_back (by decide) h2)

example : Ends unescapeQuotes ("say \"it's\" &".toList.flatMap quoted) "say \"it's\" &".toList :=
  C187_back ((rfind_none (by decide)).1 (by decide +kernel)) ((rfind_none (by decide)).1 (by decide +kernel))

/-- **C187, what fails.**  A text with an ampersand is never done: the replacement has one again. -/
theorem C187_ampersand_violated : ∀ (n : ℕ) {s : Str}, '&' ∈ s → escapeOthers n s = none := by
  have : ∀ (n : ℕ) {s : Str}, '&' ∈ s → swap ['&'] "&amp;".toList n s = none := by
    intro n
    induction n with
    | zero => intro s _; rfl
    | succ n ih =>
        intro s h
        obtain ⟨a, b, rfl, hb⟩ := split_last h
        have e : a ++ '&' :: b = a ++ ['&'] ++ b := by simp
        rw [e, swap_step (by simp) (by simpa [single_infix] using hb)]
        refine ih ?_
        simp
  intro n s h
  rw [escapeOthers, this n h]
  rfl

/-- **C187, what fails.**  A text that has an escape is not got back. -/
theorem C187_back_violated : Ends escapeQuotes "&quot;".toList "&quot;".toList ∧ Ends unescapeQuotes "&quot;".toList "\"".toList := by
  constructor
  · exact C187_escape "&quot;".toList
  · refine ends_bind (t := "\"".toList) (ends_of (n := 2) ?_) (ends_of (n := 1) ?_) <;> decide +kernel

end Verif.Log
