import Verif.Sentinel.Model

/-! Helper lemmas on substring search and on the decoder. -/

namespace Verif.Sentinel

open Verif

/-! ### occurrences -/

theorem isPrefixOf_iff {p s : Str} : p.isPrefixOf s = true ↔ p <+: s := List.isPrefixOf_iff_prefix

theorem findStr_some {pat s : Str} {i : Nat} (h : findStr pat s = some i) :
    pat <+: s.drop i ∧ (∀ j, j < i → ¬ pat <+: s.drop j) ∧ i ≤ s.length := by
  induction s generalizing i with
  | nil =>
    simp only [findStr] at h
    split at h
    · next hp =>
      simp only [Option.some.injEq] at h; subst h
      simp at hp; subst hp
      exact ⟨List.nil_prefix, by omega, by simp⟩
    · simp at h
  | cons c s ih =>
    simp only [findStr] at h
    split at h
    · next hp =>
      simp only [Option.some.injEq] at h; subst h
      exact ⟨by simpa using isPrefixOf_iff.mp hp, by omega, by simp⟩
    · next hp =>
      simp only [Option.map_eq_some_iff] at h
      obtain ⟨k, hk, rfl⟩ := h
      obtain ⟨h1, h2, h3⟩ := ih hk
      refine ⟨by simpa using h1, ?_, by simp; omega⟩
      intro j hj
      cases j with
      | zero => simpa using fun hh => hp (isPrefixOf_iff.mpr hh)
      | succ j => simpa using h2 j (by omega)

theorem findStr_none {pat s : Str} (h : findStr pat s = none) : ¬ pat <:+: s := by
  induction s with
  | nil =>
    simp only [findStr] at h
    split at h
    · simp at h
    · next hp => simpa using hp
  | cons c s ih =>
    simp only [findStr] at h
    split at h
    · simp at h
    · next hp =>
      simp only [Option.map_eq_none_iff] at h
      rw [List.infix_cons_iff]
      rintro (hh | hh)
      · exact hp (isPrefixOf_iff.mpr hh)
      · exact ih h hh

theorem findStr_eq_some {pat s : Str} {i : Nat} (h1 : pat <+: s.drop i)
    (h2 : ∀ j, j < i → ¬ pat <+: s.drop j) : findStr pat s = some i := by
  cases h : findStr pat s with
  | none =>
    refine absurd ?_ (findStr_none h)
    exact h1.isInfix.trans (List.drop_suffix i s).isInfix
  | some k =>
    obtain ⟨k1, k2, _⟩ := findStr_some h
    congr 1
    rcases Nat.lt_trichotomy i k with hlt | heq | hlt
    · exact absurd h1 (k2 i hlt)
    · exact heq.symm
    · exact absurd k1 (h2 k hlt)

theorem findStr_eq_none {pat s : Str} (h : ¬ pat <:+: s) : findStr pat s = none := by
  cases hf : findStr pat s with
  | none => rfl
  | some k =>
    obtain ⟨k1, _, _⟩ := findStr_some hf
    exact absurd (k1.isInfix.trans (List.drop_suffix k s).isInfix) h

theorem rfindStr_some {pat s : Str} {pos i : Nat} (h : rfindStr pat s pos = some i) :
    pat <+: s.drop i ∧ i ≤ pos ∧ ∀ j, i < j → j ≤ pos → ¬ pat <+: s.drop j := by
  induction pos with
  | zero =>
    simp only [rfindStr] at h
    split at h
    · next hp =>
      simp only [Option.some.injEq] at h; subst h
      exact ⟨by simpa using isPrefixOf_iff.mp hp, by omega, by omega⟩
    · simp at h
  | succ p ih =>
    simp only [rfindStr] at h
    split at h
    · next hp =>
      simp only [Option.some.injEq] at h; subst h
      exact ⟨isPrefixOf_iff.mp hp, by omega, by omega⟩
    · next hp =>
      obtain ⟨h1, h2, h3⟩ := ih h
      refine ⟨h1, by omega, fun j hj hjp => ?_⟩
      by_cases e : j = p + 1
      · subst e; exact fun hh => hp (isPrefixOf_iff.mpr hh)
      · exact h3 j hj (by omega)

theorem rfindStr_none {pat s : Str} {pos : Nat} (h : rfindStr pat s pos = none) :
    ∀ j, j ≤ pos → ¬ pat <+: s.drop j := by
  induction pos with
  | zero =>
    simp only [rfindStr] at h
    split at h
    · simp at h
    · next hp =>
      intro j hj
      have : j = 0 := by omega
      subst this
      simpa using fun hh => hp (isPrefixOf_iff.mpr hh)
  | succ p ih =>
    simp only [rfindStr] at h
    split at h
    · simp at h
    · next hp =>
      intro j hj
      by_cases e : j = p + 1
      · subst e; exact fun hh => hp (isPrefixOf_iff.mpr hh)
      · exact ih h j (by omega)

theorem rfindStr_eq_some {pat s : Str} {pos i : Nat} (h1 : pat <+: s.drop i) (h2 : i ≤ pos)
    (h3 : ∀ j, i < j → j ≤ pos → ¬ pat <+: s.drop j) : rfindStr pat s pos = some i := by
  cases h : rfindStr pat s pos with
  | none => exact absurd h1 (rfindStr_none h i h2)
  | some k =>
    obtain ⟨k1, k2, k3⟩ := rfindStr_some h
    congr 1
    rcases Nat.lt_trichotomy i k with hlt | heq | hlt
    · exact absurd k1 (h3 k hlt k2)
    · exact heq.symm
    · exact absurd h1 (k3 i hlt h2)

/-! ### patterns and separator characters -/

/-- A pattern cannot contain a character it does not have: an occurrence at the
start of `u ++ c :: r` lies inside `u`. -/
theorem prefix_of_prefix_append_cons {pat u r : Str} {c : Char} (hc : c ∉ pat)
    (h : pat <+: u ++ c :: r) : pat <+: u := by
  induction u generalizing pat with
  | nil =>
    cases pat with
    | nil => exact List.nil_prefix
    | cons x p =>
      rw [List.nil_append, List.cons_prefix_cons] at h
      exact absurd (by simp [h.1]) hc
  | cons y u ih =>
    cases pat with
    | nil => exact List.nil_prefix
    | cons x p =>
      rw [List.cons_append, List.cons_prefix_cons] at h
      rw [List.cons_prefix_cons]
      simp only [List.mem_cons, not_or] at hc
      exact ⟨h.1, ih hc.2 h.2⟩

theorem infix_append_cons {pat u r : Str} {c : Char} (hc : c ∉ pat) (hp : pat ≠ [])
    (h : pat <:+: u ++ c :: r) : pat <:+: u ∨ pat <:+: r := by
  induction u with
  | nil =>
    rw [List.nil_append, List.infix_cons_iff] at h
    rcases h with h | h
    · have := prefix_of_prefix_append_cons (u := []) hc h
      exact absurd (List.prefix_nil.mp this) hp
    · exact Or.inr h
  | cons x u ih =>
    rw [List.cons_append, List.infix_cons_iff] at h
    rcases h with h | h
    · rw [← List.cons_append] at h
      exact Or.inl (prefix_of_prefix_append_cons hc h).isInfix
    · rcases ih h with h | h
      · exact Or.inl (h.trans (List.suffix_cons x u).isInfix)
      · exact Or.inr h

/-- Characters that do not occur in the pattern can be stripped in front. -/
theorem infix_strip_left {pat a b : Str} (hd : ∀ c ∈ a, c ∉ pat) (hp : pat ≠ [])
    (h : pat <:+: a ++ b) : pat <:+: b := by
  induction a with
  | nil => exact h
  | cons c a ih =>
    rcases infix_append_cons (u := []) (hd c (by simp)) hp h with h | h
    · exact absurd (List.infix_nil.mp h) hp
    · exact ih (fun c hc => hd c (by simp [hc])) h

/-- Characters that do not occur in the pattern can be stripped behind. -/
theorem infix_strip_right {pat a b : Str} (hd : ∀ c ∈ b, c ∉ pat) (hp : pat ≠ [])
    (h : pat <:+: a ++ b) : pat <:+: a := by
  cases b with
  | nil => simpa using h
  | cons c b =>
    rcases infix_append_cons (hd c (by simp)) hp h with h | h
    · exact h
    · have := infix_strip_left (a := b) (b := []) (fun c hc => hd c (by simp [hc])) hp (by simpa using h)
      exact absurd (List.infix_nil.mp this) hp

/-- An occurrence in `a ++ mid ++ b`, with a non-empty foreign middle part, lies in `a` or `b`. -/
theorem infix_split_mid {pat a mid b : Str} (hd : ∀ c ∈ mid, c ∉ pat) (hm : mid ≠ []) (hp : pat ≠ [])
    (h : pat <:+: a ++ (mid ++ b)) : pat <:+: a ∨ pat <:+: b := by
  cases mid with
  | nil => exact absurd rfl hm
  | cons c mid =>
    rw [List.cons_append] at h
    rcases infix_append_cons (hd c (by simp)) hp h with h | h
    · exact Or.inl h
    · exact Or.inr (infix_strip_left (fun c hc => hd c (by simp [hc])) hp h)

/-- The last occurrence of `pat` before the separator. -/
theorem rfindStr_at {pat g mid r : Str} {sep : Char} (hsep : sep ∉ pat)
    (hno : ¬ pat <:+: (pat ++ mid).tail) :
    rfindStr pat (g ++ (pat ++ (mid ++ sep :: r))) (g.length + (pat.length + mid.length)) =
      some g.length := by
  apply rfindStr_eq_some
  · rw [List.drop_left]; exact List.prefix_append _ _
  · omega
  · intro j hj hj2 hpre
    apply hno
    have e : (g ++ (pat ++ (mid ++ sep :: r))).drop j = (pat ++ mid).drop (j - g.length) ++ sep :: r := by
      rw [List.drop_append, List.drop_of_length_le (by omega), List.nil_append, ← List.append_assoc,
        List.drop_append_of_le_length (by simp; omega)]
    rw [e] at hpre
    have h2 := prefix_of_prefix_append_cons hsep hpre
    have e2 : (pat ++ mid).drop (j - g.length) = (pat ++ mid).tail.drop (j - g.length - 1) := by
      rw [← List.drop_one, List.drop_drop]
      congr 1; omega
    rw [e2] at h2
    exact h2.isInfix.trans (List.drop_suffix _ _).isInfix

/-- Two occurrences with different alphabets do not overlap. -/
theorem no_overlap {pat s : Str} {c : Char} {r : Str} {i j : Nat} (hc : c ∉ pat)
    (h1 : pat <+: s.drop j) (h2 : (c :: r) <+: s.drop i) (hij : j ≤ i) : j + pat.length ≤ i := by
  refine Classical.byContradiction fun hlt => hc ?_
  obtain ⟨t, ht⟩ := h1
  obtain ⟨u, hu⟩ := h2
  have e : s.drop i = (pat ++ t).drop (i - j) := by
    rw [ht, List.drop_drop]; congr 1; omega
  rw [e, List.drop_append_of_le_length (by omega)] at hu
  have hd : pat.drop (i - j) ≠ [] := by
    intro hn
    have := congrArg List.length hn
    simp only [List.length_drop, List.length_nil] at this
    omega
  cases hpd : pat.drop (i - j) with
  | nil => exact absurd hpd hd
  | cons x xs =>
    rw [hpd] at hu
    simp only [List.cons_append, List.cons.injEq] at hu
    rw [hu.1]
    have hx : x ∈ pat.drop (i - j) := by rw [hpd]; simp
    exact (List.drop_suffix _ _).subset hx

/-- Cutting a string at an occurrence of `pat` at `j` and at a later index `i`. -/
theorem cut_at {pat s : Str} {i j : Nat} (h1 : pat <+: s.drop j) (h : j + pat.length ≤ i) :
    s.drop j = pat ++ ((s.drop (j + pat.length)).take (i - (j + pat.length)) ++ s.drop i) := by
  obtain ⟨t, ht⟩ := h1
  have e : s.drop (j + pat.length) = t := by
    rw [← List.drop_drop, ← ht, List.drop_left]
  rw [← ht, e]
  congr 1
  have e2 : s.drop i = t.drop (i - (j + pat.length)) := by
    rw [← e, List.drop_drop]; congr 1; omega
  rw [e2, List.take_append_drop]

theorem subU_add (a b : Nat) : subU (a + b) a = b := by simp [subU]

theorem length_BPS : BPS.length = 8 := rfl
theorem length_APS : APS.length = 8 := rfl
theorem length_BC : BC.length = 8 := rfl
theorem length_AC : AC.length = 8 := rfl

/-- A byte string cut into the parts of a segment. -/
def segment (g sz p ck rest : Str) : Str :=
  g ++ (BPS ++ (sz ++ (APS ++ (p ++ (BC ++ (ck ++ (AC ++ rest)))))))

/-- The buffer after removing the segment. -/
def bufAfter (b : Buf) (g rest : Str) : Buf :=
  if g.length > 0 then { b with data := rest, disregardedCount := b.disregardedCount + 1 }
  else { b with data := rest }

theorem substr_mid (a m z : Str) (n k : Nat) (hn : n = a.length) (hk : k = m.length) :
    substr (a ++ (m ++ z)) n k = m := by
  subst hn; subst hk
  simp [substr]

/-- The computation of the decoder once the four markers are located. -/
theorem next_of_positions (b : Buf) (chunk g sz p ck rest : Str)
    (hd : b.data ++ chunk = segment g sz p ck rest)
    (hac : findStr AC (segment g sz p ck rest) =
      some (g.length + (8 + (sz.length + (8 + (p.length + (8 + ck.length)))))))
    (hbc : rfindStr BC (segment g sz p ck rest)
        (g.length + (8 + (sz.length + (8 + (p.length + (8 + ck.length)))))) =
      some (g.length + (8 + (sz.length + (8 + p.length)))))
    (haps : rfindStr APS (segment g sz p ck rest)
        (g.length + (8 + (sz.length + (8 + p.length)))) = some (g.length + (8 + sz.length)))
    (hbps : rfindStr BPS (segment g sz p ck rest) (g.length + (8 + sz.length)) = some g.length) :
    next b chunk = checkSegment (bufAfter b g rest) sz p ck := by
  have hwhole : segment g sz p ck rest =
      g ++ ((BPS ++ (sz ++ (APS ++ (p ++ (BC ++ (ck ++ AC)))))) ++ rest) := by
    simp [segment]
  have hlen : (BPS ++ (sz ++ (APS ++ (p ++ (BC ++ (ck ++ AC)))))).length =
      8 + (sz.length + (8 + (p.length + (8 + (ck.length + 8))))) := by
    simp only [List.length_append, length_BPS, length_APS, length_BC, length_AC]
  unfold next
  simp only [hd, hac, hbc, Option.getD_some, haps, hbps, length_AC, length_APS, length_BPS, length_BC]
  have e1 : subU (g.length + (8 + (sz.length + (8 + (p.length + (8 + ck.length))))) + 8) g.length =
      8 + (sz.length + (8 + (p.length + (8 + (ck.length + 8))))) := by
    rw [Nat.add_assoc, subU_add]; omega
  rw [e1]
  simp only [subU_add]
  have w : substr (segment g sz p ck rest) g.length
      (8 + (sz.length + (8 + (p.length + (8 + (ck.length + 8)))))) =
      BPS ++ (sz ++ (APS ++ (p ++ (BC ++ (ck ++ AC))))) := by
    rw [hwhole]
    exact substr_mid _ _ _ _ _ rfl hlen.symm
  rw [w]
  have s1 : substr (BPS ++ (sz ++ (APS ++ (p ++ (BC ++ (ck ++ AC)))))) 8 sz.length = sz :=
    substr_mid _ _ _ _ _ rfl rfl
  have u1 : subU (subU (8 + (sz.length + (8 + p.length))) (8 + sz.length)) 8 = p.length := by
    rw [show 8 + (sz.length + (8 + p.length)) = (8 + sz.length) + (8 + p.length) by omega]
    simp only [subU_add]
  have u2 : subU (subU (8 + (sz.length + (8 + (p.length + (8 + ck.length)))))
      (8 + (sz.length + (8 + p.length)))) 8 = ck.length := by
    rw [show 8 + (sz.length + (8 + (p.length + (8 + ck.length)))) =
      (8 + (sz.length + (8 + p.length))) + (8 + ck.length) by omega]
    simp only [subU_add]
  have s2 : substr (BPS ++ (sz ++ (APS ++ (p ++ (BC ++ (ck ++ AC))))))
      (8 + sz.length + 8) p.length = p := by
    rw [show BPS ++ (sz ++ (APS ++ (p ++ (BC ++ (ck ++ AC))))) =
      (BPS ++ sz ++ APS) ++ (p ++ (BC ++ (ck ++ AC))) by simp]
    exact substr_mid _ _ _ _ _ (by simp [length_BPS, length_APS]; omega) rfl
  have s3 : substr (BPS ++ (sz ++ (APS ++ (p ++ (BC ++ (ck ++ AC))))))
      (8 + (sz.length + (8 + p.length)) + 8) ck.length = ck := by
    rw [show BPS ++ (sz ++ (APS ++ (p ++ (BC ++ (ck ++ AC))))) =
      (BPS ++ sz ++ APS ++ p ++ BC) ++ (ck ++ AC) by simp]
    exact substr_mid _ _ _ _ _ (by simp [length_BPS, length_APS, length_BC]; omega) rfl
  rw [s1, u1, u2, s2, s3]
  congr 1
  have hdata : (segment g sz p ck rest).drop
      (g.length + (8 + (sz.length + (8 + (p.length + (8 + (ck.length + 8))))))) = rest := by
    rw [hwhole, ← List.drop_drop, List.drop_left, ← hlen, List.drop_left]
  rw [hdata]
  have htake : (segment g sz p ck rest).take g.length = g := by
    rw [hwhole, List.take_left]
  rw [htake]
  unfold bufAfter
  split
  · simp
  · next h0 =>
    have : g = [] := List.length_eq_zero_iff.mp (by omega)
    simp [this]

/-- A digit is not a sentinel character. -/
theorem digit_not_sentinel {c : Char} (h : c.isDigit = true) :
    c ∉ BPS ∧ c ∉ APS ∧ c ∉ BC ∧ c ∉ AC := by
  refine ⟨?_, ?_, ?_, ?_⟩ <;> intro hm <;>
    simp only [BPS, APS, BC, AC, List.mem_cons, List.not_mem_nil, or_false] at hm <;>
    rcases hm with rfl | rfl | rfl | rfl | rfl | rfl | rfl | rfl <;> revert h <;> decide

theorem not_infix_of_length {p s : Str} (h : s.length < p.length) : ¬ p <:+: s :=
  fun hh => absurd hh.length_le (by omega)

theorem chars_BPS {c : Char} (h : c ∈ BPS) : c ∉ AC ∧ c ∉ APS ∧ c ∉ BC := by
  simp only [BPS, List.mem_cons, List.not_mem_nil, or_false] at h
  rcases h with rfl | rfl | rfl | rfl | rfl | rfl | rfl | rfl <;> decide

theorem chars_APS {c : Char} (h : c ∈ APS) : c ∉ AC ∧ c ∉ BPS ∧ c ∉ BC := by
  simp only [APS, List.mem_cons, List.not_mem_nil, or_false] at h
  rcases h with rfl | rfl | rfl | rfl | rfl | rfl | rfl | rfl <;> decide

theorem chars_BC {c : Char} (h : c ∈ BC) : c ∉ AC ∧ c ∉ BPS ∧ c ∉ APS := by
  simp only [BC, List.mem_cons, List.not_mem_nil, or_false] at h
  rcases h with rfl | rfl | rfl | rfl | rfl | rfl | rfl | rfl <;> decide

/-- Conditions on a payload under which its frame can be located. -/
structure Locatable (p : Str) : Prop where
  noAC : ¬ AC <:+: p
  noAPS : ¬ APS <:+: (APS ++ p).tail

/-- The part of a segment up to (but excluding) the last terminator byte does not
contain the terminator. -/
theorem noAC_before {g sz p ck : Str} (hg : ¬ AC <:+: g) (hsz : allDigits sz = true)
    (hck : allDigits ck = true) (hp : Locatable p) :
    ¬ AC <:+: g ++ (BPS ++ (sz ++ (APS ++ (p ++ (BC ++ (ck ++ AC.dropLast)))))) := by
  intro h
  have hne : AC ≠ [] := by decide
  simp only [allDigits, List.all_eq_true] at hsz hck
  rcases infix_split_mid (mid := BPS) (fun c hc => (chars_BPS hc).1) (by decide) hne h with h | h
  · exact hg h
  · have h := infix_strip_left (fun c hc => (digit_not_sentinel (hsz c hc)).2.2.2) hne h
    have h := infix_strip_left (fun c hc => (chars_APS hc).1) hne h
    rcases infix_split_mid (mid := BC) (fun c hc => (chars_BC hc).1) (by decide) hne h with h | h
    · exact hp.noAC h
    · have h := infix_strip_left (fun c hc => (digit_not_sentinel (hck c hc)).2.2.2) hne h
      exact not_infix_of_length (by decide) h

/-- First occurrence of the terminator. -/
theorem findStr_AC_at {x rest : Str} (h : ¬ AC <:+: x ++ AC.dropLast) :
    findStr AC (x ++ (AC ++ rest)) = some x.length := by
  apply findStr_eq_some
  · rw [List.drop_left]; exact List.prefix_append _ _
  · intro j hj hpre
    apply h
    have e : (x ++ (AC ++ rest)).drop j = (x ++ AC.dropLast).drop j ++ '^' :: rest := by
      have : x ++ (AC ++ rest) = (x ++ AC.dropLast) ++ '^' :: rest := by
        rw [List.append_assoc]; rfl
      rw [this, List.drop_append_of_le_length (by simp; omega)]
    rw [e] at hpre
    have hl : AC.length ≤ ((x ++ AC.dropLast).drop j).length := by
      simp only [List.length_drop, List.length_append]
      have : AC.dropLast.length = 7 := rfl
      have : AC.length = 8 := rfl
      omega
    have := List.prefix_of_prefix_length_le hpre (List.prefix_append _ _) hl
    exact this.isInfix.trans (List.drop_suffix _ _).isInfix

/-- Decoding of one located segment in front of arbitrary further bytes. -/
theorem next_segment (b : Buf) (chunk g sz p ck rest : Str)
    (hd : b.data ++ chunk = segment g sz p ck rest)
    (hg : ¬ AC <:+: g) (hsz : allDigits sz = true) (hck : allDigits ck = true)
    (hp : Locatable p) :
    next b chunk = checkSegment (bufAfter b g rest) sz p ck := by
  have hsz' := hsz
  have hck' := hck
  simp only [allDigits, List.all_eq_true] at hsz' hck'
  apply next_of_positions b chunk g sz p ck rest hd
  · have := findStr_AC_at (x := g ++ (BPS ++ (sz ++ (APS ++ (p ++ (BC ++ ck)))))) (rest := rest)
      (by simpa using noAC_before hg hsz hck hp)
    rw [show segment g sz p ck rest =
      (g ++ (BPS ++ (sz ++ (APS ++ (p ++ (BC ++ ck)))))) ++ (AC ++ rest) by simp [segment], this]
    simp only [List.length_append, length_BPS, length_APS, length_BC]
  · have := rfindStr_at (pat := BC) (g := g ++ (BPS ++ (sz ++ (APS ++ p)))) (mid := ck)
      (r := AC.tail ++ rest) (sep := '?') (by decide) (by
        intro h
        rw [List.tail_append_of_ne_nil (by decide)] at h
        have h := infix_strip_right (fun c hc => (digit_not_sentinel (hck' c hc)).2.2.1)
          (by decide) h
        exact not_infix_of_length (by decide) h)
    rw [show segment g sz p ck rest = (g ++ (BPS ++ (sz ++ (APS ++ p)))) ++
      (BC ++ (ck ++ '?' :: (AC.tail ++ rest))) by simp [segment, AC]]
    simp only [List.length_append, length_BPS, length_APS, length_BC] at this ⊢
    rw [← this]; congr 1; omega
  · have := rfindStr_at (pat := APS) (g := g ++ (BPS ++ sz)) (mid := p)
      (r := BC.tail ++ (ck ++ (AC ++ rest))) (sep := '!') (by decide) hp.noAPS
    rw [show segment g sz p ck rest = (g ++ (BPS ++ sz)) ++
      (APS ++ (p ++ '!' :: (BC.tail ++ (ck ++ (AC ++ rest))))) by simp [segment, BC]]
    simp only [List.length_append, length_BPS, length_APS] at this ⊢
    rw [← this]; congr 1; omega
  · have := rfindStr_at (pat := BPS) (g := g) (mid := sz)
      (r := APS.tail ++ (p ++ (BC ++ (ck ++ (AC ++ rest))))) (sep := '#') (by decide) (by
        intro h
        rw [List.tail_append_of_ne_nil (by decide)] at h
        have h := infix_strip_right (fun c hc => (digit_not_sentinel (hsz' c hc)).1)
          (by decide) h
        exact not_infix_of_length (by decide) h)
    rw [show segment g sz p ck rest = g ++
      (BPS ++ (sz ++ '#' :: (APS.tail ++ (p ++ (BC ++ (ck ++ (AC ++ rest))))))) by
        simp [segment, APS]]
    simp only [length_BPS] at this ⊢
    exact this

/-- Complete description of a call of the decoder. -/
theorem next_cases (b : Buf) (chunk : Str) :
    (¬ AC <:+: b.data ++ chunk ∧ next b chunk = ({ b with data := b.data ++ chunk }, .ok [])) ∨
    (∃ i, findStr AC (b.data ++ chunk) = some i ∧
      next b chunk = ({ b with data := (b.data ++ chunk).drop (i + 8) }, .ok [])) ∨
    (∃ g sz p ck rest, b.data ++ chunk = segment g sz p ck rest ∧
      findStr AC (b.data ++ chunk) =
        some (g.length + (8 + (sz.length + (8 + (p.length + (8 + ck.length)))))) ∧
      next b chunk = checkSegment (bufAfter b g rest) sz p ck) := by
  cases hac : findStr AC (b.data ++ chunk) with
  | none =>
    left
    refine ⟨findStr_none hac, ?_⟩
    simp [next, hac]
  | some i =>
    right
    have hmiss : (rfindStr BC (b.data ++ chunk) i = none ∨
        rfindStr APS (b.data ++ chunk) ((rfindStr BC (b.data ++ chunk) i).getD (b.data ++ chunk).length)
          = none ∨
        rfindStr BPS (b.data ++ chunk) ((rfindStr APS (b.data ++ chunk)
          ((rfindStr BC (b.data ++ chunk) i).getD (b.data ++ chunk).length)).getD
            (b.data ++ chunk).length) = none) ∨
        ∃ j k l, rfindStr BC (b.data ++ chunk) i = some j ∧ rfindStr APS (b.data ++ chunk) j = some k ∧
          rfindStr BPS (b.data ++ chunk) k = some l := by
      cases h1 : rfindStr BC (b.data ++ chunk) i with
      | none => exact Or.inl (Or.inl rfl)
      | some j =>
        simp only [Option.getD_some]
        cases h2 : rfindStr APS (b.data ++ chunk) j with
        | none => exact Or.inl (Or.inr (Or.inl rfl))
        | some k =>
          simp only [Option.getD_some]
          cases h3 : rfindStr BPS (b.data ++ chunk) k with
          | none => exact Or.inl (Or.inr (Or.inr rfl))
          | some l => exact Or.inr ⟨j, k, l, rfl, h2, h3⟩
    rcases hmiss with hmiss | ⟨j, k, l, hj, hk, hl⟩
    · left
      refine ⟨i, rfl, ?_⟩
      unfold next
      simp only [hac]
      rcases hmiss with h | h | h
      · simp [h, length_AC]
      · split
        · next h1 h2 h3 => simp only [h] at h2; simp at h2
        · simp [length_AC]
      · split
        · next h1 h2 h3 => simp only [h] at h3; simp at h3
        · simp [length_AC]
    · right
      obtain ⟨a1, _, a3⟩ := findStr_some hac
      obtain ⟨b1, b2, _⟩ := rfindStr_some hj
      obtain ⟨c1, c2, _⟩ := rfindStr_some hk
      obtain ⟨d1, d2, _⟩ := rfindStr_some hl
      have o1 : j + 8 ≤ i := no_overlap (pat := BC) (c := '?') (r := AC.tail) (by decide) b1 a1 b2
      have o2 : k + 8 ≤ j := no_overlap (pat := APS) (c := '!') (r := BC.tail) (by decide) c1 b1 c2
      have o3 : l + 8 ≤ k := no_overlap (pat := BPS) (c := '#') (r := APS.tail) (by decide) d1 c1 d2
      have x1 := cut_at b1 (i := i) (by rw [length_BC]; exact o1)
      have x2 := cut_at c1 (i := j) (by rw [length_APS]; exact o2)
      have x3 := cut_at d1 (i := k) (by rw [length_BPS]; exact o3)
      obtain ⟨rest, hrest⟩ := a1
      simp only [length_BC, length_APS, length_BPS] at x1 x2 x3
      generalize hS : b.data ++ chunk = S at *
      have hsz : ((S.drop (l + 8)).take (k - (l + 8))).length = k - (l + 8) := by
        rw [List.length_take, List.length_drop]; omega
      have hpl : ((S.drop (k + 8)).take (j - (k + 8))).length = j - (k + 8) := by
        rw [List.length_take, List.length_drop]; omega
      have hcl : ((S.drop (j + 8)).take (i - (j + 8))).length = i - (j + 8) := by
        rw [List.length_take, List.length_drop]; omega
      have hgl : (S.take l).length = l := by
        rw [List.length_take]; omega
      have hseg : S = segment (S.take l) ((S.drop (l + 8)).take (k - (l + 8)))
          ((S.drop (k + 8)).take (j - (k + 8))) ((S.drop (j + 8)).take (i - (j + 8))) rest := by
        unfold segment
        rw [hrest, ← x1, ← x2, ← x3, List.take_append_drop]
      have p1 : (S.take l).length + (8 + (((S.drop (l + 8)).take (k - (l + 8))).length +
          (8 + (((S.drop (k + 8)).take (j - (k + 8))).length +
          (8 + ((S.drop (j + 8)).take (i - (j + 8))).length))))) = i := by
        rw [hsz, hpl, hcl, hgl]; omega
      have p2 : (S.take l).length + (8 + (((S.drop (l + 8)).take (k - (l + 8))).length +
          (8 + ((S.drop (k + 8)).take (j - (k + 8))).length))) = j := by
        rw [hsz, hpl, hgl]; omega
      have p3 : (S.take l).length + (8 + ((S.drop (l + 8)).take (k - (l + 8))).length) = k := by
        rw [hsz, hgl]; omega
      refine ⟨_, _, _, _, rest, hseg, by rw [p1], ?_⟩
      apply next_of_positions
      · rw [← hseg]; exact hS
      · rw [← hseg, p1]; exact hac
      · rw [← hseg, p1, p2]; exact hj
      · rw [← hseg, p2, p3]; exact hk
      · rw [← hseg, p3, hgl]; exact hl

theorem checkSegment_data (b : Buf) (sz p ck : Str) : (checkSegment b sz p ck).1.data = b.data := by
  unfold checkSegment
  split
  · split
    · split
      · split
        · split <;> rfl
        · rfl
        · rfl
      · rfl
    · rfl
    · rfl
  · rfl

theorem bufAfter_data (b : Buf) (g rest : Str) : (bufAfter b g rest).data = rest := by
  unfold bufAfter; split <;> rfl

/-- Every call that finds a terminator removes everything up to and including the
first terminator, whatever the outcome. -/
theorem next_data_of_found (b : Buf) (chunk : Str) {i : Nat}
    (h : findStr AC (b.data ++ chunk) = some i) :
    (next b chunk).1.data = (b.data ++ chunk).drop (i + 8) := by
  rcases next_cases b chunk with ⟨hn, _⟩ | ⟨k, hk, he⟩ | ⟨g, sz, p, ck, rest, hs, hf, he⟩
  · rw [findStr_eq_none hn] at h; simp at h
  · rw [h] at hk; simp only [Option.some.injEq] at hk; subst hk
    rw [he]
  · rw [h] at hf; simp only [Option.some.injEq] at hf; subst hf
    rw [he, checkSegment_data, bufAfter_data, hs]
    have : segment g sz p ck rest =
        (g ++ (BPS ++ (sz ++ (APS ++ (p ++ (BC ++ (ck ++ AC))))))) ++ rest := by
      simp [segment]
    rw [this, show g.length + (8 + (sz.length + (8 + (p.length + (8 + ck.length))))) + 8 =
      (g ++ (BPS ++ (sz ++ (APS ++ (p ++ (BC ++ (ck ++ AC))))))).length by
        simp only [List.length_append, length_BPS, length_APS, length_BC, length_AC]; omega,
      List.drop_left]

theorem next_data_of_not_found (b : Buf) (chunk : Str) (h : ¬ AC <:+: b.data ++ chunk) :
    next b chunk = ({ b with data := b.data ++ chunk }, .ok []) := by
  simp [next, findStr_eq_none h]

end Verif.Sentinel
