import Verif.Algebra.Lemmas

/-! Helper lemmas about the textual parser. -/

namespace Verif.Algebra

/-! ### Substrings get shorter; fuel does not matter -/

theorem childStrs_length {x : Str} : ∀ (s : Str) (d : Int), x ∈ childStrs d s →
    x.length ≤ s.length
  | [], d, h => by simp [childStrs] at h
  | c :: cs, d, h => by
    have ih := fun d h => childStrs_length (x := x) cs d h
    have take_le : ∀ n, (c :: cs.take n).length ≤ (c :: cs).length := by
      intro n; simp [Nat.min_le_right]
    simp only [childStrs] at h
    split at h
    · split at h
      · rcases List.mem_cons.1 h with rfl | h
        · exact take_le _
        · exact Nat.le_succ_of_le (ih _ h)
      · exact Nat.le_succ_of_le (ih _ h)
    · split at h
      · split at h
        · rcases List.mem_cons.1 h with rfl | h
          · exact take_le _
          · exact Nat.le_succ_of_le (ih _ h)
        · exact Nat.le_succ_of_le (ih _ h)
      · split at h
        · exact Nat.le_succ_of_le (ih _ h)
        · split at h
          · exact Nat.le_succ_of_le (ih _ h)
          · exact Nat.le_succ_of_le (ih _ h)

theorem substr_length {s b : Str} {pos : Nat} {len : Option Nat} (h : substr s pos len = .ok b) :
    b.length + pos ≤ s.length := by
  simp only [substr] at h
  split at h
  · simp at h
  · cases len with
    | none => simp at h; subst h; simp; omega
    | some n => simp at h; subst h; simp; omega

/-- Any fuel larger than the length of the string gives the same result. -/
theorem parseF_fuel (known : List Int) : ∀ (n m : Nat) (s : Str), s.length < n → s.length < m →
    parseF known n s = parseF known m s
  | 0, _, s, h, _ => by omega
  | _ + 1, 0, s, _, h => by omega
  | n + 1, m + 1, s, hn, hm => by
    simp only [parseF]
    split
    · rfl
    · rfl
    · next o i _ =>
      cases hb : substr s (i + 2) (lenArg s i) with
      | throws => rfl
      | ub => rfl
      | ok body =>
        simp only [Outcome.bind_ok]
        have hl := substr_length hb
        have : (childStrs 0 body).map (parseF known n) = (childStrs 0 body).map (parseF known m) := by
          apply List.map_congr_left
          intro x hx
          have := childStrs_length _ _ hx
          exact parseF_fuel known n m x (by omega) (by omega)
        rw [this]

/-! ### Characters -/

/-- Characters without meaning for the scanner. -/
def Plain (c : Char) : Prop := opOfChar c = none ∧ c ≠ 'p' ∧ c ≠ '(' ∧ c ≠ ')'

theorem plain_blank : Plain ' ' := by unfold Plain; decide
theorem plain_minus : Plain '-' := by unfold Plain; decide
theorem plain_digit {c : Char} (h : c.isDigit = true) : Plain c := by
  have ne : ∀ x : Char, x.isDigit = false → c ≠ x := by
    rintro x hx rfl; rw [hx] at h; exact absurd h (by decide)
  refine ⟨?_, ne _ (by decide), ne _ (by decide), ne _ (by decide)⟩
  simp [opOfChar, ne '.' (by decide), ne '+' (by decide), ne '|' (by decide)]

theorem plain_idText {a : Int} : ∀ c ∈ idText a, Plain c := by
  intro c hc
  simp only [idText] at hc
  split at hc
  · rcases List.mem_cons.1 hc with rfl | h
    · exact plain_minus
    · exact plain_digit (decimal_isDigit h)
  · exact plain_digit (decimal_isDigit hc)

theorem not_blank_idText {a : Int} : ∀ c ∈ idText a, c ≠ ' ' := by
  intro c hc h
  subst h
  simp only [idText] at hc
  split at hc
  · rcases List.mem_cons.1 hc with h | h
    · exact absurd h (by decide)
    · exact absurd (decimal_isDigit h) (by decide)
  · exact absurd (decimal_isDigit hc) (by decide)

theorem plain_blanks {b : Str} (h : Blanks b) : ∀ c ∈ b, Plain c := by
  intro c hc; rw [h c hc]; exact plain_blank

theorem opOfChar_opText (o : OpType) : opOfChar (opText o) = some o := by cases o <;> decide

/-! ### Number reading -/

theorem takeWhile_digits {n : Nat} {b : Str} (hb : Blanks b) :
    (decimal n ++ b).takeWhile Char.isDigit = decimal n := by
  rw [List.takeWhile_append_of_pos (fun c hc => decimal_isDigit hc)]
  cases b with
  | nil => simp
  | cons c b =>
    have : c = ' ' := hb c (by simp)
    subst this
    have : (' ').isDigit = false := by decide
    simp [this]

theorem space_digit {c : Char} (h : c.isDigit = true) : isSpaceC c = false := by
  unfold Char.isDigit at h
  rw [Bool.and_eq_true, decide_eq_true_eq] at h
  have hn : 48 ≤ c.toNat := by
    have := UInt32.le_iff_toNat_le.1 h.1
    exact this
  have ne : ∀ x : Char, x.toNat < 48 → c ≠ x := by
    rintro x hx rfl; omega
  simp only [isSpaceC, Bool.or_eq_false_iff, decide_eq_false_iff_not]
  exact ⟨⟨⟨⟨⟨ne _ (by decide), ne _ (by decide)⟩, ne _ (by decide)⟩, ne _ (by decide)⟩,
    by omega⟩, by omega⟩

theorem atollValue_idText {a : Int} {b : Str} (hb : Blanks b) :
    atollValue (idText a ++ b) = a := by
  by_cases ha : a < 0
  · have e : idText a ++ b = '-' :: (decimal a.natAbs ++ b) := by simp [idText, ha]
    have hs : isSpaceC '-' = false := by decide
    rw [e]
    simp only [atollValue, List.dropWhile_cons, hs, Bool.false_eq_true, if_false, if_true,
      takeWhile_digits hb, decimalValue_decimal]
    omega
  · have e : idText a ++ b = decimal a.natAbs ++ b := by simp [idText, ha]
    rw [e]
    obtain ⟨c, cs, hc⟩ : ∃ c cs, decimal a.natAbs = c :: cs := by
      cases h : decimal a.natAbs with
      | nil => exact absurd h (decimal_ne_nil _)
      | cons c cs => exact ⟨c, cs, rfl⟩
    have hd : c.isDigit = true := decimal_isDigit (n := a.natAbs) (by simp [hc])
    have n1 : c ≠ '-' := by rintro rfl; exact absurd hd (by decide)
    have n2 : c ≠ '+' := by rintro rfl; exact absurd hd (by decide)
    have ht := takeWhile_digits (n := a.natAbs) hb
    rw [hc, List.cons_append] at ht
    simp only [atollValue, hc, List.cons_append, List.dropWhile_cons, space_digit hd,
      Bool.false_eq_true, if_false, n1, n2, ht]
    rw [← hc, decimalValue_decimal]
    omega

/-! ### The loop over an operator body -/

theorem childStrs_plain {x : Str} {d : Int} : ∀ {b : Str}, (∀ c ∈ b, Plain c) →
    childStrs d (b ++ x) = childStrs d x
  | [], _ => by simp
  | c :: b, h => by
    obtain ⟨h1, h2, h3, h4⟩ := h c (by simp)
    have ih := childStrs_plain (x := x) (d := d) (b := b) (fun c hc => h c (by simp [hc]))
    simp only [List.cons_append, childStrs, h1, h2, h3, h4, Option.isSome_none,
      Bool.false_eq_true, if_false, ih]

theorem opChildLen_plain {x : Str} {d : Int} (hd : d > 0) : ∀ {b : Str}, (∀ c ∈ b, Plain c) →
    opChildLen d (b ++ x) = b.length + opChildLen d x
  | [], _ => by simp
  | c :: b, h => by
    obtain ⟨h1, h2, h3, h4⟩ := h c (by simp)
    have ih := opChildLen_plain (x := x) hd (b := b) (fun c hc => h c (by simp [hc]))
    have hd' : d ≠ 0 := by omega
    simp only [List.cons_append, opChildLen, h3, h4, if_false, hd', ih, List.length_cons]
    omega

theorem pChildLen_id {x : Str} : ∀ {b : Str}, (∀ c ∈ b, c ≠ ')' ∧ c ≠ ' ') →
    pChildLen (b ++ x) = b.length + pChildLen x
  | [], _ => by simp
  | c :: b, h => by
    have hc := h c (by simp)
    have ih := pChildLen_id (x := x) (b := b) (fun c hc => h c (by simp [hc]))
    simp only [List.cons_append, pChildLen, hc.1, hc.2, decide_false, Bool.or_self,
      Bool.false_eq_true, if_false, ih, List.length_cons]
    omega

theorem opText_ne (o : OpType) : opText o ≠ 'p' ∧ opText o ≠ '(' ∧ opText o ≠ ')' := by
  cases o <;> decide

mutual
theorem opChildLen_written {t : Tree} {s : Str} : Written t s → ∀ (d : Int), d > 0 → ∀ x,
    opChildLen d (s ++ x) = s.length + opChildLen d x
  | .action a, d, hd, x => by
    have hd' : d ≠ 0 := by omega
    have : opChildLen d (idText a ++ x) = _ := opChildLen_plain hd plain_idText
    simp only [List.cons_append, opChildLen, List.length_cons]
    simp only [show ('p' : Char) ≠ '(' by decide, show ('p' : Char) ≠ ')' by decide, if_false, hd',
      this]
    omega
  | .op (o := o) (body := body) hb, d, hd, x => by
    have hd' : d ≠ 0 := by omega
    have hd1 : d + 1 ≠ 0 := by omega
    obtain ⟨-, h2, h3⟩ := opText_ne o
    have ih := opChildLen_body hb (d + 1) (by omega) (')' :: x)
    simp only [List.cons_append, List.append_assoc, List.nil_append, opChildLen, h2, h3, if_false,
      hd', show ('(' : Char) ≠ ')' by decide, if_true, hd1, ih, List.length_cons,
      List.length_append, List.length_nil, show (')' : Char) ≠ '(' by decide]
    simp only [show d + 1 - 1 = d by omega, hd', if_false]
    omega
theorem opChildLen_body {cs : List Tree} {s : Str} : WrittenBody cs s → ∀ (d : Int), d > 0 → ∀ x,
    opChildLen d (s ++ x) = s.length + opChildLen d x
  | .nil hb, d, hd, x => opChildLen_plain hd (plain_blanks hb)
  | .cons (b := b) (s := s) (rest := rest) hb hc hr _, d, hd, x => by
    rw [List.append_assoc, List.append_assoc, opChildLen_plain hd (plain_blanks hb),
      opChildLen_written hc d hd, opChildLen_body hr d hd]
    simp; omega
end

mutual
theorem childStrs_written {t : Tree} {s : Str} : Written t s → ∀ (d : Int), d > 0 → ∀ x,
    childStrs d (s ++ x) = childStrs d x
  | .action a, d, hd, x => by
    have hd' : d ≠ 0 := by omega
    have : childStrs d (idText a ++ x) = _ := childStrs_plain plain_idText
    simp only [List.cons_append, childStrs, show opOfChar 'p' = none by decide, Option.isSome_none,
      Bool.false_eq_true, if_false, if_true, hd', this]
  | .op (o := o) (body := body) hb, d, hd, x => by
    have hd' : d ≠ 0 := by omega
    obtain ⟨h1, h2, h3⟩ := opText_ne o
    have ih := childStrs_body hb (d + 1) (by omega) (')' :: x)
    simp only [List.cons_append, List.append_assoc, List.nil_append, childStrs, opOfChar_opText,
      Option.isSome_some, if_true, hd', if_false, show opOfChar '(' = none by decide,
      Option.isSome_none, Bool.false_eq_true, show ('(' : Char) ≠ 'p' by decide, ih,
      show opOfChar ')' = none by decide, show (')' : Char) ≠ 'p' by decide,
      show (')' : Char) ≠ '(' by decide, show d + 1 - 1 = d by omega]
theorem childStrs_body {cs : List Tree} {s : Str} : WrittenBody cs s → ∀ (d : Int), d > 0 → ∀ x,
    childStrs d (s ++ x) = childStrs d x
  | .nil hb, d, hd, x => childStrs_plain (plain_blanks hb)
  | .cons (b := b) (s := s) (rest := rest) hb hc hr _, d, hd, x => by
    rw [List.append_assoc, List.append_assoc, childStrs_plain (plain_blanks hb),
      childStrs_written hc d hd, childStrs_body hr d hd]
end

/-- The substring handed on for an operator child is the child's own text. -/
theorem childStrs_op {o : OpType} {cs : List Tree} {body rest : Str} (hb : WrittenBody cs body) :
    childStrs 0 (opText o :: '(' :: (body ++ [')']) ++ rest) =
      (opText o :: '(' :: (body ++ [')'])) :: childStrs 0 rest := by
  have e := opChildLen_body hb 1 (by decide) (')' :: rest)
  have e2 := childStrs_body hb 1 (by decide) (')' :: rest)
  simp only [List.cons_append, List.append_assoc, List.nil_append, childStrs, opOfChar_opText,
    Option.isSome_some, if_true, if_false, show opOfChar '(' = none by decide,
    Option.isSome_none, Bool.false_eq_true, show ('(' : Char) ≠ 'p' by decide,
    show ((0 : Int) + 1) = 1 by decide, e2,
    show opOfChar ')' = none by decide, show (')' : Char) ≠ 'p' by decide,
    show (')' : Char) ≠ '(' by decide, show ((1 : Int) - 1) = 0 by decide]
  have e3 : opChildLen 0 ('(' :: (body ++ ')' :: rest)) = body.length + 2 := by
    simp only [opChildLen, show ('(' : Char) ≠ ')' by decide, if_true, if_false,
      show ((0 : Int) + 1) = 1 by decide, show ((1 : Int) ≠ 0) by decide, e,
      show (')' : Char) ≠ '(' by decide, show ((1 : Int) - 1) = 0 by decide]
    omega
  rw [e3]
  simp [List.take_append, List.take_of_length_le]

/-- The substring handed on for an objective, possibly with one blank behind. -/
theorem childStrs_action {a : Int} {rest : Str} (hr : rest = [] ∨ ∃ r, rest = ' ' :: r) :
    childStrs 0 ('p' :: idText a ++ rest) =
      ('p' :: (idText a ++ rest.take 1)) :: childStrs 0 rest := by
  have hp : ∀ c ∈ idText a, c ≠ ')' ∧ c ≠ ' ' := fun c hc =>
    ⟨(plain_idText c hc).2.2.2, not_blank_idText c hc⟩
  have e : childStrs 0 (idText a ++ rest) = childStrs 0 rest := childStrs_plain plain_idText
  simp only [List.cons_append, childStrs, show opOfChar 'p' = none by decide, Option.isSome_none,
    Bool.false_eq_true, if_false, if_true, e, pChildLen_id hp]
  congr 1
  congr 1
  rcases hr with rfl | ⟨r, rfl⟩
  · simp [pChildLen]
  · simp [pChildLen, List.take_append, List.take_of_length_le]

/-! ### Heads -/

theorem scanHead_plain {x : Str} : ∀ {b : Str} {i : Nat}, (∀ c ∈ b, Plain c) →
    scanHead (b ++ x) i = scanHead x (i + b.length)
  | [], i, _ => by simp
  | c :: b, i, h => by
    obtain ⟨h1, h2, h3, h4⟩ := h c (by simp)
    have ih := scanHead_plain (x := x) (b := b) (i := i + 1) (fun c hc => h c (by simp [hc]))
    simp only [List.cons_append, scanHead, h1, h2, if_false, ih, List.length_cons]
    congr 1
    omega

theorem rfindChar_none {s : Str} (h : ∀ c ∈ s, c ≠ ')') : rfindChar ')' s = none := by
  have : findChar ')' s.reverse = none := findChar_eq_none.2 (fun hc => by
    exact h _ (List.mem_reverse.1 hc) rfl)
  simp [rfindChar, this]

theorem rfindChar_last {s b : Str} (h : ∀ c ∈ b, c ≠ ')') :
    rfindChar ')' (s ++ ')' :: b) = some s.length := by
  have : findChar ')' (s ++ ')' :: b).reverse = some b.length := by
    have := findChar_append (c := ')') (a := b.reverse) (b := s.reverse)
      (fun hc => h _ (List.mem_reverse.1 hc) rfl)
    simpa using this
  simp only [rfindChar, this, List.length_append, List.length_cons]
  congr 1
  omega

/-! ### Expected result on well-written text -/

/-- What the parser does with the text of `t`. -/
def expected (known : List Int) (t : Tree) : Outcome (Option Tree) :=
  if ∀ a ∈ actionsOf t, a ∈ known then .ok (some t)
  else match t with
    | .action _ => .ok none
    | .op _ _ => .ub

theorem expected_ok {known : List Int} {t : Tree} (h : ∀ a ∈ actionsOf t, a ∈ known) :
    expected known t = .ok (some t) := by
  unfold expected; rw [if_pos h]

theorem parse_action_text {known : List Int} {a : Int} {b1 b2 : Str} (h1 : Blanks b1)
    (h2 : Blanks b2) (hr : inInt64 a = true) (n : Nat) :
    parseF known (n + 1) (b1 ++ 'p' :: (idText a ++ b2)) = expected known (.action a) := by
  have hs : scanHead (b1 ++ 'p' :: (idText a ++ b2)) 0 = .act b1.length := by
    rw [scanHead_plain (plain_blanks h1)]
    simp [scanHead, show opOfChar 'p' = none by decide]
  have hl : lenArg (b1 ++ 'p' :: (idText a ++ b2)) b1.length = none := by
    have : rfindChar ')' (b1 ++ 'p' :: (idText a ++ b2)) = none := by
      apply rfindChar_none
      intro c hc
      simp only [List.mem_append, List.mem_cons] at hc
      rcases hc with hc | rfl | hc | hc
      · exact (plain_blanks h1 c hc).2.2.2
      · decide
      · exact (plain_idText c hc).2.2.2
      · exact (plain_blanks h2 c hc).2.2.2
    simp [lenArg, this]
  simp only [parseF, hs, hl, substr]
  rw [if_neg (by simp)]
  have hd : (b1 ++ 'p' :: (idText a ++ b2)).drop (b1.length + 1) = idText a ++ b2 := by
    simp [List.drop_append]
  simp only [Outcome.bind_ok, hd, parseAction, atoll, atollValue_idText h2, hr, if_true, expected,
    actionsOf, List.mem_singleton, forall_eq]
  split <;> rfl

theorem expected_children {known : List Int} : ∀ (cs : List Tree),
    (runAll (cs.map (expected known))).bind linkChildren =
      if ∀ a ∈ actionsOfList cs, a ∈ known then .ok cs else .ub := by
  have key : ∀ cs : List Tree, runAll (cs.map (expected known)) = .ub ∨
      ∃ os, runAll (cs.map (expected known)) = .ok os ∧
        ((∀ a ∈ actionsOfList cs, a ∈ known) → os = cs.map some) ∧
        (os.all Option.isSome = true → ∀ a ∈ actionsOfList cs, a ∈ known) := by
    intro cs
    induction cs with
    | nil => right; exact ⟨[], by simp [runAll], by simp, by simp [actionsOfList]⟩
    | cons c cs ih =>
      simp only [List.map_cons, runAll, expected]
      by_cases hk : ∀ a ∈ actionsOf c, a ∈ known
      · rw [if_pos hk]
        rcases ih with ih | ⟨os, ih, ih1, ih2⟩
        · left; rw [Outcome.bind_ok, ih]; rfl
        · right
          refine ⟨some c :: os, by simp [ih], ?_, ?_⟩
          · intro h
            simp [ih1 (fun a ha => h a (by simp [actionsOfList, ha]))]
          · intro h a ha
            simp only [actionsOfList, List.mem_append] at ha
            rcases ha with ha | ha
            · exact hk a ha
            · exact ih2 (by simpa using h) a ha
      · rw [if_neg hk]
        cases c with
        | action b =>
          rcases ih with ih | ⟨os, ih, ih1, ih2⟩
          · left; simp [ih]
          · right
            refine ⟨none :: os, by simp [ih], ?_, by simp⟩
            intro h
            exact absurd (fun a ha => h a (by simp [actionsOfList, ha])) hk
        | op o ds => left; rfl
  intro cs
  by_cases hk : ∀ a ∈ actionsOfList cs, a ∈ known
  · rw [if_pos hk]
    rcases key cs with h | ⟨os, h, h1, -⟩
    · exfalso
      clear key
      induction cs with
      | nil => simp [runAll] at h
      | cons c cs ih =>
        have hc : ∀ a ∈ actionsOf c, a ∈ known := fun a ha => hk a (by simp [actionsOfList, ha])
        have hcs : ∀ a ∈ actionsOfList cs, a ∈ known :=
          fun a ha => hk a (by simp [actionsOfList, ha])
        simp only [List.map_cons, runAll, expected, if_pos hc, Outcome.bind_ok] at h
        cases hr : runAll (cs.map (expected known)) with
        | ok os => rw [hr] at h; simp at h
        | throws => rw [hr] at h; simp at h
        | ub => exact ih hcs hr
    · rw [h, h1 hk]
      simp [linkChildren]
  · rw [if_neg hk]
    rcases key cs with h | ⟨os, h, -, h2⟩
    · rw [h]; rfl
    · rw [h]
      simp only [Outcome.bind_ok, linkChildren]
      rw [if_neg (fun hall => hk (h2 hall))]

mutual
theorem parse_written {known : List Int} {t : Tree} {s : Str} : Written t s →
    (∀ a ∈ actionsOf t, inInt64 a = true) → ∀ (b1 b2 : Str), Blanks b1 → Blanks b2 → ∀ n,
    (b1 ++ s ++ b2).length < n → parseF known n (b1 ++ s ++ b2) = expected known t
  | .action a, hr, b1, b2, h1, h2, n, hn => by
    obtain ⟨m, rfl⟩ : ∃ m, n = m + 1 := ⟨n - 1, by omega⟩
    have := parse_action_text (known := known) h1 h2 (hr a (by simp [actionsOf])) m
    simpa using this
  | .op (o := o) (cs := cs) (body := body) hb, hr, b1, b2, h1, h2, n, hn => by
    obtain ⟨m, rfl⟩ : ∃ m, n = m + 1 := ⟨n - 1, by omega⟩
    have hs : scanHead (b1 ++ opText o :: '(' :: (body ++ [')']) ++ b2) 0 = .oper o b1.length := by
      rw [List.append_assoc, scanHead_plain (plain_blanks h1)]
      simp [scanHead, opOfChar_opText]
    have hl : lenArg (b1 ++ opText o :: '(' :: (body ++ [')']) ++ b2) b1.length =
        some body.length := by
      have e : b1 ++ opText o :: '(' :: (body ++ [')']) ++ b2 =
          (b1 ++ opText o :: '(' :: body) ++ ')' :: b2 := by simp
      rw [e]
      simp only [lenArg, rfindChar_last (s := b1 ++ opText o :: '(' :: body)
        (fun c hc => (plain_blanks h2 c hc).2.2.2)]
      simp only [List.length_append, List.length_cons]
      rw [if_pos (by omega)]
      congr 1
      omega
    have hsub : substr (b1 ++ opText o :: '(' :: (body ++ [')']) ++ b2) (b1.length + 2)
        (some body.length) = .ok body := by
      simp only [substr]
      rw [if_neg (by simp)]
      simp [List.drop_append, List.take_append]
    simp only [parseF, hs, hl, hsub, Outcome.bind_ok]
    simp only [List.length_append, List.length_cons] at hn
    rw [parse_body hb (by simpa [actionsOf] using hr) m (by omega)]
    have he := expected_children (known := known) cs
    have : ((runAll (cs.map (expected known))).bind fun cs =>
        (linkChildren cs).bind fun ts => Outcome.ok (some (Tree.op o ts))) =
        ((runAll (cs.map (expected known))).bind linkChildren).bind
          fun ts => Outcome.ok (some (Tree.op o ts)) := by
      cases runAll (cs.map (expected known)) <;> rfl
    rw [this, he]
    by_cases hk : ∀ a ∈ actionsOfList cs, a ∈ known
    · rw [if_pos hk, expected, if_pos (by simpa [actionsOf] using hk)]; rfl
    · rw [if_neg hk, expected, if_neg (by simpa [actionsOf] using hk)]; rfl
theorem parse_body {known : List Int} {cs : List Tree} {s : Str} : WrittenBody cs s →
    (∀ a ∈ actionsOfList cs, inInt64 a = true) → ∀ n, s.length < n →
    (childStrs 0 s).map (parseF known n) = cs.map (expected known)
  | .nil (b := b) hb, _, n, _ => by
    have := childStrs_plain (x := []) (d := 0) (plain_blanks hb)
    simp only [List.append_nil] at this
    simp [this, childStrs]
  | .cons (b := b) (c := c) (s := s) (rest := rest) hb hc hrest hsep, hr, n, hn => by
    simp only [List.length_append] at hn
    have hr1 : ∀ a ∈ actionsOf c, inInt64 a = true := fun a ha => hr a (by simp [actionsOfList, ha])
    have ih := parse_body (known := known) hrest
      (fun a ha => hr a (by simp [actionsOfList, ha])) n (by omega)
    have ihc := parse_written (known := known) hc hr1
    rw [List.append_assoc, childStrs_plain (plain_blanks hb)]
    cases hc with
    | action a =>
      have hsp := hsep ⟨a, rfl⟩
      rw [childStrs_action hsp]
      simp only [List.map_cons, ih]
      congr 1
      have hb2 : Blanks (rest.take 1) := by
        rcases hsp with rfl | ⟨r, rfl⟩
        · simp [Blanks]
        · simp [Blanks]
      have := ihc [] (rest.take 1) (by simp [Blanks]) hb2 n (by
        simp only [List.length_append, List.length_cons, List.nil_append, List.length_take] at hn ⊢
        omega)
      simpa using this
    | op hb' =>
      rw [childStrs_op hb']
      simp only [List.map_cons, ih]
      congr 1
      have := ihc [] [] (by simp [Blanks]) (by simp [Blanks]) n (by
        simp only [List.length_append, List.length_cons, List.nil_append, List.length_nil] at hn ⊢
        omega)
      simpa using this
end

/-! ### What any string can give -/

theorem runAll_ok_mem {α : Type} : ∀ {xs : List (Outcome α)} {as : List α}, runAll xs = .ok as →
    ∀ a ∈ as, Outcome.ok a ∈ xs
  | [], as, h, a, ha => by simp [runAll] at h; subst h; simp at ha
  | x :: xs, as, h, a, ha => by
    simp only [runAll, Outcome.bind_eq_ok] at h
    obtain ⟨y, rfl, ys, hys, h⟩ := h
    simp at h
    subst h
    rcases List.mem_cons.1 ha with rfl | ha
    · simp
    · exact List.mem_cons_of_mem _ (runAll_ok_mem hys a ha)

theorem parseF_known {known : List Int} : ∀ (n : Nat) (s : Str) (t : Tree),
    parseF known n s = .ok (some t) → ∀ a ∈ actionsOf t, a ∈ known
  | 0, s, t, h => by simp [parseF] at h
  | n + 1, s, t, h => by
    have hact : ∀ (x : Str), parseAction known x = .ok (some t) →
        ∀ a ∈ actionsOf t, a ∈ known := by
      intro x hx a ha
      simp only [parseAction, Outcome.bind_eq_ok] at hx
      obtain ⟨v, -, hx⟩ := hx
      split at hx
      · next hv =>
        simp only [Outcome.ok.injEq, Option.some.injEq] at hx
        subst hx
        simp only [actionsOf, List.mem_singleton] at ha
        subst ha; exact hv
      · simp at hx
    simp only [parseF] at h
    split at h
    · exact hact _ h
    · simp only [Outcome.bind_eq_ok] at h
      obtain ⟨x, -, h⟩ := h
      exact hact x h
    · simp only [Outcome.bind_eq_ok] at h
      obtain ⟨body, -, cs, hcs, ts, hts, h⟩ := h
      simp only [Outcome.ok.injEq, Option.some.injEq] at h
      subst h
      intro a ha
      obtain ⟨c, hc, hac⟩ := mem_actionsOfList.1 (by simpa [actionsOf] using ha)
      simp only [linkChildren] at hts
      split at hts
      · simp only [Outcome.ok.injEq] at hts
        subst hts
        have hc' : some c ∈ cs := by
          obtain ⟨x, hx, hx'⟩ := List.mem_filterMap.1 hc
          simp at hx'; subst hx'; exact hx
        have := runAll_ok_mem hcs _ hc'
        obtain ⟨x, hx, hx'⟩ := List.mem_map.1 this
        exact parseF_known n x c hx' a hac
      · simp at hts

end Verif.Algebra
