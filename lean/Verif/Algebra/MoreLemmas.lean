import Verif.Algebra.ParseLemmas

/-! Helper lemmas: exceptions of the parser, predecessors, random shuffle. -/

namespace Verif.Algebra

/-! ### Operators followed by a parenthesis -/

/-- Every operator character is directly followed by `(`. -/
def OpsFollowed : Str → Prop
  | [] => True
  | c :: cs => ((opOfChar c).isSome = true → ∃ r, cs = '(' :: r) ∧ OpsFollowed cs

theorem OpsFollowed.drop {s : Str} (h : OpsFollowed s) : ∀ n, OpsFollowed (s.drop n) := by
  induction s with
  | nil => intro n; simp [OpsFollowed]
  | cons c cs ih =>
    intro n
    cases n with
    | zero => exact h
    | succ n => exact ih h.2 n

theorem OpsFollowed.take_close {x y : Str} (h : OpsFollowed (x ++ ')' :: y)) : OpsFollowed x := by
  induction x with
  | nil => trivial
  | cons c cs ih =>
    refine ⟨fun ho => ?_, ih h.2⟩
    obtain ⟨r, hr⟩ := h.1 ho
    cases cs with
    | nil => simp at hr
    | cons d ds => simp at hr; exact ⟨ds, by rw [hr.1]⟩

/-- One step of the parenthesis counter. -/
def parStep (d : Int) (c : Char) : Int :=
  if c = ')' then (if c = '(' then d + 1 else d) - 1 else if c = '(' then d + 1 else d

theorem opChildLen_cons (d : Int) (c : Char) (cs : Str) :
    opChildLen d (c :: cs) = if parStep d c = 0 then 1 else 1 + opChildLen (parStep d c) cs := rfl

theorem OpsFollowed.opChild : ∀ {s : Str} {d : Int}, d ≠ 0 → OpsFollowed s →
    OpsFollowed (s.take (opChildLen d s))
  | [], _, _, _ => by simp [OpsFollowed]
  | c :: cs, d, hd, h => by
    rw [opChildLen_cons]
    by_cases h0 : parStep d c = 0
    · rw [if_pos h0]
      have hp : c = '(' ∨ c = ')' := by
        by_cases h1 : c = '('
        · exact .inl h1
        · by_cases h2 : c = ')'
          · exact .inr h2
          · rw [parStep, if_neg h2, if_neg h1] at h0; exact absurd h0 hd
      have : opOfChar c = none := by rcases hp with rfl | rfl <;> decide
      simp [OpsFollowed, this]
    · rw [if_neg h0, Nat.add_comm, List.take_succ_cons]
      refine ⟨fun ho => ?_, OpsFollowed.opChild h0 h.2⟩
      obtain ⟨r, rfl⟩ := h.1 ho
      have hlen : ∃ k, opChildLen (parStep d c) ('(' :: r) = k + 1 := by
        rw [opChildLen_cons]
        split
        · exact ⟨0, rfl⟩
        · exact ⟨_, Nat.add_comm _ _⟩
      obtain ⟨k, hk⟩ := hlen
      rw [hk]
      exact ⟨r.take k, by simp⟩

theorem OpsFollowed.pChild : ∀ {s : Str}, OpsFollowed s → OpsFollowed (s.take (pChildLen s))
  | [], _ => by simp [OpsFollowed]
  | c :: cs, h => by
    simp only [pChildLen]
    split
    · next h0 =>
      have : opOfChar c = none := by
        simp only [Bool.or_eq_true, decide_eq_true_eq] at h0
        rcases h0 with rfl | rfl <;> decide
      simp [OpsFollowed, this]
    · rw [Nat.add_comm, List.take_succ_cons]
      refine ⟨fun ho => ?_, OpsFollowed.pChild h.2⟩
      obtain ⟨r, rfl⟩ := h.1 ho
      have : pChildLen ('(' :: r) = pChildLen r + 1 := by
        simp [pChildLen]; omega
      rw [this]
      exact ⟨_, List.take_succ_cons⟩

theorem OpsFollowed.children {x : Str} : ∀ {s : Str} {d : Int}, OpsFollowed s →
    x ∈ childStrs d s → OpsFollowed x
  | [], _, _, hx => by simp [childStrs] at hx
  | c :: cs, d, h, hx => by
    have ih := fun d hx => OpsFollowed.children (x := x) (s := cs) (d := d) h.2 hx
    simp only [childStrs] at hx
    split at hx
    · next ho =>
      split at hx
      · rcases List.mem_cons.1 hx with rfl | hx
        · obtain ⟨r, rfl⟩ := h.1 ho
          have hr : OpsFollowed r := h.2.2
          have e : opChildLen 0 ('(' :: r) = opChildLen 1 r + 1 := by
            simp [opChildLen]; omega
          rw [e, List.take_succ_cons]
          have hpar : opOfChar '(' = none := by decide
          refine ⟨fun _ => ⟨_, rfl⟩, ?_⟩
          exact ⟨fun h' => by simp [hpar] at h', OpsFollowed.opChild (by decide) hr⟩
        · exact ih _ hx
      · exact ih _ hx
    · next ho =>
      split at hx
      · split at hx
        · rcases List.mem_cons.1 hx with rfl | hx
          · exact ⟨fun h' => absurd h' ho, OpsFollowed.pChild h.2⟩
          · exact ih _ hx
        · exact ih _ hx
      · split at hx
        · exact ih _ hx
        · split at hx
          · exact ih _ hx
          · exact ih _ hx

theorem scanHead_spec : ∀ (s : Str) (i j : Nat) (o : OpType), scanHead s i = .oper o j →
    ∃ k c, j = i + k ∧ s[k]? = some c ∧ opOfChar c = some o
  | [], i, j, o, h => by simp [scanHead] at h
  | c :: cs, i, j, o, h => by
    simp only [scanHead] at h
    split at h
    · next o' ho =>
      simp at h
      exact ⟨0, c, by omega, by simp, by rw [ho, h.1]⟩
    · split at h
      · simp at h
      · obtain ⟨k, c', hk, hc, ho⟩ := scanHead_spec cs (i + 1) j o h
        exact ⟨k + 1, c', by omega, by simpa using hc, ho⟩

theorem scanHead_act : ∀ (s : Str) (i j : Nat), scanHead s i = .act j → j < i + s.length
  | [], i, j, h => by simp [scanHead] at h
  | c :: cs, i, j, h => by
    simp only [scanHead] at h
    split at h
    · simp at h
    · split at h
      · simp at h; subst h; simp
      · have := scanHead_act cs (i + 1) j h
        simp; omega

theorem OpsFollowed.next {s : Str} (h : OpsFollowed s) : ∀ {k : Nat} {c : Char}, s[k]? = some c →
    (opOfChar c).isSome = true → s[k + 1]? = some '(' := by
  induction s with
  | nil => intro k c hk; simp at hk
  | cons d ds ih =>
    intro k c hk ho
    cases k with
    | zero =>
      simp at hk
      subst hk
      obtain ⟨r, rfl⟩ := h.1 ho
      simp
    | succ k => simpa using ih h.2 (by simpa using hk) ho

theorem rfindChar_some {s : Str} {r : Nat} (h : rfindChar ')' s = some r) :
    ∃ a b, s = a ++ ')' :: b ∧ a.length = r := by
  simp only [rfindChar] at h
  split at h
  · next k hk =>
    obtain ⟨a, b, he, ha, -⟩ := findChar_eq_some hk
    have : s = b.reverse ++ ')' :: a.reverse := by
      have := congrArg List.reverse he
      simpa using this
    refine ⟨_, _, this, ?_⟩
    simp only [Option.some.injEq] at h
    rw [← h, this]
    simp
    omega
  · simp at h

theorem OpsFollowed.body {s b : Str} {i : Nat} (h : OpsFollowed s)
    (hb : substr s (i + 2) (lenArg s i) = .ok b) : OpsFollowed b := by
  simp only [substr] at hb
  split at hb
  · simp at hb
  · simp only [lenArg] at hb
    cases hr : rfindChar ')' s with
    | none => simp [hr] at hb; subst hb; exact h.drop _
    | some r =>
      simp only [hr] at hb
      by_cases hir : i + 2 ≤ r
      · simp only [hir, if_true, Outcome.ok.injEq] at hb
        obtain ⟨x, y, he, hx⟩ := rfindChar_some hr
        subst he
        have hd := h.drop (i + 2)
        rw [List.drop_append, show i + 2 - x.length = 0 by omega, List.drop_zero] at hd
        have : b = x.drop (i + 2) := by
          rw [← hb, List.drop_append, show i + 2 - x.length = 0 by omega, List.drop_zero,
            List.take_append]
          simp [List.length_drop, show r - i - 2 - (x.length - (i + 2)) = 0 by omega]
          rw [List.take_of_length_le]
          simp; omega
        rw [this]
        exact hd.take_close
      · simp [hir] at hb; subst hb; exact h.drop _

theorem runAll_throws {α : Type} : ∀ {xs : List (Outcome α)}, runAll xs = .throws →
    Outcome.throws ∈ xs
  | [], h => by simp [runAll] at h
  | x :: xs, h => by
    cases x with
    | throws => simp
    | ub => simp [runAll] at h
    | ok a =>
      simp only [runAll, Outcome.bind_ok] at h
      cases hr : runAll xs with
      | ok as => rw [hr] at h; simp at h
      | throws => exact List.mem_cons_of_mem _ (runAll_throws hr)
      | ub => rw [hr] at h; simp at h

theorem parseAction_no_throw (known : List Int) (s : Str) : parseAction known s ≠ .throws := by
  simp only [parseAction, atoll]
  split <;> simp

theorem parseF_no_throw {known : List Int} : ∀ (n : Nat) (s : Str), OpsFollowed s →
    parseF known n s ≠ .throws
  | 0, s, _ => by simp [parseF]
  | n + 1, s, hs => by
    simp only [parseF]
    split
    · exact parseAction_no_throw known s
    · next i hi =>
      have := scanHead_act s 0 i hi
      have hsub : ∃ x, substr s (i + 1) (lenArg s i) = .ok x := by
        simp only [substr]
        rw [if_neg (by omega)]
        cases lenArg s i <;> exact ⟨_, rfl⟩
      obtain ⟨x, hx⟩ := hsub
      rw [hx]
      exact parseAction_no_throw known x
    · next o i hi =>
      obtain ⟨k, c, hk, hc, ho⟩ := scanHead_spec s 0 i o hi
      have hnext := hs.next hc (by rw [ho]; rfl)
      have hlen : k + 1 < s.length := by
        have := List.getElem?_eq_some_iff.1 hnext
        exact this.1
      have hsub : ∃ x, substr s (i + 2) (lenArg s i) = .ok x := by
        simp only [substr]
        rw [if_neg (by omega)]
        cases lenArg s i <;> exact ⟨_, rfl⟩
      obtain ⟨x, hx⟩ := hsub
      rw [hx]
      simp only [Outcome.bind_ok]
      intro h
      have hb := hs.body hx
      cases hr : runAll ((childStrs 0 x).map (parseF known n)) with
      | ub => rw [hr] at h; simp at h
      | throws =>
        have := runAll_throws hr
        obtain ⟨y, hy, hy'⟩ := List.mem_map.1 this
        exact parseF_no_throw n y (hb.children hy) hy'
      | ok cs =>
        rw [hr] at h
        simp only [Outcome.bind_ok, linkChildren] at h
        split at h <;> simp at h

/-! ### Predecessor lists -/

theorem mem_foldl_addNew {a : Int} : ∀ (bs l : List Int),
    a ∈ bs.foldl addNew l ↔ a ∈ l ∨ a ∈ bs
  | [], l => by simp
  | b :: bs, l => by
    rw [List.foldl_cons, mem_foldl_addNew bs]
    have : a ∈ addNew l b ↔ a ∈ l ∨ a = b := by
      simp only [addNew]
      split
      · next h => constructor
                  · exact .inl
                  · rintro (h' | rfl)
                    · exact h'
                    · exact h
      · simp
    rw [this, List.mem_cons]
    grind

/-- Entry `i` of the predecessor vector. -/
def predAt (preds : List (List Int)) (i : Nat) : List Int := preds[i]?.getD []

theorem findIndex_lt {known : List Int} {b : Int} {i : Nat} (h : findIndex known b = some i) :
    i < known.length := by
  simp only [findIndex] at h
  exact (List.findIdx?_eq_some_iff_getElem.1 h).1

theorem findIndex_inj {known : List Int} {b b' : Int} {i : Nat} (h : findIndex known b = some i)
    (h' : findIndex known b' = some i) : b = b' := by
  simp only [findIndex] at h h'
  have h1 := (List.findIdx?_eq_some_iff_getElem.1 h).2.1
  have h2 := (List.findIdx?_eq_some_iff_getElem.1 h').2.1
  simp at h1 h2
  rw [← h1, ← h2]

theorem addPreds_length {known before : List Int} {preds : List (List Int)} {b : Int} :
    (addPreds known before preds b).length = preds.length := by
  simp only [addPreds]; split <;> simp

theorem mem_addPreds {known before : List Int} {preds : List (List Int)} {a b : Int} {i : Nat}
    (hl : known.length ≤ preds.length) :
    a ∈ predAt (addPreds known before preds b) i ↔
      a ∈ predAt preds i ∨ (findIndex known b = some i ∧ a ∈ before) := by
  simp only [addPreds]
  cases h : findIndex known b with
  | none => simp
  | some j =>
    have hj : j < preds.length := Nat.lt_of_lt_of_le (findIndex_lt h) hl
    simp only [predAt, List.getElem?_modify, Option.some.injEq]
    by_cases hji : j = i
    · subst hji
      simp only [List.getElem?_eq_getElem hj, if_true, Option.map_eq_map, Option.map_some,
        Option.getD_some, mem_foldl_addNew, true_and]
    · simp [hji]

theorem foldl_addPreds_length {known before : List Int} : ∀ (c : List Int)
    (preds : List (List Int)), (c.foldl (addPreds known before) preds).length = preds.length
  | [], _ => rfl
  | b :: c, preds => by
    rw [List.foldl_cons, foldl_addPreds_length c, addPreds_length]

theorem mem_foldl_addPreds {known before : List Int} {a : Int} {i : Nat} : ∀ (c : List Int)
    (preds : List (List Int)), known.length ≤ preds.length →
    (a ∈ predAt (c.foldl (addPreds known before) preds) i ↔
      a ∈ predAt preds i ∨ ((∃ b ∈ c, findIndex known b = some i) ∧ a ∈ before))
  | [], preds, _ => by simp
  | b :: c, preds, hl => by
    rw [List.foldl_cons, mem_foldl_addPreds c _ (by rw [addPreds_length]; exact hl),
      mem_addPreds hl]
    simp only [List.mem_cons, exists_eq_or_imp]
    grind

theorem seqPreds_length {known : List Int} : ∀ (cs : List (List Int)) (before : List Int)
    (preds : List (List Int)), (seqPreds known before cs preds).length = preds.length
  | [], _, _ => rfl
  | c :: cs, before, preds => by
    rw [seqPreds, seqPreds_length cs, foldl_addPreds_length]

theorem mem_seqPreds {known : List Int} {a : Int} {i : Nat} : ∀ (cs : List (List Int))
    (before : List Int) (preds : List (List Int)), known.length ≤ preds.length →
    (a ∈ predAt (seqPreds known before cs preds) i ↔
      a ∈ predAt preds i ∨
      ∃ l c r, cs = l ++ c :: r ∧ (∃ b ∈ c, findIndex known b = some i) ∧
        (a ∈ before ∨ a ∈ l.flatten))
  | [], before, preds, _ => by simp [seqPreds]
  | c :: cs, before, preds, hl => by
    rw [seqPreds, mem_seqPreds cs _ _ (by rw [foldl_addPreds_length]; exact hl),
      mem_foldl_addPreds c preds hl]
    constructor
    · rintro ((h | ⟨h, h'⟩) | ⟨l, d, r, rfl, hd, h⟩)
      · exact .inl h
      · exact .inr ⟨[], c, cs, by simp, h, .inl h'⟩
      · refine .inr ⟨c :: l, d, r, by simp, hd, ?_⟩
        simp only [List.mem_append] at h
        simp only [List.flatten_cons, List.mem_append]
        grind
    · rintro (h | ⟨l, d, r, he, hd, h⟩)
      · exact .inl (.inl h)
      · cases l with
        | nil =>
          simp at he
          rw [he.1]
          simp at h
          exact .inl (.inr ⟨hd, h⟩)
        | cons c' l =>
          simp at he
          refine .inr ⟨l, d, r, he.2, hd, ?_⟩
          simp only [List.flatten_cons, List.mem_append] at h
          simp only [List.mem_append]
          rw [he.1]
          grind

theorem precedes_seq_iff {a b : Int} {cs : List Tree} :
    (∃ l c r, cs.map actionsOf = l ++ c :: r ∧ b ∈ c ∧ a ∈ l.flatten) ↔
      ∃ l m r c d, cs = l ++ c :: m ++ d :: r ∧ Occurs a c ∧ Occurs b d := by
  constructor
  · rintro ⟨l, c, r, he, hb, ha⟩
    obtain ⟨l', r', rfl, hl, hr⟩ := List.map_eq_append_iff.1 he
    obtain ⟨d, r'', rfl, hd, hr⟩ := List.map_eq_cons_iff.1 hr
    subst hl hd
    obtain ⟨x, hx, hax⟩ := List.mem_flatten.1 ha
    obtain ⟨y, hy, rfl⟩ := List.mem_map.1 hx
    obtain ⟨p, q, rfl⟩ := List.append_of_mem hy
    exact ⟨p, q, r'', y, d, by simp, occurs_iff.2 hax, occurs_iff.2 hb⟩
  · rintro ⟨l, m, r, c, d, rfl, ha, hb⟩
    refine ⟨(l ++ c :: m).map actionsOf, actionsOf d, r.map actionsOf, by simp,
      occurs_iff.1 hb, ?_⟩
    simp only [List.mem_flatten, List.mem_map]
    exact ⟨_, ⟨c, by simp, rfl⟩, occurs_iff.1 ha⟩

theorem precedes_op_iff {a b : Int} {o : OpType} {cs : List Tree} :
    Precedes a b (.op o cs) ↔
      (o = .seq ∧ ∃ l m r c d, cs = l ++ c :: m ++ d :: r ∧ Occurs a c ∧ Occurs b d) ∨
      ∃ c ∈ cs, Precedes a b c := by
  constructor
  · intro h
    cases h with
    | here ha hb => exact .inl ⟨rfl, _, _, _, _, _, rfl, ha, hb⟩
    | inside hc h => exact .inr ⟨_, hc, h⟩
  · rintro (⟨rfl, l, m, r, c, d, rfl, ha, hb⟩ | ⟨c, hc, h⟩)
    · exact .here ha hb
    · exact .inside hc h

mutual
theorem initPreds_length {known : List Int} : ∀ (t : Tree) (preds : List (List Int)),
    (initPreds known t preds).length = preds.length
  | .action _, _ => by simp [initPreds]
  | .op o cs, preds => by
    simp only [initPreds]
    rw [initPredsList_length cs]
    split
    · rw [seqPreds_length]
    · rfl
theorem initPredsList_length {known : List Int} : ∀ (cs : List Tree) (preds : List (List Int)),
    (initPredsList known cs preds).length = preds.length
  | [], _ => by simp [initPredsList]
  | c :: cs, preds => by
    simp only [initPredsList]
    rw [initPredsList_length cs, initPreds_length c]
end

mutual
theorem mem_initPreds {known : List Int} {a : Int} {i : Nat} : ∀ (t : Tree)
    (preds : List (List Int)), known.length ≤ preds.length →
    (a ∈ predAt (initPreds known t preds) i ↔
      a ∈ predAt preds i ∨ ∃ b, findIndex known b = some i ∧ Precedes a b t)
  | .action x, preds, hl => by
    simp only [initPreds]
    constructor
    · exact .inl
    · rintro (h | ⟨b, -, h⟩)
      · exact h
      · cases h
  | .op o cs, preds, hl => by
    simp only [initPreds]
    rw [mem_initPredsList cs _ (by split <;> simpa [seqPreds_length] using hl)]
    by_cases ho : o = .seq
    · subst ho
      simp only [if_true]
      rw [mem_seqPreds _ _ _ hl]
      constructor
      · rintro ((h | ⟨l, c, r, he, ⟨b, hb, hi⟩, h⟩) | ⟨c, hc, b, hi, h⟩)
        · exact .inl h
        · refine .inr ⟨b, hi, precedes_op_iff.2 (.inl ⟨rfl, precedes_seq_iff.1 ?_⟩)⟩
          exact ⟨l, c, r, he, hb, by simpa using h⟩
        · exact .inr ⟨b, hi, .inside hc h⟩
      · rintro (h | ⟨b, hi, h⟩)
        · exact .inl (.inl h)
        · rcases precedes_op_iff.1 h with ⟨-, h⟩ | ⟨c, hc, h⟩
          · obtain ⟨l, c, r, he, hb, ha⟩ := precedes_seq_iff.2 h
            exact .inl (.inr ⟨l, c, r, he, ⟨b, hb, hi⟩, .inr ha⟩)
          · exact .inr ⟨c, hc, b, hi, h⟩
    · simp only [ho, if_false]
      constructor
      · rintro (h | ⟨c, hc, b, hi, h⟩)
        · exact .inl h
        · exact .inr ⟨b, hi, .inside hc h⟩
      · rintro (h | ⟨b, hi, h⟩)
        · exact .inl h
        · rcases precedes_op_iff.1 h with ⟨ho', -⟩ | ⟨c, hc, h⟩
          · exact absurd ho' ho
          · exact .inr ⟨c, hc, b, hi, h⟩
theorem mem_initPredsList {known : List Int} {a : Int} {i : Nat} : ∀ (cs : List Tree)
    (preds : List (List Int)), known.length ≤ preds.length →
    (a ∈ predAt (initPredsList known cs preds) i ↔
      a ∈ predAt preds i ∨ ∃ c ∈ cs, ∃ b, findIndex known b = some i ∧ Precedes a b c)
  | [], preds, _ => by simp [initPredsList]
  | c :: cs, preds, hl => by
    simp only [initPredsList]
    rw [mem_initPredsList cs _ (by rw [initPreds_length]; exact hl), mem_initPreds c _ hl]
    simp only [List.mem_cons, exists_eq_or_imp]
    grind
end

/-! ### Predecessors come first in every word -/

theorem wordSeq_append {w : List Int} : ∀ {xs ys : List Tree},
    WordSeq (xs ++ ys) w ↔ ∃ u v, w = u ++ v ∧ WordSeq xs u ∧ WordSeq ys v
  | [], ys => by
    simp only [List.nil_append, WordSeq]
    constructor
    · intro h; exact ⟨[], w, by simp, rfl, h⟩
    · rintro ⟨u, v, rfl, rfl, h⟩; exact h
  | x :: xs, ys => by
    simp only [List.cons_append, WordSeq]
    constructor
    · rintro ⟨u, v, rfl, hu, hv⟩
      obtain ⟨p, q, rfl, hp, hq⟩ := wordSeq_append.1 hv
      exact ⟨u ++ p, q, by simp, ⟨u, p, rfl, hu, hp⟩, hq⟩
    · rintro ⟨u, v, rfl, ⟨p, q, rfl, hp, hq⟩, hv⟩
      exact ⟨p, q ++ v, by simp, hp, wordSeq_append.2 ⟨q, v, rfl, hq, hv⟩⟩

theorem Shuffle.sublist {u v w : List Int} (h : Shuffle u v w) : u.Sublist w ∧ v.Sublist w := by
  induction h with
  | nil => simp
  | left _ ih => exact ⟨ih.1.cons_cons _, ih.2.cons _⟩
  | right _ ih => exact ⟨ih.1.cons _, ih.2.cons_cons _⟩

theorem actionsOfList_append : ∀ {xs ys : List Tree},
    actionsOfList (xs ++ ys) = actionsOfList xs ++ actionsOfList ys
  | [], ys => by simp [actionsOfList]
  | x :: xs, ys => by simp [actionsOfList, actionsOfList_append (xs := xs)]

/-- A word of an operator restricted to one child that takes part in it. -/
theorem word_child {o : OpType} {c : Tree} {w : List Int} : ∀ {cs : List Tree}, c ∈ cs →
    (actionsOfList cs).Nodup → Word (.op o cs) w → (∃ x ∈ w, x ∈ actionsOf c) →
    ∃ u, Word c u ∧ u.Sublist w ∧ ∀ x ∈ w, x ∈ actionsOf c → x ∈ u := by
  cases o with
  | seq =>
    intro cs hc hnd hw _
    obtain ⟨l, r, rfl⟩ := List.append_of_mem hc
    simp only [Word] at hw
    obtain ⟨u, v, rfl, hu, p, q, rfl, hp, hq⟩ := wordSeq_append.1 hw
    refine ⟨p, hp, ((List.sublist_append_left p q).trans (List.sublist_append_right u _)), ?_⟩
    intro x hx hxc
    simp only [List.mem_append] at hx
    rw [actionsOfList_append, List.nodup_append] at hnd
    simp only [actionsOfList] at hnd
    rcases hx with hx | hx | hx
    · exact absurd rfl (hnd.2.2 x (wordSeq_sub l hu x hx) x (by simp [hxc]))
    · exact hx
    · exact absurd rfl ((List.nodup_append.1 hnd.2.1).2.2 x hxc x (wordSeq_sub r hq x hx))
  | alt =>
    intro cs hc hnd hw ⟨x, hx, hxc⟩
    simp only [Word] at hw
    obtain ⟨d, hd, hdw⟩ := wordAlt_iff.1 hw
    have : d = c := by
      by_cases h : d = c
      · exact h
      exfalso
      have hxd := word_sub d hdw x hx
      clear hw hdw hx
      induction cs with
      | nil => simp at hc
      | cons y ys ih =>
        simp only [actionsOfList, List.nodup_append] at hnd
        rcases List.mem_cons.1 hc with h1 | h1 <;> rcases List.mem_cons.1 hd with h2 | h2
        · exact h (h2.trans h1.symm)
        · exact hnd.2.2 x (h1 ▸ hxc) x (mem_actionsOfList.2 ⟨d, h2, hxd⟩) rfl
        · exact hnd.2.2 x (h2 ▸ hxd) x (mem_actionsOfList.2 ⟨c, h1, hxc⟩) rfl
        · exact ih h1 hnd.2.1 h2
    subst this
    exact ⟨w, hdw, List.Sublist.refl w, fun y hy _ => hy⟩
  | par =>
    intro cs hc hnd hw hex
    clear hex
    simp only [Word] at hw
    induction cs generalizing w with
    | nil => simp at hc
    | cons y ys ih =>
      obtain ⟨u, v, hs, hu, hv⟩ := hw
      simp only [actionsOfList, List.nodup_append] at hnd
      rcases List.mem_cons.1 hc with h1 | h1
      · subst h1
        refine ⟨u, hu, hs.sublist.1, ?_⟩
        intro x hx hxc
        rcases (hs.mem x).1 hx with h | h
        · exact h
        · exact absurd rfl (hnd.2.2 x hxc x (wordPar_sub ys hv x h))
      · obtain ⟨p, hp, hps, hpx⟩ := ih h1 hnd.2.1 hv
        refine ⟨p, hp, hps.trans hs.sublist.2, ?_⟩
        intro x hx hxc
        rcases (hs.mem x).1 hx with h | h
        · exact absurd rfl (hnd.2.2 x (word_sub y hu x h) x (mem_actionsOfList.2 ⟨c, h1, hxc⟩))
        · exact hpx x h hxc

theorem nodup_child {c : Tree} : ∀ {cs : List Tree}, c ∈ cs → (actionsOfList cs).Nodup →
    (actionsOf c).Nodup
  | d :: cs, hc, hnd => by
    simp only [actionsOfList, List.nodup_append] at hnd
    rcases List.mem_cons.1 hc with rfl | h
    · exact hnd.1
    · exact nodup_child h hnd.2.1

theorem precedes_occurs {a b : Int} {t : Tree} (h : Precedes a b t) :
    a ∈ actionsOf t ∧ b ∈ actionsOf t := by
  induction h with
  | @here l m r c d ha hb =>
    constructor
    · exact occurs_iff.1 (.op (c := c) (by simp) ha)
    · exact occurs_iff.1 (.op (c := d) (by simp) hb)
  | inside hc _ ih =>
    exact ⟨by simpa [actionsOf] using mem_actionsOfList.2 ⟨_, hc, ih.1⟩,
      by simpa [actionsOf] using mem_actionsOfList.2 ⟨_, hc, ih.2⟩⟩

theorem precedes_word {a b : Int} {t : Tree} (h : Precedes a b t) : (actionsOf t).Nodup →
    ∀ {w : List Int}, Word t w → a ∈ w → b ∈ w → [a, b].Sublist w := by
  induction h with
  | @here l m r c d ha hb =>
    intro hnd w hw haw hbw
    simp only [Word] at hw
    simp only [actionsOf] at hnd
    obtain ⟨u, v, rfl, hu, hv⟩ := wordSeq_append.1 hw
    rw [actionsOfList_append, List.nodup_append] at hnd
    have ha1 : a ∈ actionsOfList (l ++ c :: m) :=
      mem_actionsOfList.2 ⟨c, by simp, occurs_iff.1 ha⟩
    have hb1 : b ∈ actionsOfList (d :: r) :=
      mem_actionsOfList.2 ⟨d, by simp, occurs_iff.1 hb⟩
    have hau : a ∈ u := by
      rcases List.mem_append.1 haw with h | h
      · exact h
      · exact absurd rfl (hnd.2.2 a ha1 a (wordSeq_sub _ hv a h))
    have hbv : b ∈ v := by
      rcases List.mem_append.1 hbw with h | h
      · exact absurd rfl (hnd.2.2 b (wordSeq_sub _ hu b h) b hb1)
      · exact h
    have := List.Sublist.append (List.singleton_sublist.2 hau) (List.singleton_sublist.2 hbv)
    simpa using this
  | @inside o cs c hc hp ih =>
    intro hnd w hw haw hbw
    simp only [actionsOf] at hnd
    have hocc := precedes_occurs hp
    obtain ⟨u, hu, hs, hx⟩ := word_child hc hnd hw ⟨a, haw, hocc.1⟩
    exact (ih (nodup_child hc hnd) hu (hx a haw hocc.1) (hx b hbw hocc.2)).trans hs

/-! ### Shuffling a tree keeps its words -/

theorem Shuffle.symm {u v w : List Int} (h : Shuffle u v w) : Shuffle v u w := by
  induction h with
  | nil => exact .nil
  | left _ ih => exact .right ih
  | right _ ih => exact .left ih

theorem Shuffle.rotate {u x w : List Int} (h : Shuffle u x w) : ∀ {v y : List Int},
    Shuffle v y x → ∃ z, Shuffle v z w ∧ Shuffle u y z := by
  induction h with
  | nil => intro v y h'; cases h'; exact ⟨[], .nil, .nil⟩
  | @left a u x w _ ih =>
    intro v y h'
    obtain ⟨z, h1, h2⟩ := ih h'
    exact ⟨a :: z, .right h1, .left h2⟩
  | @right a u x w _ ih =>
    intro v y h'
    cases h' with
    | left h' =>
      obtain ⟨z, h1, h2⟩ := ih h'
      exact ⟨z, .left h1, h2⟩
    | right h' =>
      obtain ⟨z, h1, h2⟩ := ih h'
      exact ⟨a :: z, .right h1, .right h2⟩

theorem wordPar_perm {cs ds : List Tree} (h : cs.Perm ds) : ∀ {w : List Int},
    WordPar cs w → WordPar ds w := by
  induction h with
  | nil => exact fun h => h
  | cons c _ ih =>
    rintro w ⟨u, v, hs, hu, hv⟩
    exact ⟨u, v, hs, hu, ih hv⟩
  | swap c d l =>
    rintro w ⟨u, x, hs, hu, v, y, hs', hv, hy⟩
    obtain ⟨z, h1, h2⟩ := hs.rotate hs'
    exact ⟨v, z, h1, hv, u, y, h2, hu, hy⟩
  | trans _ _ ih1 ih2 => exact fun h => ih2 (ih1 h)

theorem wordAlt_perm {cs ds : List Tree} (h : cs.Perm ds) {w : List Int}
    (hw : WordAlt cs w) : WordAlt ds w := by
  obtain ⟨c, hc, hw⟩ := wordAlt_iff.1 hw
  exact wordAlt_iff.2 ⟨c, h.mem_iff.1 hc, hw⟩

theorem cons_eraseIdx_perm : ∀ {l : List Tree} {k : Nat} (h : k < l.length),
    (l[k] :: l.eraseIdx k).Perm l
  | x :: l, 0, _ => by simp
  | x :: l, k + 1, h => by
    have ih := cons_eraseIdx_perm (l := l) (k := k) (by simpa using h)
    simp only [List.getElem_cons_succ, List.eraseIdx_cons_succ]
    exact (List.Perm.swap _ _ _).trans (ih.cons x)

theorem shuffleLoop_perm : ∀ (n : Nat) (l : List Tree) (rs : List Nat), l.length = n →
    (shuffleLoop n l rs).1.Perm l
  | 0, l, rs, h => by
    have : l = [] := by simpa using h
    subst this
    simp [shuffleLoop]
  | n + 1, l, rs, h => by
    have hk : (draw rs).1 % (n + 1) < l.length := by
      rw [h]; exact Nat.mod_lt _ (by omega)
    simp only [shuffleLoop, List.getElem?_eq_getElem hk]
    have ih := shuffleLoop_perm n (l.eraseIdx ((draw rs).1 % (n + 1))) (draw rs).2
      (by rw [List.length_eraseIdx]; simp [hk]; omega)
    refine (ih.cons _).trans ?_
    exact cons_eraseIdx_perm hk

theorem shuffleHere_perm {bound : Int} {o : OpType} {cs : List Tree} {rs : List Nat} :
    (shuffleHere bound o cs rs).1.Perm cs := by
  simp only [shuffleHere]
  split
  · exact List.Perm.refl _
  · split
    · exact shuffleLoop_perm _ _ _ rfl
    · exact List.Perm.refl _

theorem shuffleHere_seq {bound : Int} {cs : List Tree} {rs : List Nat} :
    (shuffleHere bound .seq cs rs).1 = cs := by
  simp [shuffleHere]

/-- Two trees allow the same orders. -/
def SameWords (s t : Tree) : Prop := ∀ w, Word s w ↔ Word t w

/-- Pairwise `SameWords`. -/
inductive SameList : List Tree → List Tree → Prop where
  | nil : SameList [] []
  | cons {c d cs ds} : SameWords c d → SameList cs ds → SameList (c :: cs) (d :: ds)

theorem wordSeq_congr {cs ds : List Tree} (h : SameList cs ds) : ∀ {w},
    WordSeq cs w → WordSeq ds w := by
  induction h with
  | nil => exact fun h => h
  | cons h _ ih =>
    rintro w ⟨u, v, rfl, hu, hv⟩
    exact ⟨u, v, rfl, (h u).1 hu, ih hv⟩

theorem wordAlt_congr {cs ds : List Tree} (h : SameList cs ds) : ∀ {w},
    WordAlt cs w → WordAlt ds w := by
  induction h with
  | nil => exact fun h => h
  | cons h _ ih =>
    rintro w (hu | hv)
    · exact .inl ((h w).1 hu)
    · exact .inr (ih hv)

theorem wordPar_congr {cs ds : List Tree} (h : SameList cs ds) : ∀ {w},
    WordPar cs w → WordPar ds w := by
  induction h with
  | nil => exact fun h => h
  | cons h _ ih =>
    rintro w ⟨u, v, hs, hu, hv⟩
    exact ⟨u, v, hs, (h u).1 hu, ih hv⟩

theorem forall₂_symm {cs ds : List Tree} (h : SameList cs ds) :
    SameList ds cs := by
  induction h with
  | nil => exact .nil
  | cons h _ ih => exact .cons (fun w => (h w).symm) ih

theorem word_congr {o : OpType} {cs ds : List Tree} (h : SameList cs ds) :
    SameWords (.op o cs) (.op o ds) := by
  intro w
  cases o <;> simp only [Word]
  · exact ⟨wordSeq_congr h, wordSeq_congr (forall₂_symm h)⟩
  · exact ⟨wordAlt_congr h, wordAlt_congr (forall₂_symm h)⟩
  · exact ⟨wordPar_congr h, wordPar_congr (forall₂_symm h)⟩

theorem word_perm {o : OpType} {cs ds : List Tree} (h : cs.Perm ds) (ho : o ≠ .seq) :
    SameWords (.op o cs) (.op o ds) := by
  intro w
  cases o <;> simp only [Word]
  · exact absurd rfl ho
  · exact ⟨wordAlt_perm h, wordAlt_perm h.symm⟩
  · exact ⟨wordPar_perm h, wordPar_perm h.symm⟩

theorem shuffle_fold {f : Tree → List Nat → Tree × List Nat}
    (hf : ∀ c rs, SameWords (f c rs).1 c) : ∀ (cs : List Tree) (acc0 acc1 : List Tree)
    (rs : List Nat), SameList acc0 acc1 →
    SameList (cs.foldl (fun (acc : List Tree × List Nat) c =>
      ((acc.1 ++ [(f c acc.2).1], (f c acc.2).2))) (acc0, rs)).1 (acc1 ++ cs)
  | [], acc0, acc1, rs, h => by simpa using h
  | c :: cs, acc0, acc1, rs, h => by
    rw [List.foldl_cons]
    have := shuffle_fold hf cs (acc0 ++ [(f c rs).1]) (acc1 ++ [c]) (f c rs).2 (by
      have app : ∀ {a b : List Tree}, SameList a b → ∀ {x y}, SameWords x y →
          SameList (a ++ [x]) (b ++ [y]) := by
        intro a b hab x y hxy
        induction hab with
        | nil => exact .cons hxy .nil
        | cons h _ ih => exact .cons h ih
      exact app h (hf c rs))
    simpa using this

theorem shuffleF_words (bound : Int) : ∀ (n : Nat) (t : Tree) (rs : List Nat),
    SameWords (shuffleF bound n t rs).1 t
  | 0, t, rs => by intro w; simp [shuffleF]
  | n + 1, .action a, rs => by intro w; simp [shuffleF]
  | n + 1, .op o cs, rs => by
    simp only [shuffleF]
    have h1 := shuffle_fold (f := shuffleF bound n) (fun c rs => shuffleF_words bound n c rs)
      (shuffleHere bound o cs rs).1 [] [] (shuffleHere bound o cs rs).2 .nil
    simp only [List.nil_append] at h1
    have h2 := word_congr (o := o) h1
    by_cases ho : o = .seq
    · subst ho
      rw [shuffleHere_seq] at h2
      exact h2
    · intro w
      exact (h2 w).trans (word_perm shuffleHere_perm ho w)

end Verif.Algebra
