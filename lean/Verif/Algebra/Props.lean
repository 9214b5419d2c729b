import Verif.Algebra.MoreLemmas

/-!
Properties C28 to C31, C52 and C53: the process algebra of
`src/cpp/Utilities/Algebra.cpp`.
-/

namespace Verif.Algebra

/-- The expression used in the examples: `.(p1 +(p2 p3) |(p4 p5))`. -/
def exTree : Tree :=
  .op .seq [.action 1, .op .alt [.action 2, .action 3], .op .par [.action 4, .action 5]]

/-- Its text, with the blanks a task service would write. -/
def exText : Str := ".(p1 +(p2 p3 ) |(p4 p5))".toList

/-! ### C30: parser round trip -/

/-- **C30.** Every way of writing an expression whose objectives are known (and
fit into 64 bits), surrounded by any blanks, parses to that expression:
`initAlgebraString` returns true and the object holds exactly that tree. -/
theorem C30_parse_written {known : List Int} {t : Tree} {s b1 b2 : Str} (hw : Written t s)
    (h1 : Blanks b1) (h2 : Blanks b2)
    (hr : ∀ a, Occurs a t → inInt64 a = true) (hk : ∀ a, Occurs a t → a ∈ known) :
    ∃ g, initAlgebraString { known := known } (b1 ++ s ++ b2) = .ok (g, true) ∧
      g.root = some t ∧ g.known = known := by
  have hp : parse known (b1 ++ s ++ b2) = .ok (some t) := by
    have := parse_written (known := known) hw (fun a ha => hr a (occurs_iff.2 ha)) b1 b2 h1 h2
      ((b1 ++ s ++ b2).length + 1) (by omega)
    rw [parse, this, expected_ok (fun a ha => hk a (occurs_iff.2 ha))]
  refine ⟨{ known := known, preds := initPreds known t (List.replicate known.length []),
            root := some t }, ?_, rfl, rfl⟩
  simp only [initAlgebraString, hp, Outcome.bind_ok, List.nil_append]

/-- Two expressions with the same text are equal (for any known list that
contains the ids): the notation is unambiguous. -/
theorem C30_text_unambiguous {t u : Tree} {s : Str} (ht : Written t s) (hu : Written u s)
    (hrt : ∀ a, Occurs a t → inInt64 a = true) (hru : ∀ a, Occurs a u → inInt64 a = true) :
    t = u := by
  have h1 := parse_written (known := objectives t ++ objectives u) ht
    (fun a ha => hrt a (occurs_iff.2 ha)) [] [] (by simp [Blanks]) (by simp [Blanks])
    (s.length + 1) (by simp)
  have h2 := parse_written (known := objectives t ++ objectives u) hu
    (fun a ha => hru a (occurs_iff.2 ha)) [] [] (by simp [Blanks]) (by simp [Blanks])
    (s.length + 1) (by simp)
  rw [h1] at h2
  rw [expected_ok (by intro a ha; simp [objectives_eq, ha]),
    expected_ok (by intro a ha; simp [objectives_eq, ha])] at h2
  simpa using h2

/-- The example text is a way of writing the example tree. -/
theorem exText_written : Written exTree exText := by
  have one : ∀ a : Int, ∀ r, WrittenBody [] r → (r = [] ∨ ∃ q, r = ' ' :: q) →
      WrittenBody [.action a] ([] ++ ('p' :: idText a) ++ r) :=
    fun a r hr hs => .cons (by simp [Blanks]) (.action a) hr (fun _ => hs)
  have hnil : WrittenBody [] [] := .nil (by simp [Blanks])
  have hsp : WrittenBody [] [' '] := .nil (by simp [Blanks])
  have b23 : WrittenBody [.action 2, .action 3] "p2 p3 ".toList := by
    have : WrittenBody [.action 3] " p3 ".toList :=
      .cons (b := [' ']) (s := "p3".toList) (rest := [' ']) (by simp [Blanks]) (.action 3) hsp
        (fun _ => .inr ⟨[], rfl⟩)
    exact .cons (b := []) (s := "p2".toList) (rest := " p3 ".toList) (by simp [Blanks])
      (.action 2) this (fun _ => .inr ⟨_, rfl⟩)
  have b45 : WrittenBody [.action 4, .action 5] "p4 p5".toList := by
    have : WrittenBody [.action 5] " p5".toList :=
      .cons (b := [' ']) (s := "p5".toList) (rest := []) (by simp [Blanks]) (.action 5) hnil
        (fun _ => .inl rfl)
    exact .cons (b := []) (s := "p4".toList) (rest := " p5".toList) (by simp [Blanks])
      (.action 4) this (fun _ => .inr ⟨_, rfl⟩)
  have hpar : WrittenBody [.op .par [.action 4, .action 5]] " |(p4 p5)".toList :=
    .cons (b := [' ']) (s := "|(p4 p5)".toList) (rest := []) (by simp [Blanks])
      (.op (o := .par) b45) hnil (fun h => by obtain ⟨a, h⟩ := h; simp at h)
  have halt : WrittenBody [.op .alt [.action 2, .action 3], .op .par [.action 4, .action 5]]
      " +(p2 p3 ) |(p4 p5)".toList :=
    .cons (b := [' ']) (s := "+(p2 p3 )".toList) (rest := " |(p4 p5)".toList) (by simp [Blanks])
      (.op (o := .alt) b23) hpar (fun h => by obtain ⟨a, h⟩ := h; simp at h)
  exact .op (o := .seq) (.cons (b := []) (s := "p1".toList)
    (rest := " +(p2 p3 ) |(p4 p5)".toList) (by simp [Blanks]) (.action 1) halt
    (fun _ => .inr ⟨_, rfl⟩))

theorem exTree_occurs {a : Int} (h : Occurs a exTree) : a ∈ ([1, 2, 3, 4, 5] : List Int) := by
  have := occurs_iff.1 h
  simpa [exTree, actionsOf, actionsOfList] using this

/-- The hypotheses of `C30_parse_written` are met by a nested expression. -/
example : ∃ g, initAlgebraString { known := [1, 2, 3, 4, 5] } ([' '] ++ exText ++ []) =
    .ok (g, true) ∧ g.root = some exTree ∧ g.known = [1, 2, 3, 4, 5] :=
  C30_parse_written exText_written (by simp [Blanks]) (by simp [Blanks])
    (fun a ha => by
      have := exTree_occurs ha
      simp only [List.mem_cons, List.not_mem_nil, or_false] at this
      rcases this with rfl | rfl | rfl | rfl | rfl <;> decide)
    (fun a ha => exTree_occurs ha)

/-- The same by running the parser. -/
example : parse [1, 2, 3, 4, 5] exText = .ok (some exTree) := by decide +kernel

/-! ### C28: language -/

/-- **C28.** For a parsed expression with distinct objectives and without empty
operators: the sequences obtained by repeatedly choosing an offered objective
are exactly the prefixes of the words of the expression, and after such a
sequence nothing is offered exactly when it is a complete word. -/
theorem C28_language {known : List Int} {t : Tree} {s b1 b2 : Str} (hw : Written t s)
    (h1 : Blanks b1) (h2 : Blanks b2)
    (hr : ∀ a, Occurs a t → inInt64 a = true) (hk : ∀ a, Occurs a t → a ∈ known)
    (hd : Distinct t) (hn : NonEmptyOps t) :
    ∃ g, initAlgebraString { known := known } (b1 ++ s ++ b2) = .ok (g, true) ∧
      ∀ ex, (Run g ex ↔ ∃ w, Word t w ∧ ex <+: w) ∧
        (Run g ex → (searchNext g ex = .ok [] ↔ Word t ex)) := by
  obtain ⟨g, hg, hroot, -⟩ := C30_parse_written hw h1 h2 hr hk
  refine ⟨g, hg, fun ex => ⟨run_iff hroot hd hn ex, fun hrun => ?_⟩⟩
  have hp := (run_iff hroot hd hn ex).1 hrun
  have hm := main t (by rw [← objectives_eq]; exact hd) hn ex hp
  rw [← hm.fin]
  simp [searchNext, hroot]

/-- Every complete word is reached (no allowed order is lost) and no other
complete order is: an order is executed to the end iff it is a word. -/
theorem C28_complete_orders {g : Alg} {t : Tree} (hg : g.root = some t) (hd : Distinct t)
    (hn : NonEmptyOps t) (w : List Int) :
    (Run g w ∧ searchNext g w = .ok []) ↔ Word t w := by
  have hm := main t (by rw [← objectives_eq]; exact hd) hn
  constructor
  · rintro ⟨hrun, hs⟩
    have hp := (run_iff hg hd hn w).1 hrun
    exact (hm w hp).fin.1 (by simpa [searchNext, hg] using hs)
  · intro hw
    have hp : Pre t w := ⟨w, hw, List.prefix_refl _⟩
    exact ⟨(run_iff hg hd hn w).2 hp, by simp [searchNext, hg, (hm w hp).fin.2 hw]⟩

/-- The hypotheses of C28 are met by the example expression. -/
example : Distinct exTree ∧ NonEmptyOps exTree := by
  constructor
  · unfold Distinct; decide
  · simp [exTree, NonEmptyOps, NonEmptyOpsList]

/-- In the example the order 1 3 5 4 is allowed. -/
example : Word exTree [1, 3, 5, 4] := by
  refine ⟨[1], [3, 5, 4], rfl, rfl, [3], [5, 4], rfl, .inr (.inl rfl), [5, 4], [], rfl, ?_, rfl⟩
  exact ⟨[4], [5], .right (.left .nil), rfl, [5], [], .left .nil, rfl, rfl⟩

/-- The restriction to non-empty operators is needed: in `+(.() p1)` the empty
sequence counts as already executed, so `p1` is never offered although `[1]` is
a word. -/
theorem C28_empty_operator_violated :
    ∃ t, Distinct t ∧ Word t [1] ∧
      ∀ g : Alg, g.root = some t → searchNext g [] = .ok [] := by
  refine ⟨.op .alt [.op .seq [], .action 1], by unfold Distinct; decide, .inr (.inl rfl), ?_⟩
  intro g hg
  simp only [searchNext, hg]
  decide

/-- The restriction to distinct objectives is needed: for `.(p1 p1)` the word
`[1, 1]` cannot be executed, after one execution nothing is offered. -/
theorem C28_repeated_objective_violated :
    ∃ t, NonEmptyOps t ∧ Word t [1, 1] ∧
      ∀ g : Alg, g.root = some t → ¬ Run g [1, 1] := by
  refine ⟨.op .seq [.action 1, .action 1], by simp [NonEmptyOps, NonEmptyOpsList],
    ⟨[1], [1], rfl, rfl, [1], [], rfl, rfl, rfl⟩, ?_⟩
  intro g hg hrun
  generalize hx : ([1, 1] : List Int) = x at hrun
  cases hrun with
  | start => simp at hx
  | @step ex a _ ho =>
    have he : ex = [1] ∧ a = 1 := by
      have hl : ex.length = 1 := by
        have := congrArg List.length hx
        simp at this; omega
      obtain ⟨y, rfl⟩ : ∃ y, ex = [y] := by
        match ex, hl with
        | [y], _ => exact ⟨y, rfl⟩
      simp at hx
      exact ⟨by rw [← hx.1], hx.2.symm⟩
    obtain ⟨r, hr, ha⟩ := ho
    rw [he.1] at hr
    have : searchNext g [1] = .ok [] := by
      simp only [searchNext, hg]
      decide
    rw [this] at hr
    simp at hr
    subst hr
    simp at ha

/-! ### C29: nothing repeated, nothing invented -/

/-- **C29.** For every expression (also with repeated objectives or empty
operators) and every executed list, an offered objective occurs in the
expression and has not been executed. -/
theorem C29_offers_sound {g : Alg} {t : Tree} (hg : g.root = some t) (ex : List Int) (a : Int)
    (h : Offers g ex a) : Occurs a t ∧ a ∉ ex := by
  obtain ⟨r, hr, ha⟩ := h
  simp only [searchNext, hg, Outcome.ok.injEq] at hr
  subst hr
  have := next_sub t ha
  exact ⟨occurs_iff.2 this.1, this.2⟩

/-- Executing offered objectives never repeats one, so every run is at most as
long as the number of objectives: choosing offered objectives terminates. -/
theorem C29_run_bounded {g : Alg} {t : Tree} (hg : g.root = some t) {ex : List Int}
    (h : Run g ex) : ex.Nodup ∧ (∀ a ∈ ex, Occurs a t) ∧ ex.length ≤ (objectives t).length := by
  have key : ex.Nodup ∧ (∀ a ∈ ex, Occurs a t) := by
    induction h with
    | start => simp
    | @step ex a _ ho ih =>
      have := C29_offers_sound hg ex a ho
      refine ⟨?_, ?_⟩
      · rw [List.nodup_append]
        exact ⟨ih.1, by simp, by intro x hx y hy; simp at hy; subst hy; exact fun e => this.2 (e ▸ hx)⟩
      · intro b hb
        rcases List.mem_append.1 hb with hb | hb
        · exact ih.2 b hb
        · simp at hb; subst hb; exact this.1
  refine ⟨key.1, key.2, ?_⟩
  have hsub : ex ⊆ objectives t := fun a ha => by
    rw [objectives_eq]; exact occurs_iff.1 (key.2 a ha)
  exact List.Nodup.length_le_of_subset key.1 hsub

/-- Non-trivial instance: after 1 the example offers 2 and 3 and nothing else. -/
example : ∀ g : Alg, g.root = some exTree → searchNext g [1] = .ok [2, 3] := by
  intro g hg
  simp only [searchNext, hg]
  decide

/-! ### C31: safety of the parser -/

/-- **C31 fails**: an unknown objective below an operator is undefined behaviour
(the null child is dereferenced), a lone operator character throws, and a number
beyond 64 bits is undefined behaviour. -/
theorem C31_parser_safe_violated :
    parse [1] ".(p1 p5)".toList = .ub ∧ parse [1] ".".toList = .throws ∧
      parse [1] "p99999999999999999999".toList = .ub := by decide +kernel

/-- **C31, exact behaviour on well-written text.** For every text of an
expression: all objectives known gives the tree, a single unknown objective gives
a clean failure (`initAlgebraString` returns false), and an unknown objective
anywhere below an operator is undefined behaviour. -/
theorem C31_written_exact_partial {known : List Int} {t : Tree} {s b1 b2 : Str}
    (hw : Written t s) (h1 : Blanks b1) (h2 : Blanks b2)
    (hr : ∀ a, Occurs a t → inInt64 a = true) :
    ((∀ a, Occurs a t → a ∈ known) → parse known (b1 ++ s ++ b2) = .ok (some t)) ∧
    (∀ a, t = .action a → a ∉ known → parse known (b1 ++ s ++ b2) = .ok none) ∧
    (∀ o cs a, t = .op o cs → Occurs a t → a ∉ known → parse known (b1 ++ s ++ b2) = .ub) := by
  have hp := parse_written (known := known) hw (fun a ha => hr a (occurs_iff.2 ha)) b1 b2 h1 h2
    ((b1 ++ s ++ b2).length + 1) (by omega)
  refine ⟨?_, ?_, ?_⟩
  · intro hk
    rw [parse, hp, expected_ok (fun a ha => hk a (occurs_iff.2 ha))]
  · rintro a rfl ha
    rw [parse, hp, expected, if_neg (fun h => ha (h a (by simp [actionsOf])))]
  · rintro o cs a rfl ha hk
    rw [parse, hp, expected, if_neg (fun h => hk (h a (occurs_iff.1 ha)))]

/-- **C31, exceptions.** The parser never throws on any string in which every
operator character is directly followed by an opening parenthesis, whatever else
the string contains. -/
theorem C31_no_exception_partial (known : List Int) (s : Str)
    (h : ∀ x c y, s = x ++ c :: y → (opOfChar c).isSome = true → ∃ r, y = '(' :: r) :
    parse known s ≠ .throws := by
  apply parseF_no_throw
  have : ∀ (p s : Str), (∀ x c y, p ++ s = x ++ c :: y → (opOfChar c).isSome = true →
      ∃ r, y = '(' :: r) → OpsFollowed s := by
    intro p s
    induction s generalizing p with
    | nil => intro _; trivial
    | cons c cs ih =>
      intro h
      refine ⟨fun ho => h p c cs rfl ho, ih (p ++ [c]) ?_⟩
      intro x d y he ho
      exact h x d y (by simpa using he) ho
  exact this [] s (by simpa using h)

/-- **C31, only known objectives.** Whatever the string, a tree that the parser
returns contains only objectives that were declared. -/
theorem C31_only_known {known : List Int} {s : Str} {t : Tree}
    (h : parse known s = .ok (some t)) (a : Int) (ha : Occurs a t) : a ∈ known :=
  parseF_known _ s t h a (occurs_iff.1 ha)

/-- A malformed string that does not throw although it is not an expression. -/
example : parse [1, 2] "))x.(p1 (p2) )q".toList ≠ .throws := by decide +kernel
/-- `C31_only_known` on a concrete parse. -/
example : ∀ a, Occurs a (Tree.op .par [.action 7, .action 8]) → a ∈ ([7, 8, 9] : List Int) :=
  C31_only_known (s := "|(p7 p8)".toList) (by decide +kernel)

/-! ### C52: predecessors -/

/-- **C52.** After parsing, `searchPred` for a declared objective `b` returns
exactly the executed objectives that some sequential operator of the expression
puts before `b`. -/
theorem C52_search_pred {known : List Int} {s : Str} {g : Alg} {t : Tree}
    (hi : initAlgebraString { known := known } s = .ok (g, true)) (hg : g.root = some t)
    {b : Int} (hb : b ∈ known) (ex : List Int) :
    ∃ r, searchPred g ex b = .ok r ∧ ∀ a, a ∈ r ↔ a ∈ ex ∧ Precedes a b t := by
  have hkp : g.known = known ∧
      g.preds = initPreds known t (List.replicate known.length []) := by
    simp only [initAlgebraString, Outcome.bind_eq_ok] at hi
    obtain ⟨r, hr, hi⟩ := hi
    cases r with
    | none => simp at hi
    | some u =>
      simp only [Outcome.ok.injEq, Prod.mk.injEq] at hi
      obtain ⟨rfl, -⟩ := hi
      simp only [Option.some.injEq] at hg
      subst hg
      simp
  obtain ⟨i, hfi⟩ : ∃ i, findIndex known b = some i := by
    cases h : findIndex known b with
    | some i => exact ⟨i, rfl⟩
    | none =>
      simp only [findIndex, List.findIdx?_eq_none_iff] at h
      have := h b hb
      simp at this
  have hlt := findIndex_lt hfi
  have hlen : i < g.preds.length := by
    rw [hkp.2, initPreds_length]; simpa using hlt
  refine ⟨(g.preds[i]).flatMap fun p => ex.filter fun e => p == e, ?_, ?_⟩
  · simp [searchPred, hkp.1, hfi, List.getElem?_eq_getElem hlen]
  · intro a
    have hmem := mem_initPreds (known := known) (a := a) (i := i) t
      (List.replicate known.length []) (by simp)
    rw [← hkp.2] at hmem
    simp only [predAt, List.getElem?_eq_getElem hlen, Option.getD_some] at hmem
    have h0 : ¬ a ∈ ((List.replicate known.length ([] : List Int))[i]?).getD [] := by
      rw [List.getElem?_replicate]
      split <;> simp
    simp only [h0, false_or] at hmem
    simp only [List.mem_flatMap, List.mem_filter, beq_iff_eq]
    constructor
    · rintro ⟨p, hp, hae, rfl⟩
      obtain ⟨b', hb', hpre⟩ := hmem.1 hp
      rw [findIndex_inj hfi hb']
      exact ⟨hae, hpre⟩
    · rintro ⟨hae, hpre⟩
      exact ⟨a, hmem.2 ⟨b, hfi, hpre⟩, hae, rfl⟩

/-- Predecessors really come first: in every word with both objectives the
predecessor is executed before (distinct objectives). -/
theorem C52_predecessor_first {t : Tree} {a b : Int} (hp : Precedes a b t) (hd : Distinct t)
    {w : List Int} (hw : Word t w) (ha : a ∈ w) (hb : b ∈ w) : [a, b].Sublist w :=
  precedes_word hp (by rw [← objectives_eq]; exact hd) hw ha hb

/-- Asking for the predecessors of an objective that was not declared is
undefined behaviour. -/
theorem C52_unknown_objective_violated (ex : List Int) :
    searchPred { known := [1], preds := [[]], root := some (.action 1) } ex 2 = .ub := by
  simp [searchPred, findIndex]

/-- Concrete case: in the example 1 and 2 precede 4. -/
example : ∀ g, initAlgebraString { known := [1, 2, 3, 4, 5] } exText = .ok (g, true) →
    searchPred g [1, 2] 4 = .ok [1, 2] := by
  intro g hg
  have : (initAlgebraString { known := [1, 2, 3, 4, 5] } exText).bind
      (fun x => searchPred x.1 [1, 2] 4) = .ok [1, 2] := by decide +kernel
  rw [hg] at this
  exact this
example : Precedes 1 4 exTree :=
  .here (l := []) (c := .action 1) (m := [.op .alt [.action 2, .action 3]])
    (d := .op .par [.action 4, .action 5]) (r := []) .action
    (.op (c := .action 4) (by simp) .action)

/-! ### C53: random shuffling -/

/-- **C53.** Randomly shuffling the tree, whatever the random numbers and the
probability, does not change the set of allowed orders. -/
theorem C53_shuffle_words (bound : Int) (t : Tree) (rs : List Nat) (w : List Int) :
    Word (shuffle bound t rs).1 w ↔ Word t w :=
  shuffleF_words bound _ t rs w

/-- A run in which the shuffle really reorders. -/
example : (shuffle 10 exTree [5, 1, 0, 3, 0, 0]).1 =
    .op .seq [.action 1, .op .alt [.action 3, .action 2], .op .par [.action 4, .action 5]] := by
  decide +kernel

end Verif.Algebra
