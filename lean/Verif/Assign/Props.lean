import Verif.Assign.PlanLemmas
import Verif.Assign.TextLemmas

/-!
Properties C32 to C38: the assignment service,
`src/cpp/Services/AssignmentTreeBranchBoundBase.{h,cpp}`.
-/

namespace Verif.Assign

open Verif.Algebra (Tree Written WrittenBody Blanks idText Occurs Word Distinct NonEmptyOps objectives inInt64)

/-! ### C32: task-option identifiers -/

/-- **C32, partial.** For a non-negative task id and an option id below 100000 whose combination
fits 64 bits, the identifier is computed without overflow and both ids are recovered from it.
Missing: option ids of 100000 and more, negative ids (`C32_violated`). -/
theorem C32_roundtrip_partial {t o : Int} (ht : 0 ≤ t) (ho : 0 ≤ o) (ho' : o < 100000)
    (hmax : t * 100000 + o ≤ int64Max) :
    ∃ x, taskAndOptionId64 t o = .ok x ∧ taskIdOf x = t ∧ optionIdOf x = o := by
  refine ⟨t * 100000 + o, ?_, ?_, ?_⟩
  · have h1 : t * 100000 ≤ int64Max := by omega
    have h2 : -int64Max - 1 ≤ t * 100000 := by simp only [int64Max]; omega
    have h3 : -int64Max - 1 ≤ t * 100000 + o := by simp only [int64Max]; omega
    simp [taskAndOptionId64, taskAndOptionId, h1, h2, h3, hmax]
  · simp only [taskIdOf]
    rw [Int.tdiv_eq_ediv_of_nonneg (by omega)]
    omega
  · simp only [optionIdOf]
    rw [Int.tmod_eq_emod_of_nonneg (by omega)]
    omega

/-- **C32, partial.** Different (task, option) pairs get different identifiers, for option ids
between 0 and 99999 (any task ids). -/
theorem C32_distinct_partial {t o t' o' : Int} (ho : 0 ≤ o ∧ o < 100000) (ho' : 0 ≤ o' ∧ o' < 100000)
    (h : taskAndOptionId t o = taskAndOptionId t' o') : t = t' ∧ o = o' := by
  simp only [taskAndOptionId] at h
  omega

/-- An identifier can always be rebuilt from its two parts (whatever it was made from). -/
theorem C32_reencode (x : Int) : taskAndOptionId (taskIdOf x) (optionIdOf x) = x := id_roundtrip x

/-- **C32 is violated** outside that range: two pairs share an identifier, a pair with a
negative task id is not recovered, and large task ids overflow. -/
theorem C32_violated :
    taskAndOptionId 0 100000 = taskAndOptionId 1 0 ∧
    (taskIdOf (taskAndOptionId (-1) 1) ≠ -1) ∧
    taskAndOptionId64 92233720368548 0 = .ub := by decide

example : taskAndOptionId64 12 34 = .ok 1200034 ∧ taskIdOf 1200034 = 12 ∧ optionIdOf 1200034 = 34 := by
  decide

/-! ### C33: composition rewriting -/

/-- **C33, partial.** A well formed composition text is rewritten by replacing exactly its
references: `p<n>` becomes `p<task*100000+n>`, every other character stays. -/
theorem C33_composition_partial (task : Int) {ts : List Tok} (hw : WellFormed ts) (hne : ts ≠ []) :
    rewriteComposition task (render pRef ts) =
      .text (render (fun n => pRef (task * 100000 + n)) ts) := by
  have := rewriteLoop_render task ((render pRef ts).length + 1) ts [] hw hne (by omega)
  simpa [rewriteComposition, taskAndOptionId] using this

/-- ".(p1 +(p2 p3))" is well formed. -/
def exToks : List Tok :=
  [.ch '.', .ch '(', .ref 1, .ch ' ', .ch '+', .ch '(', .ref 2, .ch ' ', .ref 3, .ch ')', .ch ')']

example : WellFormed exToks ∧ render pRef exToks = ".(p1 +(p2 p3))".toList := by
  refine ⟨?_, by decide⟩
  simp [exToks, WellFormed, Fits, int64Max]

example : rewriteComposition 7 ".(p1 +(p2 p3))".toList =
    .text ".(p700001 +(p700002 p700003))".toList := by decide +kernel

/-- Every non-empty composition is either rewritten or reported as an error; nothing is lost
silently. -/
theorem C33_composition_reported (task : Int) (s : Str) (hs : s ≠ []) :
    rewriteComposition task s ≠ .nothing := by
  have gen : ∀ (fuel : Nat) (acc s : Str), s ≠ [] → s.length < fuel →
      rewriteLoop task fuel acc s ≠ .nothing := by
    intro fuel
    induction fuel with
    | zero => intro _ _ _ h; omega
    | succ fuel ih =>
      intro acc s hs hf
      simp only [rewriteLoop]
      unfold rewriteStep
      rw [if_neg hs]
      rcases hp : findChar 'p' s with _ | q
      · simp
      · simp only
        rcases hst : stoll (substrLen s (q + 1) (positionAfterId s (q + 1))) with n | _ | _
        · simp only
          rcases ha : positionAfterId s (q + 1) with _ | a
          · simp
          · simp only
            have hbound : q + 1 ≤ a ∧ a < s.length := by
              have hlt : ∀ (c : Char) (b : Nat), findChar c (s.drop (q + 1)) = some b →
                  q + 1 + b < s.length := by
                intro c b hb
                have := List.findIdx?_eq_some_iff_getElem.1 hb
                obtain ⟨h, -⟩ := this
                simp only [List.length_drop] at h
                omega
              unfold positionAfterId at ha
              rcases h1 : findChar ' ' (s.drop (q + 1)) with _ | b1 <;>
                rcases h2 : findChar ')' (s.drop (q + 1)) with _ | b2 <;>
                rw [h1, h2] at ha <;> simp only [Option.some.injEq, reduceCtorEq] at ha
              · have := hlt _ _ h2; omega
              · have := hlt _ _ h1; omega
              · have := hlt _ _ h1
                have := hlt _ _ h2
                split at ha <;> omega
            apply ih
            · intro h
              have := congrArg List.length h
              simp only [List.length_drop, List.length_nil] at this
              omega
            · simp only [List.length_drop]; omega
        · simp
        · simp
  exact gen _ _ _ hs (by omega)

/-- **C33 is violated** for malformed compositions: a reference without a number is not
reported, it takes the number that comes later (a position is passed as a length). -/
theorem C33_malformed_composition_violated :
    rewriteComposition 1 ".(p 5 )".toList = .text ".(p100005 5 )".toList := by decide +kernel

/-- A composition that ends in a reference (a single option, "p1") is refused. -/
theorem C33_single_option_refused : rewriteComposition 1 "p1".toList = .error := by decide +kernel

/-- **C33, partial.** A well formed relationship text has every reference replaced by that
task's expression; if a task has no expression the request is refused. -/
theorem C33_relationship_partial (expr : Int → Option Str) {ts : List Tok} (hw : WellFormed ts) :
    relationLoop expr ((render pRef ts).length + 1) [] (render pRef ts) =
      .ok (if ∀ n ∈ refs ts, (expr n).isSome then
        some (render (fun n => (expr n).getD []) ts) else none) := by
  simpa using relationLoop_render expr _ ts [] hw (by omega)

/-- **C33 is violated** for malformed relationships: the text "p1" (one task, known) makes
`std::string::substr` throw, "|(px )" makes `std::stoll` throw, and nothing catches it in the
calculation. -/
theorem C33_malformed_relationship_violated (e : Str) :
    relationLoop (fun _ => some e) 3 [] "p1".toList = .throws ∧
    relationLoop (fun _ => some e) 7 [] "|(px )".toList = .throws := by
  constructor
  · simp [relationLoop, findChar, positionAfterId, substrLen, stoll, stollDigits, isSpaceC,
      List.findIdx?_cons, decimalValue, int64Max, Nat.ofDigitChars]
  · simp [relationLoop, findChar, positionAfterId, substrLen, stoll, stollDigits, isSpaceC,
      List.findIdx?_cons]

/-- What a request has to look like: every task has a written composition over its own options. -/
structure GoodPlans (plans : List (Int × PlanOptions)) (T : Int → Tree) : Prop where
  nodup : (plans.map Prod.fst).Nodup
  written : ∀ p ∈ plans, Padded (T p.1) p.2.composition
  op : ∀ p ∈ plans, ∃ o cs, T p.1 = .op o cs
  fits : ∀ p ∈ plans, ∀ a ∈ objectives (T p.1), Fits a ∧ inInt64 (taskAndOptionId p.1 a) = true
  options : ∀ p ∈ plans, ∀ a ∈ objectives (T p.1), ∃ o ∈ p.2.options, o.taskId = p.1 ∧ o.optionId = a
  nonempty : ∃ p ∈ plans, objectives (T p.1) ≠ []

/-- The expression of a task with its options renamed to task-option ids. -/
def taskTree (T : Int → Tree) (k : Int) : Tree :=
  substTree (fun a => .action (taskAndOptionId k a)) (T k)

theorem objectives_subst (f : Int → Int) : ∀ t : Tree,
    objectives (substTree (fun a => .action (f a)) t) = (objectives t).map f := by
  apply Tree.rec
    (motive_1 := fun t => objectives (substTree (fun a => .action (f a)) t) = (objectives t).map f)
    (motive_2 := fun cs => Verif.Algebra.objectivesL (substTrees (fun a => .action (f a)) cs) =
      (Verif.Algebra.objectivesL cs).map f)
  · intro a; simp [substTree, objectives]
  · intro o cs ih; simpa [substTree, objectives] using ih
  · simp [substTrees, Verif.Algebra.objectivesL]
  · intro c cs h1 h2; simp [substTrees, Verif.Algebra.objectivesL, h1, h2]

theorem mem_insertSet {a b : Int} : ∀ {l : List Int}, a ∈ insertSet b l ↔ a = b ∨ a ∈ l
  | [] => by simp [insertSet]
  | c :: cs => by
    simp only [insertSet]
    split
    · simp
    · split
      · next h => subst h; simp
      · simp only [List.mem_cons, mem_insertSet (l := cs)]; grind

theorem mem_objectiveIds {plans : List (Int × PlanOptions)} {a : Int} :
    a ∈ objectiveIds plans ↔
      ∃ p ∈ plans, ∃ o ∈ p.2.options, taskAndOptionId o.taskId o.optionId = a := by
  have gen : ∀ (l acc : List Int), a ∈ l.foldl (fun s x => insertSet x s) acc ↔ a ∈ l ∨ a ∈ acc := by
    intro l
    induction l with
    | nil => simp
    | cons x l ih =>
      intro acc
      rw [List.foldl_cons, ih, mem_insertSet, List.mem_cons]
      grind
  unfold objectiveIds
  rw [gen]
  simp

/-- Rewriting a written composition gives a written expression. -/
theorem rewrite_written {T : Int → Tree} {plans : List (Int × PlanOptions)} (h : GoodPlans plans T)
    {p : Int × PlanOptions} (hp : p ∈ plans) :
    ∃ e, rewriteComposition p.1 p.2.composition = .text e ∧ Padded (taskTree T p.1) e := by
  obtain ⟨s, b, hsb, hb, hs⟩ := h.written p hp
  obtain ⟨ts, h1, h2, h3, h4⟩ := written_toks hs (fun a ha => (h.fits p hp a ha).1)
  have hw : WellFormed (ts ++ b.map Tok.ch) := h3 _ (by
    have := wf_chars (cs := b) (ts := []) |>.2 ⟨blanks_no_p hb, trivial⟩
    simpa using this) (.inr (h.op p hp))
  have hne : ts ≠ [] := by
    intro e
    obtain ⟨o, cs, ho⟩ := h.op p hp
    rw [ho] at hs
    rw [e] at h1
    cases hs
    simp [render] at h1
  have hren : ∀ f, render f (ts ++ b.map Tok.ch) = render f ts ++ b := by
    intro f; rw [render_append, render_chars]
  refine ⟨_, by rw [hsb, ← h1, ← hren]; exact C33_composition_partial p.1 hw (by simp [hne]), ?_⟩
  obtain ⟨s', b', e', hb', hs'⟩ := h4 (fun a => .action (taskAndOptionId p.1 a)) (fun n => pRef (p.1 * 100000 + n))
    (fun a _ => .of_written (.action _))
  refine ⟨s', b' ++ b, by rw [hren, e']; simp, ?_, hs'⟩
  intro c hc
  rcases List.mem_append.1 hc with hc | hc
  · exact hb' c hc
  · exact hb c hc

theorem taskExpressions_good {T : Int → Tree} : ∀ (plans : List (Int × PlanOptions)),
    (plans.map Prod.fst).Nodup →
    (∀ p ∈ plans, ∃ e, rewriteComposition p.1 p.2.composition = .text e ∧ Padded (taskTree T p.1) e) →
    (taskExpressions plans).2 = true ∧
    ∀ p ∈ plans, ∃ e, (taskExpressions plans).1.lookup p.1 = some e ∧ Padded (taskTree T p.1) e
  | [], _, _ => by simp [taskExpressions]
  | (k, o) :: rest, hn, hall => by
    obtain ⟨e, he, hw⟩ := hall (k, o) (by simp)
    simp only [List.map_cons, List.nodup_cons] at hn
    obtain ⟨i1, i2⟩ := taskExpressions_good rest hn.2 (fun p hp => hall p (by simp [hp]))
    simp only [taskExpressions, he]
    refine ⟨i1, ?_⟩
    intro p hp
    rcases List.mem_cons.1 hp with rfl | hp
    · exact ⟨e, by simp, hw⟩
    · have : p.1 ≠ k := by
        intro hk; apply hn.1; rw [← hk]; exact List.mem_map.2 ⟨p, hp, rfl⟩
      obtain ⟨e', h1, h2⟩ := i2 p hp
      refine ⟨e', ?_, h2⟩
      rw [List.lookup_cons]
      have : (p.1 == k) = false := by simpa using this
      rw [this]
      exact h1

theorem parallelBody_good {T : Int → Tree} {exprs : List (Int × Str)} :
    ∀ (plans : List (Int × PlanOptions)),
    (∀ p ∈ plans, ∃ e, exprs.lookup p.1 = some e ∧ Padded (taskTree T p.1) e) →
    (parallelBody exprs plans).2 = true ∧
    WrittenBody (plans.map fun p => taskTree T p.1) (parallelBody exprs plans).1
  | [], _ => by
    simp only [parallelBody, List.map_nil, true_and]
    exact .nil (by simp [Blanks])
  | (k, o) :: rest, hall => by
    obtain ⟨e, he, hw⟩ := hall (k, o) (by simp)
    obtain ⟨i1, i2⟩ := parallelBody_good rest (fun p hp => hall p (by simp [hp]))
    simp only [parallelBody, he, List.map_cons]
    refine ⟨i1, ?_⟩
    have hrest : WrittenBody (rest.map fun p => taskTree T p.1) (' ' :: (parallelBody exprs rest).1) := by
      generalize (parallelBody exprs rest).1 = b at i2
      generalize (rest.map fun p => taskTree T p.1) = trees at i2
      cases i2 with
      | nil hb => exact .nil (by intro c hc; rcases List.mem_cons.1 hc with rfl | hc; rfl; exact hb c hc)
      | @cons b c s cs r hb h1 h2 h3 =>
        have : ' ' :: (b ++ s ++ r) = (' ' :: b) ++ s ++ r := by simp
        rw [this]
        refine .cons ?_ h1 h2 h3
        intro c hc
        rcases List.mem_cons.1 hc with rfl | hc
        · rfl
        · exact hb c hc
    have := body_padded (b := []) (by simp [Blanks]) hw hrest (fun _ => .inr ⟨_, rfl⟩)
    simpa using this

theorem initializeAlgebra_written {plans : List (Int × PlanOptions)} {rel s : Str} {t : Tree}
    (ha : algebraString rel plans = .ok (some s)) (hw : Padded t s)
    (hr : ∀ a, Occurs a t → inInt64 a = true) (hk : ∀ a, Occurs a t → a ∈ objectiveIds plans)
    (hne : objectiveIds plans ≠ []) : initializeAlgebra rel plans = .ok (some t) := by
  obtain ⟨s', b, rfl, hb, hw⟩ := hw
  have hs : s' ++ b ≠ [] := by
    intro e
    have : s' = [] := (List.append_eq_nil_iff.1 e).1
    subst this; cases hw
  have hlen : (objectiveIds plans).length ≠ 0 := by simpa using hne
  obtain ⟨g, hg, hroot, -⟩ := Verif.Algebra.C30_parse_written (b1 := []) (b2 := b) hw
    (by simp [Blanks]) hb hr hk
  simp only [List.nil_append] at hg
  simp only [initializeAlgebra, ha, Outcome.bind_ok, if_neg hs, Verif.Algebra.initAtomicObjectives,
    if_neg hlen, hg, hroot]
  simp

theorem occurs_taskTree {T : Int → Tree} {plans : List (Int × PlanOptions)} (h : GoodPlans plans T)
    {p : Int × PlanOptions} (hp : p ∈ plans) {a : Int} (ha : a ∈ objectives (taskTree T p.1)) :
    inInt64 a = true ∧ a ∈ objectiveIds plans := by
  rw [taskTree, objectives_subst] at ha
  obtain ⟨b, hb, rfl⟩ := List.mem_map.1 ha
  refine ⟨(h.fits p hp b hb).2, mem_objectiveIds.2 ⟨p, hp, ?_⟩⟩
  obtain ⟨o, ho, h1, h2⟩ := h.options p hp b hb
  exact ⟨o, ho, by rw [h1, h2]⟩

theorem mem_objectivesL {a : Int} {cs : List Tree} :
    a ∈ Verif.Algebra.objectivesL cs ↔ ∃ c ∈ cs, a ∈ objectives c := by
  rw [Verif.Algebra.objectivesL_eq, Verif.Algebra.mem_actionsOfList]
  simp only [Verif.Algebra.objectives_eq]

/-- **C33, end to end, no relationships.** When every task's composition is a written
expression over its options, the algebra the search runs on is the parallel composition of all
tasks, with option `a` of task `k` named `k*100000+a`. -/
theorem C33_all_tasks_in_parallel {plans : List (Int × PlanOptions)} {T : Int → Tree}
    (h : GoodPlans plans T) :
    initializeAlgebra [] plans = .ok (some (.op .par (plans.map fun p => taskTree T p.1))) := by
  obtain ⟨e1, e2⟩ := taskExpressions_good (T := T) plans h.nodup (fun p hp => rewrite_written h hp)
  obtain ⟨b1, b2⟩ := parallelBody_good (T := T) plans e2
  have hobj : ∀ a, Occurs a (.op .par (plans.map fun p => taskTree T p.1)) →
      ∃ p ∈ plans, a ∈ objectives (taskTree T p.1) := by
    intro a ha
    rw [Verif.Algebra.occurs_iff, ← Verif.Algebra.objectives_eq] at ha
    simp only [objectives] at ha
    obtain ⟨c, hc, hac⟩ := mem_objectivesL.1 ha
    obtain ⟨p, hp, rfl⟩ := List.mem_map.1 hc
    exact ⟨p, hp, hac⟩
  refine initializeAlgebra_written (s := '|' :: '(' :: ((parallelBody (taskExpressions plans).1 plans).1 ++ [')']))
    ?_ (.of_written (.op (o := .par) b2)) ?_ ?_ ?_
  · simp [algebraString, e1, b1]
  · intro a ha
    obtain ⟨p, hp, hac⟩ := hobj a ha
    exact (occurs_taskTree h hp hac).1
  · intro a ha
    obtain ⟨p, hp, hac⟩ := hobj a ha
    exact (occurs_taskTree h hp hac).2
  · obtain ⟨p, hp, hne⟩ := h.nonempty
    obtain ⟨a, ha⟩ := List.exists_mem_of_ne_nil _ hne
    have := (occurs_taskTree h hp (a := taskAndOptionId p.1 a) (by
      rw [taskTree, objectives_subst]; exact List.mem_map.2 ⟨a, ha, rfl⟩)).2
    intro e; rw [e] at this; simp at this

theorem objectives_substTree (f : Int → Tree) : ∀ (t : Tree) (a : Int),
    a ∈ objectives (substTree f t) ↔ ∃ k ∈ objectives t, a ∈ objectives (f k) := by
  apply Tree.rec
    (motive_1 := fun t => ∀ a, a ∈ objectives (substTree f t) ↔ ∃ k ∈ objectives t, a ∈ objectives (f k))
    (motive_2 := fun cs => ∀ a, a ∈ Verif.Algebra.objectivesL (substTrees f cs) ↔
      ∃ k ∈ Verif.Algebra.objectivesL cs, a ∈ objectives (f k))
  · intro b a; simp [substTree, objectives]
  · intro o cs ih a; simpa [substTree, objectives] using ih a
  · simp [substTrees, Verif.Algebra.objectivesL]
  · intro c cs h1 h2 a
    simp only [substTrees, Verif.Algebra.objectivesL, List.mem_append, h1, h2]
    grind

/-- **C33, end to end, with relationships.** When the relationship text is a written expression
over the tasks, the algebra the search runs on is that expression with each task replaced by the
task's expression (options renamed as above). -/
theorem C33_relationships_respected {plans : List (Int × PlanOptions)} {T : Int → Tree} {R : Tree}
    {rel : Str} (h : GoodPlans plans T) (hR : Written R rel) (hop : ∃ o cs, R = .op o cs)
    (hfit : ∀ k ∈ objectives R, Fits k) (hknown : ∀ k ∈ objectives R, ∃ p ∈ plans, p.1 = k) :
    initializeAlgebra rel plans = .ok (some (substTree (taskTree T) R)) := by
  obtain ⟨e1, e2⟩ := taskExpressions_good (T := T) plans h.nodup (fun p hp => rewrite_written h hp)
  obtain ⟨ts, h1, h2, h3, h4⟩ := written_toks hR hfit
  have hw : WellFormed ts := by simpa using h3 [] trivial (.inr hop)
  have hexp : ∀ k ∈ objectives R, ∃ e, (taskExpressions plans).1.lookup k = some e ∧
      Padded (taskTree T k) e := by
    intro k hk
    obtain ⟨p, hp, rfl⟩ := hknown k hk
    exact e2 p hp
  have hrel : rel ≠ [] := by intro e; subst e; cases hR
  refine initializeAlgebra_written
    (s := render (fun n => ((taskExpressions plans).1.lookup n).getD []) ts) ?_ ?_ ?_ ?_ ?_
  · have := C33_relationship_partial (fun k => (taskExpressions plans).1.lookup k) hw
    rw [h1, if_pos (by
      intro n hn
      rw [h2] at hn
      obtain ⟨e, he, -⟩ := hexp n hn
      simp [he])] at this
    simp [algebraString, hrel, this, e1]
  · apply h4 (taskTree T)
    intro k hk
    obtain ⟨e, he, hwe⟩ := hexp k hk
    rw [he]
    exact hwe
  · intro a ha
    rw [Verif.Algebra.occurs_iff, ← Verif.Algebra.objectives_eq, objectives_substTree] at ha
    obtain ⟨k, hk, hak⟩ := ha
    obtain ⟨p, hp, rfl⟩ := hknown k hk
    exact (occurs_taskTree h hp hak).1
  · intro a ha
    rw [Verif.Algebra.occurs_iff, ← Verif.Algebra.objectives_eq, objectives_substTree] at ha
    obtain ⟨k, hk, hak⟩ := ha
    obtain ⟨p, hp, rfl⟩ := hknown k hk
    exact (occurs_taskTree h hp hak).2
  · obtain ⟨p, hp, hne⟩ := h.nonempty
    obtain ⟨a, ha⟩ := List.exists_mem_of_ne_nil _ hne
    have := (occurs_taskTree h hp (a := taskAndOptionId p.1 a) (by
      rw [taskTree, objectives_subst]; exact List.mem_map.2 ⟨a, ha, rfl⟩)).2
    intro e; rw [e] at this; simp at this

/-! A request with two tasks: task 1 with two alternatives, task 2 with one option. -/

/-- The options of task 1, "+(p1 p2)". -/
def exPlan1 : PlanOptions :=
  { requestId := 5, taskId := 1, composition := "+(p1 p2)".toList,
    options := [{ taskId := 1, optionId := 1, cost := 3, eligible := [400, 500] },
                { taskId := 1, optionId := 2, cost := 4, eligible := [400] }] }

/-- The options of task 2, ".(p1)". -/
def exPlan2 : PlanOptions :=
  { requestId := 5, taskId := 2, composition := ".(p1)".toList,
    options := [{ taskId := 2, optionId := 1, cost := 1, eligible := [500] }] }

/-- Their expressions. -/
def exT (k : Int) : Tree :=
  if k = 1 then .op .alt [.action 1, .action 2] else .op .seq [.action 1]

theorem exGood : GoodPlans [(1, exPlan1), (2, exPlan2)] exT where
  nodup := by decide
  written := by
    have hnil : WrittenBody [] [] := .nil (by simp [Blanks])
    intro p hp
    simp only [List.mem_cons, List.not_mem_nil, or_false] at hp
    rcases hp with rfl | rfl
    · have b2 : WrittenBody [.action 2] " p2".toList :=
        .cons (b := [' ']) (s := "p2".toList) (rest := []) (by simp [Blanks]) (.action 2) hnil
          (fun _ => .inl rfl)
      have b1 : WrittenBody [.action 1, .action 2] "p1 p2".toList :=
        .cons (b := []) (s := "p1".toList) (rest := " p2".toList) (by simp [Blanks]) (.action 1) b2
          (fun _ => .inr ⟨_, rfl⟩)
      exact .of_written (.op (o := .alt) b1)
    · have b1 : WrittenBody [.action 1] "p1".toList :=
        .cons (b := []) (s := "p1".toList) (rest := []) (by simp [Blanks]) (.action 1) hnil
          (fun _ => .inl rfl)
      exact .of_written (.op (o := .seq) b1)
  op := by
    intro p hp
    simp only [List.mem_cons, List.not_mem_nil, or_false] at hp
    rcases hp with rfl | rfl
    · exact ⟨_, _, rfl⟩
    · exact ⟨_, _, rfl⟩
  fits := by
    intro p hp a ha
    simp only [List.mem_cons, List.not_mem_nil, or_false] at hp
    rcases hp with rfl | rfl <;>
      simp [exT, objectives, Verif.Algebra.objectivesL] at ha <;>
      (try rcases ha with rfl | rfl) <;> (try subst ha) <;> simp [Fits, int64Max] <;> decide
  options := by
    intro p hp a ha
    simp only [List.mem_cons, List.not_mem_nil, or_false] at hp
    rcases hp with rfl | rfl <;>
      simp [exT, objectives, Verif.Algebra.objectivesL] at ha <;>
      (try rcases ha with rfl | rfl) <;> (try subst ha) <;> decide
  nonempty := ⟨(1, exPlan1), by simp, by decide⟩

example : initializeAlgebra [] [(1, exPlan1), (2, exPlan2)] =
    .ok (some (.op .par [.op .alt [.action 100001, .action 100002], .op .seq [.action 200001]])) :=
  C33_all_tasks_in_parallel exGood

/-- Task 2 before task 1. -/
example : initializeAlgebra ".(p2 p1)".toList [(1, exPlan1), (2, exPlan2)] =
    .ok (some (.op .seq [.op .seq [.action 200001], .op .alt [.action 100001, .action 100002]])) := by
  have hnil : WrittenBody [] [] := .nil (by simp [Blanks])
  have b2 : WrittenBody [.action 1] " p1".toList :=
    .cons (b := [' ']) (s := "p1".toList) (rest := []) (by simp [Blanks]) (.action 1) hnil
      (fun _ => .inl rfl)
  have b1 : WrittenBody [.action 2, .action 1] "p2 p1".toList :=
    .cons (b := []) (s := "p2".toList) (rest := " p1".toList) (by simp [Blanks]) (.action 2) b2
      (fun _ => .inr ⟨_, rfl⟩)
  refine C33_relationships_respected (R := .op .seq [.action 2, .action 1]) exGood
    (.op (o := .seq) b1) ⟨_, _, rfl⟩ ?_ ?_
  · intro k hk
    simp [objectives, Verif.Algebra.objectivesL] at hk
    rcases hk with rfl | rfl <;> simp [Fits, int64Max]
  · intro k hk
    simp [objectives, Verif.Algebra.objectivesL] at hk
    rcases hk with rfl | rfl
    · exact ⟨(2, exPlan2), by simp, rfl⟩
    · exact ⟨(1, exPlan1), by simp, rfl⟩

end Verif.Assign
