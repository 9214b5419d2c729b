import Verif.Log.Model

/-! # What loggers are given (C184) -/

namespace Verif.Log

open Verif

/-! ### One entry -/

/-- How often the time is read for a message: until there is some text. -/
def reads (tokens : List Str) : ℕ := min ((tokens.takeWhile List.isEmpty).length + 1) tokens.length

/-- The entry of a message: all its tokens, with the time of the last reading and the thread once for each. -/
def entryOf (threads : Bool) (sev : Sev) (tokens : List Str) (thread : Str) (clock : ℕ → ℕ) : Entry :=
  { time := if reads tokens = 0 then 0 else clock (reads tokens - 1)
    thread := if threads then (List.replicate (reads tokens) thread).flatten else []
    sev := sev
    text := tokens.flatten }

theorem put_text (threads : Bool) (thread : Str) (clock : ℕ → ℕ) : ∀ (l : List Str) (n : ℕ) (e : Entry), e.text ≠ [] →
    put threads thread clock n e l = { e with text := e.text ++ l.flatten }
  | [], n, e, _ => by simp [put]
  | t :: l, n, e, h => by
      rw [put, if_pos h, put_text threads thread clock l (n + 1) _ (by simp [h])]
      simp [List.append_assoc]

theorem put_empty (threads : Bool) (thread : Str) (clock : ℕ → ℕ) : ∀ (l : List Str) (n : ℕ) (e : Entry), e.text = [] →
    put threads thread clock n e l =
      { e with
        time := if reads l = 0 then e.time else clock (n + (reads l - 1))
        thread := if threads then e.thread ++ (List.replicate (reads l) thread).flatten else e.thread
        text := l.flatten }
  | [], n, e, h => by
      obtain ⟨a, b, c, d⟩ := e
      simp only at h; subst h
      simp [put, reads]
  | t :: l, n, e, h => by
      rw [put, if_neg (by simp [h])]
      by_cases ht : t = []
      · subst ht
        rw [put_empty threads thread clock l (n + 1) _ (by simp [h])]
        have hr : reads ([] :: l) = reads l + 1 := by
          unfold reads; simp
        rw [hr]
        by_cases hl : reads l = 0
        · cases threads <;> simp [hl]
        · have e1 : n + 1 + (reads l - 1) = n + reads l := by omega
          cases threads <;> simp [hl, e1, List.replicate_succ]
      · rw [put_text threads thread clock l (n + 1) _ (by simp [ht])]
        have hr : reads (t :: l) = 1 := by
          unfold reads
          rw [List.takeWhile_cons_of_neg (by simpa using ht)]
          simp
        rw [hr, h]
        cases threads <;> simp

/-- **C184.**  What an entry is made of. -/
theorem put_eq (threads : Bool) (sev : Sev) (tokens : List Str) (thread : Str) (clock : ℕ → ℕ) :
    put threads thread clock 0 ⟨0, [], sev, []⟩ tokens = entryOf threads sev tokens thread clock := by
  rw [put_empty threads thread clock tokens 0 _ rfl]
  unfold entryOf
  simp

/-- **C184.**  A message that starts with some text has the time at which it was logged, its thread if that is asked for, and all its
tokens one after the other. -/
theorem C184_entry (threads : Bool) (sev : Sev) (t : Str) (l : List Str) (thread : Str) (clock : ℕ → ℕ) (h : t ≠ []) :
    put threads thread clock 0 ⟨0, [], sev, []⟩ (t :: l) = ⟨clock 0, if threads then thread else [], sev, t ++ l.flatten⟩ := by
  rw [put, if_neg (by simp), put_text _ _ _ _ _ _ (by simp [h])]
  cases threads <;> simp

/-! ### All loggers -/

/-- The level that an event gives to a logger. -/
def levelSet (l : Logger) : Event → Option Sev
  | .level type name v => if meant type name l then some v else none
  | _ => none

/-- The last level given. -/
def levelAfter (l : Logger) (es : List Event) : Sev := (es.filterMap (levelSet l)).getLastD l.level

/-- Whether threads are logged. -/
def threadSet : Event → Option Bool
  | .threads b => some b
  | _ => none

/-- Not in the code: whether threads are shown after the events. -/
def threadsAfter (b : Bool) (es : List Event) : Bool := (es.filterMap threadSet).getLastD b

/-- Not in the code: the event removes the logger. -/
def removes (l : Logger) : Event → Bool
  | .remove type name => meant type name l
  | _ => false

/-- The message of an event: logged, or about a new logger. -/
def message (b : Bool) : Event → Option Entry
  | .log sev tokens thread clock => some (entryOf b sev tokens thread clock)
  | .add name type _ config opens thread clock =>
      if adds type opens then
        some (entryOf b .info ["LogManager successfully opened stream for logger [".toList, type, "] having name [".toList, name,
          "] and configuration [".toList, config, "]".toList] thread clock)
      else none
  | _ => none

/-- What a logger is given: the messages of its level at the time, and above. -/
def given (b : Bool) (l : Logger) (es : List Event) : List Entry :=
  (List.range es.length).filterMap fun i =>
    (es[i]?.bind (message (threadsAfter b (es.take i)))).filter fun e => (levelAfter l (es.take i)).rank ≤ e.sev.rank

/-- What becomes of a logger. -/
def after (b : Bool) (es : List Event) (l : Logger) : Option Logger :=
  if es.any (removes l) then none else some { l with level := levelAfter l es, out := l.out ++ given b l es }

/-- The logger that an event adds. -/
def added : Event → Option Logger
  | .add name type level _ opens _ _ => if adds type opens then some ⟨type, name, level, []⟩ else none
  | _ => none

/-- The loggers that events add, with what becomes of them.  A new logger is given the message about itself. -/
def born (b : Bool) (es : List Event) : List Logger :=
  (List.range es.length).filterMap fun i =>
    (es[i]?.bind added).bind fun l => after (threadsAfter b (es.take i)) (es.drop i) l

theorem getLastD_cons_option {α : Type} (a : α) (o : Option α) (l : List α) : (o.toList ++ l).getLastD a = l.getLastD (o.getD a) := by
  cases o <;> cases l <;> simp [List.getLastD]

theorem filterMap_cons' {α β : Type} (f : α → Option β) (a : α) (l : List α) : (a :: l).filterMap f = (f a).toList ++ l.filterMap f := by
  rw [List.filterMap_cons]; cases f a <;> rfl

/-- An event, for one logger. -/
def one (b : Bool) (e : Event) (l : Logger) : Logger :=
  { l with level := (levelSet l e).getD l.level, out := l.out ++ ((message b e).filter fun x => l.level.rank ≤ x.sev.rank).toList }

theorem meant_eq {type name : Option Str} {l l' : Logger} (h1 : l.type = l'.type) (h2 : l.name = l'.name) :
    meant type name l = meant type name l' := by unfold meant; rw [h1, h2]

theorem levelSet_eq {l l' : Logger} (h1 : l.type = l'.type) (h2 : l.name = l'.name) : levelSet l = levelSet l' := by
  funext e; cases e <;> simp [levelSet, meant_eq h1 h2]

theorem removes_eq {l l' : Logger} (h1 : l.type = l'.type) (h2 : l.name = l'.name) : removes l = removes l' := by
  funext e; cases e <;> simp [removes, meant_eq h1 h2]

theorem levelAfter_cons (b : Bool) (e : Event) (es : List Event) (l : Logger) : levelAfter l (e :: es) = levelAfter (one b e l) es := by
  unfold levelAfter
  rw [filterMap_cons', getLastD_cons_option, levelSet_eq (l := one b e l) (l' := l) rfl rfl]
  rfl

theorem threadsAfter_cons (b : Bool) (e : Event) (es : List Event) :
    threadsAfter b (e :: es) = threadsAfter ((threadSet e).getD b) es := by
  unfold threadsAfter
  rw [filterMap_cons', getLastD_cons_option]

theorem given_cons (b : Bool) (e : Event) (es : List Event) (l : Logger) :
    given b l (e :: es) = ((message b e).filter fun x => l.level.rank ≤ x.sev.rank).toList ++ given ((threadSet e).getD b) (one b e l) es := by
  unfold given
  rw [List.length_cons, List.range_succ_eq_map, filterMap_cons', List.filterMap_map]
  congr 1
  apply List.filterMap_congr
  intro i _
  simp only [Function.comp, List.getElem?_cons_succ, List.take_succ_cons, threadsAfter_cons, levelAfter_cons b]

theorem after_cons (b : Bool) (e : Event) (es : List Event) (l : Logger) :
    after b (e :: es) l = if removes l e then none else after ((threadSet e).getD b) es (one b e l) := by
  unfold after
  rw [List.any_cons, removes_eq (l := one b e l) (l' := l) rfl rfl, given_cons, levelAfter_cons b]
  cases removes l e <;> simp [one, List.append_assoc]

theorem born_cons (b : Bool) (e : Event) (es : List Event) :
    born b (e :: es) = ((added e).bind (after b (e :: es))).toList ++ born ((threadSet e).getD b) es := by
  unfold born
  rw [List.length_cons, List.range_succ_eq_map, filterMap_cons', List.filterMap_map]
  congr 1
  apply List.filterMap_congr
  intro i _
  simp only [Function.comp, List.getElem?_cons_succ, List.take_succ_cons, threadsAfter_cons, List.drop_succ_cons]

theorem step_threads (m : Manager) (e : Event) : (m.step e).threads = (threadSet e).getD m.threads := by
  cases e with
  | add => rw [Manager.step]; split <;> rfl
  | _ => rfl

theorem filterMap_ite {α β : Type} (p : α → Bool) (f : α → Option β) (l : List α) :
    (l.filterMap fun a => if p a then none else f a) = (l.filter fun a => !p a).filterMap f := by
  induction l with
  | nil => rfl
  | cons a l ih =>
      rw [List.filterMap_cons, List.filter_cons]
      cases h : p a <;> simp [ih, List.filterMap_cons]

theorem log_loggers (m : Manager) (sev : Sev) (tokens : List Str) (thread : Str) (clock : ℕ → ℕ) :
    (m.log sev tokens thread clock).loggers = m.loggers.map (one m.threads (.log sev tokens thread clock)) := by
  unfold Manager.log
  simp only [put_eq]
  apply List.map_congr_left
  intro l _
  by_cases h : l.level.rank ≤ sev.rank
  · simp [one, h, levelSet, message, entryOf, Option.filter]
  · simp [one, h, levelSet, message, entryOf, Option.filter]

theorem step_loggers (m : Manager) (e : Event) :
    (m.step e).loggers = (m.loggers.filter fun l => !removes l e).map (one m.threads e) ++ ((added e).map (one m.threads e)).toList := by
  cases e with
  | add name type level config opens thread clock =>
      rw [Manager.step]
      have hf : (m.loggers.filter fun l => !removes l (.add name type level config opens thread clock)) = m.loggers := by
        rw [List.filter_eq_self]; intro l _; rfl
      rw [hf]
      by_cases h : adds type opens = true
      · rw [if_pos h, log_loggers]
        have : ∀ l, one m.threads (.add name type level config opens thread clock) l =
            one m.threads (.log .info (opened name type config) thread clock) l := by
          intro l; simp [one, message, levelSet, h, opened]
        simp [this, added, h]
      · rw [if_neg h]
        have : one m.threads (.add name type level config opens thread clock) = id := by
          funext l; simp [one, message, levelSet, h]
        simp [this, added, h]
  | remove type name =>
      have : one m.threads (.remove type name) = id := by funext l; simp [one, message, levelSet]
      simp [Manager.step, removes, added, this]
  | level type name v =>
      have hf : (m.loggers.filter fun l => !removes l (.level type name v)) = m.loggers := by
        rw [List.filter_eq_self]; intro l _; rfl
      rw [hf]
      simp only [Manager.step, added, Option.map_none, Option.toList_none, List.append_nil]
      apply List.map_congr_left
      intro l _
      by_cases h : meant type name l = true <;> simp [one, message, levelSet, h]
  | log sev tokens thread clock =>
      have hf : (m.loggers.filter fun l => !removes l (.log sev tokens thread clock)) = m.loggers := by
        rw [List.filter_eq_self]; intro l _; rfl
      rw [hf]
      simp [Manager.step, log_loggers, added]
  | threads b =>
      have : one m.threads (.threads b) = id := by funext l; simp [one, message, levelSet]
      simp [Manager.step, removes, added, this]

theorem added_stays {e : Event} {l : Logger} (h : added e = some l) : removes l e = false := by
  cases e <;> first | rfl | simp [added] at h

/-- **C184.**  After any events, the loggers are those of before and those added, in this order, without those removed since; each has
the level given last, and was given the messages of its level at the time and above, in order, those and no others. -/
theorem C184_loggers : ∀ (es : List Event) (m : Manager),
    (m.run es).loggers = m.loggers.filterMap (after m.threads es) ++ born m.threads es
  | [], m => by
      have : after m.threads [] = some := by
        funext l; simp [after, levelAfter, given]
      simp [Manager.run, this, born]
  | e :: es, m => by
      have : m.run (e :: es) = (m.step e).run es := rfl
      rw [this, C184_loggers es (m.step e), step_threads, step_loggers, born_cons, List.filterMap_append, List.append_assoc]
      have h1 : after m.threads (e :: es) = fun l => if removes l e then none else after ((threadSet e).getD m.threads) es (one m.threads e l) := by
        funext l; rw [after_cons]
      rw [h1, filterMap_ite (fun l => removes l e), List.filterMap_map]
      congr 2
      cases ha : added e with
      | none => rfl
      | some l =>
          simp only [Option.map_some, Option.toList_some, Option.bind_some, added_stays ha, Bool.false_eq_true, if_false]
          cases hx : after ((threadSet e).getD m.threads) es (one m.threads e l) <;> simp [hx]

/-- A console logger for warnings, set to all messages later, and a file that is removed in between. -/
def exEvents : List Event :=
  [.add "c".toList "ConsoleLogger".toList .warning [] true "1".toList (fun _ => 10),
   .add "f".toList "FileLogger".toList .debug [] true "1".toList (fun _ => 20),
   .add "d".toList "DatabaseLogger".toList .debug [] true "1".toList (fun _ => 25),
   .log .info ["a".toList, "b".toList] "1".toList (fun n => 30 + n), .log .error ["e".toList] "1".toList (fun _ => 40),
   .remove none (some "f".toList), .level (some "ConsoleLogger".toList) none .debug, .threads true,
   .log .debug ["z".toList] "2".toList (fun _ => 50)]

example : ((({} : Manager).run exEvents).loggers.map fun l => (String.ofList l.name, l.out.map fun e => (String.ofList e.line))) =
    [("c", ["40 ERROR: e", "50 2 DEBUG: z"])] := by decide +kernel

/-- **C184, what fails.**  A message that starts with an empty token has its thread twice, and the time of the second token. -/
theorem C184_thread_violated : (put true "7".toList (fun n => 100 + n) 0 ⟨0, [], .info, []⟩ [[], "x".toList]).line = "101 77 INFO:  x".toList := by
  decide +kernel

end Verif.Log
