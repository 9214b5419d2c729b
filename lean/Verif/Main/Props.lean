import Verif.Main.Model

/-!
# The command line, the start and the end (C202)
-/

namespace Verif.Main

open Verif

/-! ### Vocabulary of the statements -/

/-- Not in the code: what a user asks for with one option. -/
inductive Wish where
  | path (p : Str)
  | seconds (n : Nat)
  | version
deriving Repr, DecidableEq

/-- Not in the code: how it is written. -/
def Wish.args : Wish → List Str
  | .path p => ["-cfgPath".toList, p]
  | .seconds n => ["-runUntil".toList, decimal n]
  | .version => ["-version".toList]

/-- Not in the code: the configuration file asked for last. -/
def lastPath : List Wish → Option Str
  | [] => none
  | .path p :: ws => (lastPath ws).or (some p)
  | _ :: ws => lastPath ws

/-- Not in the code: the run time asked for last. -/
def lastSeconds : List Wish → Option Nat
  | [] => none
  | .seconds n :: ws => (lastSeconds ws).or (some n)
  | _ :: ws => lastSeconds ws

/-- Not in the code: run times that are an `int`. -/
def Small (ws : List Wish) : Prop := ∀ n, .seconds n ∈ ws → n ≤ 2147483647

/-! ### The command line -/

theorem decimal_head {n : Nat} {c : Char} {s : Str} (h : decimal n = c :: s) : c.isDigit = true :=
  decimal_isDigit (n := n) (by rw [h]; simp)

theorem digit_not {c d : Char} (h : c.isDigit = true) (hd : d.isDigit = false) : c ≠ d := by
  rintro rfl
  rw [h] at hd
  cases hd

theorem digit_space {c : Char} (h : c.isDigit = true) : isSpace c = false := by
  unfold isSpace
  simp only [Bool.or_eq_false_iff, beq_eq_false_iff_ne]
  exact ⟨⟨⟨⟨⟨digit_not h (by decide), digit_not h (by decide)⟩, digit_not h (by decide)⟩, digit_not h (by decide)⟩, digit_not h (by decide)⟩,
    digit_not h (by decide)⟩

theorem takeWhile_digits : ∀ s : Str, (∀ c ∈ s, c.isDigit = true) → s.takeWhile Char.isDigit = s
  | [], _ => rfl
  | c :: s, h => by
      rw [List.takeWhile_cons, if_pos (h c (by simp)), takeWhile_digits s fun d hd => h d (by simp [hd])]

theorem atoi_decimal {n : Nat} (h : n ≤ 2147483647) : atoi (decimal n) = .ok n := by
  have hd : (decimal n).dropWhile isSpace = decimal n ∧ signed (decimal n) = (1, decimal n) := by
    cases hs : decimal n with
    | nil => exact absurd hs (decimal_ne_nil n)
    | cons c s =>
      have hc := decimal_head hs
      refine ⟨?_, ?_⟩
      · rw [List.dropWhile_cons, if_neg]
        rw [digit_space hc]
        decide
      · rw [signed, if_neg (digit_not hc (by decide)), if_neg (digit_not hc (by decide))]
  unfold atoi
  simp only [hd.1, hd.2, takeWhile_digits _ fun _ hx => decimal_isDigit hx, decimalValue_decimal, Int.one_mul]
  rw [if_pos (by omega)]

theorem toUint32_small {n : Nat} (h : n ≤ 2147483647) : toUint32 n = n := by unfold toUint32; omega

theorem parse_wishes (rest : List Str) : ∀ (ws : List Wish) (st : Settings), Small ws →
    parse st ((ws.flatMap Wish.args) ++ rest) =
      parse { path := (lastPath ws).getD st.path, seconds := (lastSeconds ws).getD st.seconds } rest
  | [], st, _ => by simp [lastPath, lastSeconds]
  | w :: ws, st, h => by
      have ih := fun st => parse_wishes rest ws st fun n hn => h n (by simp [hn])
      cases w with
      | path p =>
        simp only [List.flatMap_cons, Wish.args, List.cons_append, List.nil_append, lastPath, lastSeconds]
        rw [parse, if_pos (show "-cfgPath".toList = argPath from rfl), ih]
        cases lastPath ws <;> rfl
      | seconds n =>
        have hn := h n (by simp)
        simp only [List.flatMap_cons, Wish.args, List.cons_append, List.nil_append, lastPath, lastSeconds]
        rw [parse, if_neg (by decide), if_pos (show "-runUntil".toList = argUntil from rfl), atoi_decimal hn, Outcome.bind_ok, ih, toUint32_small hn]
        cases lastSeconds ws <;> rfl
      | version =>
        simp only [List.flatMap_cons, Wish.args, List.cons_append, List.nil_append, lastPath, lastSeconds]
        rw [← ih]
        cases (ws.flatMap Wish.args) ++ rest with
        | nil =>
          show (if argVersion = argPath ∨ argVersion = argUntil then _ else if argVersion = argVersion then _ else _) = _
          rw [if_neg (by decide), if_pos rfl, parse]
        | cons a as => rw [parse, if_neg (by decide), if_neg (by decide), if_pos (show "-version".toList = argVersion from rfl)]

/-- **C202.**  If every step succeeds the program runs with the configuration file and for the time asked for last; without a wish (or
with a time of zero) for as long as the configuration says; then the services are destroyed and the server is stopped and freed, in this
order. -/
theorem C202_runs (w : World) (ws : List Wish) (h : Small ws) (hok : ∀ s, w.ok s = true) :
    main w (ws.flatMap Wish.args) = .ok
      ([.step .load, .step .configureServer, .step .startServer, .step .configureManager, .step .startManager, .step .bridges,
        .run (match lastSeconds ws with
          | some (n + 1) => n + 1
          | _ => w.duration), .destroyManager, .stopServer, .freeServer], 0) := by
  have e := parse_wishes [] ws {} h
  rw [List.append_nil] at e
  unfold main
  rw [e, parse, Outcome.bind_ok]
  simp only [hok, steps, start, finish, if_true]
  cases lastSeconds ws with
  | none => rfl
  | some n => cases n <;> simp

/-- **C202.**  The file that is loaded is the one named last, or `cfg.xml`. -/
theorem C202_path (ws : List Wish) (h : Small ws) : ∃ st, parse {} (ws.flatMap Wish.args) = .ok (some st) ∧
    st.path = (lastPath ws).getD "cfg.xml".toList := by
  have e := parse_wishes [] ws {} h
  rw [List.append_nil] at e
  exact ⟨_, by rw [e, parse], rfl⟩

/-- **C202.**  An argument that is not known makes the program end with -1 before anything is started, whatever comes before and after. -/
theorem C202_unknown (w : World) (ws : List Wish) (h : Small ws) (a : Str) (rest : List Str) (h1 : a ≠ "-cfgPath".toList)
    (h2 : a ≠ "-runUntil".toList) (h3 : a ≠ "-version".toList) : main w (ws.flatMap Wish.args ++ a :: rest) = .ok ([], -1) := by
  unfold main
  rw [parse_wishes (a :: rest) ws {} h]
  cases rest with
  | nil =>
    rw [parse, if_neg (show ¬ (a = argPath ∨ a = argUntil) from fun h => h.elim h1 h2), if_neg (show ¬ a = argVersion from h3)]
    rfl
  | cons b bs =>
    rw [parse, if_neg (show ¬ a = argPath from h1), if_neg (show ¬ a = argUntil from h2), if_neg (show ¬ a = argVersion from h3)]
    rfl

/-- **C202 is false.**  An option without its value at the end of the command line is not refused: a null pointer is read. -/
theorem C202_no_value_violated (w : World) (ws : List Wish) (h : Small ws) (a : Str) (ha : a = "-cfgPath".toList ∨ a = "-runUntil".toList) :
    main w (ws.flatMap Wish.args ++ [a]) = .ub := by
  unfold main
  rw [parse_wishes [a] ws {} h, parse, if_pos (show a = argPath ∨ a = argUntil from ha)]
  rfl

/-- **C202 is false.**  A run time of -1 s is one of 136 years. -/
theorem C202_negative_violated (w : World) (hok : ∀ s, w.ok s = true) :
    ∃ t, main w ["-runUntil".toList, "-1".toList] = .ok t ∧ .run 4294967295 ∈ t.1 := by
  have : parse {} ["-runUntil".toList, "-1".toList] = .ok (some { seconds := 4294967295 }) := by decide +kernel
  refine ⟨_, by unfold main; rw [this, Outcome.bind_ok]; simp only [hok, if_true]; rfl, ?_⟩
  simp [steps, start, finish, hok]

/-- **C202 is false.**  What is not a number is not refused: the configured time is used. -/
theorem C202_no_number_violated (w : World) (hok : ∀ s, w.ok s = true) :
    ∃ t, main w ["-runUntil".toList, "soon".toList] = .ok t ∧ .run w.duration ∈ t.1 := by
  have : parse {} ["-runUntil".toList, "soon".toList] = .ok (some {}) := by decide +kernel
  refine ⟨_, by unfold main; rw [this, Outcome.bind_ok]; simp only [hok, if_true]; rfl, ?_⟩
  simp [steps, start, finish, hok]

/-! ### A step that fails -/

/-- Not in the code: the steps in their order, with the exit codes of the program. -/
def order : List (Step × Int) :=
  [(.load, 100), (.configureServer, 210), (.startServer, 220), (.configureManager, 400), (.startManager, 410), (.bridges, 300)]

/-- **C202.**  If a step fails, the exit code is that of the first that fails; all before it were done, in their order, nothing that comes
after it is started, and the program does not run. -/
theorem C202_fails {w : World} {args : List Str} {st : Settings} (hp : parse {} args = .ok (some st)) {pre post : List (Step × Int)}
    {s : Step} {c : Int} (ho : order = pre ++ (s, c) :: post) (hpre : ∀ x ∈ pre, w.ok x.1 = true) (hs : w.ok s = false) :
    ∃ acts, main w args = .ok (acts, c) ∧ acts.filter (· ≠ .freeServer) = (pre ++ [(s, c)]).map fun x => .step x.1 := by
  unfold main
  rw [hp, Outcome.bind_ok]
  simp only [order] at ho
  rcases pre with _ | ⟨p0, _ | ⟨p1, _ | ⟨p2, _ | ⟨p3, _ | ⟨p4, _ | ⟨p5, p6⟩⟩⟩⟩⟩⟩ <;>
    simp only [List.nil_append, List.cons_append, List.cons.injEq, Prod.mk.injEq] at ho
  · obtain ⟨⟨rfl, rfl⟩, -⟩ := ho
    simp [hs]
  · obtain ⟨rfl, ⟨rfl, rfl⟩, -⟩ := ho
    simp only [List.mem_cons, List.not_mem_nil, or_false, forall_eq] at hpre
    simp [hs, hpre, steps, start]
  · obtain ⟨rfl, rfl, ⟨rfl, rfl⟩, -⟩ := ho
    simp only [List.mem_cons, List.not_mem_nil, or_false, forall_eq_or_imp, forall_eq] at hpre
    simp [hs, hpre, steps, start]
  · obtain ⟨rfl, rfl, rfl, ⟨rfl, rfl⟩, -⟩ := ho
    simp only [List.mem_cons, List.not_mem_nil, or_false, forall_eq_or_imp, forall_eq] at hpre
    simp [hs, hpre, steps, start]
  · obtain ⟨rfl, rfl, rfl, rfl, ⟨rfl, rfl⟩, -⟩ := ho
    simp only [List.mem_cons, List.not_mem_nil, or_false, forall_eq_or_imp, forall_eq] at hpre
    simp [hs, hpre, steps, start]
  · obtain ⟨rfl, rfl, rfl, rfl, rfl, ⟨rfl, rfl⟩, -⟩ := ho
    simp only [List.mem_cons, List.not_mem_nil, or_false, forall_eq_or_imp, forall_eq] at hpre
    simp [hs, hpre, steps, start]
  · obtain ⟨-, -, -, -, -, -, h⟩ := ho
    simp at h

/-- **C202 is false.**  Whenever the server has been started and a later step fails, the server is freed although its thread has not been
told to stop, and the services that run are not ended. -/
theorem C202_freed_running_violated {w : World} {args : List Str} {st : Settings} (hp : parse {} args = .ok (some st))
    (hload : w.ok .load = true) (hc : w.ok .configureServer = true) (hs : w.ok .startServer = true)
    (hf : ∃ s ∈ [Step.configureManager, .startManager, .bridges], w.ok s = false) :
    ∃ acts c, main w args = .ok (acts, c) ∧ .step .startServer ∈ acts ∧ .freeServer ∈ acts ∧ .stopServer ∉ acts ∧ .destroyManager ∉ acts := by
  unfold main
  rw [hp, Outcome.bind_ok]
  simp only [hload, if_true, steps, start, hc, hs]
  refine ⟨_, _, rfl, by simp, ?_⟩
  cases h1 : w.ok .configureManager
  · simp
  · cases h2 : w.ok .startManager
    · simp
    · cases h3 : w.ok .bridges
      · simp
      · simp [h1, h2, h3] at hf

/-! ### Cases -/

/-- `C202_runs`: the last of two run times counts, also if a file is called like an option. -/
example : main ⟨fun _ => true, 7⟩ (List.flatMap Wish.args [.seconds 3, .path "-version".toList, .seconds 60, .version]) = .ok
    ([.step .load, .step .configureServer, .step .startServer, .step .configureManager, .step .startManager, .step .bridges,
      .run 60, .destroyManager, .stopServer, .freeServer], 0) :=
  C202_runs _ _ (by intro n hn; simp at hn; omega) (fun _ => rfl)

/-- `C202_path`. -/
example : ∃ st, parse {} (List.flatMap Wish.args [.path "a.xml".toList, .path "b.xml".toList]) = .ok (some st) ∧ st.path = "b.xml".toList :=
  C202_path [.path "a.xml".toList, .path "b.xml".toList] (by intro n hn; simp at hn)

/-- `C202_unknown`. -/
example : main ⟨fun _ => true, 7⟩ ["-version".toList, "-help".toList, "-version".toList] = .ok ([], -1) :=
  C202_unknown _ [.version] (by intro n hn; simp at hn) "-help".toList ["-version".toList] (by decide) (by decide) (by decide)

/-- `C202_fails`: a service that cannot be created. -/
example : ∃ acts, main ⟨fun s => s ≠ .startManager, 7⟩ [] = .ok (acts, 410) ∧ acts.filter (· ≠ .freeServer) =
    [.step .load, .step .configureServer, .step .startServer, .step .configureManager, .step .startManager] :=
  C202_fails (st := {}) rfl (pre := [(.load, 100), (.configureServer, 210), (.startServer, 220), (.configureManager, 400)])
    (post := [(.bridges, 300)]) rfl (by decide) (by decide)

/-- `C202_freed_running_violated`. -/
example : ∃ acts c, main ⟨fun s => s ≠ .bridges, 7⟩ [] = .ok (acts, c) ∧ .step .startServer ∈ acts ∧ .freeServer ∈ acts ∧
    .stopServer ∉ acts ∧ .destroyManager ∉ acts :=
  C202_freed_running_violated (st := {}) rfl (by decide) (by decide) (by decide) ⟨.bridges, by decide, by decide⟩

end Verif.Main
