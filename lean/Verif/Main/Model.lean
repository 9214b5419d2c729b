import Verif.Common

/-!
The program itself: the command line, the order in which the parts are started, and the exit code (`src/cpp/UxAS_Main.cpp`).

Left out: logging, the output of `-version`, and what the parts do (whether each step succeeds is a parameter).  The strings of the command
line have no byte zero.
-/

namespace Verif.Main

open Verif

/-! ### The command line -/

/-- For UxAS_Main.cpp 98: `isspace` in the "C" locale. -/
def isSpace (c : Char) : Bool := c == ' ' || c == '\t' || c == '\n' || c == '\x0b' || c == '\x0c' || c == '\r'

/-- For UxAS_Main.cpp 98: the sign read by `std::atoi`, and the rest. -/
def signed : Str → Int × Str
  | [] => (1, [])
  | c :: u => if c = '-' then (-1, u) else if c = '+' then (1, u) else (1, c :: u)

/-- UxAS_Main.cpp 98: `std::atoi`: white space, a sign, and the digits that follow; 0 when there are none; undefined when the value is
not an `int`. -/
def atoi (s : Str) : Outcome Int :=
  let r := signed (s.dropWhile isSpace)
  let v := r.1 * ((decimalValue (r.2.takeWhile Char.isDigit) : Nat) : Int)
  if -2147483648 ≤ v ∧ v ≤ 2147483647 then .ok v else .ub

/-- UxAS_Main.cpp 98: `int` to `uint32_t`. -/
def toUint32 (v : Int) : Nat := (v % 4294967296).toNat

/-- UxAS_Main.cpp 85-86: `cfgPath` and `runUntil_sec`. -/
structure Settings where
  path : Str := "cfg.xml".toList
  seconds : Nat := 0
deriving Repr, DecidableEq

/-- UxAS_Main.cpp 42-44. -/
def argPath : Str := "-cfgPath".toList
/-- UxAS_Main.cpp 43. -/
def argVersion : Str := "-version".toList
/-- UxAS_Main.cpp 44. -/
def argUntil : Str := "-runUntil".toList

/-- UxAS_Main.cpp 88-125: the loop over the arguments; `none` when one is not recognised, and undefined when the last one needs a value
(`argv[argc]` is a null pointer). -/
def parse (st : Settings) : List Str → Outcome (Option Settings)
  | [] => .ok (some st)
  | [a] =>
    if a = argPath ∨ a = argUntil then .ub
    else if a = argVersion then .ok (some st)
    else .ok none
  | a :: b :: rest =>
    if a = argPath then parse { st with path := b } rest
    else if a = argUntil then (atoi b).bind fun v => parse { st with seconds := toUint32 v } rest
    else if a = argVersion then parse st (b :: rest)
    else .ok none

/-! ### Starting and ending -/

/-- UxAS_Main.cpp 187-272: the steps that can fail (creating the server, 200-208, cannot). -/
inductive Step where
  | load
  | configureServer
  | startServer
  | configureManager
  | startManager
  | bridges
deriving Repr, DecidableEq

/-- UxAS_Main.cpp 187-292: what is done. -/
inductive Act where
  | step (s : Step)
  | run (seconds : Nat)
  | destroyManager
  | stopServer
  | freeServer
deriving Repr, DecidableEq

/-- Whether each step succeeds, and the run duration of the configuration file once it is loaded. -/
structure World where
  ok : Step → Bool
  duration : Nat

/-- UxAS_Main.cpp 212-272: the steps after the server is created, with their exit codes. -/
def steps : List (Step × Int) :=
  [(.configureServer, 210), (.startServer, 220), (.configureManager, 400), (.startManager, 410), (.bridges, 300)]

/-- UxAS_Main.cpp 212-272: one step after the other; at a `return` the `unique_ptr` frees the server. -/
def start (w : World) (last : List Act × Int) : List (Step × Int) → List Act × Int
  | [] => last
  | (s, c) :: rest =>
    if w.ok s then
      let r := start w last rest
      (.step s :: r.1, r.2)
    else ([.step s, .freeServer], c)

/-- UxAS_Main.cpp 274-292: the run and the end. -/
def finish (w : World) (st : Settings) : List Act × Int :=
  ([.run (if st.seconds = 0 then w.duration else st.seconds), .destroyManager, .stopServer, .freeServer], 0)

/-- UxAS_Main.cpp 60-293: `main`; what is done and the exit code. -/
def main (w : World) (args : List Str) : Outcome (List Act × Int) :=
  (parse {} args).bind fun
    | none => .ok ([], -1)
    | some st =>
      if w.ok .load then
        let r := start w (finish w st) steps
        .ok (.step .load :: r.1, r.2)
      else .ok ([.step .load], 100)

end Verif.Main
