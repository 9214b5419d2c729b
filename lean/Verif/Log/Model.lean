import Verif.Common
import Mathlib.Data.Nat.Notation
import Mathlib.Data.List.Basic

/-!
# Loggers

`src/cpp/Utilities/UxAS_LogManager.{h,cpp}`, `UxAS_LoggerBase.h`, `UxAS_FileLogger.cpp`, `UxAS_DatabaseLoggerHelper.cpp`,
`UxAS_HeadLogDataDatabaseLogger.cpp`, `UxAS_XmlUtil.h`; `src/cpp/Services/MessageLoggerDataService.cpp`.

Calls from several threads are taken one after the other (the manager holds a lock).  What is printed to the console about failures is
left out.
-/

namespace Verif.Log

open Verif

/-- UxAS_LogSeverityLevel.h 28-34. -/
inductive Sev where
  | debug | info | warning | error
deriving Repr, DecidableEq

/-- UxAS_LogSeverityLevel.h 28-34: the numbers of the levels. -/
def Sev.rank : Sev → ℕ
  | .debug => 1
  | .info => 2
  | .warning => 3
  | .error => 4

/-- UxAS_LogManager.h 49-59. -/
def Sev.text : Sev → Str
  | .debug => " DEBUG: ".toList
  | .info => " INFO:  ".toList
  | .warning => " WARN:  ".toList
  | .error => " ERROR: ".toList

/-- UxAS_LoggerBase.h 34-42: `HeadLogData`. -/
structure Entry where
  time : ℕ
  thread : Str
  sev : Sev
  text : Str
deriving Repr, DecidableEq

/-- UxAS_LoggerBase.h 132-144: the line of an entry, without its end. -/
def Entry.line (e : Entry) : Str :=
  if e.thread ≠ [] then decimal e.time ++ ' ' :: e.thread ++ e.sev.text ++ e.text else decimal e.time ++ e.sev.text ++ e.text

/-- UxAS_LogManager.h 143-163: the tokens of a message are put together.  `clock n` is the time when the token `n` is looked at; `e` is
what there is so far. -/
def put (threads : Bool) (thread : Str) (clock : ℕ → ℕ) : ℕ → Entry → List Str → Entry
  | _, e, [] => e
  | n, e, t :: l =>
      if e.text ≠ [] then put threads thread clock (n + 1) { e with text := e.text ++ t } l
      else put threads thread clock (n + 1)
        { e with time := clock n, text := e.text ++ t, thread := if threads then e.thread ++ thread else e.thread } l

/-- A logger, with what it was given so far. -/
structure Logger where
  type : Str
  name : Str
  level : Sev
  out : List Entry
deriving Repr, DecidableEq

/-- UxAS_LogManager.h 192-199. -/
structure Manager where
  threads : Bool := false
  loggers : List Logger := []
deriving Repr, DecidableEq

/-- The types for which a logger is made (UxAS_LogManager.cpp 40-51). -/
def types : List Str := ["ConsoleLogger".toList, "DatabaseLogger".toList, "FileLogger".toList, "HeadLogDataDatabaseLogger".toList]

/-- What is asked of the manager.  For `remove` and `level`, `none` means that the type or name is not looked at. -/
inductive Event where
  /-- `addLogger`; `opens` tells whether the file can be opened. -/
  | add (name type : Str) (level : Sev) (config : Str) (opens : Bool) (thread : Str) (clock : ℕ → ℕ)
  | remove (type name : Option Str)
  | level (type name : Option Str) (level : Sev)
  | log (sev : Sev) (tokens : List Str) (thread : Str) (clock : ℕ → ℕ)
  /-- UxAS_ConfigurationManager.cpp 411. -/
  | threads (b : Bool)

/-- UxAS_LogManager.cpp 155-198 and 214-236: is a logger meant? -/
def meant (type name : Option Str) (l : Logger) : Bool :=
  (type.all fun t => t == l.type) && (name.all fun n => n == l.name)

/-- UxAS_LogManager.h 104-134 and 172-184: the message is given to all loggers of its level and below. -/
def Manager.log (m : Manager) (sev : Sev) (tokens : List Str) (thread : Str) (clock : ℕ → ℕ) : Manager :=
  let e := put m.threads thread clock 0 ⟨0, [], sev, []⟩ tokens
  { m with loggers := m.loggers.map fun l => if l.level.rank ≤ sev.rank then { l with out := l.out ++ [e] } else l }

/-- UxAS_LogManager.cpp 92: the message about a new logger. -/
def opened (name type config : Str) : List Str :=
  ["LogManager successfully opened stream for logger [".toList, type, "] having name [".toList, name,
    "] and configuration [".toList, config, "]".toList]

/-- UxAS_LogManager.cpp 72-118: is a logger added?  A database logger is not yet set up, so that it does not open
(UxAS_DatabaseLoggerHelper.cpp 57-60). -/
def adds (type : Str) (opens : Bool) : Bool := types.contains type && (type != "DatabaseLogger".toList) && opens

/-- UxAS_LogManager.cpp 72-248. -/
def Manager.step (m : Manager) : Event → Manager
  | .add name type level config opens thread clock =>
      if adds type opens then
        ({ m with loggers := m.loggers ++ [⟨type, name, level, []⟩] } : Manager).log .info (opened name type config) thread clock
      else m
  | .remove type name => { m with loggers := m.loggers.filter fun l => !meant type name l }
  | .level type name v => { m with loggers := m.loggers.map fun l => if meant type name l then { l with level := v } else l }
  | .log sev tokens thread clock => m.log sev tokens thread clock
  | .threads b => { m with threads := b }

/-- Not in the code: all events in turn. -/
def Manager.run (m : Manager) (es : List Event) : Manager := es.foldl Manager.step m

/-! ### Files -/

/-- UxAS_FileLogger.h 79-85.  `files` are the files in the order in which they were opened, with their lines. -/
structure FileLog where
  location : Str
  stamp : Bool
  limit : ℕ
  files : List (Str × List Str) := []
  isOpen : Bool := false
  path : Str := []
  old : Str := []
  closeFailed : Str := []
  fileCount : ℕ := 0
  count : ℕ := 1
  failures : ℕ := 0
deriving Repr, DecidableEq

/-- UxAS_FileLogger.cpp 44-45. -/
def fileName (location : Str) (stamp : Bool) (n time : ℕ) : Str :=
  location ++ '_' :: decimal n ++ (if stamp then '_' :: decimal time else [])

/-- UxAS_FileLogger.cpp 39-50; `opens` tells whether the file can be opened. -/
def FileLog.open (f : FileLog) (time : ℕ) (opens : Bool) : FileLog :=
  let n := (f.fileCount + 1) % 2 ^ 32
  let p := fileName f.location f.stamp n time
  { f with old := f.path, path := p, fileCount := n, isOpen := opens, files := if opens then f.files ++ [(p, [])] else f.files }

/-- A line written to a stream is lost when there is no file. -/
def FileLog.put (f : FileLog) (line : Str) : FileLog :=
  if f.isOpen then
    { f with files := f.files.dropLast ++ (f.files.getLast?.map fun p => (p.1, p.2 ++ [line])).toList }
  else f

/-- UxAS_FileLogger.cpp 52-70: the file is closed; that fails when there is none, which is not noted for the first. -/
def FileLog.close (f : FileLog) : FileLog :=
  if f.old ≠ [] ∧ f.isOpen = false then { f with closeFailed := f.old, failures := (f.failures + 1) % 2 ^ 32 }
  else { f with isOpen := false }

/-- UxAS_FileLogger.cpp 118. -/
def closeText (p : Str) : Str := "FileLogger::closeAndOpenStream WARN: FileLogger failed to close log file [".toList ++ p ++ "]".toList
/-- UxAS_FileLogger.cpp 121. -/
def failText (n : ℕ) : Str := "FileLogger::closeAndOpenStream WARN: FileLogger close log file failure count [".toList ++ decimal n ++ "]".toList

/-- UxAS_FileLogger.cpp 99-124.  What is written to the closed stream (106, 111) is lost. -/
def FileLog.roll (f : FileLog) (time : ℕ) (opens : Bool) : FileLog :=
  if f.limit < f.count then
    let g := { (f.close.open time opens) with count := 1 }
    if g.old ≠ [] ∧ 0 < g.failures then
      (if g.closeFailed ≠ [] then { (g.put (closeText g.closeFailed)) with closeFailed := [] } else g).put (failText g.failures)
    else g
  else f

/-- UxAS_FileLogger.cpp 72-97: a line is written. -/
def FileLog.write (f : FileLog) (line : Str) (time : ℕ) (opens : Bool) : FileLog :=
  FileLog.roll { (f.put line) with count := (f.count + 1) % 2 ^ 32 } time opens

/-- A line, the time, and whether a file can then be opened. -/
abbrev Wrote := Str × ℕ × Bool

/-- Not in the code: all lines in turn. -/
def FileLog.writes (f : FileLog) (l : List Wrote) : FileLog := l.foldl (fun f w => f.write w.1 w.2.1 w.2.2) f

/-- UxAS_LoggerBase.h 172-180 and UxAS_FileLogger.cpp 25-50: a logger is set up and opened. -/
def fileLog (location : Str) (stamp : Bool) (limit time : ℕ) : FileLog :=
  FileLog.open { location := location, stamp := stamp, limit := limit } time true

end Verif.Log
