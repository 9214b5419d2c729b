import Verif.Manager.Model

/-! Vocabulary of the claims about the task manager and the service manager. -/

namespace Verif.Manager

open Verif

/-- A history of the task manager: the messages sent, in order. -/
def sent (s : TM) (h : List TIn) : List TOut := (runM tmStep s h).2.flatten

/-- The messages sent on one more input. -/
def reply (s : TM) (h : List TIn) (i : TIn) : List TOut := (tmStep (runM tmStep s h).1 i).2

/-- The value given last for an id. -/
def latest (reports : List (Int × Str)) (id : Int) : Option Str :=
  ((reports.filter fun p => p.1 = id).map (·.2)).getLast?

/-- What a history reports on entities, zones, areas, lines, points and missions. -/
def configsOf (h : List TIn) : List (Int × Str) := h.filterMap fun | .config i v => some (i, v) | _ => none
/-- Not in the code: the entity states of a history. -/
def statesOf (h : List TIn) : List (Int × Str) := h.filterMap fun | .state i v => some (i, v) | _ => none
/-- Not in the code: the keep-in zones of a history. -/
def keepInOf (h : List TIn) : List (Int × Str) := h.filterMap fun | .keepIn i v => some (i, v) | _ => none
/-- Not in the code: the keep-out zones of a history. -/
def keepOutOf (h : List TIn) : List (Int × Str) := h.filterMap fun | .keepOut i v => some (i, v) | _ => none
/-- Not in the code: the operating regions of a history. -/
def regionsOf (h : List TIn) : List (Int × Str) := h.filterMap fun | .region i v => some (i, v) | _ => none
/-- Not in the code: the areas of interest of a history. -/
def areasOf (h : List TIn) : List (Int × Str) := h.filterMap fun | .area i v => some (i, v) | _ => none
/-- Not in the code: the lines of interest of a history. -/
def linesOf (h : List TIn) : List (Int × Str) := h.filterMap fun | .line i v => some (i, v) | _ => none
/-- Not in the code: the points of interest of a history. -/
def pointsOf (h : List TIn) : List (Int × Str) := h.filterMap fun | .point i v => some (i, v) | _ => none
/-- Not in the code: the mission commands of a history, alone or in responses. -/
def missionsOf (h : List TIn) : List (Int × Str) :=
  h.flatMap fun | .response ms => ms | .mission i v => [(i, v)] | _ => []

/-- What a task needs is known after a history. -/
def Known (h : List TIn) (t : Task) : Prop :=
  match t.needs with
  | .area id => latest (areasOf h) id ≠ none
  | .line id => latest (linesOf h) id ≠ none
  | .point id => id > 0 → latest (pointsOf h) id ≠ none
  | .escort | .nothing => True

/-- A collection holds, once per id, exactly the values given last. -/
def Holds (m : List (Int × Str)) (reports : List (Int × Str)) : Prop :=
  (m.map (·.1)).Nodup ∧ ∀ id v, (id, v) ∈ m ↔ latest reports id = some v

/-- According to the messages sent, `n` is the service of a task: it was the last one created for the task and no kill
was sent for it since. -/
def Live (outs : List TOut) (task : Int) (n : Nat) : Prop :=
  ∃ A c B, outs = A ++ .create c :: B ∧ c.task.id = task ∧ c.serviceId = n ∧ .kill n ∉ B ∧
    ∀ c', .create c' ∈ B → c'.task.id ≠ task

/-- The services asked for, in order. -/
def createdIds (outs : List TOut) : List Nat := outs.filterMap fun | .create c => some c.serviceId | _ => none

/-- The option entries of a configuration that apply to all tasks. -/
def globalEntries (es : List OptEntry) : List OptEntry := es.filter fun e => e.taskId = none ∧ e.taskType = none

/-- The option entries for a task id. -/
def idEntries (es : List OptEntry) (id : Int) : List OptEntry := es.filter fun e => e.taskId = some id

/-- The option entries for a type. -/
def typeEntries (es : List OptEntry) (t : Str) : List OptEntry :=
  es.filter fun e => e.taskId = none ∧ e.taskType = some t

/-- The texts of entries. -/
def texts (es : List OptEntry) : Str := (es.map OptEntry.text).flatten

/-- A service is tracked by the service manager, and whether its thread ended. -/
def Tracks (s : SM) (id : Nat) (finished : Bool) : Prop := ∃ p ∈ s.table, p.2.id = id ∧ p.2.finished = finished

/-- The id of a started service: the one given with the request if that is positive, else its own. -/
def idOf (own : Nat) (given : Int) : Nat := if 0 < given then given.toNat else own

/-- A service ended and a clean-up pass came later. -/
def Gone (id : Nat) (h : List SIn) : Prop := ∃ A B, h = A ++ B ∧ .finish id ∈ A ∧ .cleanUp ∈ B

end Verif.Manager
