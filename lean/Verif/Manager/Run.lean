import Verif.Manager.Model

/-!
# The run of the program and its end (C205)

`ServiceManager::runUntil` (`src/cpp/Services/ServiceManager.cpp` 106-190), the main thread.  It looks at the services every half
second; what the other threads do between two looks is any list of events of the manager.
-/

namespace Verif.Manager

/-- ServiceManager.cpp 111-123, 132-143, 157-161: what a look of the main thread finds: what happened since the look before, the whole
seconds since the start by the clock of the system, the bridges that still run, whether the thread of the manager itself has ended.
Simplified: nothing happens between the check of the clock and the pass over the services. -/
structure Look where
  before : List SIn := []
  elapsed : Int := 0
  bridges : Nat := 0
  base : Bool := false

/-- ServiceManager.cpp 124, 143, 160: the other threads go on while the main thread sleeps. -/
def SM.after (s : SM) (l : Look) : SM := l.before.foldl (fun s i => (smStep s i).1) s

/-- ServiceManager.cpp 116, 135: with a pass of `removeTerminatedServices` after that. -/
def SM.look (s : SM) (l : Look) : SM := (smStep (s.after l) .cleanUp).1

/-- ServiceManager.cpp 259-283: the number of services and bridges that go on. -/
def SM.running (s : SM) (l : Look) : Nat := (s.look l).table.length + l.bridges

/-- ServiceManager.cpp 111-125: until the time is over or a stop was asked for and nothing runs any more; `none` if it goes on after
the looks given, else the state and the looks left. -/
def watch (seconds : Nat) : List Look → SM → Option (SM × List Look)
  | [], _ => none
  | l :: ls, s =>
    if l.elapsed < seconds then
      if (s.look l).terminating = true ∧ s.running l < 1 then some (s.look l, ls) else watch seconds ls (s.look l)
    else some (s.after l, ls)

/-- ServiceManager.cpp 130-144: waits until nothing runs any more, for the number of looks given. -/
def drain : Nat → List Look → SM → Option (SM × List Look)
  | 0, ls, s => some (s, ls)
  | _ + 1, [], _ => none
  | k + 1, l :: ls, s => if s.running l < 1 then some (s.look l, ls) else drain k ls (s.look l)

/-- ServiceManager.cpp 156-161: waits until the thread of the manager has ended, for the number of looks given. -/
def join : Nat → List Look → SM → Option SM
  | _, [], _ => none
  | 0, l :: _, s => some (s.after l)
  | k + 1, l :: ls, s => if l.base then some (s.after l) else join k ls (s.after l)

/-- ServiceManager.cpp 106-190: the end of the run: the state, the services that were asked to stop because the time was over, whether
`shutdownProcessor` is called. -/
structure End where
  sm : SM
  kills : Option (List Nat)
  shutdown : Bool
deriving DecidableEq

/-- `ServiceManager::runUntil`, ServiceManager.cpp 106-190; `none` if it goes on after the looks given. -/
def runUntil (seconds : Nat) (looks : List Look) (s : SM) : Option End :=
  match watch seconds looks s with
  | none => none
  | some (s, ls) =>
    if s.terminating then (join 20 ls s).map fun s => { sm := s, kills := none, shutdown := s.terminating }
    else
      match drain 20 ls s with
      | none => none
      | some (u, ls) => (join 20 ls u).map fun u => { sm := u, kills := some s.terminateAll, shutdown := u.terminating }

end Verif.Manager
