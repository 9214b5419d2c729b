/-!
# The bridges are asked to stop while the main thread looks at them (C206)

`terminateAllBridges` (`src/cpp/Communications/LmcpObjectNetworkBridgeManager.cpp` 48-67) runs in the thread of the service manager
when a `KillService` with -1 arrives (`Services/ServiceManager.cpp` 542-548, 559), before the mutex is taken (562).
`removeTerminatedBridges` (69-86) runs in the main thread (`Services/ServiceManager.cpp` 280), with the mutex.
-/

namespace Verif.Manager

/-- LmcpObjectNetworkBridgeManager.cpp 48-67: `m_bridgesByNetworkId` in the order of the map, with whether the thread of a bridge has
ended; the entry the loop has come to (`none` at the end); the bridges asked to stop; whether the loop used an entry that was erased. -/
structure Sweep where
  bridges : List (Nat × Bool)
  at? : Option Nat
  asked : List Nat := []
  undefined : Bool := false
deriving DecidableEq

/-- LmcpObjectNetworkBridgeManager.cpp 48-86: what the threads do. -/
inductive SweepIn where
  /-- The thread of a bridge ends. -/
  | ends (id : Nat)
  /-- `removeTerminatedBridges` in the main thread, all of it. -/
  | remove
  /-- The loop of `terminateAllBridges` handles an entry and goes to the next.  Simplified: this is one step. -/
  | go
deriving DecidableEq

/-- LmcpObjectNetworkBridgeManager.cpp 51: `svcIt++`: the entry after one. -/
def following (id : Nat) : List (Nat × Bool) → Option Nat
  | [] => none
  | p :: l => if p.1 = id then l.head?.map (·.1) else following id l

/-- LmcpObjectNetworkBridgeManager.cpp 51: `cbegin()`. -/
def Sweep.start (bridges : List (Nat × Bool)) : Sweep := { bridges, at? := bridges.head?.map (·.1) }

/-- LmcpObjectNetworkBridgeManager.cpp 51-66, 71-85: one step of one of the threads. -/
def Sweep.step (s : Sweep) : SweepIn → Sweep
  | .ends id => { s with bridges := s.bridges.map fun p => if p.1 = id then (p.1, true) else p }
  | .remove => { s with bridges := s.bridges.filter fun p => !p.2 }
  | .go =>
    match s.at? with
    | none => s
    | some id =>
      match s.bridges.find? fun p => p.1 == id with
      | none => { s with undefined := true }
      | some p => { s with asked := if p.2 then s.asked else s.asked ++ [id], at? := following id s.bridges }

end Verif.Manager
