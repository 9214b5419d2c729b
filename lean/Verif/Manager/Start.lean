import Verif.Manager.Model
import Verif.Config.Cases

/-!
# The start of the configured services (C204)

`ServiceManager::initialize` (`src/cpp/Services/ServiceManager.cpp` 192-257) on the elements that the configuration gives it (C177).
-/

namespace Verif.Manager

open Verif.Config (Node Doc Reader getServices uxas)

/-- ServiceManager.cpp 418, 422, 455: which types of services are registered, and whether a service can be configured, initialised and
started with an element. -/
structure World where
  known : String → Bool
  works : Node → Bool

/-- `instantiateConfigureInitializeStartService`, ServiceManager.cpp 397-476: what becomes of an element. -/
def attempt (w : World) (n : Node) : Attempt :=
  match n.attr "Type" with
  | none => .noService
  | some t =>
    if (n.name = "Component" ∨ n.name = "Service") ∧ t ≠ "ServiceManager" then
      if w.known t then if w.works n then .starts else .fails else .noService
    else .noService

/-- ServiceManager.cpp 196-225: the state of the manager, whether all went well, and the services started with the ids they have. -/
structure Begun where
  sm : SM
  ok : Bool
  log : List (Node × Nat) := []

/-- ServiceManager.cpp 207-225: one element; the id asked for is -1. -/
def beginOne (w : World) (b : Begun) (n : Node) : Begun :=
  if (n.attr "Type").getD "" = "ServiceManager" then b
  else
    let a := attempt w n
    { sm := (b.sm.create (-1) a).1
      ok := if (b.sm.create (-1) a).2 = .created true then b.ok else false
      log := if a = .starts then b.log ++ [(n, finalId b.sm.ids.client (-1))] else b.log }

/-- LmcpObjectNetworkClientBase.h 213-230: other parts of the program, for instance services that run already, take ids of clients. -/
def Begun.taken (b : Begun) : Nat → Begun
  | 0 => b
  | k + 1 => ({ b with sm := { b.sm with ids := (Net.idStep b.sm.ids .draw).1 } } : Begun).taken k

/-- `ServiceManager::initialize`, ServiceManager.cpp 192-257, where `others i` ids are taken by other parts before the element `i`: with the state of the manager and the services begun, whether
`StartupComplete` is sent (after all of them) and the result. -/
def initServices (w : World) (others : Nat → Nat) (configured : Bool) (services : Option Node) (s : SM) : Begun × Bool × Bool :=
  if configured then
    match services with
    | none => ({ sm := s, ok := false }, false, false)
    | some n =>
      let b := n.children.zipIdx.foldl (fun b p => beginOne w (b.taken (others p.2)) p.1) { sm := s, ok := true }
      (b, b.ok, b.ok)
  else ({ sm := s, ok := false }, false, false)

end Verif.Manager
