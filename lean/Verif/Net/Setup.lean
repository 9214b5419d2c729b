import Verif.Net.Model

/-!
# The addresses a new service listens to (C207)

`configureNetworkClient` (`src/cpp/Communications/LmcpObjectNetworkClientBase.cpp` 49-96), `configureService`
(`src/cpp/Services/ServiceBase.cpp` 51-106) and `instantiateConfigureInitializeStartService`
(`src/cpp/Services/ServiceManager.cpp` 397-476), as the calls they make.
-/

namespace Verif.Net

open Verif

/-- uxnative `KillService::Subscription`: the full name of the type of the message. -/
def killAddress : Str := "uxas.messages.uxnative.KillService".toList

/-- LmcpObjectNetworkClientBase.cpp 67-76, 83 and ServiceBase.cpp 68, 77-87: the requests while a service with an id is configured in an
entity: `own` are the addresses its `configure` subscribes to (simplified: it cancels nothing), `group` the attribute `MessageGroup`. -/
def configureCalls (entity id : Nat) (own : List Str) (group : Option Str) : List CIn :=
  [.add (unicastAddress entity id), .add (servicesCastAllAddress entity), .add killAddress] ++ own.map .add ++
  match group with
  | some g => if g.isEmpty then [] else [.add g]
  | none => []

/-- ServiceManager.cpp 427-451: an id or an entity passed in (0 or less: none) replaces the one the service has. -/
def passedCalls (entity id : Nat) (passedEntity : Nat) (passedId : Int) : List CIn :=
  if passedId > 0 ∨ passedEntity > 0 then
    [.remove (unicastAddress entity id),
     .add (unicastAddress (if passedEntity > 0 then passedEntity else entity) (if passedId > 0 then passedId.toNat else id))]
  else []

/-- ServiceManager.cpp 422-456: what is asked for until the service is started. -/
def serviceCalls (entity id : Nat) (own : List Str) (group : Option Str) (passedEntity : Nat) (passedId : Int) : List CIn :=
  configureCalls entity id own group ++ passedCalls entity id passedEntity passedId

end Verif.Net
