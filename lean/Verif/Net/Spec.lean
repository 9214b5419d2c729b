import Verif.Net.Model

/-!
Specification vocabulary for network clients.
-/

namespace Verif.Net

open Verif

/-- No field contains a delimiter where the wire format does not allow it, and the fields that must
not be empty are not. -/
structure Fields.Clean (f : Fields) : Prop where
  address : f.address ≠ [] ∧ '$' ∉ f.address
  contentType : f.contentType ≠ [] ∧ '$' ∉ f.contentType ∧ '|' ∉ f.contentType
  descriptor : f.descriptor ≠ [] ∧ '$' ∉ f.descriptor ∧ '|' ∉ f.descriptor
  group : '$' ∉ f.group ∧ '|' ∉ f.group
  entityId : f.entityId ≠ [] ∧ '$' ∉ f.entityId ∧ '|' ∉ f.entityId
  serviceId : f.serviceId ≠ [] ∧ '$' ∉ f.serviceId ∧ '|' ∉ f.serviceId
  payload : f.payload ≠ []

/-- The address was added and not removed since. -/
def subscribed (h : List RIn) (a : Str) : Bool :=
  h.foldl (fun b i => match i with
    | .add a' => if a' = a then true else b
    | .remove a' => if a' = a then false else b
    | _ => b) false

/-- Some prefix of the address is subscribed. -/
def Wanted (h : List RIn) (address : Str) : Prop := ∃ a, subscribed h a = true ∧ a <+: address

/-- The messages that client `s` of entity `e` has to get: those pushed while a prefix of the address
was subscribed and not sent by the client itself (or in the name of the hub), in order. -/
inductive Expected (e s : Str) : List RIn → List Fields → Prop
  | nil : Expected e s [] []
  | other {h fs i} : Expected e s h fs → (∀ f, i ≠ .push f) → Expected e s (h ++ [i]) fs
  | take {h fs f} : Expected e s h fs → Wanted h f.address → (f.entityId, f.serviceId) ≠ (e, s) →
      (f.entityId, f.serviceId) ≠ (e, "1".toList) → Expected e s (h ++ [.push f]) (fs ++ [f])
  | skip {h fs f} : Expected e s h fs →
      (¬ Wanted h f.address ∨ (f.entityId, f.serviceId) = (e, s) ∨
        (f.entityId, f.serviceId) = (e, "1".toList)) → Expected e s (h ++ [.push f]) fs

/-- Number of messages pushed. -/
def pushes (h : List RIn) : Nat :=
  (h.filter fun i => match i with | .push _ => true | _ => false).length

/-- Effect of a request on whether address `a` is wanted. -/
def request (a : Str) (b : Bool) : CIn → Bool
  | .add a' => if a' = a then true else b
  | .remove a' => if a' = a then false else b
  | _ => b

/-- The address was added by the client and not removed since. -/
def requested (h : List CIn) (a : Str) : Bool := h.foldl (request a) false

/-- Calls of a client up to the start of its thread: requests `h1`, the initialisation, requests `h2`
(made by `initialize()` and `start()` of the subclass), the start, requests `h3`. -/
def lifetime (h1 h2 h3 : List CIn) : List CIn := h1 ++ .initialize :: (h2 ++ .start :: h3)

/-- Only requests. -/
def OnlyRequests (h : List CIn) : Prop := ∀ i ∈ h, i ≠ .initialize ∧ i ≠ .start

/-- Operations on the client counter. -/
def isClientOp : IdOp → Bool
  | .construct | .draw | .constructWith _ => true
  | _ => false

/-- Ids of the clients that exist. -/
def liveIds (os : List IdOut) : List Nat :=
  os.filterMap fun o => match o with | .client id => some id | _ => none

/-- Reserved ids. -/
def reservedIds (os : List IdOut) : List Nat :=
  os.filterMap fun o => match o with | .reserved id => some id | _ => none

/-- Message ids handed out. -/
def messageIds (os : List IdOut) : List Int :=
  os.filterMap fun o => match o with | .message id => some id | _ => none

/-- Ids given to clients from outside. -/
def givenIds (h : List IdOp) : List Nat :=
  h.filterMap fun i => match i with | .constructWith id => some id | _ => none

end Verif.Net
