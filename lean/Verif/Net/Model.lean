import Verif.Trace
import Verif.Msg.Model

/-!
Model of network clients: ids, addresses, subscriptions, reception, the processing loops and the
termination loop (`src/cpp/Communications/LmcpObjectNetworkClientBase.{h,cpp}`,
`TransportReceiverBase.cpp`, `ZeroMqReceiverBase.cpp`,
`ZeroMqAddressedAttributedMessageReceiver.cpp`, `ZeroMqAddressedAttributedMessageSender.cpp`,
`LmcpObjectNetworkServer.cpp`).

ZeroMQ itself is modelled by its documented behaviour: a SUB socket gets a published message when one
of the subscribed byte strings is a prefix of the first frame; messages arrive in order, none is lost
or duplicated (no high-water mark, no slow joiner).  LMCP packing is not modelled: payloads are byte
strings.
-/

namespace Verif.Net

open Verif Verif.Msg

/-! ### Ids -/

/-- The static counters: `s_nextNetworkClientId` (32 bit, starts at 10) and
`s_uniqueEntitySendMessageId` (starts at 1) (LmcpObjectNetworkClientBase.cpp:27, 32). -/
structure Ids where
  client : Nat := 10
  message : Int := 1
deriving Repr, DecidableEq

/-- LmcpObjectNetworkClientBase.h 213-230, LmcpObjectNetworkClientBase.cpp 34-39, 464-498:
calls that use the counters. -/
inductive IdOp where
  /-- Constructor of a client that keeps its id (LmcpObjectNetworkClientBase.cpp:34-39). -/
  | construct
  /-- `getUniqueNetworkClientId` (LmcpObjectNetworkClientBase.h:225-230). -/
  | draw
  /-- Constructor of a client whose id is replaced by `id` (ServiceManager.cpp:425-451). -/
  | constructWith (id : Nat)
  /-- `getUniqueEntitySendMessageId` (LmcpObjectNetworkClientBase.h:213-217). -/
  | drawMessage
  /-- The five send functions (LmcpObjectNetworkClientBase.cpp:464-498). -/
  | send
deriving Repr, DecidableEq

/-- LmcpObjectNetworkClientBase.h 213-230, LmcpObjectNetworkClientBase.cpp 34-39: what a
call hands out: the id of a new client, a reserved client id, a message id. -/
inductive IdOut where
  | client (id : Nat)
  | reserved (id : Nat)
  | message (id : Int)
  | none
deriving Repr, DecidableEq

/-- Increment of the 32 bit counter. -/
def inc32 (n : Nat) : Nat := (n + 1) % 4294967296

/-- LmcpObjectNetworkClientBase.h 213-230, LmcpObjectNetworkClientBase.cpp 34-39, 464-498:
one call. -/
def idStep (s : Ids) : IdOp → Ids × IdOut
  | .construct => ({ s with client := inc32 s.client }, .client s.client)
  | .draw => ({ s with client := inc32 s.client }, .reserved (inc32 s.client))
  | .constructWith id => ({ s with client := inc32 s.client }, .client id)
  | .drawMessage => ({ s with message := s.message + 1 }, .message s.message)
  | .send => ({ s with message := s.message + 1 }, .none)

/-! ### Addresses -/

/-- `getEntityCastAddress` (LmcpObjectNetworkClientBase.h:113-142). -/
def entityCastAddress (e : Nat) : Str := "eid".toList ++ decimal e

/-- `getEntityServicesCastAllAddress` (LmcpObjectNetworkClientBase.h:151-155). -/
def servicesCastAllAddress (e : Nat) : Str := entityCastAddress e ++ ".sidall".toList

/-- `getNetworkClientUnicastAddress` (LmcpObjectNetworkClientBase.h:164-211). -/
def unicastAddress (e s : Nat) : Str := entityCastAddress e ++ (".sid".toList ++ decimal s)

/-! ### Sending and receiving one message -/

/-- ZeroMqAddressedAttributedMessageSender.cpp 47-92: the fields of a message given to a
sender. -/
structure Fields where
  address : Str
  contentType : Str
  descriptor : Str
  group : Str
  entityId : Str
  serviceId : Str
  payload : Str
deriving Repr, DecidableEq

/-- `message.setAddressAttributesAndPayload(...)`
(ZeroMqAddressedAttributedMessageSender.cpp:30-32). -/
def Fields.msg (f : Fields) : AAMsg :=
  ({} : AAMsg).set f.address f.contentType f.descriptor f.group f.entityId f.serviceId f.payload

/-- Not in the code: the fields of a received message. -/
def fieldsOf (m : AAMsg) : Option Fields :=
  m.attrs.map fun a => ⟨m.address, a.contentType, a.descriptor, a.group, a.entityId, a.serviceId, m.payload⟩

/-- The first ZeroMQ frame: the address with multi-part messages, the whole string otherwise
(ZeroMqAddressedAttributedMessageSender.cpp:47-92, 127-172). -/
def frame (multi : Bool) (f : Fields) : Str := if multi then f.address else f.msg.str

/-- Reading one message from the socket (ZeroMqAddressedAttributedMessageReceiver.cpp:106-154): parse
it, drop it when it is invalid or its source is the own entity and service. -/
def receive (multi : Bool) (e s : Str) (f : Fields) : Option Fields :=
  if multi then
    if e ≠ f.entityId ∨ s ≠ f.serviceId then
      if f.msg.valid then fieldsOf f.msg else none
    else none
  else
    match ({} : AAMsg).setFromString f.msg.str with
    | .ok m =>
      if m.valid then
        (fieldsOf m).bind fun g => if e ≠ g.entityId ∨ s ≠ g.serviceId then some g else none
      else none
    | _ => none

/-- The hub: what is pushed to it and valid is read (with the own service id 1) and published
(LmcpObjectNetworkServer.cpp:75-99, LmcpObjectNetworkServer.h:112). -/
def hub (multi : Bool) (e : Str) (f : Fields) : Option Fields :=
  if f.msg.valid then (receive multi e "1".toList f).bind fun g => if g.msg.valid then some g else none
  else none

/-! ### A receiver -/

/-- ZeroMqAddressedAttributedMessageReceiver.h 44-91: a subscription socket with its
transport receiver. -/
structure Receiver where
  /-- `m_subscriptionAddresses` and the subscriptions of the socket. -/
  subs : List Str := []
  /-- Messages in the socket. -/
  socket : List Fields := []
  /-- `m_recvdMsgs`. -/
  queue : List Fields := []
deriving Repr, DecidableEq

/-- `addSubscriptionAddress` (TransportReceiverBase.cpp:19-30, ZeroMqReceiverBase.cpp:58-69). -/
def Receiver.add (r : Receiver) (a : Str) : Receiver :=
  if r.subs.contains a then r else { r with subs := r.subs ++ [a] }

/-- `removeSubscriptionAddress` (TransportReceiverBase.cpp:32-43, ZeroMqReceiverBase.cpp:71-82). -/
def Receiver.remove (r : Receiver) (a : Str) : Receiver :=
  if r.subs.contains a then { r with subs := r.subs.filter (· != a) } else r

/-- Not in the code (ZeroMQ's subscription filter): a message is published. -/
def Receiver.arrive (multi : Bool) (r : Receiver) (f : Fields) : Receiver :=
  if r.subs.any (fun a => a.isPrefixOf (frame multi f)) then { r with socket := r.socket ++ [f] } else r

/-- `getNextMessage` without a stream (ZeroMqAddressedAttributedMessageReceiver.cpp:28-168). -/
def Receiver.getNext (multi : Bool) (e s : Str) (r : Receiver) : Receiver × Option Fields :=
  match r.queue with
  | f :: q => ({ r with queue := q }, some f)
  | [] =>
    match r.socket with
    | [] => (r, none)
    | f :: fs => ({ r with socket := fs }, receive multi e s f)

/-- TransportReceiverBase.cpp 19-43, ZeroMqAddressedAttributedMessageReceiver.cpp 28:
calls and publications. -/
inductive RIn where
  | add (a : Str)
  | remove (a : Str)
  /-- Some client pushes a message to the hub. -/
  | push (f : Fields)
  | getNext
deriving Repr, DecidableEq

/-- TransportReceiverBase.cpp 19-43, LmcpObjectNetworkServer.cpp 75-99,
ZeroMqAddressedAttributedMessageReceiver.cpp 28-168: one event for the receiver of the
client with service id `s` of entity `e`. -/
def rstep (multi : Bool) (e s : Str) (r : Receiver) : RIn → Receiver × Option Fields
  | .add a => (r.add a, none)
  | .remove a => (r.remove a, none)
  | .push f =>
    (match hub multi e f with
     | none => r
     | some g => r.arrive multi g, none)
  | .getNext => r.getNext multi e s

/-- `removeAllSubscriptionAddresses` (TransportReceiverBase.cpp:45-57): at most `fuel` passes of the
loop; the iterator is not advanced and nothing is erased. -/
def removeAllLoop (fuel : Nat) (subs : List Str) : Option (List Str × Bool) :=
  match fuel with
  | 0 => none
  | fuel + 1 =>
    match subs with
    | [] => some (subs, true)
    | _ :: _ => removeAllLoop fuel subs

/-! ### Subscriptions of a client -/

/-- LmcpObjectNetworkClientBase.h 520: `m_isThreadStarted` and whether
`initializeNetworkClient` was called. -/
inductive Phase where
  | configuring
  | initialized
  | started
deriving Repr, DecidableEq

/-- LmcpObjectNetworkClientBase.h 520, 529: the part of a network client that is concerned
with subscriptions. -/
structure Client where
  phase : Phase := .configuring
  /-- `m_preStartLmcpSubscriptionAddresses`. -/
  staged : List Str := []
  receiver : Receiver := {}
deriving Repr, DecidableEq

/-- Calls of a client, in the order of `initializeAndStart`
(LmcpObjectNetworkClientBase.cpp:98-161). -/
inductive CIn where
  | add (a : Str)
  | remove (a : Str)
  /-- `initializeNetworkClient` (LmcpObjectNetworkClientBase.cpp:249-273). -/
  | initialize
  /-- The thread runs (LmcpObjectNetworkClientBase.cpp:282, 361). -/
  | start
deriving Repr, DecidableEq

/-- One call (LmcpObjectNetworkClientBase.cpp:163-221, 249-273). -/
def cstep (c : Client) : CIn → Client
  | .add a =>
    if c.phase = .started then { c with receiver := c.receiver.add a }
    else { c with staged := if c.staged.contains a then c.staged else c.staged ++ [a] }
  | .remove a =>
    if c.phase = .started then { c with receiver := c.receiver.remove a }
    else { c with staged := c.staged.filter (· != a) }
  | .initialize => { c with phase := .initialized, receiver := c.staged.foldl Receiver.add {} }
  | .start => { c with phase := .started }

/-! ### Processing loops -/

/-- LmcpObjectNetworkClientBase.cpp 311-318, 396-400: what a handler call does. -/
inductive Handling where
  | done
  | stop
  | throws
deriving Repr, DecidableEq

/-- LmcpObjectNetworkClientBase.cpp 309, 321, 394, 399, 406: result of a loop over the
messages received: the messages given to the subclass, and how it ended. -/
inductive LoopEnd where
  /-- All messages were processed, the loop goes on. -/
  | running
  /-- `m_isTerminateNetworkClient` was set; termination follows. -/
  | terminated
  /-- An exception left the function; `m_isBaseClassTerminationFinished` is not set. -/
  | died
deriving Repr, DecidableEq

variable {α : Type}

/-- The loop of `executeNetworkClient` (LmcpObjectNetworkClientBase.cpp:283-318).  `kill m` is the
service id of a KillService message, `idString` is compared with it, `handler` is
`processReceivedLmcpMessage`: what it does may depend on all messages it was given. -/
def lmcpLoop (permitted : Bool) (idString : Int) (kill : α → Option Int) (handler : List α → Handling)
    (given : List α) : List α → List α × LoopEnd
  | [] => (given, .running)
  | m :: ms =>
    if permitted && kill m == some idString then (given, .terminated)
    else
      match handler (given ++ [m]) with
      | .stop => (given ++ [m], .terminated)
      | .done | .throws => lmcpLoop permitted idString kill handler (given ++ [m]) ms

/-- The loop of `executeSerializedNetworkClient` (LmcpObjectNetworkClientBase.cpp:362-402).  `kill m` is
the service id of a KillService message. -/
def serializedLoop (permitted : Bool) (idString : Int) (kill : α → Option Int)
    (handler : List α → Handling) (given : List α) : List α → List α × LoopEnd
  | [] => (given, .running)
  | m :: ms =>
    if permitted && (kill m).isSome then
      if kill m == some idString then (given, .terminated)
      else serializedLoop permitted idString kill handler given ms
    else
      match handler (given ++ [m]) with
      | .stop => (given ++ [m], .terminated)
      | .throws => (given ++ [m], .died)
      | .done => serializedLoop permitted idString kill handler (given ++ [m]) ms

/-! ### The termination loop -/

/-- LmcpObjectNetworkClientBase.cpp 324-346: what the loop does after an attempt. -/
inductive WatchEvent where
  | none
  | warn
deriving Repr, DecidableEq

/-- LmcpObjectNetworkClientBase.cpp 324-346: end of the loop. -/
inductive WatchEnd where
  | finished
  | aborted
  | waiting
deriving Repr, DecidableEq

/-- The loop after the client stopped (LmcpObjectNetworkClientBase.cpp:324-346, 408-431): `fuel` passes
at most, `terminate k` is the result of the k-th call of `terminate()`, `duration` is a 32 bit
number. -/
def watch (period warn abort : Nat) (terminate : Nat → Bool) : (fuel k duration : Nat) →
    List WatchEvent × WatchEnd
  | 0, _, _ => ([], .waiting)
  | fuel + 1, k, duration =>
    if terminate k then ([], .finished)
    else
      let d := (duration + period) % 4294967296
      if d > warn then
        let q := watch period warn abort terminate fuel (k + 1) d
        (.warn :: q.1, q.2)
      else if d > abort then ([], .aborted)
      else
        let q := watch period warn abort terminate fuel (k + 1) d
        (.none :: q.1, q.2)

/-! ### Explicit ids -/

/-- LmcpObjectNetworkClientBase.h 486, 489, LmcpObjectNetworkClientBase.cpp 67: the
identity of a client: the id, the id as text (compared with KillService ids). -/
structure Identity where
  networkId : Int
  idString : Int
deriving Repr, DecidableEq

/-- The ids are replaced when a service is created with given ids (ServiceManager.cpp:428-452). -/
def overrideService (_ : Identity) (id : Int) : Identity := { networkId := id, idString := id }

/-- The ids are replaced when a bridge is created with given ids; the text is not replaced
(LmcpObjectNetworkBridgeManager.cpp:218-229). -/
def overrideBridge (i : Identity) (id : Int) : Identity := { i with networkId := id }

end Verif.Net
