import Verif.Trace
import Verif.Msg.Model
import Verif.Sentinel.Model
import Verif.Net.Model

/-!
Model of the bridges: forwarding rules of the six bridges
(`src/cpp/Communications/LmcpObjectNetworkSubscribePushBridge.cpp`,
`LmcpObjectNetworkPublishPullBridge.cpp`, `LmcpObjectNetworkSerialBridge.cpp`,
`LmcpObjectNetworkTcpBridge.cpp`, `LmcpObjectNetworkZeroMqZyreBridge.cpp`,
`ImpactSubscribePushBridge.cpp`), the reception of the TCP bridge
(`ZeroMq/ZmqAttributedMsgSenderReceiver.cpp`, `ZeroMq/Receivers/MsgReceiverSentinel.cpp`,
`ZeroMq/Receivers/ZmqTcpReceiver.cpp`, `ZeroMq/Senders/ZmqTcpSender.cpp`), the peer tables of the Zyre
bridge, and entities connected by bridges.

LMCP packing is not modelled: `typeName` gives the type name of a serialised object (none when it cannot
be unpacked).  Sockets deliver what is sent, in order.
-/

namespace Verif.Bridge

open Verif Verif.Msg

/-- LmcpObjectNetworkSubscribePushBridge.h, LmcpObjectNetworkPublishPullBridge.h,
LmcpObjectNetworkSerialBridge.h, LmcpObjectNetworkTcpBridge.h,
LmcpObjectNetworkZeroMqZyreBridge.h, ImpactSubscribePushBridge.h: the bridges. -/
inductive Kind where
  | subscribePush
  | publishPull
  | serial
  | tcp
  | zyre
  | impact
deriving Repr, DecidableEq

/-- LmcpObjectNetworkTcpBridge.h 129-146, and likewise the headers of the other bridges:
the settings of a bridge. -/
structure Cfg where
  kind : Kind
  /-- `m_entityIdString` -/
  entity : Str
  /-- `std::to_string(m_networkId)` -/
  network : Str
  /-- `m_nonExportForwardAddresses` -/
  nonExport : List Str := []
  /-- `m_nonImportForwardAddresses` -/
  nonImport : List Str := []
  /-- `m_isConsideredSelfGenerated` -/
  selfGenerated : Bool := false
  /-- `m_messageAddressToAlias` (TCP bridge) -/
  aliases : List (Str × Str) := []
deriving Repr, DecidableEq

/-- The source of a message must be the own entity (LmcpObjectNetworkSubscribePushBridge.cpp:176, LmcpObjectNetworkPublishPullBridge.cpp:142, LmcpObjectNetworkSerialBridge.cpp:157, LmcpObjectNetworkZeroMqZyreBridge.cpp:219; not LmcpObjectNetworkTcpBridge.cpp:180, ImpactSubscribePushBridge.cpp:215). -/
def Kind.checksSource : Kind → Bool
  | .subscribePush | .publishPull | .serial | .zyre => true
  | .tcp | .impact => false

/-- The group written by `updateSourceAttributes` (LmcpObjectNetworkSubscribePushBridge.cpp:222, LmcpObjectNetworkPublishPullBridge.cpp:189, LmcpObjectNetworkSerialBridge.cpp:218, LmcpObjectNetworkTcpBridge.cpp:228, LmcpObjectNetworkZeroMqZyreBridge.cpp:431). -/
def Kind.groupName : Kind → Str
  | .subscribePush => "SubscribePushBridge".toList
  | .publishPull => "PublishPullBridge".toList
  | .serial => "SerialBridge".toList
  | .tcp => "TcpBridge".toList
  | .zyre => "ZyreBridge".toList
  | .impact => "fusion".toList

/-- `processReceivedSerializedLmcpMessage`: what is sent to the outside (LmcpObjectNetworkSubscribePushBridge.cpp:166-194,
LmcpObjectNetworkPublishPullBridge.cpp:132-160, LmcpObjectNetworkSerialBridge.cpp:147-187, LmcpObjectNetworkTcpBridge.cpp:160-198, LmcpObjectNetworkZeroMqZyreBridge.cpp:219-243, ImpactSubscribePushBridge.cpp:205-265).
The attributes are dereferenced where the source is checked.  The Impact bridge sends the payload only
and drops what it cannot unpack and unchanged configurations; that part is not modelled. -/
def exportMsg (c : Cfg) (m : AAMsg) : Outcome (Option AAMsg) :=
  if c.kind.checksSource then
    match m.attrs with
    | none => .ub
    | some a =>
      if c.entity = a.entityId then
        .ok (if c.nonExport.contains m.address then none else some m)
      else .ok none
  else .ok (if c.nonExport.contains m.address then none else some m)

/-- LmcpObjectNetworkTcpBridge.cpp 226-229, and likewise the other bridges: the source is
replaced when `ConsiderSelfGenerated` is set. -/
def setSource (c : Cfg) (m : AAMsg) : Outcome AAMsg :=
  if c.selfGenerated then m.updateSource c.kind.groupName c.entity c.network else .ok m

/-- The alias of the address (LmcpObjectNetworkTcpBridge.cpp:231-235). -/
def setAlias (c : Cfg) (m : AAMsg) : Outcome AAMsg :=
  match c.aliases.find? (fun p => p.1 == m.address) with
  | some p => m.updateAddress p.2
  | none => .ok m

/-- Sending on the inside: only valid messages are sent
(ZeroMqAddressedAttributedMessageSender.cpp:100-124). -/
def sendInside (m : AAMsg) : Option AAMsg := if m.valid then some m else none

/-- What happens with a message from the outside, for all bridges but Impact (LmcpObjectNetworkSubscribePushBridge.cpp:216-234,
LmcpObjectNetworkPublishPullBridge.cpp:183-201, LmcpObjectNetworkSerialBridge.cpp:212-230, LmcpObjectNetworkTcpBridge.cpp:222-247, LmcpObjectNetworkZeroMqZyreBridge.cpp:419-448).  Only the TCP bridge does
not check that the message is valid; the Zyre bridge drops messages of the own entity. -/
def importMsg (c : Cfg) (m : AAMsg) : Outcome (Option AAMsg) :=
  if c.kind = .tcp then
    if c.nonImport.contains m.address then .ok none
    else (setSource c m).bind fun m' => (setAlias c m').bind fun m'' => .ok (sendInside m'')
  else if m.valid then
    if c.kind = .zyre then
      match m.attrs with
      | none => .ub
      | some a =>
        if c.entity = a.entityId then .ok none
        else if c.nonImport.contains m.address then .ok none
        else (setSource c m).bind fun m' => .ok (sendInside m')
    else
      if c.nonImport.contains m.address then .ok none
      else (setSource c m).bind fun m' => .ok (sendInside m')
  else .ok none

/-- A payload from the outside at the Impact bridge (ImpactSubscribePushBridge.cpp:274-313); `external` is
`m_externalID`. -/
def importImpact (c : Cfg) (external : Str) (typeName : Str → Option Str) (payload : Str) : Option AAMsg :=
  match typeName payload with
  | none => none
  | some t => sendInside (({} : AAMsg).set t "lmcp".toList t "fusion".toList external c.network payload)

/-! ### Reception of the TCP bridge -/

/-- MsgReceiverSentinel.cpp 20-46: the drain loop with the information whether it was left
by an exception. -/
def drainE : Nat → Sentinel.Buf → Str → Sentinel.Buf × List Str × Bool
  | 0, b, _ => (b, [], false)
  | fuel + 1, b, chunk =>
    match Sentinel.next b chunk with
    | (b', .ok p) =>
      if p.isEmpty then (b', [], false)
      else
        let r := drainE fuel b' []
        (r.1, p :: r.2.1, r.2.2)
    | (b', _) => (b', [], true)

/-- LmcpObjectNetworkTcpBridge.cpp 201-250: state of the receiving thread: the buffer of
`MsgReceiverSentinel`, the message being built by
`ZmqAttributedMsgSenderReceiver::receive`, and what was sent on the inside. -/
structure TcpRx where
  buf : Sentinel.Buf := {}
  cur : AAMsg := {}
  sent : List AAMsg := []
deriving Repr, DecidableEq

/-- One string returned by `MsgReceiverSentinel::receive` (empty when a chunk completed no frame): the
loop of `ZmqAttributedMsgSenderReceiver::receive` (ZmqAttributedMsgSenderReceiver.cpp:81-93) and, when it ends, the body of
`executeTcpReceiveProcessing` (LmcpObjectNetworkTcpBridge.cpp:205-248). -/
def tcpString (c : Cfg) (s : AAMsg × List AAMsg) (p : Str) : Outcome (AAMsg × List AAMsg) :=
  if p.isEmpty then (importMsg c s.1).bind fun o => .ok ({}, s.2 ++ o.toList)
  else
    (s.1.setFromString p).bind fun m =>
      if m.valid then (importMsg c m).bind fun o => .ok ({}, s.2 ++ o.toList)
      else .ok (m, s.2)

/-- Not in the code: all strings of a chunk. -/
def tcpStrings (c : Cfg) : AAMsg × List AAMsg → List Str → Outcome (AAMsg × List AAMsg)
  | s, [] => .ok s
  | s, p :: ps => (tcpString c s p).bind fun s' => tcpStrings c s' ps

/-- A chunk arrives (MsgReceiverSentinel.cpp:20-46).  An exception leaves the loop of the thread: nothing is
received any more. -/
def tcpChunk (c : Cfg) (s : TcpRx) (chunk : Str) : Outcome TcpRx :=
  let r := drainE (s.buf.data.length + chunk.length + 1) s.buf chunk
  if r.2.2 then .throws
  else
    (tcpStrings c (s.cur, s.sent) (if r.2.1.isEmpty then [[]] else r.2.1)).bind fun q =>
      .ok { buf := r.1, cur := q.1, sent := q.2 }

/-- Not in the code: all chunks. -/
def tcpRun (c : Cfg) : TcpRx → List Str → Outcome TcpRx
  | s, [] => .ok s
  | s, k :: ks => (tcpChunk c s k).bind fun s' => tcpRun c s' ks

/-! ### Clients of the TCP server -/

/-- ZmqTcpReceiver.cpp 22-67: what arrives at the stream socket: the routing id and the
data; empty data marks a connection or its end. -/
structure Packet where
  route : Str
  data : Str
deriving Repr, DecidableEq

/-- `ZmqTcpReceiver::receive` (ZmqTcpReceiver.cpp:22-67): the new set of clients and the data handed on. -/
def tcpPacket (clients : List Str) (p : Packet) : List Str × Option Str :=
  if p.data.isEmpty then
    (if clients.contains p.route then clients.filter (· != p.route) else clients ++ [p.route], none)
  else (clients, some p.data)

/-- `ZmqTcpSender::send` for a server (ZmqTcpSender.cpp:33-38). -/
def tcpSendAll (clients : List Str) (msg : Str) : List (Str × Str) := clients.map (·, msg)

/-! ### The peer tables of the Zyre bridge -/

/-- Headers of a peer, with empty strings for headers that are missing (ZeroMqZyreBridge.cpp:236-246). -/
structure Headers where
  entityId : Str
  entityType : Str
  subscriptions : Str
deriving Repr, DecidableEq

/-- The tables (LmcpObjectNetworkZeroMqZyreBridge.h:247-250) and the subscriptions of the bridge on the
inside. -/
structure Zyre where
  /-- `m_remoteEntityTypeIdsByZyreUuids`: uuid ↦ (type, id). -/
  peers : List (Str × (Str × Str)) := []
  /-- `m_remoteZyreUuidsBySubscriptionAddress`. -/
  remote : List (Str × List Str) := []
  /-- Subscriptions on the inside. -/
  subs : List Str := []
  /-- The event thread was left by an exception (ZeroMqZyreBridge.cpp:348-351). -/
  dead : Bool := false
deriving Repr, DecidableEq

/-- For `stoull` and `stoi`: digits at the beginning of a string. -/
def leadingDigits (s : Str) : Str := s.takeWhile Char.isDigit

/-- LmcpObjectNetworkZeroMqZyreBridge.cpp 271, 343: `std::stoull`, without leading white
space and signs: digits at the beginning, `none` when it throws. -/
def stoull (s : Str) : Option Nat :=
  if (leadingDigits s).isEmpty then none
  else if decimalValue (leadingDigits s) < 18446744073709551616 then some (decimalValue (leadingDigits s))
  else none

/-- LmcpObjectNetworkZeroMqZyreBridge.cpp 391: `std::stoi` likewise. -/
def stoi (s : Str) : Option Nat :=
  if (leadingDigits s).isEmpty then none
  else if decimalValue (leadingDigits s) < 2147483648 then some (decimalValue (leadingDigits s))
  else none

/-- Insert a uuid into the entry of an address; the flag tells that the address is new
(LmcpObjectNetworkZeroMqZyreBridge.cpp:317-337). -/
def insertUuid (uuid address : Str) : List (Str × List Str) → List (Str × List Str) × Bool
  | [] => ([(address, [uuid])], true)
  | (a, us) :: rest =>
    if a = address then ((a, if us.contains uuid then us else us ++ [uuid]) :: rest, false)
    else
      let r := insertUuid uuid address rest
      ((a, us) :: r.1, r.2)

/-- LmcpObjectNetworkZeroMqZyreBridge.cpp 317-337: one address of a peer. -/
def enterAddress (uuid : Str) (z : Zyre) (address : Str) : Zyre :=
  let r := insertUuid uuid address z.remote
  { z with
    remote := r.1
    subs := if r.2 then (if z.subs.contains address then z.subs else z.subs ++ [address]) else z.subs }

/-- LmcpObjectNetworkZeroMqZyreBridge.cpp 305: the addresses advertised by a peer (`split`
with the delimiter `;`). -/
def addressesOf (h : Headers) : List Str :=
  match split h.subscriptions ';' with
  | .ok l => l
  | _ => []

/-- `zyreEnterMessageHandler` (LmcpObjectNetworkZeroMqZyreBridge.cpp:258-348).  All header keys are present
(ZeroMqZyreBridge.cpp:239-245, 136-141), so only the conversion of the id can fail. -/
def zyreEnter (own : Nat) (z : Zyre) (uuid : Str) (h : Headers) : Zyre :=
  match stoull h.entityId with
  | none => { z with dead := true }
  | some id =>
    if id = own then z
    else
      (addressesOf h).foldl (enterAddress uuid)
        { z with peers := (uuid, (h.entityType, h.entityId)) :: z.peers.filter (·.1 != uuid) }

/-- The loop over the addresses in `zyreExitMessageHandler`
(LmcpObjectNetworkZeroMqZyreBridge.cpp:356-383). -/
def exitAddresses (persistent : List Str) (uuid : Str) :
    List (Str × List Str) → List Str → List (Str × List Str) × List Str
  | [], subs => ([], subs)
  | (a, us) :: rest, subs =>
    let us' := us.filter (· != uuid)
    if us'.isEmpty then
      exitAddresses persistent uuid rest (if persistent.contains a then subs else subs.filter (· != a))
    else
      let r := exitAddresses persistent uuid rest subs
      ((a, us') :: r.1, r.2)

/-- `zyreExitMessageHandler` (LmcpObjectNetworkZeroMqZyreBridge.cpp:350-403). -/
def zyreExit (persistent : List Str) (z : Zyre) (uuid : Str) : Zyre :=
  let r := exitAddresses persistent uuid z.remote z.subs
  let z' := { z with remote := r.1, subs := r.2 }
  match z.peers.find? (·.1 == uuid) with
  | none => z'
  | some p =>
    match stoi p.2.2 with
    | none => { z' with dead := true }
    | some _ => { z' with peers := z.peers.filter (·.1 != uuid) }

/-- The loop that sends a message to the peers (LmcpObjectNetworkZeroMqZyreBridge.cpp:225-242): uuids in the
order of sending. -/
def whispers (address : Str) (remote : List (Str × List Str)) : List Str :=
  remote.foldl (fun sent p =>
    if p.1.isPrefixOf address then p.2.foldl (fun sent u => if sent.contains u then sent else sent ++ [u]) sent
    else sent) []

/-- LmcpObjectNetworkZeroMqZyreBridge.cpp 190, 258, 350: events of the Zyre bridge: peers
come and go, a message is published on the inside. -/
inductive ZIn where
  | enter (uuid : Str) (h : Headers)
  | exit (uuid : Str)
  | publish (m : AAMsg)
deriving Repr

/-- LmcpObjectNetworkZeroMqZyreBridge.h 247-253: settings of a Zyre bridge: its forwarding
rules, its entity number and the addresses in its XML
(`m_initialPersistentLocalSubscriptionAddresses`). -/
structure ZCfg where
  bridge : Cfg
  own : Nat
  persistent : List Str
deriving Repr

/-- LmcpObjectNetworkZeroMqZyreBridge.cpp 190-403: the result of an event: the peers a
message is sent to, or the thread does something undefined. -/
def zstep (c : ZCfg) (z : Zyre) : ZIn → Zyre × List Str
  | .enter uuid h => (if z.dead then z else zyreEnter c.own z uuid h, [])
  | .exit uuid => (if z.dead then z else zyreExit c.persistent z uuid, [])
  | .publish m =>
    (z, if z.subs.any (fun a => a.isPrefixOf m.address) then
          match exportMsg c.bridge m with
          | .ok (some m') => whispers m'.address z.remote
          | _ => []
        else [])

/-- The state when the bridge runs: subscriptions of the base class (LmcpObjectNetworkClientBase.cpp:60-95)
and those of the XML. -/
def Zyre.init (base : List Str) (c : ZCfg) : Zyre := { subs := base ++ c.persistent.filter (!base.contains ·) }

/-! ### Entities connected by bridges -/

/-- Not in the code: a bridge with its subscriptions. -/
structure Node where
  cfg : Cfg
  subs : List Str
deriving Repr, DecidableEq

/-- Not in the code: a connection: what the first bridge sends to the outside and passes
the filter of the transport (external subscriptions) reaches the second. -/
structure Link where
  out : Node
  into : Node
  passes : AAMsg → Bool

/-- A bridge is given a message that is published in its entity when it subscribed to it and did not send it
itself (ZeroMqAddressedAttributedMessageReceiver.cpp:106-154); it then sends it to the outside or not. -/
def Node.emits (n : Node) (m : AAMsg) : Option AAMsg :=
  match m.attrs with
  | none => none
  | some a =>
    if n.subs.any (fun s => s.isPrefixOf m.address) && !(n.cfg.entity == a.entityId && n.cfg.network == a.serviceId)
    then
      match exportMsg n.cfg m with
      | .ok o => o
      | _ => none
    else none

/-- Not in the code: the publications caused by the publication of `m` in entity `e`, over
all links. -/
def causes (links : List Link) (p : Str × AAMsg) : List (Str × AAMsg) :=
  links.filterMap fun l =>
    if l.out.cfg.entity = p.1 then
      (l.out.emits p.2).bind fun m =>
        if l.passes m then
          match importMsg l.into.cfg m with
          | .ok o => o.map fun m' => (l.into.cfg.entity, m')
          | _ => none
        else none
    else none

/-- Not in the code: one step: some pending publication takes place and is replaced by
those it causes, at any positions. -/
inductive Crossing (links : List Link) : List (Str × AAMsg) → List (Str × AAMsg) → Prop
  | mk (pre : List (Str × AAMsg)) (p : Str × AAMsg) (post next : List (Str × AAMsg)) :
      next.Perm (pre ++ post ++ causes links p) → Crossing links (pre ++ p :: post) next

/-- Not in the code: `n` steps. -/
inductive Crossings (links : List Link) : Nat → List (Str × AAMsg) → Prop
  | zero (P : List (Str × AAMsg)) : Crossings links 0 P
  | succ {P Q : List (Str × AAMsg)} {n : Nat} : Crossing links P Q → Crossings links n Q →
      Crossings links (n + 1) P

end Verif.Bridge
