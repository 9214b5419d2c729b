import Verif.Bridge.Props
import Mathlib.Tactic.Set

/-!
Model of the stream transport
`src/cpp/Communications/ZeroMqAddressedAttributedMessageTcpReceiverSender.cpp` and what it gives (C190).

The stream socket of ZeroMQ is modelled by its behaviour (`Sock`): this part is not in the repository.
Left out: the checks of the socket (35-58), the exceptions of ZeroMQ itself, the missing second frame
(90-108), memory management of frames, logging, and `m_data_guard`.
-/

namespace Verif.Bridge

open Verif Verif.Msg Verif.Net

/-! ### The class -/

/-- Data members (ZeroMqAddressedAttributedMessageTcpReceiverSender.h:80-90) and the packets that wait in
the socket. -/
structure Tcp where
  /-- `m_receiveTcpDataBuffer` -/
  buf : Sentinel.Buf := {}
  /-- `m_recvdMsgs` -/
  queue : List AAMsg := []
  /-- `m_clients` -/
  clients : List Str := []
  /-- Not in the class: what the socket has received and not handed out. -/
  socket : List Packet := []
deriving Repr, DecidableEq

/-- The messages made of the payloads; the others are dropped
(ZeroMqAddressedAttributedMessageTcpReceiverSender.cpp:184-196). -/
def parsed (ps : List Str) : List AAMsg :=
  ps.filterMap fun p =>
    match ({} : AAMsg).setFromString p with
    | .ok m => if m.valid then some m else none
    | _ => none

/-- A client is remembered unless it is in the list
(ZeroMqAddressedAttributedMessageTcpReceiverSender.cpp:124-156, 158-176).  Nothing is removed: the code for it
is commented out. -/
def remember (cs : List Str) (r : Str) : List Str := if cs.contains r then cs else cs ++ [r]

/-- `getNextMessage` (ZeroMqAddressedAttributedMessageTcpReceiverSender.cpp:32-212).  An exception of the buffer is
caught (206-209); the messages put in the queue before stay there. -/
def Tcp.getNext (s : Tcp) : Tcp × Option AAMsg :=
  match s.queue with
  | m :: q => ({ s with queue := q }, some m)
  | [] =>
    match s.socket with
    | [] => (s, none)
    | p :: ps =>
      if p.data.isEmpty then ({ s with clients := remember s.clients p.route, socket := ps }, none)
      else
        let r := drainE (s.buf.data.length + p.data.length + 1) s.buf p.data
        let s' := { s with buf := r.1, clients := remember s.clients p.route, socket := ps }
        match parsed r.2.1 with
        | [] => ({ s' with queue := [] }, none)
        | m :: q => ({ s' with queue := q }, some m)

/-- The frames handed to `zmq_send`, with `ZMQ_SNDMORE`, by `sendAddressedAttributedMessage`
(ZeroMqAddressedAttributedMessageTcpReceiverSender.cpp:225-258).  `server` is the identity given by the socket of a
client. -/
def Tcp.frames (s : Tcp) (isServer : Bool) (server : Str) (m : AAMsg) : List (Str × Bool) :=
  (if isServer then s.clients else [server]).flatMap fun c => [(c, true), (Sentinel.frame m.str, false)]

/-- The fields of the message of `sendMessage` (ZeroMqAddressedAttributedMessageTcpReceiverSender.cpp:214-223):
`m_sourceGroup` is never assigned and stays empty; the ids are texts of numbers (ZeroMqReceiverBase.cpp:38-43). -/
def ownFields (entityId serviceId : Nat) (address contentType descriptor payload : Str) : Fields :=
  { address := address, contentType := contentType, descriptor := descriptor, group := [],
    entityId := decimal entityId, serviceId := decimal serviceId, payload := payload }

/-! ### Not in the code: the stream socket of ZeroMQ -/

/-- Not in the code: a stream socket of ZeroMQ. -/
structure Sock where
  /-- Peers that are connected. -/
  peers : List Str
  /-- A second frame is expected. -/
  more : Bool := false
  /-- The peer chosen by the first frame. -/
  out : Option Str := none
  /-- What went to which peer. -/
  sent : List (Str × Str) := []
deriving Repr, DecidableEq

/-- Not in the code (used at ZeroMqAddressedAttributedMessageTcpReceiverSender.cpp:240-254): `zmq_send` on a stream socket.
A first frame with `ZMQ_SNDMORE` chooses the peer; if it is not connected the call fails and the frame is not
taken.  A first frame without `ZMQ_SNDMORE` is taken and chooses nobody.  A second frame goes to the chosen
peer, or nowhere.  The results of `zmq_send` are not looked at by the code. -/
def Sock.send (k : Sock) (f : Str × Bool) : Sock :=
  if k.more then
    match k.out with
    | some r => { k with more := false, out := none, sent := k.sent ++ [(r, f.1)] }
    | none => { k with more := false }
  else if f.2 then
    if k.peers.contains f.1 then { k with more := true, out := some f.1 } else k
  else { k with more := true }

/-- Not in the code: several frames. -/
def Sock.sendAll (k : Sock) (fs : List (Str × Bool)) : Sock := fs.foldl Sock.send k

/-- Not in the code: `n` calls of `getNextMessage` with what they return. -/
def Tcp.calls : Nat → Tcp → Tcp × List AAMsg
  | 0, s => (s, [])
  | n + 1, s =>
    let r := s.getNext
    let q := Tcp.calls n r.1
    (q.1, r.2.toList ++ q.2)

/-! ### Peers -/

theorem mem_remember {cs : List Str} {r x : Str} : x ∈ remember cs r ↔ x ∈ cs ∨ x = r := by
  unfold remember
  split
  · rename_i h
    have h : r ∈ cs := by simpa using h
    constructor
    · exact Or.inl
    · rintro (h' | rfl)
      · exact h'
      · exact h
  · simp

theorem nodup_remember {cs : List Str} {r : Str} (h : cs.Nodup) : (remember cs r).Nodup := by
  unfold remember
  split
  · exact h
  · rename_i h'
    have h' : r ∉ cs := by simpa using h'
    rw [List.nodup_append]
    exact ⟨h, by simp, by intro a ha b hb; simp at hb; subst hb; intro e; exact h' (e ▸ ha)⟩

/-- One call takes at most the first packet and remembers its sender. -/
theorem getNext_clients (s : Tcp) :
    (s.getNext.1.socket = s.socket ∧ s.getNext.1.clients = s.clients) ∨
    ∃ p ps, s.socket = p :: ps ∧ s.getNext.1.socket = ps ∧ s.getNext.1.clients = remember s.clients p.route := by
  unfold Tcp.getNext
  cases hq : s.queue with
  | cons m q => left; simp
  | nil =>
    cases hs : s.socket with
    | nil => left; simp [hs]
    | cons p ps =>
      right
      refine ⟨p, ps, rfl, ?_⟩
      simp only
      split
      · simp
      · split <;> simp

/-- **C190 (peers).**  After any calls of `getNextMessage` the class has taken the first packets of the socket, and
its peers are, each once, the senders of these packets, in the order in which they first appeared after those it knew
before.  A message of a server is handed to the socket once for each of them, with its framed text. -/
theorem C190_peers (n : Nat) (s : Tcp) (h : s.clients.Nodup) (m : AAMsg) (server : Str) :
    ∃ taken, s.socket = taken ++ (s.calls n).1.socket ∧ (s.calls n).1.clients.Nodup ∧
      s.clients <+: (s.calls n).1.clients ∧
      (∀ r, r ∈ (s.calls n).1.clients ↔ r ∈ s.clients ∨ ∃ p ∈ taken, p.route = r) ∧
      (s.calls n).1.frames true server m =
        ((s.calls n).1.clients.map fun c => [(c, true), (Sentinel.frame m.str, false)]).flatten := by
  induction n generalizing s with
  | zero => exact ⟨[], by simp [Tcp.calls], h, by simp [Tcp.calls], by simp [Tcp.calls], by
      simp [Tcp.calls, Tcp.frames, List.flatMap]⟩
  | succ n ih =>
    have e : (s.calls (n + 1)).1 = (s.getNext.1.calls n).1 := rfl
    rw [e]
    rcases getNext_clients s with ⟨a, b⟩ | ⟨p, ps, a, b, c⟩
    · obtain ⟨t, t1, t2, t3, t4, t5⟩ := ih s.getNext.1 (by rw [b]; exact h)
      rw [a] at t1
      rw [b] at t3 t4
      exact ⟨t, t1, t2, t3, t4, t5⟩
    · obtain ⟨t, t1, t2, t3, t4, t5⟩ := ih s.getNext.1 (by rw [c]; exact nodup_remember h)
      rw [b] at t1
      rw [c] at t3 t4
      refine ⟨p :: t, by rw [a, List.cons_append, ← t1], t2, ?_, ?_, t5⟩
      · refine List.IsPrefix.trans ?_ t3
        unfold remember
        split
        · exact List.prefix_refl _
        · exact List.prefix_append _ _
      · intro r
        rw [t4, mem_remember]
        constructor
        · rintro ((h1 | rfl) | ⟨q, hq, rfl⟩)
          · exact Or.inl h1
          · exact Or.inr ⟨p, by simp, rfl⟩
          · exact Or.inr ⟨q, by simp [hq], rfl⟩
        · rintro (h1 | ⟨q, hq, rfl⟩)
          · exact Or.inl (Or.inl h1)
          · rcases List.mem_cons.1 hq with rfl | hq
            · exact Or.inl (Or.inr rfl)
            · exact Or.inr ⟨q, hq, rfl⟩

example : ((Tcp.calls 4 { socket := [⟨"A".toList, []⟩, ⟨"B".toList, "x".toList⟩, ⟨"A".toList, []⟩] }).1.clients =
    ["A".toList, "B".toList]) := by decide +kernel

/-! ### Reception -/

theorem parsed_clean (fs : List Fields) (h : ∀ f ∈ fs, f.Clean) :
    parsed (fs.map (·.msg.str)) = fs.map Fields.msg := by
  induction fs with
  | nil => rfl
  | cons f fs ih =>
    have hcl := h f (by simp)
    have hstr : f.msg.str = wireString f.address
        (attrString f.contentType f.descriptor f.group f.entityId f.serviceId) f.payload := by rw [msg_eq hcl]
    have hparse : ({} : AAMsg).setFromString f.msg.str = .ok f.msg := by
      conv => lhs; rw [hstr]
      rw [parse_of_wireForm {} (fields_wire hcl), msg_eq hcl]
    have := ih fun g hg => h g (by simp [hg])
    unfold parsed at this ⊢
    simp only [List.map_cons, List.filterMap_cons, hparse, msg_valid hcl, if_true, this]

theorem calls_queue (q : List AAMsg) (s : Tcp) (hq : s.queue = q) (n : Nat) :
    (s.calls (q.length + n)).2 = q ++ (({ s with queue := [] } : Tcp).calls n).2 := by
  induction q generalizing s with
  | nil =>
    have : s = { s with queue := [] } := by cases s; simp_all
    rw [← this]; simp
  | cons m q ih =>
    have e : (m :: q).length + n = (q.length + n) + 1 := by simp; omega
    rw [e]
    simp only [Tcp.calls]
    have g : s.getNext = ({ s with queue := q }, some m) := by unfold Tcp.getNext; rw [hq]
    rw [g]
    simp only
    rw [ih { s with queue := q } rfl]
    simp

/-- **C190 (reception).**  When the data of the packets, of whatever senders, is a stream of framed messages cut
anywhere, `getNextMessage` returns over sufficiently many calls exactly these messages, each once and in order: as many
calls as packets and messages suffice, and further calls return nothing.  (For packets of several peers this needs
that no frame of one is cut by data of another: `C190_interleaved_violated`.) -/
theorem C190_received (fs : List Fields) (hcl : ∀ f ∈ fs, f.Clean ∧ Sentinel.Framable f.msg.str) (ps : List Packet)
    (hd : (ps.map (·.data)).flatten = stream fs) (n : Nat) (hn : ps.length + fs.length ≤ n) :
    (Tcp.calls n { socket := ps }).2 = fs.map Fields.msg := by
  suffices H : ∀ (ps : List Packet) (fs : List Fields) (n : Nat) (s : Tcp),
      (∀ f ∈ fs, f.Clean ∧ Sentinel.Framable f.msg.str) → s.queue = [] → s.socket = ps →
      ¬ Sentinel.AC <:+: s.buf.data → s.buf.data ++ (ps.map (·.data)).flatten = stream fs →
      ps.length + fs.length ≤ n → (s.calls n).2 = fs.map Fields.msg by
    exact H ps fs n _ hcl rfl rfl (show ¬ Sentinel.AC <:+: [] by decide) (by simpa using hd) hn
  clear hd hn hcl
  intro ps
  induction ps with
  | nil =>
    intro fs n s hcl hq hs hac hd hn
    have hfs : fs = [] := by
      cases fs with
      | nil => rfl
      | cons f fs =>
        exfalso
        apply hac
        simp only [List.map_nil, List.flatten_nil, List.append_nil] at hd
        rw [hd, stream, List.map_cons, List.flatten_cons]
        exact (Sentinel.AC_infix_frame _).trans (List.prefix_append _ _).isInfix
    subst hfs
    have g : s.getNext = (s, none) := by unfold Tcp.getNext; rw [hq, hs]
    clear hn
    induction n with
    | zero => rfl
    | succ n ih => simp only [Tcp.calls, g]; simpa using ih
  | cons p ps ih =>
    intro fs n s hcl hq hs hac hd hn
    obtain ⟨n, rfl⟩ : ∃ k, n = k + 1 := ⟨n - 1, by simp at hn; omega⟩
    rw [List.map_cons, List.flatten_cons, ← List.append_assoc] at hd
    by_cases he : p.data = []
    · have g : s.getNext = ({ s with clients := remember s.clients p.route, socket := ps }, none) := by
        unfold Tcp.getNext; rw [hq, hs]; simp [he]
      simp only [Tcp.calls, g]
      have := ih fs n { s with clients := remember s.clients p.route, socket := ps } hcl hq rfl hac
        (by simpa [he] using hd) (by simp at hn; omega)
      simpa using this
    · obtain ⟨qs, q1, q2, q3, q4⟩ := drainE_frames (s.buf.data.length + p.data.length + 1) s.buf p.data
        ((ps.map (·.data)).flatten) (fs.map (·.msg.str)) (by
          intro x hx
          obtain ⟨f, hf, rfl⟩ := List.mem_map.1 hx
          exact (hcl f hf).2) (by rw [hd, stream, List.map_map]; rfl) (by simp)
      rw [List.map_eq_append_iff] at q1
      obtain ⟨g1, g2, hg, hg1, hg2⟩ := q1
      have hp := parsed_clean g1 (fun f hf => (hcl f (by rw [hg]; simp [hf])).1)
      rw [hg1] at hp
      have hq2 : (drainE (s.buf.data.length + p.data.length + 1) s.buf p.data).1.data ++
          (ps.map (·.data)).flatten = stream g2 := by
        rw [q2, ← hg2, stream, List.map_map]; rfl
      set b' := (drainE (s.buf.data.length + p.data.length + 1) s.buf p.data).1 with hb'
      set t : Tcp := { s with buf := b', clients := remember s.clients p.route, socket := ps } with ht
      have g : s.getNext = ({ t with queue := (g1.map Fields.msg).tail }, (g1.map Fields.msg).head?) := by
        unfold Tcp.getNext
        rw [hq, hs]
        simp only
        rw [if_neg (by simpa using he)]
        simp only [hp]
        cases g1 <;> rfl
      simp only [Tcp.calls, g]
      have hl : n = (g1.map Fields.msg).tail.length + (n - (g1.map Fields.msg).tail.length) := by
        have : fs.length = g1.length + g2.length := by rw [hg]; simp
        simp at hn ⊢; omega
      rw [hl, calls_queue (g1.map Fields.msg).tail { t with queue := (g1.map Fields.msg).tail } rfl]
      have := ih g2 (n - (g1.map Fields.msg).tail.length) { t with queue := [] }
        (fun f hf => hcl f (by rw [hg]; simp [hf])) rfl rfl q3 hq2 (by
          have : fs.length = g1.length + g2.length := by rw [hg]; simp
          simp at hn ⊢; omega)
      simp only [this, hg]
      cases g1 <;> simp

theorem calls_none : ∀ (k : Nat) (s : Tcp), (s.calls k).2 = [] → (s.calls k).1.queue = [] →
    (s.calls k).1.socket = [] → ∀ n, (s.calls n).2 = [] := by
  intro k
  induction k with
  | zero =>
    intro s _ hq hs n
    have g : s.getNext = (s, none) := by
      unfold Tcp.getNext
      rw [show s.queue = [] from hq, show s.socket = [] from hs]
    induction n with
    | zero => rfl
    | succ n ih => simp only [Tcp.calls, g]; simpa using ih
  | succ k ih =>
    intro s h hq hs n
    simp only [Tcp.calls, List.append_eq_nil_iff] at h hq hs
    cases n with
    | zero => rfl
    | succ n => simp only [Tcp.calls, h.1, ih _ h.2 hq hs n, List.append_nil]

/-- Two messages in three packets of two peers. -/
example : (Tcp.calls 6 { socket :=
      [⟨"A".toList, []⟩, ⟨"A".toList, (stream [exMsg "a" "200" "20"]).take 20⟩,
        ⟨"A".toList, (stream [exMsg "a" "200" "20"]).drop 20⟩, ⟨"B".toList, stream [exMsg "b" "300" "30"]⟩] }).2 =
    [(exMsg "a" "200" "20").msg, (exMsg "b" "300" "30").msg] := by decide +kernel

/-- **C190 is violated when the data of two peers is interleaved.**  The class has one buffer for all peers.  Two peers
send one correct message each, in two packets; the packets arrive alternately: neither message is ever returned.  The
same holds for the TCP bridge, which also has one buffer. -/
theorem C190_interleaved_violated :
    ∃ a b : Fields, ∃ i j : Nat,
      (a.Clean ∧ Sentinel.Framable a.msg.str) ∧ (b.Clean ∧ Sentinel.Framable b.msg.str) ∧
      (let ps : List Packet := [⟨"A".toList, (stream [a]).take i⟩, ⟨"B".toList, (stream [b]).take j⟩,
          ⟨"A".toList, (stream [a]).drop i⟩, ⟨"B".toList, (stream [b]).drop j⟩]
       (∀ n, (Tcp.calls n { socket := ps }).2 = []) ∧
       ∀ s, tcpRun exTcp {} (ps.map (·.data)) = .ok s → s.sent = []) := by
  refine ⟨exMsg "a" "200" "20", exMsg "b" "300" "30", 20, 20, ?_, ?_, ?_, ?_⟩
  · exact ⟨⟨by decide, by decide, by decide, by decide, by decide, by decide, by decide⟩,
      ⟨by decide +kernel, by decide +kernel, by decide +kernel, by decide +kernel, by decide +kernel, by decide +kernel⟩⟩
  · exact ⟨⟨by decide, by decide, by decide, by decide, by decide, by decide, by decide⟩,
      ⟨by decide +kernel, by decide +kernel, by decide +kernel, by decide +kernel, by decide +kernel, by decide +kernel⟩⟩
  · exact calls_none 4 _ (by decide +kernel) (by decide +kernel) (by decide +kernel)
  · have : tcpRun exTcp {} ([⟨"A".toList, (stream [exMsg "a" "200" "20"]).take 20⟩,
        ⟨"B".toList, (stream [exMsg "b" "300" "30"]).take 20⟩, ⟨"A".toList, (stream [exMsg "a" "200" "20"]).drop 20⟩,
        ⟨"B".toList, (stream [exMsg "b" "300" "30"]).drop 20⟩].map Packet.data) =
        .ok { buf := { invalidCount := 1, disregardedCount := 1 } } := by decide +kernel
    intro s hs
    have hs := this.symm.trans hs
    injection hs with hs
    rw [← hs]

/-! ### Sending -/

theorem sendAll_append (k : Sock) (a b : List (Str × Bool)) : k.sendAll (a ++ b) = (k.sendAll a).sendAll b := by
  simp [Sock.sendAll]

/-- **C190 (sending).**  When all peers it knows are connected, a message of a server goes to each of them, once
and in the order in which they are known, and the socket is ready for the next message; a message of a client goes to
its server. -/
theorem C190_sent (s : Tcp) (k : Sock) (hm : k.more = false) (ho : k.out = none) (server : Str) (isServer : Bool)
    (hc : ∀ c ∈ (if isServer then s.clients else [server]), c ∈ k.peers) (m : AAMsg) :
    k.sendAll (s.frames isServer server m) =
      { k with sent := k.sent ++ (if isServer then s.clients else [server]).map (·, Sentinel.frame m.str) } := by
  unfold Tcp.frames
  generalize (if isServer then s.clients else [server]) = cs at hc
  induction cs generalizing k with
  | nil => simp [Sock.sendAll]
  | cons c cs ih =>
    rw [List.flatMap_cons, sendAll_append]
    have e : k.sendAll [(c, true), (Sentinel.frame m.str, false)] =
        { k with sent := k.sent ++ [(c, Sentinel.frame m.str)] } := by
      have := hc c (by simp)
      cases k
      simp_all [Sock.sendAll, Sock.send]
    rw [e, ih { k with sent := k.sent ++ [(c, Sentinel.frame m.str)] } hm ho (fun c hc' => hc c (by simp [hc']))]
    simp

/-- A socket that takes each identity for the data of the frame before. -/
theorem sendAll_off (cs : List Str) (t : Str) (k : Sock) (hm : k.more = true) (ho : k.out = none) :
    k.sendAll (cs.flatMap fun c => [(c, true), (t, false)]) = k := by
  induction cs with
  | nil => rfl
  | cons c cs ih =>
    rw [List.flatMap_cons, sendAll_append]
    have e : k.sendAll [(c, true), (t, false)] = k := by
      cases k
      simp_all [Sock.sendAll, Sock.send]
    rw [e, ih]

/-- **C190 (sending) is violated by a peer that is gone, in every case.**  If some peer known to the server is not
connected any more, a message goes only to the peers known before it, and no further message goes to anybody, however
many peers are connected.  Peers are never forgotten (`C190_peers`), and an end of a connection looks like a packet
without data. -/
theorem C190_gone_violated (s : Tcp) (k : Sock) (hm : k.more = false) (ho : k.out = none) (server : Str)
    (as bs : List Str) (c : Str) (hs : s.clients = as ++ c :: bs) (ha : ∀ a ∈ as, a ∈ k.peers) (hc : c ∉ k.peers)
    (m : AAMsg) (ms : List AAMsg) :
    (k.sendAll ((m :: ms).flatMap (s.frames true server))).sent =
      k.sent ++ as.map (·, Sentinel.frame m.str) := by
  rw [List.flatMap_cons, sendAll_append]
  have h1 : k.sendAll (s.frames true server m) =
      { k with more := true, sent := k.sent ++ as.map (·, Sentinel.frame m.str) } := by
    have e : s.frames true server m = ({ s with clients := as } : Tcp).frames true server m ++
        ([(c, true), (Sentinel.frame m.str, false)] ++
          bs.flatMap fun c => [(c, true), (Sentinel.frame m.str, false)]) := by
      simp [Tcp.frames, hs]
    rw [e, sendAll_append, C190_sent _ k hm ho server true (by simpa using ha), sendAll_append]
    have e2 : Sock.sendAll { k with sent := k.sent ++ as.map (·, Sentinel.frame m.str) }
        [(c, true), (Sentinel.frame m.str, false)] =
        { k with more := true, sent := k.sent ++ as.map (·, Sentinel.frame m.str) } := by
      cases k
      simp_all [Sock.sendAll, Sock.send]
    simp only [if_true] at e2 ⊢
    rw [e2, sendAll_off bs (Sentinel.frame m.str)
      { k with more := true, sent := k.sent ++ as.map (·, Sentinel.frame m.str) } rfl ho]
  rw [h1]
  clear h1
  induction ms with
  | nil => simp [Sock.sendAll]
  | cons x xs ih =>
    rw [List.flatMap_cons, sendAll_append]
    have := sendAll_off s.clients (Sentinel.frame x.str)
      { k with more := true, sent := k.sent ++ as.map (·, Sentinel.frame m.str) } rfl ho
    have e3 : s.frames true server x = s.clients.flatMap fun c => [(c, true), (Sentinel.frame x.str, false)] := by
      simp [Tcp.frames]
    rw [e3, this, ih]

/-- Two peers connect and the first one leaves: a server that reads these packets sends nothing to the second one. -/
example : (Tcp.calls 3 { socket := [⟨"A".toList, []⟩, ⟨"B".toList, []⟩, ⟨"A".toList, []⟩] }).1.clients =
      [] ++ "A".toList :: ["B".toList] ∧
    (Sock.sendAll { peers := ["B".toList] } ([(exMsg "a" "200" "20").msg, (exMsg "b" "200" "20").msg].flatMap
      (Tcp.frames { clients := ["A".toList, "B".toList] } true []))).sent = [] := by
  decide +kernel

/-- **C190 (from end to end).**  What `sendMessage` of a client sends, for messages whose texts can be framed, is
returned by `getNextMessage` of the other side with the given address, content type, descriptor and payload, the
entity and service id of the sender, and an empty group; each once, in order, wherever the stream is cut. -/
theorem C190_end_to_end (entityId serviceId : Nat) (given : List (Str × Str × Str × Str))
    (hg : ∀ g ∈ given, (ownFields entityId serviceId g.1 g.2.1 g.2.2.1 g.2.2.2).Clean ∧
      Sentinel.Framable (ownFields entityId serviceId g.1 g.2.1 g.2.2.1 g.2.2.2).msg.str)
    (server : Str) (ps : List Packet)
    (hd : (ps.map (·.data)).flatten = ((Sock.sendAll { peers := [server] } (given.flatMap fun g =>
      Tcp.frames {} false server (ownFields entityId serviceId g.1 g.2.1 g.2.2.1 g.2.2.2).msg)).sent.map (·.2)).flatten)
    (n : Nat) (hn : ps.length + given.length ≤ n) :
    (Tcp.calls n { socket := ps }).2.map (fun m => (m.address, m.payload,
      m.attrs.map fun a => (a.contentType, a.descriptor, a.group, a.entityId, a.serviceId))) =
    given.map fun g => (g.1, g.2.2.2, some (g.2.1, g.2.2.1, [], decimal entityId, decimal serviceId)) := by
  have hs : ∀ (given : List (Str × Str × Str × Str)) (l : List (Str × Str)),
      (Sock.sendAll { peers := [server], sent := l } (given.flatMap fun g =>
      Tcp.frames {} false server (ownFields entityId serviceId g.1 g.2.1 g.2.2.1 g.2.2.2).msg)).sent =
      l ++ given.map fun g => (server, Sentinel.frame (ownFields entityId serviceId g.1 g.2.1 g.2.2.1 g.2.2.2).msg.str) := by
    intro given
    induction given with
    | nil => intro l; simp [Sock.sendAll]
    | cons g gs ih =>
      intro l
      rw [List.flatMap_cons, sendAll_append, C190_sent {} _ rfl rfl server false (by simp)]
      simp only [Bool.false_eq_true, if_false, List.map_cons, List.map_nil]
      rw [ih]
      simp
  rw [hs given []] at hd
  have hr := C190_received (given.map fun g => ownFields entityId serviceId g.1 g.2.1 g.2.2.1 g.2.2.2) (by
    intro f hf
    obtain ⟨g, hg', rfl⟩ := List.mem_map.1 hf
    exact hg g hg') ps (by rw [hd]; simp [stream, Function.comp_def]) n (by simpa using hn)
  rw [hr, List.map_map, List.map_map]
  apply List.map_congr_left
  intro g hg'
  simp only [Function.comp]
  rw [msg_eq (hg g hg').1]
  simp [ownFields]

/-- Non-vacuity: one message, cut after 30 bytes. -/
example : ∃ g : Str × Str × Str × Str, ∃ ps : List Packet, ps.length = 2 ∧
    ((ownFields 5 30 g.1 g.2.1 g.2.2.1 g.2.2.2).Clean ∧
      Sentinel.Framable (ownFields 5 30 g.1 g.2.1 g.2.2.1 g.2.2.2).msg.str) ∧
    (ps.map (·.data)).flatten = ((Sock.sendAll { peers := ["S".toList] }
      (Tcp.frames {} false "S".toList (ownFields 5 30 g.1 g.2.1 g.2.2.1 g.2.2.2).msg)).sent.map (·.2)).flatten := by
  refine ⟨("a".toList, "lmcp".toList, "D".toList, "p$".toList),
    [⟨"C".toList, (Sentinel.frame (ownFields 5 30 "a".toList "lmcp".toList "D".toList "p$".toList).msg.str).take 30⟩,
     ⟨"C".toList, (Sentinel.frame (ownFields 5 30 "a".toList "lmcp".toList "D".toList "p$".toList).msg.str).drop 30⟩],
    rfl, ?_, by decide +kernel⟩
  exact ⟨⟨by decide, by decide, by decide, by decide, by decide, by decide, by decide⟩,
      ⟨by decide +kernel, by decide +kernel, by decide +kernel, by decide +kernel, by decide +kernel, by decide +kernel⟩⟩

/-- **C190 is violated by a message without payload.**  `sendMessage` frames the text of a message that was refused,
which is empty; the reader takes the empty text for the end of its data.  A correct message sent right after it, in the
same packet, is not returned by any number of calls. -/
theorem C190_empty_violated : ∃ f : Fields, f.Clean ∧ Sentinel.Framable f.msg.str ∧
    ∀ n, (Tcp.calls n { socket := [⟨"A".toList,
      Sentinel.frame (ownFields 5 30 "a".toList "lmcp".toList "D".toList []).msg.str ++ Sentinel.frame f.msg.str⟩] }).2 = [] := by
  refine ⟨exMsg "a" "200" "20", ?_, ?_, ?_⟩
  · exact ⟨by decide, by decide, by decide, by decide, by decide, by decide, by decide⟩
  · exact ⟨by decide +kernel, by decide +kernel, by decide +kernel, by decide +kernel, by decide +kernel, by decide +kernel⟩
  · exact calls_none 1 _ (by decide +kernel) (by decide +kernel) (by decide +kernel)

/-- **C190 (whatever arrives).**  Whatever the packets contain and however they are cut, each message that calls of
`getNextMessage` return was made of a text by `setAddressedAttributedMessageFromDelimitedString` and found valid. -/
theorem C190_only_valid (n : Nat) (s : Tcp) (hq : s.queue = []) : ∀ m ∈ (s.calls n).2,
    m.valid = true ∧ ∃ p, ({} : AAMsg).setFromString p = .ok m := by
  have hp : ∀ ps, ∀ m ∈ parsed ps, m.valid = true ∧ ∃ p, ({} : AAMsg).setFromString p = .ok m := by
    intro ps m hm
    unfold parsed at hm
    obtain ⟨p, -, hp⟩ := List.mem_filterMap.1 hm
    split at hp
    · rename_i m' hm'
      split at hp
      · rename_i hv
        cases hp
        exact ⟨hv, p, hm'⟩
      · cases hp
    · cases hp
  suffices h : ∀ (n : Nat) (s : Tcp), (∀ m ∈ s.queue, m.valid = true ∧ ∃ p, ({} : AAMsg).setFromString p = .ok m) →
      ∀ m ∈ (s.calls n).2, m.valid = true ∧ ∃ p, ({} : AAMsg).setFromString p = .ok m from
    h n s (by rw [hq]; simp)
  intro n
  induction n with
  | zero => intro s _ m hm; simp [Tcp.calls] at hm
  | succ n ih =>
    intro s hs m hm
    have key : (∀ m ∈ s.getNext.1.queue, m.valid = true ∧ ∃ p, ({} : AAMsg).setFromString p = .ok m) ∧
        ∀ m ∈ s.getNext.2, m.valid = true ∧ ∃ p, ({} : AAMsg).setFromString p = .ok m := by
      unfold Tcp.getNext
      cases hq : s.queue with
      | cons a q => rw [hq] at hs; exact ⟨fun m hm => hs m (by simp [hm]), fun m hm => hs m (by simp at hm; simp [hm])⟩
      | nil =>
        cases hk : s.socket with
        | nil => simp [hq]
        | cons p ps =>
          simp only
          split
          · simp [hq]
          · have hp' := hp (drainE (s.buf.data.length + p.data.length + 1) s.buf p.data).2.1
            split
            · simp
            · rename_i a q e
              rw [e] at hp'
              exact ⟨fun m hm => hp' m (by simp [hm]), fun m hm => hp' m (by simp at hm; simp [hm])⟩
    have e : (s.calls (n + 1)).2 = s.getNext.2.toList ++ (s.getNext.1.calls n).2 := rfl
    rw [e, List.mem_append] at hm
    rcases hm with hm | hm
    · exact key.2 m (by simpa using hm)
    · exact ih _ key.1 m hm

example : ((Tcp.calls 3 { socket := [⟨"A".toList, Sentinel.frame "a$lmcp|D||1|2$".toList ++ Sentinel.frame (exMsg "a" "200" "20").msg.str⟩] }).2 =
    [(exMsg "a" "200" "20").msg]) := by decide +kernel

end Verif.Bridge
