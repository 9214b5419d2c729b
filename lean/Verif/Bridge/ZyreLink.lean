import Verif.Bridge.Props
import Verif.Net.Props
import Mathlib.Data.List.Induction
import Mathlib.Data.List.Nodup

/-!
Two entities connected by Zyre (C195): `configure`, `zyreWhisperMessageHandler` and the announcements of
`src/cpp/Communications/LmcpObjectNetworkZeroMqZyreBridge.cpp`, the event loop of
`src/cpp/Communications/ZeroMqZyreBridge.cpp` (205-352) and the helpers in `src/cpp/Utilities/UxAS_Zyre.h`.

The Zyre library itself is not in the repository.  It is assumed to deliver the whispers from one node to
another once and in order, and the headers of a node as they were set.  Left out: gossip and device settings
(67-92), logging, the mutex, starting and stopping the thread; `delete` of memory that the library has
allocated with `malloc` (UxAS_Zyre.h:36).
-/

namespace Verif.Bridge

open Verif Verif.Msg Verif.Net

/-! ### Configuration -/

/-- LmcpObjectNetworkZeroMqZyreBridge.cpp 108-140: the children of the XML element of the bridge. -/
inductive Child where
  | subscribe (messageType : Str)
  | external (messageType : Str)
  | other
deriving Repr, DecidableEq

/-- LmcpObjectNetworkZeroMqZyreBridge.cpp 126-137, 150-160: append an address to the text of the header
unless it is there (`extSubAddDupChk`). -/
def addExternal (s : Str × List Str) (a : Str) : Str × List Str :=
  if s.2.contains a then s
  else ((if s.1.length > 0 then s.1 ++ ";".toList else s.1) ++ a, s.2 ++ [a])

/-- LmcpObjectNetworkZeroMqZyreBridge.cpp 106-140: the loop over the children, for the addresses of external
messages. -/
def externals (cs : List Child) : Str × List Str :=
  cs.foldl (fun s ch => match ch with
    | .external t => if t.isEmpty then s else addExternal s t
    | _ => s) ([], [])

/-- LmcpObjectNetworkZeroMqZyreBridge.cpp 110-118: the addresses of `SubscribeToMessage`. -/
def persistents (cs : List Child) : List Str :=
  cs.foldl (fun s ch => match ch with
    | .subscribe t => if t.isEmpty || s.contains t then s else s ++ [t]
    | _ => s) []

/-- `LmcpObjectNetworkZeroMqZyreBridge::configure` (59-173) for entity `id`, client `net`, with the type of the
entity and `ConsiderSelfGenerated`. -/
def zconfigure (id net : Nat) (type : Str) (self : Bool) (cs : List Child) : ZCfg × Headers :=
  ({ bridge := { kind := .zyre, entity := decimal id, network := decimal net,
                 nonExport := [unicastAddress id net], nonImport := [unicastAddress id net],
                 selfGenerated := self },
     own := id, persistent := persistents cs },
   { entityId := decimal id, entityType := type,
     subscriptions := (addExternal (externals cs) (entityCastAddress id)).1 })

/-! ### Sending and receiving -/

/-- LmcpObjectNetworkZeroMqZyreBridge.cpp 236 and UxAS_Zyre.h 117-127: the whispers to one peer during a run
of events: one frame for every time the peer is in the list. -/
def sentTo (c : ZCfg) (u : Str) : Zyre → List ZIn → List Str
  | _, [] => []
  | z, i :: is =>
    (match i with
      | .publish m => List.replicate ((zstep c z i).2.count u) (Sentinel.frame m.getString)
      | _ => []) ++ sentTo c u (zstep c z i).1 is

/-- LmcpObjectNetworkZeroMqZyreBridge.h 253 (`m_receiveZyreDataBuffer`) and ZeroMqZyreBridge.cpp 348-351: the
receiving side. -/
structure ZRx where
  buf : Sentinel.Buf := {}
  /-- the event thread was left by an exception -/
  dead : Bool := false
  /-- Not in the code: what was published on the inside -/
  out : List AAMsg := []
deriving Repr

/-- One WHISPER event: ZeroMqZyreBridge.cpp 300-334 (messages that are empty are dropped) and
`zyreWhisperMessageHandler` (LmcpObjectNetworkZeroMqZyreBridge.cpp:405-468): one payload is taken from the
buffer. -/
def whisperIn (c : Cfg) (s : ZRx) (data : Str) : Outcome ZRx :=
  if s.dead || data.isEmpty then .ok s
  else
    match Sentinel.next s.buf data with
    | (b, .ok p) =>
      if p.isEmpty then .ok { s with buf := b }
      else
        (({} : AAMsg).setFromString p).bind fun m =>
          (importMsg c m).bind fun r => .ok { s with buf := b, out := s.out ++ r.toList }
    | (b, .throws) => .ok { s with buf := b, dead := true }
    | (_, .ub) => .ub

/-- Not in the code: a list of whispers. -/
def whispersIn (c : Cfg) : ZRx → List Str → Outcome ZRx
  | s, [] => .ok s
  | s, d :: ds => (whisperIn c s d).bind fun s' => whispersIn c s' ds

/-- The announcements on the inside. -/
inductive Announce where
  | join (id : Nat) (label : Str)
  | exit (id : Nat) (label : Str)
deriving Repr, DecidableEq

/-- `EntityJoin` and `EntityExit` (LmcpObjectNetworkZeroMqZyreBridge.cpp:340-345, 385-396). -/
def announce (c : ZCfg) (z : Zyre) : ZIn → Option Announce
  | .enter _ h =>
    if z.dead then none
    else match stoull h.entityId with
      | none => none
      | some id => if id = c.own then none else some (.join id h.entityType)
  | .exit u =>
    if z.dead then none
    else match z.peers.find? (·.1 == u) with
      | none => none
      | some p => (stoi p.2.2).map fun id => .exit id p.2.1
  | .publish _ => none

/-! ### Specification -/

/-- The entity asked for messages with this address: it begins with an address of an external subscription or
with the address of the entity. -/
def asked (id : Nat) (cs : List Child) (address : Str) : Bool :=
  (entityCastAddress id).isPrefixOf address ||
    cs.any fun ch => match ch with
      | .external t => !t.isEmpty && t.isPrefixOf address
      | _ => false

/-- What is published on the inside for a message from another entity. -/
def taken (id net : Nat) (self : Bool) (f : Fields) : Option Fields :=
  if f.address = unicastAddress id net then none
  else if self then
    some { f with group := "ZyreBridge".toList, entityId := decimal id, serviceId := decimal net }
  else some f

/-- The messages published on the inside during a run. -/
def published (t : List ZIn) : List AAMsg := t.filterMap fun i => match i with | .publish m => some m | _ => none

/-- Who a peer said it is when it last entered, unless it has left since. -/
def current (own : Nat) (u : Str) (h : List ZIn) : Option (Str × Str) :=
  h.foldl (fun acc i => match i with
    | .enter u' hd => if u' = u ∧ hd.entityId ≠ decimal own then some (hd.entityType, hd.entityId) else acc
    | .exit u' => if u' = u then none else acc
    | .publish _ => acc) none

/-! ### The header -/

theorem join_snoc (d : Char) (a : Str) : ∀ ts : List Str, ts ≠ [] → join d (ts ++ [a]) = join d ts ++ d :: a
  | [], h => absurd rfl h
  | [t], _ => by simp [join]
  | t :: t' :: ts, _ => by
    have ih := join_snoc d a (t' :: ts) (by simp)
    simp only [List.cons_append, join] at ih ⊢
    rw [ih]; simp

/-- The text of the header is the list of addresses joined by semicolons. -/
structure HeaderOk (s : Str × List Str) : Prop where
  eq : s.1 = join ';' s.2
  clean : ∀ a ∈ s.2, a ≠ [] ∧ ';' ∉ a
  nodup : s.2.Nodup

theorem join_ne_nil (d : Char) : ∀ ts : List Str, ts ≠ [] → (∀ a ∈ ts, a ≠ []) → join d ts ≠ []
  | [], h, _ => absurd rfl h
  | [t], _, h => by simpa [join] using h t (by simp)
  | t :: t' :: ts, _, _ => by simp [join]

theorem addExternal_ok {s : Str × List Str} (h : HeaderOk s) {a : Str} (ha : a ≠ [] ∧ ';' ∉ a) :
    HeaderOk (addExternal s a) ∧ ∀ x, x ∈ (addExternal s a).2 ↔ x ∈ s.2 ∨ x = a := by
  unfold addExternal
  by_cases hc : s.2.contains a = true
  · rw [if_pos hc]
    refine ⟨h, fun x => ⟨.inl, ?_⟩⟩
    rintro (hx | rfl)
    · exact hx
    · simpa using hc
  · rw [if_neg hc]
    have hn : a ∉ s.2 := by simpa using hc
    refine ⟨⟨?_, ?_, ?_⟩, fun x => by simp⟩
    · show (if s.1.length > 0 then s.1 ++ ";".toList else s.1) ++ a = join ';' (s.2 ++ [a])
      by_cases he : s.2 = []
      · have : s.1 = [] := by rw [h.eq, he]; rfl
        rw [this, he]; simp [join]
      · rw [join_snoc _ _ _ he, ← h.eq]
        have : s.1 ≠ [] := by rw [h.eq]; exact join_ne_nil _ _ he fun x hx => (h.clean x hx).1
        rw [if_pos (List.length_pos_iff.2 this)]
        simp
    · intro x hx
      rcases List.mem_append.1 hx with hx | hx
      · exact h.clean x hx
      · rw [List.mem_singleton.1 hx]; exact ha
    · exact List.nodup_append.2 ⟨h.nodup, by simp, by
        intro x hx y hy e
        rw [List.mem_singleton] at hy
        exact hn (by rw [← hy, ← e]; exact hx)⟩

theorem externals_ok (cs : List Child) (hext : ∀ s, .external s ∈ cs → ';' ∉ s) :
    HeaderOk (externals cs) ∧ ∀ x, x ∈ (externals cs).2 ↔ .external x ∈ cs ∧ x ≠ [] := by
  suffices H : ∀ (cs : List Child) (s : Str × List Str), (∀ s, .external s ∈ cs → ';' ∉ s) → HeaderOk s →
      HeaderOk (cs.foldl (fun s ch => match ch with
        | .external t => if t.isEmpty then s else addExternal s t
        | _ => s) s) ∧ ∀ x, x ∈ (cs.foldl (fun s ch => match ch with
        | .external t => if t.isEmpty then s else addExternal s t
        | _ => s) s).2 ↔ x ∈ s.2 ∨ (.external x ∈ cs ∧ x ≠ []) by
    obtain ⟨h1, h2⟩ := H cs ([], []) hext ⟨rfl, by simp, List.nodup_nil⟩
    exact ⟨h1, fun x => by simpa [externals] using h2 x⟩
  intro cs
  induction cs with
  | nil => intro s _ hs; exact ⟨hs, fun x => by simp⟩
  | cons ch cs ih =>
    intro s hx hs
    have hx' : ∀ s, .external s ∈ cs → ';' ∉ s := fun s h => hx s (by simp [h])
    simp only [List.foldl_cons]
    cases ch with
    | subscribe t =>
      obtain ⟨h1, h2⟩ := ih s hx' hs
      exact ⟨h1, fun x => by rw [h2]; simp⟩
    | other =>
      obtain ⟨h1, h2⟩ := ih s hx' hs
      exact ⟨h1, fun x => by rw [h2]; simp⟩
    | external t =>
      by_cases ht : t = []
      · subst ht
        obtain ⟨h1, h2⟩ := ih s hx' hs
        refine ⟨h1, fun x => ?_⟩
        refine (h2 x).trans ?_
        constructor
        · rintro (h | ⟨h, h'⟩)
          · exact .inl h
          · exact .inr ⟨by simp [h], h'⟩
        · rintro (h | ⟨h, h'⟩)
          · exact .inl h
          · rcases List.mem_cons.1 h with h | h
            · rw [Child.external.injEq] at h; exact absurd h h'
            · exact .inr ⟨h, h'⟩
      · obtain ⟨a1, a2⟩ := addExternal_ok hs ⟨ht, hx t (by simp)⟩
        obtain ⟨h1, h2⟩ := ih _ hx' a1
        have hte : t.isEmpty = false := by simpa using ht
        simp only [hte, Bool.false_eq_true, if_false]
        refine ⟨h1, fun x => ?_⟩
        rw [h2, a2]
        constructor
        · rintro ((h | rfl) | ⟨h, h'⟩)
          · exact .inl h
          · exact .inr ⟨by simp, ht⟩
          · exact .inr ⟨by simp [h], h'⟩
        · rintro (h | ⟨h, h'⟩)
          · exact .inl (.inl h)
          · rcases List.mem_cons.1 h with h | h
            · rw [Child.external.injEq] at h; exact .inl (.inr h)
            · exact .inr ⟨h, h'⟩

theorem entityCast_clean (id : Nat) : entityCastAddress id ≠ [] ∧ ';' ∉ entityCastAddress id := by
  refine ⟨by simp [entityCastAddress], ?_⟩
  intro h
  rcases List.mem_append.1 h with h | h
  · exact absurd h (by decide)
  · exact absurd (decimal_isDigit h) (by decide)

/-- **C195 (header, partial).** A peer that reads the headers of a bridge finds in them exactly the addresses of
the `SubscribeToExternalMessage` elements of its configuration and the address of the entity, each once, for
addresses without a semicolon (`C195_semicolon_violated`). -/
theorem C195_header_partial (id net : Nat) (type : Str) (self : Bool) (cs : List Child)
    (hext : ∀ s, .external s ∈ cs → ';' ∉ s)
    (hlen : (zconfigure id net type self cs).2.subscriptions.length < 4294967295) :
    (addressesOf (zconfigure id net type self cs).2).Nodup ∧
    ∀ a, a ∈ addressesOf (zconfigure id net type self cs).2 ↔
      (.external a ∈ cs ∧ a ≠ []) ∨ a = entityCastAddress id := by
  obtain ⟨h1, h2⟩ := externals_ok cs hext
  obtain ⟨h3, h4⟩ := addExternal_ok h1 (entityCast_clean id)
  rw [addressesOf_tokens hlen]
  have hne : (addExternal (externals cs) (entityCastAddress id)).2 ≠ [] := by
    intro h
    have := (h4 (entityCastAddress id)).2 (.inr rfl)
    rw [h] at this; simp at this
  have e : tokensOf ';' (zconfigure id net type self cs).2.subscriptions =
      (addExternal (externals cs) (entityCastAddress id)).2 :=
    (isSplit_eq_tokensOf ⟨hne, fun t ht => (h3.clean t ht).2, h3.eq.symm⟩).symm
  rw [e]
  exact ⟨h3.nodup, fun a => by rw [h4, h2]⟩

/-! ### The receiving side -/

theorem zyreGroup_clean : '$' ∉ "ZyreBridge".toList ∧ '|' ∉ "ZyreBridge".toList := by decide

theorem decimal_clean (n : Nat) : decimal n ≠ [] ∧ '$' ∉ decimal n ∧ '|' ∉ decimal n :=
  ⟨decimal_ne_nil n, fun h => absurd (decimal_isDigit h) (by decide),
    fun h => absurd (decimal_isDigit h) (by decide)⟩

theorem import_taken (id net : Nat) (type : Str) (self : Bool) (cs : List Child) {f : Fields} (hf : f.Clean)
    (he : f.entityId ≠ decimal id) :
    importMsg (zconfigure id net type self cs).1.bridge f.msg = .ok ((taken id net self f).map Fields.msg) := by
  have hv := msg_valid hf
  have ha : f.msg.attrs = some
      { valid := true, str := attrString f.contentType f.descriptor f.group f.entityId f.serviceId,
        contentType := f.contentType, descriptor := f.descriptor, group := f.group, entityId := f.entityId,
        serviceId := f.serviceId } := by rw [msg_eq hf]
  have had : f.msg.address = f.address := by rw [msg_eq hf]
  unfold importMsg
  rw [if_neg (by simp [zconfigure]), if_pos hv, if_pos (by simp [zconfigure]), ha]
  simp only
  rw [if_neg (by simpa [zconfigure] using he.symm), had]
  unfold taken
  by_cases hn : f.address = unicastAddress id net
  · rw [if_pos (by simp [zconfigure, hn]), if_pos hn]; rfl
  · rw [if_neg (by simpa [zconfigure] using hn), if_neg hn]
    cases self with
    | false => simp [setSource, zconfigure, Outcome.bind, sendInside, hv]
    | true =>
      obtain ⟨u1, u2⟩ := updateSource_clean hf zyreGroup_clean (decimal_clean id) (decimal_clean net)
      have : setSource (zconfigure id net type true cs).1.bridge f.msg =
          f.msg.updateSource "ZyreBridge".toList (decimal id) (decimal net) := rfl
      rw [this, u1]
      simp only [Outcome.bind, sendInside, msg_valid u2, if_true, Option.map_some]

theorem getString_msg {f : Fields} (hf : f.Clean) : f.msg.getString = f.msg.str := by
  rw [msg_eq hf]; rfl

theorem parse_msg {f : Fields} (hf : f.Clean) : ({} : AAMsg).setFromString f.msg.str = .ok f.msg := by
  have hstr : f.msg.str = wireString f.address
      (attrString f.contentType f.descriptor f.group f.entityId f.serviceId) f.payload := by rw [msg_eq hf]
  conv => lhs; rw [hstr]
  rw [parse_of_wireForm {} (fields_wire hf), msg_eq hf]

/-- A whisper after which the first frame of the buffer is the one of a clean message. -/
theorem whisperIn_frame (id net : Nat) (type : Str) (self : Bool) (cs : List Child) {f : Fields} (hf : f.Clean)
    (hp : Sentinel.Framable f.msg.str) (he : f.entityId ≠ decimal id) (s : ZRx) (hs : s.dead = false) (data rest : Str)
    (hne : data ≠ []) (hd : s.buf.data ++ data = Sentinel.frame f.msg.str ++ rest) :
    ∃ b, b.data = rest ∧ whisperIn (zconfigure id net type self cs).1.bridge s data =
      .ok { s with buf := b, out := s.out ++ ((taken id net self f).map Fields.msg).toList } := by
  obtain ⟨n1, n2⟩ := Sentinel.next_frame s.buf data [] f.msg.str rest hp (by decide) (by simpa using hd)
  refine ⟨(Sentinel.next s.buf data).1, n2, ?_⟩
  unfold whisperIn
  have h1 : (s.dead || data.isEmpty) = false := by simp [hs, hne]
  have h2 : f.msg.str.isEmpty = false := by simpa using hp.ne
  rw [h1]
  simp only [Bool.false_eq_true, if_false]
  rw [show Sentinel.next s.buf data = ((Sentinel.next s.buf data).1, .ok f.msg.str) from Prod.ext rfl n1]
  simp only [h2, Bool.false_eq_true, if_false]
  rw [parse_msg hf]
  simp only [Outcome.bind]
  rw [import_taken id net type self cs hf he]

/-- Whispers of one clean message each are taken over in order. -/
theorem whispersIn_frames (id net : Nat) (type : Str) (self : Bool) (cs : List Child) : ∀ (fs : List Fields),
    (∀ f ∈ fs, f.Clean ∧ Sentinel.Framable f.msg.str ∧ f.entityId ≠ decimal id) →
    ∀ s : ZRx, s.dead = false → s.buf.data = [] →
    ∃ b, b.data = [] ∧ whispersIn (zconfigure id net type self cs).1.bridge s (fs.map fun f => Sentinel.frame f.msg.str) =
      .ok { buf := b, dead := false, out := s.out ++ (fs.filterMap (taken id net self)).map Fields.msg } := by
  intro fs
  induction fs with
  | nil =>
    intro _ s hs hb
    refine ⟨s.buf, hb, ?_⟩
    obtain ⟨b, d, o⟩ := s
    simp only at hs
    subst hs
    simp [whispersIn]
  | cons f fs ih =>
    intro hf s hs hb
    obtain ⟨f1, f2, f3⟩ := hf f (by simp)
    obtain ⟨b, b1, b2⟩ := whisperIn_frame id net type self cs f1 f2 f3 s hs (Sentinel.frame f.msg.str) []
      (Sentinel.frame_ne_nil _) (by simp [hb])
    obtain ⟨b', c1, c2⟩ := ih (fun g hg => hf g (by simp [hg]))
      { s with buf := b, out := s.out ++ ((taken id net self f).map Fields.msg).toList } hs b1
    refine ⟨b', c1, ?_⟩
    simp only [List.map_cons, whispersIn, b2, Outcome.bind]
    rw [c2]
    simp only [List.filterMap_cons]
    cases taken id net self f <;> simp

/-! ### The sending side -/

theorem advertised_never (own : Nat) (u : Str) : ∀ h : List ZIn, (∀ hd, .enter u hd ∉ h) → advertised own u h = [] := by
  intro h
  induction h using List.reverseRecOn with
  | nil => intro _; rfl
  | append_singleton h i ih =>
    intro hn
    have ih' := ih (fun hd hm => hn hd (by simp [hm]))
    rw [advertised_snoc]
    cases i with
    | enter u' hd =>
      have : u' ≠ u := by rintro rfl; exact hn hd (by simp)
      simp [this, ih']
    | exit u' => simp [ih']
    | publish m => simp [ih']

/-- A message is sent to the peer: the entity of the bridge is the source, the address may be exported and is
one the peer asked for. -/
def goes (cb : ZCfg) (id : Nat) (cs : List Child) (f : Fields) : Bool :=
  f.entityId == cb.bridge.entity && !cb.bridge.nonExport.contains f.address && asked id cs f.address

theorem sentTo_eq (base : List Str) (cb : ZCfg) (hk : cb.bridge.kind = .zyre) (ua : Str) (id : Nat) (cs : List Child) :
    ∀ (t h : List ZIn) (fs : List Fields), Numbered (h ++ t) → Short (h ++ t) →
    (∀ hd, .enter ua hd ∉ t) → .exit ua ∉ t →
    (∀ ad : Str, (∃ s ∈ advertised cb.own ua h, s <+: ad) ↔ asked id cs ad = true) →
    published t = fs.map Fields.msg → (∀ f ∈ fs, f.Clean) →
    sentTo cb ua (runM (zstep cb) (Zyre.init base cb) h).1 t =
      (fs.filter (goes cb id cs)).map fun f => Sentinel.frame f.msg.str := by
  intro t
  induction t with
  | nil =>
    intro h fs _ _ _ _ _ hp _
    have : fs = [] := by simpa [published] using hp.symm
    subst this; rfl
  | cons i t ih =>
    intro h fs hn hs he hx ha hp hf
    have hrun : (zstep cb (runM (zstep cb) (Zyre.init base cb) h).1 i).1 =
        (runM (zstep cb) (Zyre.init base cb) (h ++ [i])).1 := by rw [runM_snoc]
    have hn' : Numbered ((h ++ [i]) ++ t) := by simpa using hn
    have hs' : Short ((h ++ [i]) ++ t) := by simpa using hs
    have he' : ∀ hd, .enter ua hd ∉ t := fun hd hm => he hd (by simp [hm])
    have hx' : .exit ua ∉ t := fun hm => hx (by simp [hm])
    have hadv : advertised cb.own ua (h ++ [i]) = advertised cb.own ua h := by
      rw [advertised_snoc]
      cases i with
      | enter u' hd =>
        have : u' ≠ ua := by rintro rfl; exact he hd (by simp)
        simp [this]
      | exit u' =>
        have : u' ≠ ua := by rintro rfl; exact hx (by simp)
        simp [this]
      | publish m => rfl
    cases i with
    | enter u' hd =>
      simp only [sentTo]
      rw [hrun, List.nil_append]
      exact ih _ fs hn' hs' he' hx' (by rw [hadv]; exact ha) (by simpa [published] using hp) hf
    | exit u' =>
      simp only [sentTo]
      rw [hrun, List.nil_append]
      exact ih _ fs hn' hs' he' hx' (by rw [hadv]; exact ha) (by simpa [published] using hp) hf
    | publish m =>
      cases fs with
      | nil => simp [published] at hp
      | cons f fs =>
        have hp2 : m = f.msg ∧ published t = fs.map Fields.msg := by
          simpa [published] using hp
        obtain ⟨rfl, hp3⟩ := hp2
        have hfc := hf f (by simp)
        simp only [sentTo]
        rw [hrun, ih _ fs hn' hs' he' hx' (by rw [hadv]; exact ha) hp3 (fun g hg => hf g (by simp [hg]))]
        have hat : f.msg.attrs = some
            { valid := true, str := attrString f.contentType f.descriptor f.group f.entityId f.serviceId,
              contentType := f.contentType, descriptor := f.descriptor, group := f.group,
              entityId := f.entityId, serviceId := f.serviceId } := by rw [msg_eq hfc]
        have had : f.msg.address = f.address := by rw [msg_eq hfc]
        obtain ⟨c1, c2, c3⟩ := C17_each_matching_peer_once_partial base cb h
          (fun u hd hm => hn u hd (by simp [hm])) (fun u hd hm => hs u hd (by simp [hm])) hk f.msg _ hat
        simp only at c2 c3
        rw [had] at c2 c3
        generalize hout : (zstep cb (runM (zstep cb) (Zyre.init base cb) h).1 (.publish f.msg)).2 = out at c1 c2 c3
        simp only [hout, getString_msg hfc, List.filter_cons]
        by_cases hg : goes cb id cs f = true
        · have hg' := hg
          simp only [goes, Bool.and_eq_true, beq_iff_eq, Bool.not_eq_true', List.contains_eq_mem,
            decide_eq_false_iff_not] at hg'
          have hm : ua ∈ out := (c2 hg'.1.1 hg'.1.2 ua).2 ((ha _).2 hg'.2)
          rw [if_pos hg, List.count_eq_one_of_mem c1 hm]
          rfl
        · have hm : ua ∉ out := by
            intro hm
            apply hg
            by_cases q1 : f.entityId = cb.bridge.entity
            · by_cases q2 : f.address ∈ cb.bridge.nonExport
              · rw [c3 (.inr q2)] at hm; simp at hm
              · have := (ha _).1 ((c2 q1 q2 ua).1 hm)
                simp [goes, q1, q2, this]
            · rw [c3 (.inl q1)] at hm; simp at hm
          rw [if_neg hg, List.count_eq_zero.2 hm]
          rfl

/-- **C195 (partial).** Entity `id` with a Zyre bridge appears at the Zyre bridge of another entity and stays.
Whatever the other peers do meanwhile and whatever is published there, entity `id` gets on its inside exactly
the messages of that entity that may be exported and whose address begins with one of the addresses
of its `SubscribeToExternalMessage` elements or with its own entity address; each once, in order, and unchanged
(with `ConsiderSelfGenerated` under its own source), except those addressed to its bridge.
Missing: addresses with semicolons (`C195_semicolon_violated`), messages that the framing does not carry
(`C195_behind_violated`), entity numbers of 2^31 and above (`C17_large_id_violated`). -/
theorem C195_end_to_end_partial (base : List Str) (cb : ZCfg) (hk : cb.bridge.kind = .zyre)
    (hent : cb.bridge.entity = decimal cb.own) (id net : Nat) (type : Str) (self : Bool) (cs : List Child)
    (hid : id < 2147483648) (hne : id ≠ cb.own) (hext : ∀ s, .external s ∈ cs → ';' ∉ s)
    (ua : Str) (h t : List ZIn) (hnew : ∀ hd, .enter ua hd ∉ h) (hstay : (∀ hd, .enter ua hd ∉ t) ∧ .exit ua ∉ t)
    (hn : Numbered (h ++ t)) (hs : Short (h ++ t))
    (hlen : (zconfigure id net type self cs).2.subscriptions.length < 4294967295)
    (fs : List Fields) (hp : published t = fs.map Fields.msg)
    (hf : ∀ f ∈ fs, f.Clean ∧ Sentinel.Framable f.msg.str) :
    ∃ b, b.data = [] ∧
      whispersIn (zconfigure id net type self cs).1.bridge {}
        (sentTo cb ua (runM (zstep cb) (Zyre.init base cb) (h ++ [.enter ua (zconfigure id net type self cs).2])).1 t) =
      .ok { buf := b, dead := false,
            out := ((fs.filter (goes cb id cs)).filterMap (taken id net self)).map Fields.msg } := by
  have hdec : ∀ a b : Nat, decimal a = decimal b → a = b := fun a b e => by
    have := congrArg decimalValue e
    rwa [decimalValue_decimal, decimalValue_decimal] at this
  have hn2 : Numbered ((h ++ [.enter ua (zconfigure id net type self cs).2]) ++ t) := by
    intro u hd hm
    simp only [List.mem_append, List.mem_singleton] at hm
    rcases hm with (hm | hm) | hm
    · exact hn u hd (by simp [hm])
    · rw [ZIn.enter.injEq] at hm
      rw [hm.2]
      exact ⟨id, hid, rfl⟩
    · exact hn u hd (by simp [hm])
  have hs2 : Short ((h ++ [.enter ua (zconfigure id net type self cs).2]) ++ t) := by
    intro u hd hm
    simp only [List.mem_append, List.mem_singleton] at hm
    rcases hm with (hm | hm) | hm
    · exact hs u hd (by simp [hm])
    · rw [ZIn.enter.injEq] at hm
      rw [hm.2]
      exact hlen
    · exact hs u hd (by simp [hm])
  obtain ⟨-, hh⟩ := C195_header_partial id net type self cs hext hlen
  rw [addressesOf_tokens hlen] at hh
  have hadv : advertised cb.own ua (h ++ [.enter ua (zconfigure id net type self cs).2]) =
      tokensOf ';' (zconfigure id net type self cs).2.subscriptions := by
    rw [advertised_snoc]
    simp only [true_and]
    rw [if_pos (show (zconfigure id net type self cs).2.entityId ≠ decimal cb.own from fun e => hne (hdec _ _ e)), advertised_never _ _ _ hnew]
    rfl
  rw [sentTo_eq base cb hk ua id cs t _ fs hn2 hs2 hstay.1 hstay.2 ?_ hp (fun f hm => (hf f hm).1)]
  · have hall : ∀ f ∈ fs.filter (goes cb id cs),
        f.Clean ∧ Sentinel.Framable f.msg.str ∧ f.entityId ≠ decimal id := by
      intro f hm
      obtain ⟨m1, m2⟩ := List.mem_filter.1 hm
      refine ⟨(hf f m1).1, (hf f m1).2, ?_⟩
      simp only [goes, Bool.and_eq_true, beq_iff_eq] at m2
      rw [m2.1.1, hent]
      exact fun e => hne (hdec _ _ e).symm
    obtain ⟨b, b1, b2⟩ := whispersIn_frames id net type self cs _ hall {} rfl rfl
    exact ⟨b, b1, by rw [b2]; simp⟩
  · intro ad
    rw [hadv]
    simp only [asked, Bool.or_eq_true, List.any_eq_true]
    constructor
    · rintro ⟨s, s1, s2⟩
      rcases (hh s).1 s1 with ⟨s3, s4⟩ | rfl
      · exact .inr ⟨_, s3, by simpa [s4] using s2⟩
      · exact .inl (List.isPrefixOf_iff_prefix.2 s2)
    · rintro (s2 | ⟨ch, c1, c2⟩)
      · exact ⟨_, (hh _).2 (.inr rfl), List.isPrefixOf_iff_prefix.1 s2⟩
      · cases ch with
        | subscribe s => simp at c2
        | other => simp at c2
        | external s =>
          simp only [Bool.and_eq_true, Bool.not_eq_true', List.isEmpty_eq_false_iff] at c2
          exact ⟨s, (hh s).2 (.inl ⟨c1, c2.1⟩), List.isPrefixOf_iff_prefix.1 c2.2⟩

/-- **C195 (two configured bridges, partial).** As `C195_end_to_end_partial`, with the sending bridge configured by its own XML
element as well: what goes are the messages of the sending entity that are not addressed to the sending bridge itself. -/
theorem C195_configured_partial (base : List Str) (idB netB : Nat) (typeB : Str) (selfB : Bool) (csB : List Child)
    (id net : Nat) (type : Str) (self : Bool) (cs : List Child)
    (hid : id < 2147483648) (hne : id ≠ idB) (hext : ∀ s, .external s ∈ cs → ';' ∉ s)
    (ua : Str) (h t : List ZIn) (hnew : ∀ hd, .enter ua hd ∉ h) (hstay : (∀ hd, .enter ua hd ∉ t) ∧ .exit ua ∉ t)
    (hn : Numbered (h ++ t)) (hs : Short (h ++ t))
    (hlen : (zconfigure id net type self cs).2.subscriptions.length < 4294967295)
    (fs : List Fields) (hp : published t = fs.map Fields.msg)
    (hf : ∀ f ∈ fs, f.Clean ∧ Sentinel.Framable f.msg.str) :
    ∃ b, b.data = [] ∧
      whispersIn (zconfigure id net type self cs).1.bridge {}
        (sentTo (zconfigure idB netB typeB selfB csB).1 ua (runM (zstep (zconfigure idB netB typeB selfB csB).1)
          (Zyre.init base (zconfigure idB netB typeB selfB csB).1) (h ++ [.enter ua (zconfigure id net type self cs).2])).1 t) =
      .ok { buf := b, dead := false,
            out := ((fs.filter fun f => f.entityId == decimal idB && f.address != unicastAddress idB netB && asked id cs f.address).filterMap
              (taken id net self)).map Fields.msg } := by
  have := C195_end_to_end_partial base (zconfigure idB netB typeB selfB csB).1 rfl rfl id net type self cs hid hne hext ua h t hnew
    hstay hn hs hlen fs hp hf
  have e : goes (zconfigure idB netB typeB selfB csB).1 id cs =
      fun f => f.entityId == decimal idB && f.address != unicastAddress idB netB && asked id cs f.address := by
    funext f
    rw [Bool.eq_iff_iff]
    simp [goes, zconfigure, and_assoc]
  rwa [e] at this

/-- The message of the example. -/
def exF (address entity : String) (payload : String) : Fields :=
  { address := address.toList, contentType := "lmcp".toList, descriptor := "D".toList, group := [],
    entityId := entity.toList, serviceId := "20".toList, payload := payload.toList }

/-- The elements of the example. -/
def exCs : List Child :=
  [.external "a.b".toList, .subscribe "x".toList, .external "c".toList, .external "a.b".toList, .external []]

/-- Events at entity 100: another peer enters and leaves between the messages. -/
def exT : List ZIn :=
  [.publish (exF "a.b.q" "100" "one").msg, .enter "u9".toList (exH "300" "a"),
   .publish (exF "eid200.sid7" "100" "two").msg, .publish (exF "d" "100" "three").msg, .exit "u9".toList,
   .publish (exF "c" "300" "four").msg, .publish (exF "c" "100" "five").msg,
   .publish (exF "eid200.sid61" "100" "six").msg]

example : published exT = ([exF "a.b.q" "100" "one", exF "eid200.sid7" "100" "two", exF "d" "100" "three",
      exF "c" "300" "four", exF "c" "100" "five", exF "eid200.sid61" "100" "six"].map Fields.msg) ∧
    (([exF "a.b.q" "100" "one", exF "eid200.sid7" "100" "two", exF "d" "100" "three",
      exF "c" "300" "four", exF "c" "100" "five", exF "eid200.sid61" "100" "six"].filter (goes exZ 200 exCs)).filterMap
        (taken 200 61 false)) = [exF "a.b.q" "100" "one", exF "eid200.sid7" "100" "two", exF "c" "100" "five"] ∧
    (whispersIn (zconfigure 200 61 "UAV".toList false exCs).1.bridge {}
      (sentTo exZ "ua".toList (runM (zstep exZ) (Zyre.init [] exZ)
        [.enter "ua".toList (zconfigure 200 61 "UAV".toList false exCs).2]).1 exT)).bind
          (fun s => .ok (s.out.map (·.payload), s.buf.data)) =
      .ok (["one".toList, "two".toList, "five".toList], []) := by
  refine ⟨by decide +kernel, by decide +kernel, by decide +kernel⟩

example : (exF "a.b.q" "100" "one").Clean ∧ Sentinel.Framable (exF "a.b.q" "100" "one").msg.str ∧
    (∀ s, .external s ∈ exCs → ';' ∉ s) ∧
    (zconfigure 200 61 "UAV".toList false exCs).2.subscriptions = "a.b;c;eid200".toList := by
  refine ⟨⟨by decide, by decide, by decide, by decide, by decide, by decide, by decide⟩,
    ⟨by decide +kernel, by decide +kernel, by decide +kernel, by decide +kernel, by decide +kernel, by decide +kernel⟩,
    ?_, by decide +kernel⟩
  intro s hs
  simp only [exCs, List.mem_cons, Child.external.injEq, reduceCtorEq, List.not_mem_nil, or_false, false_or] at hs
  rcases hs with rfl | rfl | rfl | rfl <;> decide

/-! ### What goes wrong -/

/-- **C195 is violated** by a semicolon at the end of a configured address: a bridge that asks for `a;` asks its
peers for every message. -/
theorem C195_semicolon_violated :
    addressesOf (zconfigure 200 61 [] false [.external "a;".toList]).2 = ["a".toList, [], "eid200".toList] ∧
    asked 200 [.external "a;".toList] "zzz".toList = false ∧
    (whispersIn (zconfigure 200 61 [] false [.external "a;".toList]).1.bridge {}
      (sentTo exZ "ua".toList (runM (zstep exZ) (Zyre.init [] exZ)
        [.enter "ua".toList (zconfigure 200 61 [] false [.external "a;".toList]).2]).1
        [.publish (exF "zzz" "100" "one").msg])).bind (fun s => .ok (s.out.map (·.address))) = .ok ["zzz".toList] := by
  decide +kernel

theorem prefix_drop {a b : Str} (h : a <+: b) (i : Nat) : a.drop i <+: b.drop i := by
  obtain ⟨t, rfl⟩ := h
  rw [List.drop_append]
  exact List.prefix_append _ _

/-- What remains of a message when its payload contains the terminator: everything up to the end of the buffer
is dropped at the next call, and nothing is returned. -/
theorem next_rubbish (b : Sentinel.Buf) (u x chunk : Str) (hu : ¬ Sentinel.AC <:+: (u ++ Sentinel.AC).dropLast)
    (ha : ¬ Sentinel.APS <:+: u ++ Sentinel.AC) (hd : b.data ++ chunk = (u ++ Sentinel.AC) ++ x) :
    Sentinel.next b chunk = ({ b with data := x }, .ok []) := by
  have hf : Sentinel.findStr Sentinel.AC ((u ++ Sentinel.AC) ++ x) = some u.length := by
    apply Sentinel.findStr_eq_some
    · rw [List.append_assoc, List.drop_left]; exact List.prefix_append _ _
    · intro j hj hp
      apply hu
      have h1 : Sentinel.AC <+: ((u ++ Sentinel.AC).dropLast).drop j := by
        refine List.prefix_of_prefix_length_le hp ?_ ?_ (l₃ := ((u ++ Sentinel.AC) ++ x).drop j)
        · exact prefix_drop ((List.dropLast_prefix _).trans (List.prefix_append _ _)) j
        · simp only [List.length_drop, List.length_dropLast, List.length_append, Sentinel.length_AC]; omega
      exact h1.isInfix.trans (List.drop_suffix _ _).isInfix
  unfold Sentinel.next
  simp only [hd, hf]
  have haps : ∀ p, Sentinel.rfindStr Sentinel.BC ((u ++ Sentinel.AC) ++ x) u.length = some p →
      Sentinel.rfindStr Sentinel.APS ((u ++ Sentinel.AC) ++ x) p = none := by
    intro p hp
    obtain ⟨-, p2, -⟩ := Sentinel.rfindStr_some hp
    cases hr : Sentinel.rfindStr Sentinel.APS ((u ++ Sentinel.AC) ++ x) p with
    | none => rfl
    | some q =>
      exfalso
      obtain ⟨q1, q2, -⟩ := Sentinel.rfindStr_some hr
      apply ha
      have h1 : Sentinel.APS <+: (u ++ Sentinel.AC).drop q := by
        refine List.prefix_of_prefix_length_le q1 ?_ ?_ (l₃ := ((u ++ Sentinel.AC) ++ x).drop q)
        · exact prefix_drop (List.prefix_append _ _) q
        · simp only [List.length_drop, List.length_append, Sentinel.length_AC, Sentinel.length_APS]; omega
      exact h1.isInfix.trans (List.drop_suffix _ _).isInfix
  have hdrop : ((u ++ Sentinel.AC) ++ x).drop (u.length + Sentinel.AC.length) = x := by
    rw [← List.length_append, List.drop_left]
  cases hb : Sentinel.rfindStr Sentinel.BC ((u ++ Sentinel.AC) ++ x) u.length with
  | none => simp
  | some p =>
    simp only [Option.getD_some, haps p hb]
    rw [hdrop]

/-- Once a frame is waiting in the buffer, every whisper delivers the message before it. -/
theorem whispersIn_behind (id net : Nat) (type : Str) (self : Bool) (cs : List Child) : ∀ (fs : List Fields) (g : Fields),
    (∀ f ∈ g :: fs, f.Clean ∧ Sentinel.Framable f.msg.str ∧ f.entityId ≠ decimal id) →
    ∀ s : ZRx, s.dead = false → s.buf.data = Sentinel.frame g.msg.str →
    ∃ b, b.data = Sentinel.frame ((g :: fs).getLast (by simp)).msg.str ∧
      whispersIn (zconfigure id net type self cs).1.bridge s (fs.map fun f => Sentinel.frame f.msg.str) =
      .ok { buf := b, dead := false,
            out := s.out ++ ((g :: fs).dropLast.filterMap (taken id net self)).map Fields.msg } := by
  intro fs
  induction fs with
  | nil =>
    intro g _ s hs hb
    refine ⟨s.buf, hb, ?_⟩
    obtain ⟨b, d, o⟩ := s
    simp only at hs
    subst hs
    simp [whispersIn]
  | cons f fs ih =>
    intro g hf s hs hb
    obtain ⟨f1, f2, f3⟩ := hf g (by simp)
    obtain ⟨b, b1, b2⟩ := whisperIn_frame id net type self cs f1 f2 f3 s hs (Sentinel.frame f.msg.str)
      (Sentinel.frame f.msg.str) (Sentinel.frame_ne_nil _) (by rw [hb])
    obtain ⟨b', c1, c2⟩ := ih f (fun q hq => hf q (by simp [List.mem_cons.1 hq]))
      { s with buf := b, out := s.out ++ ((taken id net self g).map Fields.msg).toList } hs b1
    refine ⟨b', by rw [c1]; simp, ?_⟩
    simp only [List.map_cons, whispersIn, b2, Outcome.bind]
    rw [c2]
    rw [List.dropLast_cons_of_ne_nil (by simp : f :: fs ≠ []), List.filterMap_cons]
    cases taken id net self g <;> simp

/-- **C195 is violated** for good after a message whose payload contains the terminator `?^?^?^?^`: that message
is lost, and from then on every message is published only when the next one arrives; the last one stays in
the buffer. -/
theorem C195_behind_violated (id net : Nat) (type : Str) (self : Bool) (cs : List Child) : ∃ bad : Fields, bad.Clean ∧
    ∀ (g : Fields) (fs : List Fields), (∀ f ∈ g :: fs, f.Clean ∧ Sentinel.Framable f.msg.str ∧ f.entityId ≠ decimal id) →
    ∃ b, whispersIn (zconfigure id net type self cs).1.bridge {} ((bad :: g :: fs).map fun f => Sentinel.frame f.msg.str) =
      .ok { buf := b, dead := false, out := ((g :: fs).dropLast.filterMap (taken id net self)).map Fields.msg } := by
  refine ⟨exF "a" "100" "x?^?^?^?^yz", ⟨by decide, by decide, by decide, by decide, by decide, by decide, by decide⟩, ?_⟩
  intro g fs hf
  obtain ⟨b0, e0, e1⟩ : ∃ b0 : Sentinel.Buf, b0.data = ("yz!%!%!%!%2395".toList ++ Sentinel.AC) ∧
      Sentinel.next {} (Sentinel.frame (exF "a" "100" "x?^?^?^?^yz").msg.str) = (b0, .ok []) := by
    refine ⟨(Sentinel.next {} (Sentinel.frame (exF "a" "100" "x?^?^?^?^yz").msg.str)).1, by decide +kernel, ?_⟩
    exact Prod.ext rfl (by decide +kernel)
  have s1 : whisperIn (zconfigure id net type self cs).1.bridge {} (Sentinel.frame (exF "a" "100" "x?^?^?^?^yz").msg.str) =
      .ok { buf := b0, dead := false, out := [] } := by
    unfold whisperIn
    rw [show ((({} : ZRx).dead || (Sentinel.frame (exF "a" "100" "x?^?^?^?^yz").msg.str).isEmpty)) = false from by
      simp [Sentinel.frame_ne_nil]]
    simp only [Bool.false_eq_true, if_false]
    rw [e1]
    rfl
  have s2 : whisperIn (zconfigure id net type self cs).1.bridge { buf := b0, dead := false, out := [] } (Sentinel.frame g.msg.str) =
      .ok { buf := { b0 with data := Sentinel.frame g.msg.str }, dead := false, out := [] } := by
    unfold whisperIn
    rw [show ((({ buf := b0, dead := false, out := [] } : ZRx).dead || (Sentinel.frame g.msg.str).isEmpty)) = false from by
      simp [Sentinel.frame_ne_nil]]
    simp only [Bool.false_eq_true, if_false]
    rw [next_rubbish b0 "yz!%!%!%!%2395".toList (Sentinel.frame g.msg.str) _ (by decide +kernel) (by decide +kernel) (by rw [e0])]
    rfl
  obtain ⟨b, -, h2⟩ := whispersIn_behind id net type self cs fs g hf
    { buf := { b0 with data := Sentinel.frame g.msg.str }, dead := false, out := [] } rfl rfl
  refine ⟨b, ?_⟩
  simp only [List.map_cons, whispersIn, s1, Outcome.bind, s2]
  rw [h2]
  simp

/-! ### Announcements -/

theorem enterAddresses_peers (u : Str) : ∀ (as : List Str) (z : Zyre), (as.foldl (enterAddress u) z).peers = z.peers
  | [], _ => rfl
  | a :: as, z => by rw [List.foldl_cons, enterAddresses_peers u as]; rfl

theorem find_filter_ne {α : Type} (u v : Str) (hne : v ≠ u) : ∀ l : List (Str × α),
    (l.filter (·.1 != u)).find? (·.1 == v) = l.find? (·.1 == v)
  | [] => rfl
  | p :: l => by
    rw [List.filter_cons]
    by_cases hp : p.1 = u
    · have h1 : (p.1 != u) = false := by simp [hp]
      have h2 : (p.1 == v) = false := by simpa [hp] using hne.symm
      rw [h1, if_neg (by simp), find_filter_ne u v hne l, List.find?_cons, h2]
    · have h1 : (p.1 != u) = true := by simpa using hp
      rw [h1, if_pos rfl, List.find?_cons, List.find?_cons, find_filter_ne u v hne l]

theorem find_filter_self {α : Type} (u : Str) (l : List (Str × α)) :
    (l.filter (·.1 != u)).find? (·.1 == u) = none := by
  rw [List.find?_eq_none]
  intro p hp
  have := (List.mem_filter.1 hp).2
  simpa using this

theorem current_snoc (own : Nat) (u : Str) (h : List ZIn) (i : ZIn) : current own u (h ++ [i]) =
    (match i with
    | .enter u' hd => if u' = u ∧ hd.entityId ≠ decimal own then some (hd.entityType, hd.entityId) else current own u h
    | .exit u' => if u' = u then none else current own u h
    | .publish _ => current own u h) := by
  simp only [current, List.foldl_append, List.foldl_cons, List.foldl_nil]

/-- The table of peers holds who the peers said they are. -/
theorem peers_current (base : List Str) (c : ZCfg) (h : List ZIn) (hn : Numbered h) (hs : Short h) (u : Str) :
    ((runM (zstep c) (Zyre.init base c) h).1.peers.find? (·.1 == u)).map (·.2) = current c.own u h := by
  induction h using List.reverseRecOn with
  | nil => rfl
  | append_singleton h i ih =>
    have hn' : Numbered h := fun u hd hm => hn u hd (by simp [hm])
    have hs' : Short h := fun u hd hm => hs u hd (by simp [hm])
    have ih' := ih hn' hs'
    obtain ⟨hz, -⟩ := zinv_run base c h hn' hs'
    rw [runM_snoc, current_snoc]
    generalize (runM (zstep c) (Zyre.init base c) h).1 = z at ih' hz
    cases i with
    | publish m => exact ih'
    | enter u' hd =>
      obtain ⟨n, hn1, hn2⟩ := hn u' hd (by simp)
      have hsl : stoull hd.entityId = some n := by rw [hn2]; exact stoull_decimal (by omega)
      simp only [zstep, hz.alive, Bool.false_eq_true, if_false, zyreEnter, hsl]
      by_cases ho : n = c.own
      · rw [if_pos ho, if_neg (by rintro ⟨_, h2⟩; exact h2 (by rw [hn2, ho]))]
        exact ih'
      · rw [if_neg ho, enterAddresses_peers]
        have hne : hd.entityId ≠ decimal c.own := fun e => ho (decimal_injective (by rw [← hn2, e]))
        simp only [List.find?_cons]
        by_cases hu : u' = u
        · subst hu
          simp [hne]
        · have h2 : (u' == u) = false := by simpa using hu
          rw [h2, if_neg (by rintro ⟨e, _⟩; exact hu e), find_filter_ne u' u (Ne.symm hu)]
          exact ih'
    | exit u' =>
      simp only [zstep, hz.alive, Bool.false_eq_true, if_false, zyreExit]
      by_cases hu : u' = u
      · subst hu
        rw [if_pos rfl]
        cases hf : z.peers.find? (·.1 == u') with
        | none => simp [hf]
        | some p =>
          obtain ⟨n, q1, q2⟩ := hz.ids p (List.mem_of_find?_eq_some hf)
          simp only [q2, stoi_decimal q1, find_filter_self, Option.map_none]
      · rw [if_neg hu]
        cases hf : z.peers.find? (·.1 == u') with
        | none => exact ih'
        | some p =>
          obtain ⟨n, q1, q2⟩ := hz.ids p (List.mem_of_find?_eq_some hf)
          simp only [q2, stoi_decimal q1]
          rw [find_filter_ne u' u (Ne.symm hu)]
          exact ih'

/-- **C195 (announcements, partial).** After every history of peers that give a decimal entity number below 2^31: when a
peer enters, its number and type are announced on the inside unless the number is the own one; when a peer leaves, its
departure is announced exactly when it has entered and not left since, with the number and type it gave last. -/
theorem C195_announced_partial (base : List Str) (c : ZCfg) (h : List ZIn) (hn : Numbered h) (hs : Short h) (u : Str) :
    (∀ n type subs, n < 2147483648 →
      announce c (runM (zstep c) (Zyre.init base c) h).1 (.enter u ⟨decimal n, type, subs⟩) =
        if n = c.own then none else some (.join n type)) ∧
    (∀ a, announce c (runM (zstep c) (Zyre.init base c) h).1 (.exit u) = some a ↔
      ∃ n type, current c.own u h = some (type, decimal n) ∧ a = .exit n type) := by
  obtain ⟨hz, -⟩ := zinv_run base c h hn hs
  have hp := peers_current base c h hn hs u
  generalize (runM (zstep c) (Zyre.init base c) h).1 = z at hz hp
  refine ⟨?_, ?_⟩
  · intro n type subs hl
    have hsl : stoull (decimal n) = some n := stoull_decimal (by omega)
    simp [announce, hz.alive, hsl]
  · intro a
    simp only [announce, hz.alive, Bool.false_eq_true, if_false]
    rw [← hp]
    cases hf : z.peers.find? (·.1 == u) with
    | none => simp
    | some p =>
      obtain ⟨n, q1, q2⟩ := hz.ids p (List.mem_of_find?_eq_some hf)
      simp only [q2, stoi_decimal q1, Option.map_some, Option.some.injEq]
      constructor
      · rintro rfl
        exact ⟨n, p.2.1, by rw [← q2], rfl⟩
      · rintro ⟨m, t, e, rfl⟩
        rw [Prod.ext_iff] at e
        simp only [q2] at e
        rw [decimal_injective e.2, e.1]

example : (runM (fun z i => ((zstep exZ z i).1, announce exZ z i)) (Zyre.init [] exZ)
    (exZHist ++ [.enter "u1".toList (exH "250" "b"), .exit "u1".toList, .exit "u1".toList])).2 =
    [some (.join 200 "Aircraft".toList), some (.join 300 "Aircraft".toList), none, some (.join 400 "Aircraft".toList),
     some (.exit 400 "Aircraft".toList), some (.join 250 "Aircraft".toList), some (.exit 250 "Aircraft".toList), none] := by
  decide +kernel

end Verif.Bridge
