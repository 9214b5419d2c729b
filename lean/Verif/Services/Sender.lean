import Verif.Common
import Verif.Trace

/-!
# The service that sends messages from files

`src/cpp/Services/SendMessagesService.cpp` 60-197 (`configure`, without the reading of the files) and 199-292.  The loop of
`sendMessages` runs in the handler of the first `StartupComplete`; each round of it is one input, with the clock's time.
The times and counters are `uint32_t` and wrap around.
-/

namespace Verif.Sender

open Verif

/-- A `Message` element whose file was read: the payload's name and the attributes that are given, SendMessagesService.cpp 160-185. -/
structure Attrs where
  name : Int
  address : Str := []
  time : Option Nat := none
  period : Option Nat := none
  number : Option Nat := none
deriving DecidableEq, Repr

/-- SendMessagesService.h 113-117: the value of a `uint32_t`. -/
def w32 (n : Nat) : Nat := n % 4294967296

/-- `TestMessage`, `SendMessagesService.h` 103-119. -/
structure Msg where
  name : Int
  address : Str
  /-- `m_isUseSendTime` -/
  single : Bool
  time : Nat
  period : Nat
  toSend : Nat
  sent : Nat
deriving DecidableEq, Repr

/-- SendMessagesService.cpp 162-181: a send time makes the other attributes idle; without a period the message is sent once. -/
def Attrs.msg (a : Attrs) : Msg :=
  match a.time with
  | some t => { name := a.name, address := a.address, single := true, time := w32 t, period := 0, toSend := 4294967295,
                sent := 0 }
  | none => { name := a.name, address := a.address, single := a.period.isNone, time := 0,
              period := w32 (a.period.getD 0), toSend := (a.number.map w32).getD 4294967295, sent := 0 }

/-- SendMessagesService.cpp 232, 238, 255, 261: what is sent. -/
inductive Out where
  | broadcast (name : Int)
  | limited (address : Str) (name : Int)
deriving DecidableEq, Repr

/-- SendMessagesService.cpp 229-240, 252-263: a broadcast, or a message to the address. -/
def Msg.out (m : Msg) : Out := if m.address.isEmpty then .broadcast m.name else .limited m.address m.name

/-- One message in a round at time `t` since the start, SendMessagesService.cpp 225-280: what is left of it, and what is sent. -/
def Msg.turn (t : Int) (m : Msg) : Option Msg × List Out :=
  if (m.time : Int) < t then
    if m.single then (none, [m.out])
    else
      let m' := { m with time := w32 (m.time + m.period), sent := w32 (m.sent + 1) }
      (if m'.toSend ≤ m'.sent then none else some m', [m.out])
  else (some m, [])

/-- The messages of a round, SendMessagesService.cpp 223-286; `kept` are those before the iterator. -/
def pass (t : Int) : List Msg → List Msg → List Msg × List Out × Bool
  | kept, [] => (kept, [], false)
  | kept, m :: ms =>
    let x := m.turn t
    let kept' := kept ++ x.1.toList
    if (kept' ++ ms).isEmpty then (kept' ++ ms, x.2, true)
    else
      let r := pass t kept' ms
      (r.1, x.2 ++ r.2.1, r.2.2)

/-- SendMessagesService.cpp 198-212, 220-288: the message that starts the service, and the
rounds of its loop. -/
inductive In where
  /-- a `StartupComplete` -/
  | startup (now : Int)
  /-- a round of the loop -/
  | round (now : Int)
deriving DecidableEq, Repr

/-- SendMessagesService.h 121-127: the members of the service. -/
structure St where
  msgs : List Msg
  /-- `m_messageZeroTime_ms`, once the start-up is complete -/
  zero : Option Int := none
  finished : Bool := false
deriving DecidableEq, Repr

/-- SendMessagesService.cpp 198-212 and 214-292. -/
def step (s : St) : In → St × List Out
  | .startup now =>
    match s.zero with
    | none => ({ s with zero := some now }, [])
    | some _ => (s, [])
  | .round now =>
    match s.zero, s.finished with
    | some z, false =>
      let r := pass (now - z) [] s.msgs
      ({ s with msgs := r.1, finished := r.2.2 }, r.2.1)
    | _, _ => (s, [])

/-! ### What is said of it -/

/-- SendMessagesService.cpp 184: the state after the configuration. -/
def start (c : List Attrs) : St := { msgs := c.map Attrs.msg }

/-- Not in the code: the state after a history. -/
def after (c : List Attrs) (h : List In) : St := (runM step (start c) h).1

/-- Not in the code: what is sent in a history. -/
def sent (c : List Attrs) (h : List In) : List Out := (runM step (start c) h).2.flatten

/-- Not in the code: what is sent for the next input. -/
def sends (c : List Attrs) (h : List In) (i : In) : List Out := (step (after c h) i).2

/-- Specification: the message as it is sent. -/
def Attrs.out (a : Attrs) : Out := if a.address.isEmpty then .broadcast a.name else .limited a.address a.name

/-- Specification: the attributes are in the range of `uint32_t`, and each message has its
name. -/
structure Good (c : List Attrs) : Prop where
  names : (c.map Attrs.name).Nodup
  time : ∀ a ∈ c, ∀ t, a.time = some t → t < 4294967296
  period : ∀ a ∈ c, ∀ t, a.period = some t → t < 4294967296
  number : ∀ a ∈ c, ∀ t, a.number = some t → t < 4294967296

/-- Specification: the number of times a message is to be sent: once with a send time or
without a period, otherwise the number that is given; but a number of zero is taken for
one. -/
def Attrs.number' (a : Attrs) : Nat :=
  if a.time.isSome || a.period.isNone then 1 else max 1 (a.number.getD 4294967295)

/-- Specification: the time, since the start, before which the message is not sent once
more after having been sent `k` times. -/
def Attrs.due (a : Attrs) (k : Nat) : Nat := a.time.getD 0 + k * a.period.getD 0

/-- Specification: the time of the first `StartupComplete`. -/
def zeroOf (h : List In) : Option Int := h.findSome? fun i => match i with | .startup now => some now | .round _ => none

/-- The due times of the message do not reach `2^32`: it is sent once, or its period times its number is less. -/
def Attrs.Short (a : Attrs) : Prop := a.number' = 1 ∨ a.number' * a.period.getD 0 ≤ 4294967296

instance (a : Attrs) : Decidable a.Short := inferInstanceAs (Decidable (_ ∨ _))

/-! ### The rounds -/

theorem pass_eq (t : Int) (kept ms : List Msg) :
    pass t kept ms = (kept ++ ms.filterMap (fun m => (m.turn t).1), ms.flatMap (fun m => (m.turn t).2),
      (! ms.isEmpty && (kept ++ ms.filterMap (fun m => (m.turn t).1)).isEmpty)) := by
  induction ms generalizing kept with
  | nil => simp [pass]
  | cons m ms ih =>
    rw [pass]
    dsimp only
    have e : kept ++ (m :: ms).filterMap (fun m => (m.turn t).1) =
        (kept ++ (m.turn t).1.toList) ++ ms.filterMap (fun m => (m.turn t).1) := by
      rw [List.filterMap_cons]
      cases (m.turn t).1 with
      | none => simp
      | some x => simp
    rw [e]
    cases hb : (kept ++ (m.turn t).1.toList ++ ms).isEmpty with
    | true =>
      rw [if_pos rfl]
      have h1 : kept ++ (m.turn t).1.toList = [] ∧ ms = [] := by
        rw [List.isEmpty_iff] at hb
        exact List.append_eq_nil_iff.mp hb
      rw [h1.1, h1.2]
      simp
    | false =>
      rw [if_neg (by simp), ih]
      refine Prod.ext rfl (Prod.ext (by simp) ?_)
      show (! ms.isEmpty && _) = (! (m :: ms).isEmpty && _)
      cases ms with
      | nil =>
        simp only [List.append_nil] at hb
        simp [hb]
      | cons x xs => simp

/-- For the proofs: the message after it was sent `k` times. -/
def Attrs.now (a : Attrs) (k : Nat) : Option Msg :=
  if k < a.number' then some { a.msg with time := w32 (a.msg.time + k * a.msg.period), sent := k } else none

theorem out_msg (a : Attrs) : a.msg.out = a.out := by
  rw [Attrs.msg, Attrs.out, Msg.out]
  cases a.time <;> rfl

theorem single_msg (a : Attrs) : a.msg.single = (a.time.isSome || a.period.isNone) := by
  rw [Attrs.msg]
  cases a.time <;> rfl

theorem w32_lt (n : Nat) : w32 n < 4294967296 := Nat.mod_lt _ (by decide)

theorem w32_of_lt {n : Nat} (h : n < 4294967296) : w32 n = n := Nat.mod_eq_of_lt h

theorem toSend_msg {c : List Attrs} (hc : Good c) {a : Attrs} (ha : a ∈ c) (hs : a.msg.single = false) :
    a.number' = max 1 a.msg.toSend ∧ a.msg.toSend < 4294967296 := by
  rw [single_msg] at hs
  rw [Attrs.number', hs, if_neg (by simp)]
  simp only [Bool.or_eq_false_iff] at hs
  have h1 : a.time = none := by cases h : a.time with | none => rfl | some t => rw [h] at hs; cases hs.1
  rw [Attrs.msg, h1]
  dsimp only
  cases hn : a.number with
  | none => simp
  | some n => rw [Option.map_some, Option.getD_some, Option.getD_some, w32_of_lt (hc.number a ha n hn)]; exact ⟨rfl, hc.number a ha n hn⟩

/-- For the proofs: whether the message is sent in a round at time `t`. -/
def Attrs.goes (a : Attrs) (t : Int) (k : Nat) : Bool :=
  decide (k < a.number' ∧ (w32 (a.msg.time + k * a.msg.period) : Int) < t)

theorem turn_now {c : List Attrs} (hc : Good c) {a : Attrs} (ha : a ∈ c) (t : Int) (k : Nat) :
    ((a.now k).bind fun m => (m.turn t).1) = a.now (k + if a.goes t k then 1 else 0) ∧
    ((a.now k).toList.flatMap fun m => (m.turn t).2) = if a.goes t k then [a.out] else [] := by
  rw [Attrs.goes]
  by_cases hk : k < a.number'
  · have e : a.now k = some { a.msg with time := w32 (a.msg.time + k * a.msg.period), sent := k } := by
      rw [Attrs.now, if_pos hk]
    rw [e]
    simp only [hk, true_and, decide_eq_true_eq, Option.bind_some, Option.toList_some, List.flatMap_cons, List.flatMap_nil,
      List.append_nil]
    have hout : [({ a.msg with time := w32 (a.msg.time + k * a.msg.period), sent := k } : Msg).out] = [a.out] := by
      rw [← out_msg a]; rfl
    rw [Msg.turn]
    by_cases ht : (w32 (a.msg.time + k * a.msg.period) : Int) < t
    · rw [if_pos ht, if_pos ht, if_pos ht]
      by_cases hs : a.msg.single = true
      · rw [if_pos hs]
        refine ⟨?_, hout⟩
        have : a.number' = 1 := by rw [single_msg] at hs; rw [Attrs.number', hs, if_pos rfl]
        rw [Attrs.now, if_neg (by omega)]
      · rw [if_neg hs]
        refine ⟨?_, hout⟩
        obtain ⟨h1, h2⟩ := toSend_msg hc ha (by simpa using hs)
        have h3 : w32 (k + 1) = k + 1 := w32_of_lt (by omega)
        have h4 : w32 (w32 (a.msg.time + k * a.msg.period) + a.msg.period) = w32 (a.msg.time + (k + 1) * a.msg.period) := by
          rw [w32, w32, w32, Nat.mod_add_mod, Nat.succ_mul, Nat.add_assoc]
        dsimp only
        rw [h3, h4, Attrs.now]
        by_cases hm : a.msg.toSend ≤ k + 1
        · rw [if_pos hm, if_neg (by omega)]
        · rw [if_neg hm, if_pos (by omega)]
    · rw [if_neg ht, if_neg ht, if_neg ht, ← e]
      exact ⟨rfl, rfl⟩
  · have e : a.now k = none := by rw [Attrs.now, if_neg hk]
    rw [e]
    simp [hk, e]

theorem out_inj {c : List Attrs} (hn : (c.map Attrs.name).Nodup) {a b : Attrs} (ha : a ∈ c) (hb : b ∈ c) (h : a.out = b.out) :
    a = b := by
  have hname : a.name = b.name := by
    unfold Attrs.out at h
    split at h <;> split at h <;> simp_all
  induction c with
  | nil => cases ha
  | cons x xs ih =>
    rw [List.map_cons, List.nodup_cons] at hn
    rcases List.mem_cons.mp ha with rfl | ha'
    · rcases List.mem_cons.mp hb with rfl | hb'
      · rfl
      · exact absurd (hname ▸ List.mem_map_of_mem hb') hn.1
    · rcases List.mem_cons.mp hb with rfl | hb'
      · exact absurd (hname ▸ List.mem_map_of_mem ha') hn.1
      · exact ih hn.2 ha' hb'

/-- What a round sends of one message. -/
theorem count_round {c : List Attrs} (hn : (c.map Attrs.name).Nodup) (p : Attrs → Bool) {a : Attrs} (ha : a ∈ c) :
    (c.flatMap fun b => if p b then [b.out] else []).count a.out = if p a then 1 else 0 := by
  induction c with
  | nil => cases ha
  | cons x xs ih =>
    have hn' := hn
    rw [List.map_cons, List.nodup_cons] at hn
    rw [List.flatMap_cons, List.count_append]
    by_cases hx : a = x
    · subst hx
      have h0 : (xs.flatMap fun b => if p b then [b.out] else []).count a.out = 0 := by
        rw [List.count_eq_zero]
        intro hm
        obtain ⟨b, hb, h1⟩ := List.mem_flatMap.mp hm
        have : a.out = b.out := by split at h1 <;> simp_all
        have := out_inj hn' List.mem_cons_self (List.mem_cons_of_mem _ hb) this
        rw [this] at hn
        exact hn.1 (List.mem_map_of_mem hb)
      rw [h0]
      cases p a <;> simp
    · have ha' : a ∈ xs := by
        rcases List.mem_cons.mp ha with h | h
        · exact absurd h hx
        · exact h
      rw [ih hn.2 ha']
      have h0 : (if p x then [x.out] else []).count a.out = 0 := by
        rw [List.count_eq_zero]
        intro hm
        have : a.out = x.out := by split at hm <;> simp_all
        exact hx (out_inj hn' ha List.mem_cons_self this)
      rw [h0, Nat.zero_add]

theorem after_snoc (c : List Attrs) (h : List In) (i : In) : after c (h ++ [i]) = (step (after c h) i).1 := by
  rw [after, runM_snoc]; rfl

theorem sent_snoc (c : List Attrs) (h : List In) (i : In) : sent c (h ++ [i]) = sent c h ++ sends c h i := by
  rw [sent, runM_snoc]
  show (_ ++ [(step (after c h) i).2]).flatten = _
  rw [List.flatten_append]
  simp [sent, sends]

/-- Specification: the number of times the message was sent. -/
def times (c : List Attrs) (h : List In) (a : Attrs) : Nat := (sent c h).count a.out

/-- For the proofs: what holds after every history. -/
structure Inv (c : List Attrs) (h : List In) : Prop where
  zero : (after c h).zero = zeroOf h
  msgs : (after c h).msgs = c.filterMap fun a => a.now (times c h a)
  finished : (after c h).finished = (! c.isEmpty && (after c h).msgs.isEmpty)

theorem zeroOf_snoc (h : List In) (i : In) :
    zeroOf (h ++ [i]) = (zeroOf h).or (match i with | .startup now => some now | .round _ => none) := by
  rw [zeroOf, List.findSome?_append]
  cases i <;> rfl

theorem filterMap_bind {α β γ : Type} (c : List α) (f : α → Option β) (g : β → Option γ) :
    (c.filterMap f).filterMap g = c.filterMap fun a => (f a).bind g := List.filterMap_filterMap

theorem flatMap_filterMap {α β γ : Type} (c : List α) (f : α → Option β) (g : β → List γ) :
    (c.filterMap f).flatMap g = c.flatMap fun a => (f a).toList.flatMap g := by
  induction c with
  | nil => rfl
  | cons a c ih =>
    rw [List.filterMap_cons, List.flatMap_cons, ← ih]
    cases f a <;> simp

theorem filterMap_congr' {α β : Type} {c : List α} {f g : α → Option β} (h : ∀ a ∈ c, f a = g a) :
    c.filterMap f = c.filterMap g := by
  induction c with
  | nil => rfl
  | cons a c ih =>
    rw [List.filterMap_cons, List.filterMap_cons, h a List.mem_cons_self,
      ih fun b hb => h b (List.mem_cons_of_mem _ hb)]

theorem flatMap_congr' {α β : Type} {c : List α} {f g : α → List β} (h : ∀ a ∈ c, f a = g a) :
    c.flatMap f = c.flatMap g := by
  induction c with
  | nil => rfl
  | cons a c ih =>
    rw [List.flatMap_cons, List.flatMap_cons, h a List.mem_cons_self,
      ih fun b hb => h b (List.mem_cons_of_mem _ hb)]

/-- What a round sends, and the messages that are left. -/
theorem pass_inv {c : List Attrs} (hc : Good c) {h : List In} (hi : Inv c h) (t : Int) :
    (pass t [] (after c h).msgs).1 = c.filterMap (fun a => a.now (times c h a + if a.goes t (times c h a) then 1 else 0)) ∧
    (pass t [] (after c h).msgs).2.1 = c.flatMap fun a => if a.goes t (times c h a) then [a.out] else [] := by
  rw [pass_eq, hi.msgs]
  constructor
  · show [] ++ _ = _
    rw [List.nil_append, filterMap_bind]
    exact filterMap_congr' fun a ha => (turn_now hc ha t (times c h a)).1
  · show List.flatMap _ _ = _
    rw [flatMap_filterMap]
    exact flatMap_congr' fun a ha => (turn_now hc ha t (times c h a)).2

theorem inv {c : List Attrs} (hc : Good c) (h : List In) : Inv c h := by
  induction h using snocRec with
  | nil =>
    have hm : (after c []).msgs = c.map Attrs.msg := rfl
    have hm' : (after c []).msgs = c.filterMap fun a => a.now (times c [] a) := by
      rw [hm, ← List.filterMap_eq_map]
      refine filterMap_congr' fun a ha => ?_
      show some a.msg = a.now 0
      have h1 : 0 < a.number' := by rw [Attrs.number']; split <;> omega
      have h2 : w32 (a.msg.time + 0 * a.msg.period) = a.msg.time := by
        rw [Nat.zero_mul, Nat.add_zero]
        apply w32_of_lt
        rw [Attrs.msg]
        cases a.time with
        | none => exact Nat.zero_lt_succ _
        | some t => exact w32_lt t
      rw [Attrs.now, if_pos h1, h2, Attrs.msg]
      cases a.time <;> rfl
    refine ⟨rfl, hm', ?_⟩
    rw [hm]
    show false = _
    cases c <;> rfl
  | append_singleton h i ih =>
    have htimes : ∀ a, times c (h ++ [i]) a = times c h a + (sends c h i).count a.out := by
      intro a; rw [times, sent_snoc, List.count_append]; rfl
    have same : after c (h ++ [i]) = after c h → sends c h i = [] → zeroOf (h ++ [i]) = zeroOf h → Inv c (h ++ [i]) := by
      intro h1 h2 h3
      refine ⟨by rw [h1, h3, ih.zero], ?_, by rw [h1, ih.finished]⟩
      rw [h1, ih.msgs]
      refine filterMap_congr' fun a _ => ?_
      rw [htimes, h2]; rfl
    cases i with
    | startup now =>
      have hz := ih.zero
      cases hs : (after c h).zero with
      | none =>
        have e : after c (h ++ [.startup now]) = { after c h with zero := some now } := by
          rw [after_snoc, step, hs]
        have e2 : sends c h (.startup now) = [] := by rw [sends, step, hs]
        refine ⟨?_, ?_, ?_⟩
        · rw [e, zeroOf_snoc, ← hz, hs]; rfl
        · rw [e]
          show (after c h).msgs = _
          rw [ih.msgs]
          refine filterMap_congr' fun a _ => ?_
          rw [htimes, e2]; rfl
        · rw [e]; exact ih.finished
      | some z =>
        refine same (by rw [after_snoc, step, hs]) (by rw [sends, step, hs]) ?_
        rw [zeroOf_snoc, ← hz, hs]; rfl
    | round now =>
      have h3 : zeroOf (h ++ [.round now]) = zeroOf h := by rw [zeroOf_snoc]; simp
      cases hs : (after c h).zero with
      | none => exact same (by rw [after_snoc, step, hs]) (by rw [sends, step, hs]) h3
      | some z =>
        cases hf : (after c h).finished with
        | true => exact same (by rw [after_snoc, step, hs, hf]) (by rw [sends, step, hs, hf]) h3
        | false =>
          obtain ⟨p1, p2⟩ := pass_inv hc ih (now - z)
          have e : after c (h ++ [.round now]) = { after c h with msgs := (pass (now - z) [] (after c h).msgs).1,
                                                                  finished := (pass (now - z) [] (after c h).msgs).2.2 } := by
            rw [after_snoc, step, hs, hf]; simp only [hs]
          have e2 : sends c h (.round now) = (pass (now - z) [] (after c h).msgs).2.1 := by rw [sends, step, hs, hf]
          refine ⟨?_, ?_, ?_⟩
          · rw [e, h3]; exact ih.zero
          · rw [e]
            show (pass (now - z) [] (after c h).msgs).1 = _
            rw [p1]
            refine filterMap_congr' fun a ha => ?_
            rw [htimes, e2, p2, count_round hc.names _ ha]
          · rw [e]
            dsimp only
            rw [pass_eq]
            dsimp only
            rw [List.nil_append]
            have hfin := ih.finished
            rw [hf] at hfin
            cases hcn : c.isEmpty with
            | true =>
              rw [List.isEmpty_iff] at hcn
              have : (after c h).msgs = [] := by rw [ih.msgs, hcn]; rfl
              rw [this]; rfl
            | false =>
              rw [hcn] at hfin
              simp at hfin
              have : (after c h).msgs.isEmpty = false := by
                cases hh : (after c h).msgs with
                | nil => exact absurd hh hfin
                | cons => rfl
              rw [this]

theorem due_lt {c : List Attrs} (hc : Good c) {a : Attrs} (ha : a ∈ c) (hs : a.Short) {k : Nat} (hk : k < a.number') :
    w32 (a.msg.time + k * a.msg.period) = a.due k := by
  rw [Attrs.due]
  cases ht : a.time with
  | some t =>
    have h1 : a.number' = 1 := by rw [Attrs.number', ht]; rfl
    have h2 : k = 0 := by omega
    subst h2
    have hlt := hc.time a ha t ht
    rw [Attrs.msg, ht]
    simp [w32_of_lt hlt]
  | none =>
    have h1 : a.msg.time = 0 ∧ a.msg.period = w32 (a.period.getD 0) := by rw [Attrs.msg, ht]; exact ⟨rfl, rfl⟩
    have h2 : w32 (a.period.getD 0) = a.period.getD 0 := by
      cases hp : a.period with
      | none => rfl
      | some p => exact w32_of_lt (hc.period a ha p hp)
    rw [h1.1, h1.2, h2, Option.getD_none]
    apply w32_of_lt
    rw [Nat.zero_add]
    rcases hs with h | h
    · have : k = 0 := by omega
      subst this; simp
    · rcases Nat.eq_zero_or_pos (a.period.getD 0) with h0 | h0
      · rw [h0]; simp
      · exact Nat.lt_of_lt_of_le (Nat.mul_lt_mul_of_pos_right hk h0) h

theorem sends_round {c : List Attrs} (hc : Good c) (h : List In) (now : Int) {a : Attrs} (ha : a ∈ c) :
    (sends c h (.round now)).count a.out =
      match zeroOf h with
      | some z => if a.goes (now - z) (times c h a) then 1 else 0
      | none => 0 := by
  have ih := inv hc h
  rw [← ih.zero, sends, step]
  cases hs : (after c h).zero with
  | none => rfl
  | some z =>
    cases hf : (after c h).finished with
    | true =>
      have h1 : (after c h).msgs = [] := by
        have := ih.finished
        rw [hf] at this
        simp at this
        exact this.2
      rw [ih.msgs, List.filterMap_eq_nil_iff] at h1
      have h2 := h1 a ha
      rw [Attrs.now] at h2
      have h3 : ¬ times c h a < a.number' := by
        intro h3; rw [if_pos h3] at h2; cases h2
      simp [Attrs.goes, h3]
    | false =>
      dsimp only
      rw [(pass_inv hc ih (now - z)).2, count_round hc.names _ ha]

/-! ### C49 -/

/-- Every message is sent at most the number of times it is to be sent. -/
theorem C49_at_most {c : List Attrs} (hc : Good c) (h : List In) {a : Attrs} (ha : a ∈ c) : (sent c h).count a.out ≤ a.number' := by
  show times c h a ≤ _
  induction h using snocRec with
  | nil => exact Nat.zero_le _
  | append_singleton h i ih =>
    have htimes : times c (h ++ [i]) a = times c h a + (sends c h i).count a.out := by
      rw [times, sent_snoc, List.count_append]; rfl
    rw [htimes]
    cases i with
    | startup now =>
      have : sends c h (.startup now) = [] := by rw [sends, step]; cases (after c h).zero <;> rfl
      rw [this]; exact ih
    | round now =>
      rw [sends_round hc h now ha]
      cases zeroOf h with
      | none => exact ih
      | some z =>
        simp only [Attrs.goes, decide_eq_true_eq]
        split <;> omega

/-- A round sends a message, once, exactly when the start-up is complete, it has not been sent as often as it is to be sent, and
the time it is due has passed.  Missing for the claim: `C49_violated_wrap`, `C49_violated_zero`. -/
theorem C49_sent_partial {c : List Attrs} (hc : Good c) (h : List In) (now : Int) {a : Attrs} (ha : a ∈ c) (hs : a.Short) :
    (sends c h (.round now)).count a.out =
      if ∃ z, zeroOf h = some z ∧ (sent c h).count a.out < a.number' ∧ z + a.due ((sent c h).count a.out) < now then 1 else 0 := by
  rw [sends_round hc h now ha]
  cases zeroOf h with
  | none => simp
  | some z =>
    show (if a.goes (now - z) (times c h a) then 1 else 0) = _
    have hg : a.goes (now - z) (times c h a) = true ↔ times c h a < a.number' ∧ z + a.due (times c h a) < now := by
      rw [Attrs.goes, decide_eq_true_eq]
      constructor
      · rintro ⟨h1, h2⟩
        rw [due_lt hc ha hs h1] at h2
        exact ⟨h1, by omega⟩
      · rintro ⟨h1, h2⟩
        rw [due_lt hc ha hs h1]
        exact ⟨h1, by omega⟩
    by_cases hh : times c h a < a.number' ∧ z + a.due (times c h a) < now
    · rw [if_pos (hg.mpr hh), if_pos ⟨z, rfl, hh⟩]
    · rw [if_neg (fun h => hh (hg.mp h)), if_neg]
      rintro ⟨z', h1, h2⟩
      injection h1 with h1
      subst h1
      exact hh h2

/-- Only the rounds send, and they send only the configured messages. -/
theorem C49_only {c : List Attrs} (hc : Good c) (h : List In) (i : In) {o : Out} (ho : o ∈ sends c h i) :
    (∃ now, i = .round now) ∧ ∃ a ∈ c, o = a.out := by
  cases i with
  | startup now =>
    have : sends c h (.startup now) = [] := by rw [sends, step]; cases (after c h).zero <;> rfl
    rw [this] at ho; cases ho
  | round now =>
    refine ⟨⟨now, rfl⟩, ?_⟩
    rw [sends, step] at ho
    cases hs : (after c h).zero with
    | none => rw [hs] at ho; cases ho
    | some z =>
      cases hf : (after c h).finished with
      | true => rw [hs, hf] at ho; cases ho
      | false =>
        rw [hs, hf] at ho
        have ho : o ∈ (pass (now - z) [] (after c h).msgs).2.1 := ho
        rw [(pass_inv hc (inv hc h) (now - z)).2] at ho
        obtain ⟨a, ha, h1⟩ := List.mem_flatMap.mp ho
        refine ⟨a, ha, ?_⟩
        split at h1
        · simpa using h1
        · cases h1

/-- The service ends when there are messages and every one was sent as often as it is to be sent. -/
theorem C49_finished {c : List Attrs} (hc : Good c) (h : List In) :
    (after c h).finished = true ↔ c ≠ [] ∧ ∀ a ∈ c, (sent c h).count a.out = a.number' := by
  have ih := inv hc h
  rw [ih.finished, Bool.and_eq_true, List.isEmpty_iff, ih.msgs, List.filterMap_eq_nil_iff]
  constructor
  · rintro ⟨h1, h2⟩
    refine ⟨by intro h; simp [h] at h1, ?_⟩
    intro a ha
    have := h2 a ha
    rw [Attrs.now] at this
    have h3 : ¬ times c h a < a.number' := by
      intro h3; rw [if_pos h3] at this; cases this
    have h4 := C49_at_most hc h ha
    have h5 : times c h a = (sent c h).count a.out := rfl
    omega
  · rintro ⟨h1, h2⟩
    refine ⟨by cases c with | nil => exact absurd rfl h1 | cons => rfl, ?_⟩
    intro a ha
    rw [Attrs.now, times, h2 a ha, if_neg (Nat.lt_irrefl _)]

/-- Without a message that could be read the service does not end. -/
theorem C49_violated_empty (h : List In) : (after [] h).finished = false := by
  cases hf : (after [] h).finished with
  | false => rfl
  | true => exact absurd rfl (((C49_finished ⟨by simp, by simp, by simp, by simp⟩ h).mp hf).1)

/-- For the examples: one message, sent with a period a number of times. -/
def every (p n : Nat) : List Attrs := [{ name := 7, period := some p, number := some n }]

/-- A message that is to be sent no times is sent once. -/
theorem C49_violated_zero : sent (every 100 0) [.startup 5, .round 6] = [.broadcast 7] := by decide

/-- A message whose next send time passes `2^32` milliseconds is sent in the next round: here the third one, which is due after
6,000,000,000 milliseconds, is sent 10 milliseconds after the second. -/
theorem C49_violated_wrap :
    Good (every 3000000000 3) ∧
    sent (every 3000000000 3) [.startup 0, .round 1, .round 3000000010, .round 3000000020] =
      [.broadcast 7, .broadcast 7, .broadcast 7] := by
  refine ⟨⟨by decide, by simp [every], ?_, ?_⟩, by decide⟩
  · intro a ha t ht
    rw [every, List.mem_singleton] at ha
    subst ha
    injection ht with ht
    omega
  · intro a ha t ht
    rw [every, List.mem_singleton] at ha
    subst ha
    injection ht with ht
    omega

/-- For the examples: a message with an address and a send time, and one that is sent
three times. -/
def two : List Attrs :=
  [{ name := 1, address := "a".toList, time := some 20, number := some 5 }, { name := 2, period := some 30, number := some 3 }]

theorem good_two : Good two := by
  refine ⟨by decide, ?_, ?_, ?_⟩ <;>
  · intro a ha t ht
    rw [two] at ha
    rcases List.mem_cons.mp ha with rfl | ha
    · first | (injection ht with ht; omega) | cases ht
    · rw [List.mem_singleton] at ha
      subst ha
      first | (injection ht with ht; omega) | cases ht

example : Good two ∧ ∀ a ∈ two, a.Short := ⟨good_two, by decide⟩

example : (runM step (start two) [.round 50, .startup 100, .round 101, .round 125, .round 131, .round 141, .round 171]).2 =
      [[], [], [.broadcast 2], [.limited "a".toList 1], [.broadcast 2], [], [.broadcast 2]] ∧
    (after two [.round 50, .startup 100, .round 101, .round 125, .round 131, .round 141, .round 171]).finished = true := by decide

end Verif.Sender
