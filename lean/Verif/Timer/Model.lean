import Verif.Common

/-!
Model of `src/cpp/Utilities/UxAS_TimerManager.{h,cpp}`.

Every public call and every step of the worker thread holds the mutex, so a history is a sequence
of atomic steps.  `disableTimer`, `destroyTimer` and `destroyTimers` sleep between their attempts
*without* releasing the mutex (UxAS_TimerManager.cpp:141, 352), so repeated attempts see the same state and one
attempt decides the result, whatever the timeout.  The handler runs between `fire` and `finish`,
where the mutex is released (UxAS_TimerManager.cpp:426-429).

Simplifications: times and periods are integers (no overflow of `std::chrono`); names and logging
are dropped; the destructor (`m_isFinished`) is left out.
-/

namespace Verif.Timer

/-- `struct Timer`, UxAS_TimerManager.h:42-83, without name and handler (the id stands for the
handler). -/
structure Timer where
  next : Int := 0
  period : Int := 0
  executing : Bool := false
  disabled : Bool := false
  toDestroy : Bool := false
deriving Repr, DecidableEq

/-- `TimerManager` data members, UxAS_TimerManager.h:240-250: `queue` is the multiset of
references in its order; `running` is the timer whose handler the worker is executing. -/
structure State where
  nextId : Nat := 1
  timers : Nat → Option Timer := fun _ => none
  queue : List Nat := []
  running : Option Nat := none

/-- For the model of `m_timersById`: update of one timer. -/
def State.set (s : State) (id : Nat) (t : Option Timer) : State :=
  { s with timers := fun k => if k = id then t else s.timers k }

/-- UxAS_TimerManager.h 86-93: the key of an entry of the multiset. -/
def State.key (s : State) (id : Nat) : Int := ((s.timers id).getD {}).next

/-- `m_queue.find(ref)`: an entry with the same callback time (UxAS_TimerManager.h:86-93
compares nothing else). -/
def State.find (s : State) (time : Int) : Option Nat := s.queue.find? fun k => s.key k == time

/-- UxAS_TimerManager.cpp 299, 453: `m_queue.insert(ref)`: after the entries with the same
time. -/
def insertEntry (key : Nat → Int) (id : Nat) : List Nat → List Nat
  | [] => [id]
  | k :: ks => if key id < key k then id :: k :: ks else k :: insertEntry key id ks

/-- UxAS_TimerManager.cpp 386: `m_queue.erase(ref)`: all entries with the same time. -/
def State.eraseTime (s : State) (time : Int) : State :=
  { s with queue := s.queue.filter fun k => s.key k != time }

/-- UxAS_TimerManager.cpp 54-181, 399-474: what a step returns or does. -/
inductive Out where
  /-- Result of a public call. -/
  | result (b : Bool)
  /-- Result of `createTimer`. -/
  | created (id : Nat)
  /-- Result of `destroyTimers`. -/
  | count (n : Nat)
  /-- The worker invokes the handler of a timer. -/
  | fired (id : Nat)
  /-- The worker has nothing to do. -/
  | idle
  /-- The handler returned. -/
  | finished (id : Nat)
  /-- `startTimerImpl` waits because the entry found is executing its handler. -/
  | blocked
deriving Repr, DecidableEq

/-- `createTimerImpl`, UxAS_TimerManager.cpp:182-189. -/
def create (s : State) : Outcome (State × Out) :=
  .ok ({ s with nextId := s.nextId + 1 }.set s.nextId (some {}), .created s.nextId)

/-- `disableOrDestroyExistingTimerImpl(timerId, timer, isDestroy)`, UxAS_TimerManager.cpp:361-397, where `timer` is
the timer with id `k`. -/
def dropExisting (s : State) (id k : Nat) (t : Timer) (isDestroy : Bool) : State × Bool :=
  if t.executing then
    (s.set k (some { t with disabled := true, toDestroy := t.toDestroy || isDestroy }), false)
  else
    let s := if (s.find t.next).isSome then s.eraseTime t.next else s
    (if isDestroy then s.set id none else s, true)

/-- `startTimerImpl`, UxAS_TimerManager.cpp:191-308, called from a thread other than the worker, at time `now`. -/
def start (s : State) (id : Nat) (now delay period : Int) : Outcome (State × Out) :=
  if id > s.nextId - 1 then .ok (s, .result false)
  else match s.timers id with
    | none => .ok (s, .result false)
    | some t =>
      let r : State × Bool :=
        match s.find t.next with
        | none => (s, true)
        | some k =>
          match s.timers k with
          | none => (s, true)
          | some u => dropExisting s id k u false
      if r.2 then
        let s := r.1.set id (some { next := now + delay, period := period })
        .ok ({ s with queue := insertEntry s.key id s.queue }, .result true)
      else .ok (r.1, .blocked)

/-- `disableOrDestroyTimerImpl`, UxAS_TimerManager.cpp:310-359. -/
def drop (s : State) (id : Nat) (isDestroy : Bool) : State × Bool :=
  if id > s.nextId - 1 then (s, false)
  else match s.timers id with
    | none => (s, true)
    | some t => dropExisting s id id t isDestroy

/-- `isTimerActive`, UxAS_TimerManager.cpp:90-110. -/
def isActive (s : State) (id : Nat) : Bool :=
  match s.timers id with
  | none => false
  | some t => (s.find t.next).isSome

/-- The loop of `destroyTimers` over the ids, UxAS_TimerManager.cpp:134-141. -/
def dropAll : State → List Nat → State × Nat
  | s, [] => (s, 0)
  | s, id :: ids =>
    let r := drop s id true
    let q := dropAll r.1 ids
    (q.1, (if r.2 then 1 else 0) + q.2)

/-- `destroyTimers`, UxAS_TimerManager.cpp:126-181.  The repeated attempts find the same state (`dropAll` is
idempotent: timers already destroyed count as destroyed).  With a timeout, when not all were
destroyed, the names of the others are logged, which dereferences `end()` for an id that does not
exist (UxAS_TimerManager.cpp:174-175). -/
def destroyMany (s : State) (ids : List Nat) (timeout : Nat) : Outcome (State × Out) :=
  let r := dropAll s ids
  if r.2 < ids.length ∧ 0 < timeout ∧ ids.any (fun id => (r.1.timers id).isNone && id ≥ r.1.nextId) then
    .ub
  else .ok (r.1, .count r.2)

/-- The worker at time `now`: take the front timer if it is due, UxAS_TimerManager.cpp:402-427. -/
def fire (s : State) (now : Int) : Outcome (State × Out) :=
  match s.running with
  | some _ => .ok (s, .idle)
  | none =>
    match s.queue with
    | [] => .ok (s, .idle)
    | id :: rest =>
      match s.timers id with
      | none => .ub
      | some t =>
        if t.next ≤ now then
          .ok ({ s with queue := rest, running := some id }.set id (some { t with executing := true }),
            .fired id)
        else .ok (s, .idle)

/-- The worker after the handler returned, UxAS_TimerManager.cpp:429-462.  The reference to the timer is dangling
when the timer was destroyed meanwhile; changing the time of a timer that is still in the multiset
breaks its order.  Both are undefined behaviour. -/
def finish (s : State) : Outcome (State × Out) :=
  match s.running with
  | none => .ok (s, .idle)
  | some id =>
    match s.timers id with
    | none => .ub
    | some t =>
      let t := { t with executing := false }
      let s := { s with running := none }.set id (some t)
      if t.toDestroy then
        if id ∈ s.queue then .ub else .ok (s.set id none, .finished id)
      else if t.disabled then .ok (s, .finished id)
      else if t.period > 0 then
        if id ∈ s.queue then .ub
        else
          let s := s.set id (some { t with next := t.next + t.period })
          .ok ({ s with queue := insertEntry s.key id s.queue }, .finished id)
      else .ok (s.set id (some { t with disabled := true }), .finished id)

/-- UxAS_TimerManager.cpp 54-181, 399-474: the public calls and the steps of the worker. -/
inductive Op where
  | create
  | startSingleShot (id : Nat) (now delay : Int)
  | startPeriodic (id : Nat) (now delay period : Int)
  /-- A start from within a handler (worker thread): refused, UxAS_TimerManager.cpp:215-221. -/
  | startInHandler (id : Nat)
  | disable (id : Nat)
  | destroy (id : Nat)
  | destroyMany (ids : List Nat) (timeout : Nat)
  | isActive (id : Nat)
  | fire (now : Int)
  | finish
deriving Repr, DecidableEq

/-- One step.  Durations come from unsigned parameters: negative ones stand for nothing
(`startPeriodicTimer` refuses a zero period, UxAS_TimerManager.cpp:76-87). -/
def step (s : State) : Op → Outcome (State × Out)
  | .create => create s
  | .startSingleShot id now delay => start s id now delay 0
  | .startPeriodic id now delay period =>
    if period > 0 then start s id now delay period else .ok (s, .result false)
  | .startInHandler _ => .ok (s, .result false)
  | .disable id => .ok ((drop s id false).1, .result (drop s id false).2)
  | .destroy id => .ok ((drop s id true).1, .result (drop s id true).2)
  | .destroyMany ids timeout => destroyMany s ids timeout
  | .isActive id => .ok (s, .result (isActive s id))
  | .fire now => fire s now
  | .finish => finish s

/-- Not in the code: a history: the final state and the outputs. -/
def run (s : State) : List Op → Outcome (State × List Out)
  | [] => .ok (s, [])
  | op :: ops => (step s op).bind fun r => (run r.1 ops).bind fun q => .ok (q.1, r.2 :: q.2)

end Verif.Timer
