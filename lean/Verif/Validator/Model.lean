import Verif.Trace

/-!
Model of `src/cpp/Services/AutomationRequestValidatorService.{h,cpp}`.

The service receives one message at a time; the two timers call their handlers from the thread of
the timer manager.  The code does not synchronise the two threads (a data race); the model lets
every message and every handler run atomically, in any order.

The timers are modelled by whether they are active.  A start from within a handler is refused by
the timer manager (`UxAS_TimerManager.cpp:215-221`, `Verif.Timer.Op.startInHandler`), and during
its own handler a single-shot timer is not active.

Simplifications: the texts of the error reports, logging and the `ServiceStatus` messages are left
out; the contents of a plan are an opaque number; LMCP objects are never null (their constructors
allocate them).
-/

namespace Verif.Validator

/-- What the specific requirements of a task refer to: `AngledAreaSearchTask`,
`ImpactLineSearchTask`, `ImpactPointSearchTask` (AutomationRequestValidatorService.cpp:598-632); 0 means none. -/
inductive Needs where
  | nothing
  | area (id : Int)
  | line (id : Int)
  | point (id : Int)
deriving Repr, DecidableEq

/-- `RequestDetails` (AutomationRequestValidatorService.h:186-201): how a request arrived, and what its response must carry. -/
inductive Kind where
  /-- `AutomationRequest`. -/
  | plain
  /-- `TaskAutomationRequest` with its request id. -/
  | task (id : Int)
  /-- `ImpactAutomationRequest` with play and solution id. -/
  | impact (play soln : Int)
deriving Repr, DecidableEq

/-- mdms/UXTASK.xml 123-136: the fields of `UniqueAutomationRequest` that the service
reads. -/
structure Req where
  id : Int
  entities : List Int := []
  tasks : List Int := []
  /-- Operating region, 0 for none. -/
  region : Int := 0
  /-- Entity ids of the planning states. -/
  planning : List Int := []
deriving Repr, DecidableEq

/-- The sets and maps of known things (AutomationRequestValidatorService.h:208-217). -/
structure Known where
  configs : List Int := []
  states : List Int := []
  keepIns : List Int := []
  keepOuts : List Int := []
  areas : List Int := []
  lines : List Int := []
  points : List Int := []
  regions : List (Int × List Int × List Int) := []
  tasks : List (Int × Needs) := []
  initialized : List Int := []
deriving Repr, DecidableEq

/-- AutomationRequestValidatorService.h 179-217: members of the service. -/
structure State where
  known : Known := {}
  /-- `m_pendingRequests`; the front was sent. -/
  pending : List Req := []
  /-- `m_requestsWaitingForTasks`. -/
  waiting : List Req := []
  /-- The response id in `m_errorResponse`. -/
  errorId : Int := 0
  /-- `m_sandboxMap`. -/
  kinds : Int → Option Kind := fun _ => none
  /-- Is `m_responseTimerId` active? -/
  responseTimer : Bool := false
  /-- Is `m_taskInitTimerId` active? -/
  taskTimer : Bool := false

/-- AutomationRequestValidatorService.cpp 292-328: the plan in a response: computed by the
planner, or empty with an error report. -/
inductive Plan where
  | planned (content : Nat)
  | error
deriving Repr, DecidableEq

/-- AutomationRequestValidatorService.cpp 298, 311, 316, 326, 389: messages that the
service sends. -/
inductive Out where
  /-- `UniqueAutomationRequest`. -/
  | publish (r : Req)
  /-- `AutomationResponse`, `TaskAutomationResponse` or `ImpactAutomationResponse`, by kind. -/
  | answer (k : Kind) (p : Plan)
deriving Repr, DecidableEq

/-- AutomationRequestValidatorService.cpp 147-232: messages that the service receives, and
the calls of its timer handlers. -/
inductive In where
  | config (id : Int)
  | state (id : Int)
  | task (id : Int) (needs : Needs)
  | removeTasks (ids : List Int)
  | taskInitialized (id : Int)
  | area (id : Int)
  | line (id : Int)
  | point (id : Int)
  | keepIn (id : Int)
  | keepOut (id : Int)
  | region (id : Int) (ins outs : List Int)
  /-- One of the three kinds of requests; the id of a plain request is the unique number drawn by
  `getUniqueEntitySendMessageId`. -/
  | request (k : Kind) (r : Req)
  /-- `UniqueAutomationResponse`. -/
  | response (id : Int) (content : Nat)
  | responseTimeout
  | taskTimeout
deriving Repr, DecidableEq

/-- For `std::unordered_map::find`: the value of a key. -/
def lookup {α : Type} (l : List (Int × α)) (id : Int) : Option α :=
  (l.find? fun p => p.1 == id).map (·.2)

/-- For `std::unordered_map::operator[]`: `map[id] = x`. -/
def insert {α : Type} (l : List (Int × α)) (id : Int) (x : α) : List (Int × α) :=
  (id, x) :: l.filter fun p => p.1 != id

/-- Requirements on the vehicles when the request names some (AutomationRequestValidatorService.cpp:464-518). -/
def vehiclesOk (k : Known) (r : Req) : Bool :=
  (!k.configs.isEmpty && r.entities.all fun id => k.configs.contains id) &&
  (!k.states.isEmpty && r.entities.all fun id => k.states.contains id || r.planning.contains id)

/-- Requirements when the request names no vehicle (AutomationRequestValidatorService.cpp:519-560): the loop compares the
configurations with themselves. -/
def anyVehicleOk (k : Known) : Bool :=
  (!k.configs.isEmpty && !k.states.isEmpty) &&
    k.configs.any fun id1 => k.configs.any fun id2 => id1 == id2

/-- Operating region and its zones (AutomationRequestValidatorService.cpp:562-590). -/
def regionOk (k : Known) (r : Req) : Bool :=
  if r.region != 0 then
    match lookup k.regions r.region with
    | some (ins, outs) => (ins.all fun z => k.keepIns.contains z) && (outs.all fun z => k.keepOuts.contains z)
    | none => false
  else true

/-- The special requirements of a task (AutomationRequestValidatorService.cpp:598-632). -/
def needsOk (k : Known) : Needs → Bool
  | .nothing => true
  | .area id => id == 0 || k.areas.contains id
  | .line id => id == 0 || k.lines.contains id
  | .point id => id == 0 || k.points.contains id

/-- Required tasks (AutomationRequestValidatorService.cpp:592-640). -/
def tasksOk (k : Known) (r : Req) : Bool :=
  r.tasks.all fun id =>
    match lookup k.tasks id with
    | some n => needsOk k n
    | none => false

/-- `isCheckAutomationRequestRequirements` without its error report (AutomationRequestValidatorService.cpp:458-642). -/
def check (k : Known) (r : Req) : Bool :=
  (if r.entities.isEmpty then anyVehicleOk k else vehiclesOk k r) && regionOk k r && tasksOk k r

/-- `SendResponse` (AutomationRequestValidatorService.cpp:292-328); `id` is the response id. -/
def sendResponse (s : State) (id : Int) (p : Plan) : List Out :=
  match s.kinds id with
  | none => [.answer .plain p]
  | some k => [.answer k p]

/-- AutomationRequestValidatorService.cpp 286, 346, 367, 657: `m_sandboxMap.erase(id)`. -/
def State.forget (s : State) (id : Int) : State :=
  { s with kinds := fun i => if i = id then none else s.kinds i }

/-- AutomationRequestValidatorService.cpp 243, 260, 266: `m_sandboxMap[id] = k`. -/
def State.remember (s : State) (id : Int) (k : Kind) : State :=
  { s with kinds := fun i => if i = id then some k else s.kinds i }

/-- `sendNextRequest` (AutomationRequestValidatorService.cpp:372-403); `handler`: called from a timer handler, where a start of a
timer is refused. -/
def sendNext (s : State) (handler : Bool) : State × List Out :=
  match s.pending with
  | [] => ({ s with responseTimer := false }, [])
  | r :: _ =>
    ({ s with errorId := r.id, responseTimer := s.responseTimer || !handler }, [.publish r])

/-- Are all tasks of a request initialised (AutomationRequestValidatorService.cpp:414-422)? -/
def ready (k : Known) (r : Req) : Bool := r.tasks.all fun id => k.initialized.contains id

/-- `checkTasksInitialized` (AutomationRequestValidatorService.cpp:405-456).  The loop moves requests from the front while they are
ready. -/
def checkTasks (s : State) (handler : Bool) : State × List Out :=
  let moved := s.waiting.takeWhile (ready s.known)
  let rest := s.waiting.dropWhile (ready s.known)
  let s := { s with pending := s.pending ++ moved, waiting := rest }
  let (s, out) : State × List Out :=
    if !moved.isEmpty then
      let s := { s with taskTimer := s.taskTimer || !handler }
      if !s.responseTimer then sendNext s handler else (s, [])
    else if !s.taskTimer && !rest.isEmpty then
      ({ s with taskTimer := !handler }, [])
    else (s, [])
  if rest.isEmpty then ({ s with taskTimer := false }, out) else (s, out)

/-- `HandleAutomationRequest` (AutomationRequestValidatorService.cpp:234-275), with the error response of a failed check
(AutomationRequestValidatorService.cpp:642-658). -/
def handleRequest (s : State) (k : Kind) (r : Req) : State × List Out :=
  let s := s.remember r.id k
  if check s.known r then checkTasks { s with waiting := s.waiting ++ [r] } false
  else (s.forget r.id, sendResponse s r.id .error)

/-- `HandleAutomationResponse` (AutomationRequestValidatorService.cpp:277-290). -/
def handleResponse (s : State) (id : Int) (content : Nat) : State × List Out :=
  match s.pending with
  | [] => (s, [])
  | r :: rest =>
    if r.id = id ∧ (s.kinds id).isSome then
      let out := sendResponse s id (.planned content)
      let q := sendNext { s.forget id with pending := rest } false
      (q.1, out ++ q.2)
    else (s, [])

/-- `OnResponseTimeout` (AutomationRequestValidatorService.cpp:330-349). -/
def onResponseTimeout (s : State) : State × List Out :=
  match s.pending with
  | [] => sendNext s true
  | _ :: rest =>
    let out := sendResponse s s.errorId .error
    let q := sendNext { s.forget s.errorId with pending := rest } true
    (q.1, out ++ q.2)

/-- `OnTasksReadyTimeout` (AutomationRequestValidatorService.cpp:351-370). -/
def onTaskTimeout (s : State) : State × List Out :=
  match s.waiting with
  | [] => checkTasks s true
  | _ :: rest =>
    let out := sendResponse s s.errorId .error
    let q := checkTasks { s.forget s.errorId with waiting := rest } true
    (q.1, out ++ q.2)

/-- For `std::unordered_set::insert`: insertion into a set. -/
def addId (l : List Int) (id : Int) : List Int := if l.contains id then l else id :: l

/-- `processReceivedLmcpMessage` (AutomationRequestValidatorService.cpp:147-232) and the timer handlers.  A timer calls its handler
only when it is active, and is not active from then on. -/
def step (s : State) : In → State × List Out
  | .config id => ({ s with known.configs := addId s.known.configs id }, [])
  | .state id => ({ s with known.states := addId s.known.states id }, [])
  | .task id n =>
    ({ s with known.initialized := s.known.initialized.filter (· != id),
              known.tasks := insert s.known.tasks id n }, [])
  | .removeTasks ids =>
    ({ s with known.tasks := s.known.tasks.filter (fun p => !ids.contains p.1),
              known.initialized := s.known.initialized.filter (fun i => !ids.contains i) }, [])
  | .taskInitialized id =>
    checkTasks { s with known.initialized := addId s.known.initialized id } false
  | .area id => ({ s with known.areas := addId s.known.areas id }, [])
  | .line id => ({ s with known.lines := addId s.known.lines id }, [])
  | .point id => ({ s with known.points := addId s.known.points id }, [])
  | .keepIn id => ({ s with known.keepIns := addId s.known.keepIns id }, [])
  | .keepOut id => ({ s with known.keepOuts := addId s.known.keepOuts id }, [])
  | .region id ins outs => ({ s with known.regions := insert s.known.regions id (ins, outs) }, [])
  | .request k r => handleRequest s k r
  | .response id content => handleResponse s id content
  | .responseTimeout =>
    if s.responseTimer then onResponseTimeout { s with responseTimer := false } else (s, [])
  | .taskTimeout =>
    if s.taskTimer then onTaskTimeout { s with taskTimer := false } else (s, [])

/-- Not in the code: a history: final state and, for every input, the messages sent. -/
abbrev run (h : List In) : State × List (List Out) := runM step {} h

end Verif.Validator
