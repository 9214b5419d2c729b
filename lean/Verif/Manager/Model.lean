import Verif.Trace
import Verif.AMap
import Verif.Net.Model
import Verif.Sentinel.Model

/-!
Model of the task manager (`src/cpp/Tasks/TaskManagerService.cpp`), the service manager
(`src/cpp/Services/ServiceManager.cpp`) and the text replacement that both use
(`src/cpp/Utilities/UxAS_StringUtil.h`).

LMCP objects are opaque texts.  XML parsing is not modelled: an attempt to create a service carries its
result.  `std::unordered_map` is modelled by association lists with unique keys; its order is not
modelled.  The service manager changes its table without the lock in `createService` (ServiceManager.cpp:344) while
another thread cleans it up; the model takes both as atomic.
-/

namespace Verif.Manager

open Verif

/-! ### `StringUtil::ReplaceAll` -/

/-- The loop (UxAS_StringUtil.h:66-73): `fuel` bounds the number of iterations, `none` when it is used up. -/
def replaceLoop (old new : Str) : Nat → Str → Nat → Option Str
  | 0, _, _ => none
  | fuel + 1, s, start =>
    match Sentinel.findStr old (s.drop start) with
    | none => some s
    | some i =>
      replaceLoop old new fuel (s.take (start + i) ++ new ++ s.drop (start + i + old.length)) (start + i + new.length)

/-- UxAS_StringUtil.h 66-73: `ReplaceAll(str, old, new)`; more iterations than characters
mean that it does not return. -/
def replaceAll (s old new : Str) : Option Str := replaceLoop old new (s.length + 1) s 0

/-! ### The task manager -/

/-- What a task needs to know (TaskManagerService.cpp:279-358). -/
inductive Needs where
  /-- `AngledAreaSearchTask` with its area. -/
  | area (id : Int)
  /-- `ImpactLineSearchTask` with its line. -/
  | line (id : Int)
  /-- `ImpactPointSearchTask` or `PatternSearchTask` with its point. -/
  | point (id : Int)
  /-- `EscortTask`. -/
  | escort
  /-- Any other task. -/
  | nothing
deriving Repr, DecidableEq

/-- mdms/CMASI.xml 445-475: a task message: id, full type name, XML. -/
structure Task where
  id : Int
  type : Str
  xml : Str
  needs : Needs
deriving Repr, DecidableEq

/-- `m_noTaskTypeString` (TaskManagerService.h:161). -/
def noType : Str := "NoTaskType".toList

/-- TaskManagerService.cpp 84-127: a `TaskOptions` element of the configuration: the
attributes that are present, and the options. -/
structure OptEntry where
  taskId : Option Int
  taskType : Option Str
  /-- Option name and value, if any. -/
  options : List (Str × Option Str)
deriving Repr, DecidableEq

/-- Text of the options of an element (TaskManagerService.cpp:103-122). -/
def OptEntry.text (e : OptEntry) : Str :=
  (e.options.map fun o =>
    match o.2 with
    | some v => ('<' :: o.1) ++ ('>' :: v) ++ "</".toList ++ o.1 ++ ['>']
    | none => ('<' :: o.1) ++ "/>".toList).flatten

/-- The keys of an element (TaskManagerService.cpp:91-101): the type only counts without an id. -/
def OptEntry.key (e : OptEntry) : Int × Str :=
  match e.taskId with
  | some i => (i, noType)
  | none =>
    match e.taskType with
    | some t => (0, t)
    | none => (0, noType)

/-- `m_TaskIdVsTaskTypeVsOptions`, as the list of texts in the order of the configuration
(TaskManagerService.cpp:124-127). -/
def optTable (es : List OptEntry) : List ((Int × Str) × Str) :=
  (es.filter fun e => !e.text.isEmpty).map fun e => (e.key, e.text)

/-- TaskManagerService.cpp 199-239: all texts for a key. -/
def optGet (t : List ((Int × Str) × Str)) (k : Int × Str) : Str :=
  ((t.filter fun p => p.1 = k).map (·.2)).flatten

/-- The options of a task (TaskManagerService.cpp:199-239). -/
def optionsFor (t : List ((Int × Str) × Str)) (task : Task) : Str :=
  optGet t (0, noType) ++
    (if t.any (fun p => p.1.1 == task.id) then optGet t (task.id, noType) else optGet t (0, task.type))

/-- The XML of the new service before it is escaped (TaskManagerService.cpp:241-252). -/
def serviceXml (t : List ((Int × Str) × Str)) (task : Task) : Str :=
  "<Service Type=\"".toList ++ task.type ++ "\">".toList ++ " <TaskRequest>".toList ++ task.xml ++
    "</TaskRequest>\n".toList ++
    (if (optionsFor t task).isEmpty then []
     else "<TaskOptions>".toList ++ optionsFor t task ++ "</TaskOptions>".toList)

/-- `<` and `>` are replaced (TaskManagerService.cpp:253-254). -/
def escape (s : Str) : Option Str :=
  (replaceAll s ['<'] "&lt;".toList).bind fun s => replaceAll s ['>'] "&gt;".toList

/-- They are put back (ServiceManager.cpp:486-487). -/
def unescape (s : Str) : Option Str :=
  (replaceAll s "&lt;".toList ['<']).bind fun s => replaceAll s "&gt;".toList ['>']

/-- mdms/UXNATIVE.xml 28-51: a `CreateNewService` message. -/
structure Create where
  serviceId : Nat
  /-- The task in the XML. -/
  task : Task
  xml : Option Str
  configs : Map Str := []
  states : Map Str := []
  keepIn : Map Str := []
  keepOut : Map Str := []
  regions : Map Str := []
  areas : List Str := []
  lines : List Str := []
  points : List Str := []
  missions : Map Str := []
deriving Repr, DecidableEq

/-- The text from which the service manager builds the service (ServiceManager.cpp:482-524). -/
def serviceText (c : Create) : Option Str :=
  match c.xml with
  | none => none
  | some x =>
    (unescape (x ++ ['\n'])).map fun t =>
      t ++ ((c.configs.map (·.2) ++ c.states.map (·.2) ++ c.missions.map (·.2) ++ c.areas ++ c.lines ++ c.points ++
        c.keepIn.map (·.2) ++ c.keepOut.map (·.2) ++ c.regions.map (·.2)).map (· ++ ['\n'])).flatten ++
        "</Service>".toList

/-- TaskManagerService.cpp 190, 367, 455: messages sent. -/
inductive TOut where
  | kill (serviceId : Nat)
  | create (c : Create)
deriving Repr, DecidableEq

/-- State of the task manager (TaskManagerService.h:140-163) and the counter of client ids. -/
structure TM where
  options : List ((Int × Str) × Str) := []
  ids : Net.Ids := {}
  services : Map Nat := []
  configs : Map Str := []
  states : Map Str := []
  keepIn : Map Str := []
  keepOut : Map Str := []
  regions : Map Str := []
  areas : Map Str := []
  lines : Map Str := []
  points : Map Str := []
  missions : Map Str := []
deriving Repr, DecidableEq

/-- TaskManagerService.cpp 165-477: messages received, and the use of the id counter by
others. -/
inductive TIn where
  | task (t : Task)
  | config (id : Int) (s : Str)
  | state (id : Int) (s : Str)
  | area (id : Int) (s : Str)
  | line (id : Int) (s : Str)
  | point (id : Int) (s : Str)
  /-- `AutomationResponse`: missions by vehicle. -/
  | response (ms : List (Int × Str))
  /-- `MissionCommand`, and `FollowPathCommand` converted to one. -/
  | mission (vehicle : Int) (s : Str)
  | keepIn (id : Int) (s : Str)
  | keepOut (id : Int) (s : Str)
  | region (id : Int) (s : Str)
  | removeTasks (ids : List Int)
  /-- Another part of the program uses the counter of client ids. -/
  | idOp (op : Net.IdOp)
deriving Repr, DecidableEq

/-- Whether a needed area, line or point is known (TaskManagerService.cpp:279-346): an id of a point that is
not positive means that none is needed. -/
def TM.good (s : TM) (t : Task) : Bool :=
  match t.needs with
  | .area id => (s.areas.get id).isSome
  | .line id => (s.lines.get id).isSome
  | .point id => if id > 0 then (s.points.get id).isSome else true
  | .escort | .nothing => true

/-- The `CreateNewService` message (TaskManagerService.cpp:248-358). -/
def TM.createMsg (s : TM) (sid : Nat) (t : Task) : Create :=
  { serviceId := sid, task := t, xml := escape (serviceXml s.options t), configs := s.configs, states := s.states,
    keepIn := s.keepIn, keepOut := s.keepOut, regions := s.regions,
    areas := match t.needs with
      | .area id => (s.areas.get id).toList
      | _ => []
    lines := match t.needs with
      | .line id => (s.lines.get id).toList
      | .escort => s.lines.map (·.2)
      | _ => []
    points := match t.needs with
      | .point id => if id > 0 then (s.points.get id).toList else []
      | _ => []
    missions := match t.needs with
      | .escort => s.missions
      | _ => [] }

/-- The known service of a task is killed (TaskManagerService.cpp:183-194, 447-459). -/
def TM.killTask (s : TM) (id : Int) : TM × List TOut :=
  match s.services.get id with
  | some sid => ({ s with services := s.services.del id }, [.kill sid])
  | none => (s, [])

/-- The listed tasks (TaskManagerService.cpp:442-465). -/
def TM.killTasks : TM → List Int → TM × List TOut
  | s, [] => (s, [])
  | s, id :: ids =>
    let r := s.killTask id
    let q := TM.killTasks r.1 ids
    (q.1, r.2 ++ q.2)

/-- The id for the new service: `getUniqueServceId` (TaskManagerService.cpp:249). -/
def TM.nextId (s : TM) : Nat := Net.inc32 s.ids.client

/-- `processReceivedLmcpMessage` for a task (TaskManagerService.cpp:177-370). -/
def TM.newTask (s : TM) (t : Task) : TM × List TOut :=
  let r := s.killTask t.id
  let s1 := r.1
  let sid := s1.nextId
  let s2 := { s1 with ids := { s1.ids with client := sid } }
  if s2.good t then
    ({ s2 with services := s2.services.put t.id sid }, r.2 ++ [.create (s2.createMsg sid t)])
  else (s2, r.2)

/-- `processReceivedLmcpMessage` (TaskManagerService.cpp:165-477).  `AutomationRequest` is not subscribed. -/
def tmStep (s : TM) : TIn → TM × List TOut
  | .task t => s.newTask t
  | .config id v => ({ s with configs := s.configs.put id v }, [])
  | .state id v => ({ s with states := s.states.put id v }, [])
  | .area id v => ({ s with areas := s.areas.put id v }, [])
  | .line id v => ({ s with lines := s.lines.put id v }, [])
  | .point id v => ({ s with points := s.points.put id v }, [])
  | .response ms => ({ s with missions := ms.foldl (fun m p => m.put p.1 p.2) s.missions }, [])
  | .mission id v => ({ s with missions := s.missions.put id v }, [])
  | .keepIn id v => ({ s with keepIn := s.keepIn.put id v }, [])
  | .keepOut id v => ({ s with keepOut := s.keepOut.put id v }, [])
  | .region id v => ({ s with regions := s.regions.put id v }, [])
  | .removeTasks ids => s.killTasks ids
  | .idOp op => ({ s with ids := (Net.idStep s.ids op).1 }, [])

/-! ### The service manager -/

/-- ServiceManager.h 188, LmcpObjectNetworkClientBase.h 297: a service object: its id,
whether its thread has ended (`getIsTerminationFinished`). -/
structure Svc where
  id : Nat
  finished : Bool := false
deriving Repr, DecidableEq

/-- Result of parsing, instantiating, configuring and starting (ServiceManager.cpp:397-476). -/
inductive Attempt where
  /-- Nothing is constructed: bad XML, no type, unknown type. -/
  | noService
  /-- Constructed, but configuration or start fails; the object is destroyed. -/
  | fails
  | starts
deriving Repr, DecidableEq

/-- ServiceManager.h 150-195: state: the counter of ids, `m_servicesById` by key, the
services that were destroyed while their thread ran, the id of the manager, whether its
thread runs, `m_isServiceManagerTermination`. -/
structure SM where
  ids : Net.Ids := {}
  table : List (Nat × Svc) := []
  destroyed : List Svc := []
  own : Nat
  runs : Bool := true
  terminating : Bool := false
deriving Repr, DecidableEq

/-- ServiceManager.cpp 259-352, 479-553: events. -/
inductive SIn where
  /-- A `Service` element of the configuration or a `CreateNewService` message (`given` is its service id, -1 for
  the configuration). -/
  | create (given : Int) (a : Attempt)
  /-- The thread of a service ends. -/
  | finish (id : Nat)
  /-- A pass of `removeTerminatedServices`. -/
  | cleanUp
  /-- A `KillService` message arrives at the manager. -/
  | kill (id : Int)
  /-- Another part of the program uses the counter of client ids. -/
  | idOp (op : Net.IdOp)
deriving Repr, DecidableEq

/-- ServiceManager.cpp 325-352, 555-580: what happens: creation succeeded or failed,
messages that ask services to stop. -/
inductive SOut where
  | created (ok : Bool)
  | kills (ids : List Nat)
  | nothing
deriving Repr, DecidableEq

/-- The id of a started service (ServiceManager.cpp:425-451); ids given are taken as natural numbers. -/
def finalId (counter : Nat) (given : Int) : Nat := if given > 0 then given.toNat else counter

/-- Keys of the table have 32 bits (ServiceManager.h:188). -/
def key (id : Nat) : Nat := id % 4294967296

/-- `createService` (ServiceManager.cpp:325-352): `emplace` does not replace an entry; then the new object is
destroyed, whose destructor detaches the running thread (LmcpObjectNetworkClientBase.cpp:41-47). -/
def SM.create (s : SM) (given : Int) : Attempt → SM × SOut
  | .noService => (s, .created false)
  | .fails => ({ s with ids := { s.ids with client := Net.inc32 s.ids.client } }, .created false)
  | .starts =>
    let id := finalId s.ids.client given
    let s' := { s with ids := { s.ids with client := Net.inc32 s.ids.client } }
    if s.table.any (fun p => p.1 == key id) then ({ s' with destroyed := { id } :: s.destroyed }, .created true)
    else ({ s' with table := s.table ++ [(key id, { id })] }, .created true)

/-- `terminateAllServices` (ServiceManager.cpp:555-580), without the bridges. -/
def SM.terminateAll (s : SM) : List Nat := (s.table.filter fun p => !p.2.finished).map (·.2.id)

/-- One event.  A `KillService` with the id of the manager is handled by the base class
(LmcpObjectNetworkClientBase.cpp:302-310), so the branch in ServiceManager.cpp:538-541 is never taken; -1 is
handled in ServiceManager.cpp:542-548. -/
def smStep (s : SM) : SIn → SM × SOut
  | .create given a => if s.runs then s.create given a else (s, .nothing)
  | .finish id =>
    ({ s with table := s.table.map fun p => if p.2.id = id then (p.1, { p.2 with finished := true }) else p }, .nothing)
  | .cleanUp => ({ s with table := s.table.filter fun p => !p.2.finished }, .nothing)
  | .kill id =>
    if s.runs then
      if id = s.own then ({ s with runs := false }, .nothing)
      else if id = -1 then ({ s with runs := false, terminating := true }, .kills s.terminateAll)
      else (s, .nothing)
    else (s, .nothing)
  | .idOp op => ({ s with ids := (Net.idStep s.ids op).1 }, .nothing)

/-- The main thread (ServiceManager.cpp:106-127): the loop ends when termination was requested and no service runs
after a pass of cleaning up; `true` when it ended within the passes given. -/
def SM.mainEnds (s : SM) : Bool := s.terminating && (s.table.filter fun p => !p.2.finished).isEmpty

end Verif.Manager
