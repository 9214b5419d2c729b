import Verif.Diagram.Unique
import Verif.AMap
import Verif.Assign.Model

/-!
# The service for diagrams of assignments

`src/cpp/Services/AutomationDiagramDataService.cpp`.

Messages are their ids, what is looked up by them, and their texts (`toXML`).  What is printed is left out, as are the requests' times,
which are only printed.
-/

namespace Verif.Diagram

open Verif
open Verif.Assign (toStringInt)

/-- What a task is about (314-437): the id of an area, a line, a point (point and pattern search), a watched or a blocked entity. -/
inductive About where
  | nothing
  | area (i : Int)
  | line (i : Int)
  | point (i : Int)
  | watched (i : Int)
  | blocked (i : Int)
deriving Repr, DecidableEq

/-- A task. -/
structure Task where
  xml : Str
  about : About
deriving Repr, DecidableEq

/-- An operating region. -/
structure Region where
  keepIn : List Int
  keepOut : List Int
deriving Repr, DecidableEq

/-- A request; `plan` are its planning states, with the text of the state made from each (267-276). -/
structure Request where
  entities : List Int
  plan : List (Int × Str)
  tasks : List Int
  region : Int
deriving Repr, DecidableEq

/-- AutomationDiagramDataService.h 149-159, and the file system. -/
structure State where
  states : Map Str := []
  requests : Map Request := []
  tasks : Map Task := []
  regions : Map Region := []
  zones : Map Str := []
  areas : Map Str := []
  lines : Map Str := []
  points : Map Str := []
  fs : Fs

/-- What is received; with a response, the time in the name of its directory. -/
inductive Msg where
  | state (i : Int) (xml : Str)
  | request (i : Int) (r : Request)
  | zone (i : Int) (xml : Str)
  | task (i : Int) (t : Task)
  | region (i : Int) (r : Region)
  | area (i : Int) (xml : Str)
  | line (i : Int) (xml : Str)
  | point (i : Int) (xml : Str)
  | response (i : Int) (xml : Str) (now : Str)
deriving Repr, DecidableEq

/-- What a file is about. -/
inductive Kind where
  | entity | task | area | line | point | watched | blocked | keepIn | keepOut | response
deriving Repr, DecidableEq

/-- The first words of names: 278, 293, 310, 326, 346, 366, 386, 406, 426, 453, 469, 486. -/
def Kind.word : Kind → Str
  | .entity => "EntityState".toList
  | .task => "Task".toList
  | .area => "AreaOfInterest".toList
  | .line => "LineOfInterest".toList
  | .point => "PointOfInterest".toList
  | .watched => "WatchedEntity".toList
  | .blocked => "BlockedEntity".toList
  | .keepIn => "ZoneKeepIn".toList
  | .keepOut => "ZoneKeepOut".toList
  | .response => "UniqueAutomationResponse".toList

/-- The name of a file (278 and the like). -/
def Kind.name (k : Kind) (i : Int) : Str := k.word ++ "_Id_".toList ++ toStringInt i ++ ".xml".toList

/-- `std::ofstream`, not to append: a new file, or another text. -/
def Fs.put (fs : Fs) (p : Path) (text : Str) : Fs :=
  if fs.isFile p then { fs with files := fs.files.map fun f => if f.1 = p then (p, text) else f }
  else if fs.isDir p.dropLast && !fs.isDir p then { fs with files := fs.files ++ [(p, text)] }
  else fs

/-- A file that is written: what it is about, and its text. -/
abbrev Write := (Kind × Int) × Str

/-- AutomationDiagramDataService.cpp 263-303: the state of an entity, the first planning state if there is one. -/
def State.entityFile (s : State) (r : Request) (i : Int) : Option Write :=
  match r.plan.find? fun p => p.1 == i with
  | some p => some ((.entity, i), p.2)
  | none => (s.states.get i).map fun x => ((.entity, i), x)

/-- A file about something known, if the id is positive (321-336 and the like). -/
def known (k : Kind) (m : Map Str) (i : Int) : Option Write := if i > 0 then (m.get i).map fun x => ((k, i), x) else none

/-- AutomationDiagramDataService.cpp 305-442: the files of a task. -/
def State.taskFiles (s : State) (i : Int) : List Write :=
  match s.tasks.get i with
  | some t => ((.task, i), t.xml) :: Option.toList (match t.about with
      | .nothing => none
      | .area j => known .area s.areas j
      | .line j => known .line s.lines j
      | .point j => known .point s.points j
      | .watched j => known .watched s.states j
      | .blocked j => known .blocked s.states j)
  | none => []

/-- AutomationDiagramDataService.cpp 443-485: the files of the zones. -/
def State.zoneFiles (s : State) (r : Request) : List Write :=
  if r.region > 0 then
    match s.regions.get r.region with
    | some g =>
        (g.keepIn.filterMap fun i => (s.zones.get i).map fun x => ((Kind.keepIn, i), x)) ++
          g.keepOut.filterMap fun i => (s.zones.get i).map fun x => ((Kind.keepOut, i), x)
    | none => []
  else []

/-- AutomationDiagramDataService.cpp 263-490: all files, for a request whose entities have been filled in. -/
def State.writes (s : State) (r : Request) (i : Int) (xml : Str) : List Write :=
  r.entities.filterMap (s.entityFile r) ++ r.tasks.flatMap s.taskFiles ++ s.zoneFiles r ++ [((.response, i), xml)]

/-- AutomationDiagramDataService.cpp 508-532. -/
def scriptNames : List Str :=
  ["PlotAutomationDiagram.py".toList, "ProcessUniqueAutomationResponse.py".toList, "ProcessTasks.py".toList, "ProcessEntityStates.py".toList,
   "ProcessZones.py".toList]

/-- AutomationDiagramDataService.cpp 254-261: an empty list of entities stands for all known ones; it is filled in in the request that is kept. -/
def State.fill (s : State) (r : Request) : Request :=
  if r.entities = [] then { r with entities := s.states.map (·.1) } else r

/-- AutomationDiagramDataService.cpp 236-248: where and how directories are made. -/
structure Config where
  base : Str
  entity : ℕ
  /-- The texts of the scripts. -/
  scripts : Str → Str

/-- AutomationDiagramDataService.cpp 245-246. -/
def Config.prefix (c : Config) : Str := "AutomationDiagram_ID".toList ++ pad c.entity

/-- AutomationDiagramDataService.cpp 236-502, `ProcessUniqueAutomationResponse`. -/
def State.respond (c : Config) (s : State) (i : Int) (xml now : Str) : Outcome State :=
  match s.requests.get i with
  | none => .ok s
  | some r =>
      (s.fs.createUnique true (c.base ++ ['/']) c.prefix now).bind fun q =>
        if q.2.2 then
          let r' := s.fill r
          let fs1 := (s.writes r' i xml).foldl (fun f w => f.put (comps (q.2.1 ++ w.1.1.name w.1.2)) w.2) q.1
          let fs2 := scriptNames.foldl (fun f n => f.put (comps (q.2.1 ++ n)) (c.scripts n)) fs1
          .ok { s with requests := s.requests.put i r', fs := fs2 }
        else .ok { s with fs := q.1 }

/-- AutomationDiagramDataService.cpp 132-234, `processReceivedLmcpMessage`. -/
def State.step (c : Config) (s : State) : Msg → Outcome State
  | .state i x => .ok { s with states := s.states.put i x }
  | .request i r => .ok { s with requests := s.requests.put i r }
  | .zone i x => .ok { s with zones := s.zones.put i x }
  | .task i t => .ok { s with tasks := s.tasks.put i t }
  | .region i g => .ok { s with regions := s.regions.put i g }
  | .area i x => .ok { s with areas := s.areas.put i x }
  | .line i x => .ok { s with lines := s.lines.put i x }
  | .point i x => .ok { s with points := s.points.put i x }
  | .response i x now => s.respond c i x now

/-- All messages. -/
def State.run (c : Config) (s : State) : List Msg → Outcome State
  | [] => .ok s
  | m :: l => (s.step c m).bind fun s' => s'.run c l

end Verif.Diagram
