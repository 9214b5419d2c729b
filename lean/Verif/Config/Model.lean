import Verif.Common
import Mathlib.Data.Nat.Notation

/-!
# The configuration of an entity (C177-C179)

`src/cpp/Utilities/UxAS_ConfigurationManager.cpp` and `src/cpp/Communications/LmcpObjectNetworkBridgeManager.cpp`.

The XML parser is outside: loading is given the document it makes of a text, or nothing if it makes none.  Numbers and truth values are
read from text by functions that are parameters (`as_uint`, `as_bool`).  The levels of the loggers and the code for `AFRL_INTERNAL` are
left out.
-/

namespace Verif.Config

/-- An element of a document. -/
inductive Node where
  | mk (name : String) (attrs : List (String × String)) (children : List Node)

/-- Its name. -/
def Node.name : Node → String | .mk n _ _ => n
/-- Its attributes. -/
def Node.attrs : Node → List (String × String) | .mk _ a _ => a
/-- Its children. -/
def Node.children : Node → List Node | .mk _ _ c => c

/-- `attribute(name)`: the first of that name; nothing where `empty()` holds. -/
def Node.attr (n : Node) (key : String) : Option String := (n.attrs.find? (·.1 == key)).map (·.2)

/-- A document: its elements at the top. -/
abbrev Doc := List Node

/-- `child(name)`: the first of that name. -/
def child (d : List Node) (name : String) : Option Node := d.find? (·.name == name)

/-- The children of the first `UxAS` element (`first_child`, `next_sibling`; a missing element has none). -/
def uxas (d : Doc) : List Node := ((child d "UxAS").map Node.children).getD []

/-- How numbers and truth values are read. -/
structure Reader where
  uint : String → ℕ
  bool : String → Bool
  /-- `std::to_string` -/
  text : ℕ → String

/-- Members of `ConfigurationManager` (UxAS_ConfigurationManager.cpp 45-58; UxAS_ConfigurationManager.h, private members).  A document
that was `reset` has no elements. -/
structure State where
  base : Doc := []
  isLoaded : Bool := false
  bridges : Doc := []
  bridgesBuilt : Bool := false
  services : Doc := []
  servicesBuilt : Bool := false
  id : ℕ := 0
  type : String := ""
  startDelay : ℕ := 0
  runDuration : ℕ := 4294967295
  threadId : Bool := false
  timestamp : Bool := true

/-- UxAS_ConfigurationManager.cpp 260-415: `setEntityValuesFromXmlNode`. -/
def setEntity (r : Reader) (d : Doc) (s : State) : Bool × State :=
  match child d "UxAS" with
  | none => (true, s)
  | some n =>
      match n.attr "EntityID" with
      | none => (false, s)
      | some i =>
          let s := { s with id := r.uint i }
          match n.attr "EntityType" with
          | none => (false, s)
          | some t =>
              let s := { s with type := t }
              let s := match n.attr "StartDelay_ms" with | some x => { s with startDelay := r.uint x } | none => s
              let s := match n.attr "RunDuration_s" with | some x => { s with runDuration := r.uint x } | none => s
              let s := match n.attr "isLoggingThreadId" with | some x => { s with threadId := r.bool x } | none => s
              let s := match n.attr "isDataTimestamp" with | some x => { s with timestamp := r.bool x } | none => s
              (true, s)

/-- UxAS_ConfigurationManager.cpp 111-170: `loadXml` of the base configuration, of a file or of a string (77-87).  `partial_` is what the
parser leaves in the document when it fails. -/
def load (r : Reader) (parsed : Option Doc) (partial_ : Doc) (s : State) : Bool × State :=
  let s := if s.isLoaded then { s with base := [], isLoaded := false, bridgesBuilt := false, servicesBuilt := false } else s
  let s := { s with base := parsed.getD partial_, isLoaded := true }
  let (ok, s) := match parsed with
    | some d => setEntity r d s
    | none => (false, s)
  if ok then (true, s) else (false, { s with isLoaded := false })

/-- UxAS_ConfigurationManager.cpp 89-109: `unloadBaseXml` and `unloadXml`. -/
def unload (s : State) : State :=
  { s with base := [], isLoaded := false, bridges := [], bridgesBuilt := false, services := [], servicesBuilt := false }

/-- UxAS_ConfigurationManager.cpp 238-258: `populateEnabledComponentXmlNode`, with the element it is put into (206-207, 225-226). -/
def enabled (r : Reader) (name : String) (s : State) : Node :=
  .mk "UxAS" [("FormatVersion", "1.0"), ("EntityID", r.text s.id), ("EntityType", s.type)] ((uxas s.base).filter (·.name == name))

/-- UxAS_ConfigurationManager.cpp 200-217: `getEnabledBridges`. -/
def getBridges (r : Reader) (s : State) : Option Node × State :=
  let s := if s.isLoaded && !s.bridgesBuilt then { s with bridges := [enabled r "Bridge" s], bridgesBuilt := true } else s
  (child s.bridges "UxAS", s)

/-- UxAS_ConfigurationManager.cpp 219-236: `getEnabledServices`. -/
def getServices (r : Reader) (s : State) : Option Node × State :=
  let s := if s.isLoaded && !s.servicesBuilt then { s with services := [enabled r "Service" s], servicesBuilt := true } else s
  (child s.services "UxAS", s)

/-- UxAS_ConfigurationManager.cpp 172-198: `getDefaultServiceXmlNode`; the element that is printed, nothing for the empty text.  The
value of a missing attribute is the empty text. -/
def getDefault (type : String) (s : State) : Option Node :=
  if s.isLoaded then
    (uxas s.base).find? fun n => n.name == "Service" && (type.isEmpty || type == (n.attr "Type").getD "")
  else none

/-- What is done with the one configuration. -/
inductive Op where
  | load (parsed : Option Doc) (partial_ : Doc)
  | unload
  | bridges
  | services

/-- One of them. -/
def step (r : Reader) (s : State) : Op → State
  | .load p q => (load r p q s).2
  | .unload => unload s
  | .bridges => (getBridges r s).2
  | .services => (getServices r s).2

/-- The bridges of an entity (LmcpObjectNetworkBridgeManager.h, private members): those that run, with their ids, and whether
`initialize` was called. -/
structure Bridges where
  running : List (ℕ × Node) := []
  done : Bool := false

/-- LmcpObjectNetworkBridgeManager.cpp 173-258: `createBridge`, for the bridges of an entity (both ids `UINT32_MAX`).  Whether a bridge
is of a known type, can be configured and starts is a parameter; `next` is the next free id (LmcpObjectNetworkClientBase.cpp 36), used up where
a bridge of a known type is made. -/
def createBridge (known starts : Node → Bool) (next : ℕ) (n : Node) : Option (ℕ × Node) × ℕ :=
  if n.name == "Bridge" then
    if known n then (if starts n then some (next, n) else none, next + 1)
    else (none, next)
  else (none, next)

/-- LmcpObjectNetworkBridgeManager.cpp 99-115: the loop over the elements; `emplace` keeps what is there. -/
def createAll (known starts : Node → Bool) : List Node → ℕ → List (ℕ × Node) → List (ℕ × Node)
  | [], _, acc => acc
  | n :: rest, next, acc =>
      match createBridge known starts next n with
      | (some b, next) => createAll known starts rest next (if acc.any (·.1 == b.1) then acc else acc ++ [b])
      | (none, next) => createAll known starts rest next acc

/-- LmcpObjectNetworkBridgeManager.cpp 89-129: `initialize`. -/
def startBridges (r : Reader) (known starts : Node → Bool) (next : ℕ) (s : State) (b : Bridges) : Bool × Bridges × State :=
  if b.done then (false, b, s)
  else
    let (n, s) := getBridges r s
    (true, { running := createAll known starts ((n.map Node.children).getD []) next b.running, done := true }, s)

end Verif.Config
