import Verif.Algebra.Model

/-!
Model of the assignment service,
`src/cpp/Services/AssignmentTreeBranchBoundBase.{h,cpp}`.

Conventions.  `int64_t` values are integers: overflow of sums of costs is not
modelled (times are far below 2^63).  The conversion of texts to numbers
(`std::stoll`) does respect the range.  An `std::unordered_map` whose iteration
order matters comes with an explicit order that the theorems leave arbitrary.
Parts under `AFRL_INTERNAL_ENABLED` are off in the open build.
-/

namespace Verif.Assign

open Verif.Algebra (Tree Alg nextActions)

/-! ### Task-option identifiers -/

/-- AssignmentTreeBranchBoundBase.h 141-142, AssignmentTreeBranchBoundBase.cpp 1008-1009:
`INT64_MAX`. -/
def int64Max : Int := 9223372036854775807

/-- `c_TaskAssignmentState::getTaskAndOptionId`, AssignmentTreeBranchBoundBase.h:181-184. -/
def taskAndOptionId (taskId optionId : Int) : Int := taskId * 100000 + optionId

/-- The same computation with its signed overflow made visible: a product or sum outside
`int64_t` is undefined behaviour.  AssignmentTreeBranchBoundBase.h:181-184. -/
def taskAndOptionId64 (taskId optionId : Int) : Outcome Int :=
  let inRange (x : Int) : Bool := decide (-int64Max - 1 ≤ x ∧ x ≤ int64Max)
  if inRange (taskId * 100000) && inRange (taskId * 100000 + optionId)
  then .ok (taskAndOptionId taskId optionId) else .ub

/-- `c_TaskAssignmentState::getTaskID`, AssignmentTreeBranchBoundBase.h:185-188 (C++ division
truncates towards zero). -/
def taskIdOf (taskOptionId : Int) : Int := taskOptionId.tdiv 100000

/-- `c_TaskAssignmentState::getOptionID`, AssignmentTreeBranchBoundBase.h:189-192. -/
def optionIdOf (taskOptionId : Int) : Int := taskOptionId.tmod 100000

/-! ### Rewriting of composition and relationship strings -/

/-- For `std::stoll`: white space skipped by `strtoll`. -/
def isSpaceC (c : Char) : Bool :=
  c == ' ' || c == '\t' || c == '\n' || c == '\r' || c == Char.ofNat 11 || c == Char.ofNat 12

/-- For AssignmentTreeBranchBoundBase.cpp 324, 395: the digits part of `std::stoll`: no
digit, or a value out of range, throws. -/
def stollDigits (neg : Bool) (s : Str) : Outcome Int :=
  let ds := s.takeWhile Char.isDigit
  if ds = [] then .throws
  else
    let v : Int := if neg then - (decimalValue ds : Int) else (decimalValue ds : Int)
    if v > int64Max ∨ v < -int64Max - 1 then .throws else .ok v

/-- For AssignmentTreeBranchBoundBase.cpp 324, 395: `std::stoll`: white space, an optional
sign, digits; the rest is ignored. -/
def stoll (s : Str) : Outcome Int :=
  match s.dropWhile isSpaceC with
  | '-' :: r => stollDigits true r
  | '+' :: r => stollDigits false r
  | r => stollDigits false r

/-- For AssignmentTreeBranchBoundBase.cpp 326: `std::to_string` of a signed number. -/
def toStringInt (a : Int) : Str := if a < 0 then '-' :: decimal a.natAbs else decimal a.natAbs

/-- The position after the id that starts at `position`: the first blank or closing
parenthesis, `none` for `npos`.  AssignmentTreeBranchBoundBase.cpp:304-322 and 373-391
(`find(c, position)` searches from `position`). -/
def positionAfterId (s : Str) (position : Nat) : Option Nat :=
  match findChar ' ' (s.drop position), findChar ')' (s.drop position) with
  | some a, some b => some (position + (if a < b then a else b))
  | some a, none => some (position + a)
  | none, some b => some (position + b)
  | none, none => none

/-- For AssignmentTreeBranchBoundBase.cpp 298, 324, 328: `s.substr(pos, len)` with `pos ≤
s.size()`; `len = npos` takes everything. -/
def substrLen (s : Str) (pos : Nat) : Option Nat → Str
  | some n => (s.drop pos).take n
  | none => s.drop pos

/-- AssignmentTreeBranchBoundBase.cpp 282-354: result of rewriting one task's composition.
-/
inductive Rewritten where
  /-- Stored as the expression of the task. -/
  | text (s : Str)
  /-- Nothing stored, no error reported (empty composition). -/
  | nothing
  /-- An error message was broadcast and the request is refused. -/
  | error
deriving Repr, DecidableEq

/-- One iteration of the loop over a composition string: either done, or the text
appended and the remaining string.  AssignmentTreeBranchBoundBase.cpp:291-351.  Note that the
second argument of `substr` is a position used as a length (AssignmentTreeBranchBoundBase.cpp:325).  `catch` (AssignmentTreeBranchBoundBase.cpp:331-338)
covers the number conversion and the final `substr`. -/
def rewriteStep (taskId : Int) (acc s : Str) : Rewritten ⊕ (Str × Str) :=
  if s = [] then .inl .nothing
  else match findChar 'p' s with
    | none => .inl (.text (acc ++ s))
    | some q =>
      let position := q + 1
      let acc' := acc ++ s.take position
      let after := positionAfterId s position
      match stoll (substrLen s position after) with
      | .ok optionId =>
        match after with
        | some a => .inr (acc' ++ toStringInt (taskAndOptionId taskId optionId), s.drop a)
        | none => .inl .error
      | _ => .inl .error

/-- The loop over a composition string (each iteration shortens the string, so
`s.length + 1` iterations suffice).  AssignmentTreeBranchBoundBase.cpp:286-352. -/
def rewriteLoop (taskId : Int) : Nat → Str → Str → Rewritten
  | 0, _, _ => .nothing
  | fuel + 1, acc, s =>
    match rewriteStep taskId acc s with
    | .inl r => r
    | .inr (acc', s') => rewriteLoop taskId fuel acc' s'

/-- The rewritten composition of a task.  AssignmentTreeBranchBoundBase.cpp:282-352. -/
def rewriteComposition (taskId : Int) (composition : Str) : Rewritten :=
  rewriteLoop taskId (composition.length + 1) [] composition

/-- The loop over the relationship string: the references are replaced by the
expressions of the tasks; here `stoll` and `substr` are not protected by a `try`.
`.ok none`: an error message was broadcast.  AssignmentTreeBranchBoundBase.cpp:358-422. -/
def relationLoop (expr : Int → Option Str) : Nat → Str → Str → Outcome (Option Str)
  | 0, acc, _ => .ok (some acc)
  | fuel + 1, acc, s =>
    if s = [] then .ok (some acc)
    else match findChar 'p' s with
      | none => .ok (some (acc ++ s))
      | some q =>
        let position := q + 1
        let acc' := acc ++ s.take q
        let after := positionAfterId s position
        (stoll (substrLen s position after)).bind fun taskId =>
          match expr taskId, after with
          | some e, some a => relationLoop expr fuel (acc' ++ e) (s.drop a)
          | none, some _ => .ok none
          | _, none => .throws

/-! ### Messages -/

/-- mdms/UXTASK.xml 354-371: `TaskOption` (fields used by the service). -/
structure TaskOption where
  taskId : Int
  optionId : Int
  cost : Int
  eligible : List Int
deriving Repr, DecidableEq

/-- mdms/UXTASK.xml 374-384: `TaskPlanOptions`. -/
structure PlanOptions where
  requestId : Int
  taskId : Int
  composition : Str
  options : List TaskOption
deriving Repr, DecidableEq

/-- mdms/UXTASK.xml 312-327: `TaskOptionCost`, an entry of the cost matrix. -/
structure CostEntry where
  vehicle : Int
  fromTask : Int
  fromOption : Int
  toTask : Int
  toOption : Int
  time : Int
deriving Repr, DecidableEq

/-- mdms/UXTASK.xml 295-309: `AssignmentCostMatrix`. -/
structure CostMatrix where
  requestId : Int
  entries : List CostEntry
deriving Repr, DecidableEq

/-- mdms/UXTASK.xml 123-136: `UniqueAutomationRequest` (fields used by the service). -/
structure Request where
  requestId : Int
  tasks : List Int
  relationships : Str
  operatingRegion : Int
deriving Repr, DecidableEq

/-- mdms/UXTASK.xml 330-341: `TaskAssignment`. -/
structure Assignment where
  taskId : Int
  optionId : Int
  vehicle : Int
  timeThreshold : Int
  timeCompleted : Int
deriving Repr, DecidableEq

/-! ### The algebra string -/

/-- Expressions of the tasks, and whether all compositions were well formed.
AssignmentTreeBranchBoundBase.cpp:280-353; `plans` is the map from task id to options, in its
iteration order. -/
def taskExpressions : List (Int × PlanOptions) → List (Int × Str) × Bool
  | [] => ([], true)
  | (k, o) :: rest =>
    let r := taskExpressions rest
    match rewriteComposition k o.composition with
    | .text s => ((k, s) :: r.1, r.2)
    | .nothing => r
    | .error => (r.1, false)

/-- All expressions, each followed by a blank, and whether every task had one.
AssignmentTreeBranchBoundBase.cpp:427-442. -/
def parallelBody (exprs : List (Int × Str)) : List (Int × PlanOptions) → Str × Bool
  | [] => ([], true)
  | (k, _) :: rest =>
    let r := parallelBody exprs rest
    match exprs.lookup k with
    | some e => (e ++ ' ' :: r.1, r.2)
    | none => (r.1, false)

/-- The algebra string of a request; `.ok none` when an error was broadcast.
AssignmentTreeBranchBoundBase.cpp:276-443. -/
def algebraString (relationships : Str) (plans : List (Int × PlanOptions)) : Outcome (Option Str) :=
  let te := taskExpressions plans
  if relationships ≠ [] then
    (relationLoop (fun k => te.1.lookup k) (relationships.length + 1) [] relationships).bind fun r =>
      .ok (if te.2 then r else none)
  else
    let b := parallelBody te.1 plans
    .ok (if te.2 && b.2 then some ('|' :: '(' :: (b.1 ++ [')'])) else none)

/-- For AssignmentTreeBranchBoundBase.cpp 448: insertion into a `std::set<int64_t>`, as a
sorted list. -/
def insertSet (a : Int) : List Int → List Int
  | [] => [a]
  | b :: bs => if a < b then a :: b :: bs else if a = b then b :: bs else b :: insertSet a bs

/-- The task-option ids of all options.  AssignmentTreeBranchBoundBase.cpp:448-462. -/
def objectiveIds (plans : List (Int × PlanOptions)) : List Int :=
  (plans.flatMap fun p => p.2.options.map fun o => taskAndOptionId o.taskId o.optionId).foldl
    (fun s a => insertSet a s) []

/-- `isInitializeAlgebra`: the expression to be searched, `.ok none` when the request is
refused.  `throws` when a relationship string is malformed.  When the algebra string is empty
the algebra stays uninitialised and the later `searchNext` dereferences a null root (`ub`).
AssignmentTreeBranchBoundBase.cpp:276-486. -/
def initializeAlgebra (relationships : Str) (plans : List (Int × PlanOptions)) :
    Outcome (Option Tree) :=
  (algebraString relationships plans).bind fun r =>
    match r with
    | none => .ok none
    | some s =>
      if s = [] then .ub
      else
        let g := Verif.Algebra.initAtomicObjectives (objectiveIds plans)
        if ¬ g.2 then .ok none
        else (Verif.Algebra.initAlgebraString g.1 s).bind fun q =>
          if q.2 then (match q.1.root with | some t => .ok (some t) | none => .ub) else .ok none

/-! ### The search -/

/-- AssignmentTreeBranchBoundBase.h 45-166: what the search looks up
(`c_StaticAssignmentParameters`): travel times (`m_vehicleIdVsInformation`), option
information (`m_taskOptionIdVsInformation`), and the expression. -/
structure Inst where
  tree : Tree
  vehicles : List Int
  /-- `m_FromIdVsToIdVsTravelTime` of a vehicle. -/
  travel : Int → Int → Int → Option Int
  /-- Is there information about the task option? -/
  known : Int → Bool
  /-- `m_VehicleIdVsTaskTravelTime` of a task option. -/
  duration : Int → Int → Option Int

/-- AssignmentTreeBranchBoundBase.cpp 552-556: update of a map with three keys. -/
def setTravel (T : Int → Int → Int → Option Int) (v f t x : Int) : Int → Int → Int → Option Int :=
  fun v' f' t' => if v' = v ∧ f' = f ∧ t' = t then some x else T v' f' t'

/-- The origin of a cost entry: the vehicle's id when there is no initial task.
AssignmentTreeBranchBoundBase.cpp:537-538. -/
def entryFrom (e : CostEntry) : Int :=
  let f := taskAndOptionId e.fromTask e.fromOption
  if f = 0 then e.vehicle else f

/-- Reading the cost matrix.  AssignmentTreeBranchBoundBase.cpp:532-557. -/
def travelTable (es : List CostEntry) : Int → Int → Int → Option Int :=
  es.foldl (fun T e => setTravel T e.vehicle (entryFrom e) (taskAndOptionId e.toTask e.toOption) e.time)
    (fun _ _ _ => none)

/-- The vehicles of the cost matrix.  AssignmentTreeBranchBoundBase.cpp:543-546. -/
def matrixVehicles (es : List CostEntry) : List Int :=
  es.foldl (fun vs e => if e.vehicle ∈ vs then vs else vs ++ [e.vehicle]) []

/-- AssignmentTreeBranchBoundBase.cpp 528: update of a map with two keys. -/
def setDuration (T : Int → Int → Option Int) (o v x : Int) : Int → Int → Option Int :=
  fun o' v' => if o' = o ∧ v' = v then some x else T o' v'

/-- Reading the options: the cost is stored for each eligible entity.
AssignmentTreeBranchBoundBase.cpp:517-530. -/
def durationTable (os : List TaskOption) : Int → Int → Option Int :=
  os.foldl (fun T o => o.eligible.foldl
      (fun T v => setDuration T (taskAndOptionId o.taskId o.optionId) v o.cost) T)
    (fun _ _ => none)

/-- The search problem of a request.  AssignmentTreeBranchBoundBase.cpp:515-557. -/
def mkInst (t : Tree) (os : List TaskOption) (es : List CostEntry) : Inst where
  tree := t
  vehicles := matrixVehicles es
  travel := travelTable es
  known := fun o => os.any fun p => taskAndOptionId p.taskId p.optionId == o
  duration := durationTable os

/-- AssignmentTreeBranchBoundBase.h 86-118: `c_VehicleAssignmentState`
(`m_isAcceptingNewAssignments` is never cleared). -/
structure VState where
  total : Int
  tasks : List Assignment
deriving Repr, DecidableEq

/-- `c_Node_Base`: the vehicle states (a map whose keys never change, as a function), the
executed objectives and the cost.  The per-task completion times are written but only read for
prerequisites, which are never used (AssignmentTreeBranchBoundBase.cpp:779), and the flags for pruning only free memory. -/
structure Node where
  vs : Int → VState
  assigned : List Int
  cost : Int

/-- The mutable part of `c_StaticAssignmentParameters`, AssignmentTreeBranchBoundBase.h:141-160. -/
structure Static where
  min : Int := int64Max
  visited : Nat := 0
  complete : Nat := 0
  stop : Bool := false
  candidate : Option (Int → VState) := none

/-- `c_VehicleInformationStatic::getTravelTime_ms`, AssignmentTreeBranchBoundBase.cpp:638-650: -1 when unknown. -/
def Inst.travelTime (I : Inst) (v f t : Int) : Int := (I.travel v f t).getD (-1)

/-- `c_TaskInformationStatic::getTravelTime_ms`, AssignmentTreeBranchBoundBase.cpp:654-664: -1 when unknown. -/
def Inst.taskTime (I : Inst) (o v : Int) : Int := (I.duration o v).getD (-1)

/-- The location a vehicle starts from, AssignmentTreeBranchBoundBase.cpp:977-983. -/
def startLocation (v : Int) (s : VState) : Int :=
  match s.tasks.getLast? with
  | none => v
  | some a => taskAndOptionId a.taskId a.optionId

/-- `calculateAssignmentCostBase`, AssignmentTreeBranchBoundBase.cpp:1119-1135: the largest total; the configured cost
function is not consulted. -/
def nodeCost (vehicles : List Int) (vs : Int → VState) (v : Int) (toEnd : Int) : Int :=
  vehicles.foldl (fun c w =>
    let loc := if w ≠ v then (vs w).total else c
    if loc > c then loc else c) toEnd

/-- The node obtained by giving objective `o` to vehicle `v`, AssignmentTreeBranchBoundBase.cpp:1001-1036. -/
def childNode (n : Node) (v o toEnd cost : Int) : Node where
  vs := fun w => if w = v then
      { total := toEnd,
        tasks := (n.vs v).tasks ++
          [{ taskId := taskIdOf o, optionId := optionIdOf o, vehicle := v,
             timeThreshold := 0, timeCompleted := toEnd }] }
    else n.vs w
  assigned := n.assigned ++ [o]
  cost := cost

/-- AssignmentTreeBranchBoundBase.h 255: `std::multimap::insert`: after the entries with
equal keys. -/
def insertChild (c : Node) : List Node → List Node
  | [] => [c]
  | d :: ds => if c.cost < d.cost then c :: d :: ds else d :: insertChild c ds

/-- `NodeAssignment`, AssignmentTreeBranchBoundBase.cpp:925-1070 (`prerequisiteTaskOptionId = -1`,
`m_maxVehicleTravelTime_ms = -1` always).  `order` is the iteration order of the node's map of
vehicles. -/
def nodeAssignment (I : Inst) (limit : Int) (order : List Int) (n : Node) (o v : Int)
    (st : Static) (children : List Node) : Static × List Node :=
  let st := if 0 ≤ limit ∧ limit ≤ (st.visited : Int) ∧ 0 < st.complete
    then { st with stop := true } else st
  if I.known o then
    let taskTime := I.taskTime o v
    let travelTime := I.travelTime v (startLocation v (n.vs v)) o
    if 0 ≤ travelTime then
      let toEnd := taskTime + travelTime + (n.vs v).total
      let st := { st with visited := st.visited + 1 }
      let cost := nodeCost order n.vs v toEnd
      if cost < st.min then (st, insertChild (childNode n v o toEnd cost) children)
      else (st, children)
    else (st, children)
  else (st, children)

/-- The loop over the vehicles for one objective, AssignmentTreeBranchBoundBase.cpp:781-788. -/
def assignVehicles (I : Inst) (limit : Int) (order : List Int) (n : Node) (o : Int) :
    List Int → Static × List Node → Static × List Node
  | [], acc => acc
  | v :: vs, acc =>
    assignVehicles I limit order n o vs (nodeAssignment I limit order n o v acc.1 acc.2)

/-- The loop over the offered objectives, AssignmentTreeBranchBoundBase.cpp:773-790. -/
def assignAll (I : Inst) (limit : Int) (order : List Int) (n : Node) :
    List Int → Static × List Node → Static × List Node
  | [], acc => acc
  | o :: os, acc => assignAll I limit order n os (assignVehicles I limit order n o order acc)

/-- Recording a complete assignment, AssignmentTreeBranchBoundBase.cpp:836-850. -/
def newLeaf (n : Node) (st : Static) : Static :=
  if n.cost < st.min then
    { st with min := n.cost, complete := st.complete + 1, candidate := some n.vs }
  else st

/-- Expanding the children in the order of the multimap, AssignmentTreeBranchBoundBase.cpp:812-827. -/
def expandChildren (expand : Node → Static → Static) : List Node → Static → Static
  | [], st => st
  | c :: cs, st =>
    expandChildren expand cs (if c.cost < st.min ∧ st.stop = false then expand c st else st)

/-- `ExpandNode`, AssignmentTreeBranchBoundBase.cpp:761-882.  `order n` is the iteration order of the vehicle map of node `n`.
The recursion is by depth; `Props` shows that the depth never exceeds the number of objectives,
so the bound used by `search` is never reached. -/
def expandNode (I : Inst) (limit : Int) (order : Node → List Int) : Nat → Node → Static → Static
  | 0, _, st => st
  | fuel + 1, n, st =>
    let offers := (nextActions n.assigned I.tree).1
    let r := assignAll I limit (order n) n offers (st, [])
    if r.1.stop then r.1
    else if r.2 ≠ [] then expandChildren (expandNode I limit order fuel) r.2 r.1
    else if offers = [] then newLeaf n r.1
    else r.1

/-- The root node, AssignmentTreeBranchBoundBase.cpp:700-718: nobody has done anything. -/
def rootNode : Node where
  vs := fun _ => { total := 0, tasks := [] }
  assigned := []
  cost := 0

/-- The whole search, AssignmentTreeBranchBoundBase.cpp:569. -/
def search (I : Inst) (limit : Int) (order : Node → List Int) : Static :=
  expandNode I limit order ((Verif.Algebra.actionsOf I.tree).length + 1) rootNode {}

/-- AssignmentTreeBranchBoundBase.cpp 273, 582, 593, 619: what the service broadcasts at
the end of a calculation. -/
inductive Reply where
  /-- `ServiceStatus` with an error. -/
  | error
  /-- `ServiceStatus` "AssignmentComplete". -/
  | complete
  /-- `TaskAssignmentSummary`. -/
  | summary (requestId operatingRegion : Int) (tasks : List Assignment)
deriving Repr, DecidableEq

/-- The results, AssignmentTreeBranchBoundBase.cpp:571-627; `pub` is the iteration order of the candidate map (its keys are
the vehicles of the cost matrix). -/
def replies (req : Request) (pub : List Int) (st : Static) : List Reply :=
  (if st.complete = 0 then .error else .complete) ::
  match st.candidate with
  | some c =>
    if pub ≠ [] then [.summary req.requestId req.operatingRegion (pub.flatMap fun v => (c v).tasks)]
    else [.error]
  | none => [.error]

/-- `CostFunction` option, AssignmentTreeBranchBoundBase.h:127-131. -/
inductive CostFunction where
  | minmax
  | cumulative
deriving Repr, DecidableEq

/-- The configuration of the service, AssignmentTreeBranchBoundBase.cpp:81-125. -/
structure Config where
  numberNodesMaximum : Int := 0
  costFunction : CostFunction := .minmax

/-- `calculateAssignment`, AssignmentTreeBranchBoundBase.cpp:494-631: `.ok []` stands for the error broadcasts of
`isInitializeAlgebra` (a refused request). -/
def calculateAssignment (cfg : Config) (order : Node → List Int) (pub : List Int)
    (req : Request) (plans : List (Int × PlanOptions)) (m : CostMatrix) : Outcome (List Reply) :=
  (initializeAlgebra req.relationships plans).bind fun t =>
    match t with
    | none => .ok [.error]
    | some t =>
      let I := mkInst t (plans.flatMap fun p => p.2.options) m.entries
      .ok (replies req pub (search I cfg.numberNodesMaximum order))

/-! ### Collecting the messages of a request -/

/-- `AssigmentPrerequisites`, AssignmentTreeBranchBoundBase.h:328-345; the options are keyed by
task id. -/
structure Prereq where
  request : Option Request := none
  plans : List (Int × PlanOptions) := []
  matrix : Option CostMatrix := none
deriving Repr, DecidableEq

/-- `isAssignmentReady`, AssignmentTreeBranchBoundBase.cpp:208-263. -/
def Prereq.ready (p : Prereq) : Bool :=
  match p.request, p.matrix with
  | some r, some _ => !r.tasks.isEmpty && r.tasks.all fun k => p.plans.any fun q => q.1 == k
  | _, _ => false

/-- AssignmentTreeBranchBoundBase.cpp 154: `m_taskIdVsTaskPlanOptions[id] = options` (the
position of the entry in the iteration order is unspecified; here it replaces the old one
or goes last). -/
def setPlan (k : Int) (o : PlanOptions) : List (Int × PlanOptions) → List (Int × PlanOptions)
  | [] => [(k, o)]
  | (k', o') :: rest => if k' = k then (k, o) :: rest else (k', o') :: setPlan k o rest

/-- AssignmentTreeBranchBoundBase.cpp 132-190: the messages the service reacts to. -/
inductive Msg where
  | request (r : Request)
  | options (o : PlanOptions)
  | matrix (m : CostMatrix)
deriving Repr, DecidableEq

/-- AssignmentTreeBranchBoundBase.cpp 135, 150, 164: the automation request a message
belongs to. -/
def Msg.requestId : Msg → Int
  | .request r => r.requestId
  | .options o => o.requestId
  | .matrix m => m.requestId

/-- Storing a message, AssignmentTreeBranchBoundBase.cpp:142, 160, 174. -/
def Prereq.store (p : Prereq) : Msg → Prereq
  | .request r => { p with request := some r }
  | .options o => { p with plans := setPlan o.taskId o p.plans }
  | .matrix m => { p with matrix := some m }

/-- AssignmentTreeBranchBoundBase.h 374: `m_idVsAssigmentPrerequisites`. -/
abbrev Pending := Int → Option Prereq

/-- `processReceivedLmcpMessage`, AssignmentTreeBranchBoundBase.cpp:127-206: the new state and the calculation started, if
any. -/
def receive (s : Pending) (m : Msg) : Pending × Option Prereq :=
  let id := m.requestId
  let p := ((s id).getD {}).store m
  if p.ready then (fun k => if k = id then none else s k, some p)
  else (fun k => if k = id then some p else s k, none)

/-- Not in the code: a history of received messages, with the calculations started (newest
last). -/
def receiveAll : Pending → List Msg → Pending × List Prereq
  | s, [] => (s, [])
  | s, m :: ms =>
    let r := receive s m
    let q := receiveAll r.1 ms
    (q.1, r.2.toList ++ q.2)

end Verif.Assign
