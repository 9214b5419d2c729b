import Verif.Validator.AdmitProps
import Verif.Validator.AnswerProps
import Verif.Assign.SearchProps
import Verif.System.Builder
import Verif.System.Costs

/-!
Four services on one bus: `AutomationRequestValidatorService`, `RouteAggregatorService`, `AssignmentTreeBranchBoundService` and
`PlanBuilderService`, each as modelled in its own part (`Verif.Validator`, `Verif.Routes`, `Verif.Assign`, `Verif.PlanBuilder`), connected by the messages that one sends and another receives:

* `UniqueAutomationRequest`, sent by the validator only (AutomationRequestValidatorService.cpp:389; TaskManagerService.cpp:394-403
  would also send one, but that service does not subscribe to `AutomationRequest`, 131-161), received by the other three
  (RouteAggregatorService.cpp:160-165, AssignmentTreeBranchBoundBase.cpp:132-146, PlanBuilderService.cpp:124-134);
* `AssignmentCostMatrix`, sent by the route aggregator (RouteAggregatorService.cpp:574), received by the assignment
  (AssignmentTreeBranchBoundBase.cpp:162-175);
* `TaskAssignmentSummary`, sent by the assignment (AssignmentTreeBranchBoundBase.cpp:602-619), received by the plan builder
  (PlanBuilderService.cpp:116-119);
* `UniqueAutomationResponse`, sent by the plan builder (PlanBuilderService.cpp:451), received by the validator
  (AutomationRequestValidatorService.cpp:226-229).

Nothing is assumed about the bus except that such a message was sent before it is received: messages may be late, lost, repeated and
overtake each other.  The aggregator is the one without fast planning.  All other messages, of tasks, vehicles, route planners and operators, come at any time and with any contents.
-/

namespace Verif.System

/-- What the four services have received so far, oldest first: `processReceivedLmcpMessage` in AutomationRequestValidatorService.cpp
147-232, RouteAggregatorService.cpp 102-184, AssignmentTreeBranchBoundBase.cpp 128-190 and PlanBuilderService.cpp 94-137. -/
structure Net where
  v : List Validator.In := []
  r : List Routes.In := []
  a : List Assign.Msg := []
  p : List PlanBuilder.In := []

/-- AssignmentTreeBranchBoundBase.cpp 93-110, PlanBuilderService.cpp 52-80: how the services are configured; `code` gives the number by which the model of the validator names a plan. -/
structure Setup where
  dist : Routes.Point → Routes.Point → Int := fun _ _ => 0
  a : Assign.Config := {}
  p : PlanBuilder.Config := {}
  code : PlanBuilder.Plan → Nat

/-- AutomationRequestValidatorService.cpp 389: the requests that the validator has published. -/
def Net.requested (n : Net) : List Validator.Req := (Validator.run n.v).2.flatMap Validator.published

/-- RouteAggregatorService.cpp 368, 383, 435, 441, 530, 574: what the route aggregator has sent. -/
def Net.costed (S : Setup) (n : Net) : List Routes.Out := Routes.sent (Routes.start S.dist) n.r

/-- AssignmentTreeBranchBoundBase.cpp 197-201: the calculations that the assignment has started. -/
def Net.started (n : Net) : List Assign.Prereq := (Assign.receiveAll (fun _ => none) n.a).2

/-- PlanBuilderService.cpp 302, 451: what the plan builder has sent. -/
def Net.sent (S : Setup) (n : Net) : List PlanBuilder.Out := PlanBuilder.sentIn S.p n.p

/-- mdms/UXTASK.xml 123-136: the same message as seen by the validator and by the assignment (the validator's model has no task
relationships, so that any are possible here). -/
def sameA (r : Validator.Req) (q : Assign.Request) : Prop :=
  q.requestId = r.id ∧ q.tasks = r.tasks ∧ q.operatingRegion = r.region

/-- mdms/UXTASK.xml 123-136: the same message as seen by the validator and by the route aggregator. -/
def sameR (r : Validator.Req) (q : Routes.AutoReq) : Prop :=
  q.id = r.id ∧ q.tasks = r.tasks ∧ q.vehicles = r.entities ∧ q.region = r.region ∧ q.planning.map (·.1) = r.planning

/-- mdms/UXTASK.xml 312-327 (`TaskOptionCost`): the same entry as seen by the route aggregator and by the assignment. -/
def costOf (e : Routes.Entry) : Assign.CostEntry :=
  { vehicle := e.pair.vehicle, fromTask := e.pair.prevTask, fromOption := e.pair.prevOption, toTask := e.pair.task,
    toOption := e.pair.option, time := e.cost }

/-- mdms/UXTASK.xml 123-136: the same message as seen by the validator and by the plan builder. -/
def sameP (r : Validator.Req) (q : PlanBuilder.Request) : Prop :=
  q.id = r.id ∧ q.vehicles = r.entities ∧ q.region = r.region ∧ q.planning.map (·.vehicle) = r.planning

/-- mdms/UXTASK.xml 330-341 (`TaskAssignment`): the same part of a summary as seen by the assignment and by the plan builder. -/
def handed (x : Assign.Assignment) : PlanBuilder.Assign :=
  { vehicle := x.vehicle, task := x.taskId, option := x.optionId, threshold := x.timeThreshold }

/-- A summary with this id and list is a result of the calculation, for some order of its hash tables
(AssignmentTreeBranchBoundBase.cpp:494-631). -/
def Result (S : Setup) (x : Assign.Prereq) (q : Assign.Request) (mx : Assign.CostMatrix) (id : Int) (tasks : List Assign.Assignment) : Prop :=
  x.request = some q ∧ x.matrix = some mx ∧ ∃ order pub rs region, Assign.Orders mx order pub ∧
    Assign.calculateAssignment S.a order pub q x.plans mx = .ok rs ∧ .summary id region tasks ∈ rs

/-- AssignmentTreeBranchBoundBase.cpp 602-619: the summary was sent: it is the result of a calculation. -/
def Calculated (S : Setup) (n : Net) (m : PlanBuilder.Summary) : Prop :=
  ∃ x ∈ n.started, ∃ q mx tasks, Result S x q mx m.req tasks ∧ m.tasks = tasks.map handed

/-- AutomationRequestValidatorService.cpp 108, 226: the validator may receive the message: a response was sent before. -/
def Net.mayV (S : Setup) (n : Net) : Validator.In → Prop
  | .response id c => ∃ p, .plan p ∈ n.sent S ∧ p.req = id ∧ S.code p = c
  | _ => True

/-- RouteAggregatorService.cpp 160: the route aggregator may receive the message: a request was published before. -/
def Net.mayR (n : Net) : Routes.In → Prop
  | .request q => ∃ r ∈ n.requested, sameR r q
  | _ => True

/-- AssignmentTreeBranchBoundBase.cpp 132, 162: the assignment may receive the message: requests and matrices were sent before. -/
def Net.mayA (S : Setup) (n : Net) : Assign.Msg → Prop
  | .request q => ∃ r ∈ n.requested, sameA r q
  | .matrix mx => ∃ k g ts es, .matrix k mx.requestId g ts es ∈ n.costed S ∧ mx.entries = es.map costOf
  | _ => True

/-- PlanBuilderService.cpp 116, 124: the plan builder may receive the message: requests and summaries were sent before. -/
def Net.mayP (S : Setup) (n : Net) : PlanBuilder.In → Prop
  | .request q => ∃ r ∈ n.requested, sameP r q
  | .summary m => Calculated S n m
  | _ => True

/-- What can happen: the services receive messages one at a time, in any order (src/cpp/Communications, not modelled further here). -/
inductive Reach (S : Setup) : Net → Prop
  | start : Reach S {}
  | v {n i} : Reach S n → n.mayV S i → Reach S { n with v := n.v ++ [i] }
  | r {n i} : Reach S n → n.mayR i → Reach S { n with r := n.r ++ [i] }
  | a {n i} : Reach S n → n.mayA S i → Reach S { n with a := n.a ++ [i] }
  | p {n i} : Reach S n → n.mayP S i → Reach S { n with p := n.p ++ [i] }

end Verif.System
