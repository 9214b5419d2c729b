import Verif.Routes.Model

/-! Vocabulary of the claims about the route aggregator. -/

namespace Verif.Routes

open Verif

/-- All messages sent in a history, in order. -/
def sent (s : St) (h : List In) : List Out := (runM step s h).2.flatten

/-- The messages sent on one more input. -/
def reply (s : St) (h : List In) (i : In) : List Out := (step (runM step s h).1 i).2

/-- The automation requests, route plan responses and route request ids of a history. -/
def requestsOf (h : List In) : List AutoReq := h.filterMap fun | .request r => some r | _ => none
/-- Not in the code: the route responses of a history. -/
def responsesOf (h : List In) : List Resp := h.filterMap fun | .response r => some r | _ => none
/-- Not in the code: the route requests of a history. -/
def routeRequestsOf (h : List In) : List RouteReq := h.filterMap fun | .routeRequest r => some r | _ => none

/-- The reports on routes: route id, response id and cost. -/
def reports (rs : List Resp) : List (Int × Int × Int) := rs.flatMap fun r => r.routes.map fun p => (p.1, r.id, p.2)

/-- The response id and cost reported last for a route. -/
def lastReport (rs : List Resp) (id : Int) : Option (Int × Int) :=
  (((reports rs).filter fun p => p.1 = id).map (·.2)).getLast?

/-- The response received last with an id. -/
def lastResp (rs : List Resp) (id : Int) : Option Resp := (rs.filter fun r => r.id = id).getLast?

/-- The plan requests of a message, if they are for the matrix of the request numbered `k`. -/
def askOf (k : Int) : Out → Option (List VReq)
  | .ask k' reqs => if k' = k then some reqs else none
  | _ => none

/-- The last plan requests sent for the matrix of a request. -/
def lastAsk (outs : List Out) (k : Int) : Option (List VReq) := (outs.filterMap (askOf k)).getLast?

/-- Request ids of the matrices sent. -/
def matrixIds (outs : List Out) : List Int := outs.filterMap fun | .matrix _ r _ _ _ => some r | _ => none

/-- The numbers of the requests for which matrices were sent. -/
def matrixKeys (outs : List Out) : List Int := outs.filterMap fun | .matrix k _ _ _ _ => some k | _ => none

/-- Ids of all routes asked for. -/
def askedIds (outs : List Out) : List Int :=
  outs.flatMap fun | .ask _ reqs => (routesOf reqs).map (·.route.id) | _ => []

/-- The plan requests sent for a route request since it was answered last. -/
def since (outs : List Out) (q : Int) : List Int :=
  outs.foldl (fun l o =>
    match o with
    | .askRoute q' j _ _ _ => if q' = q then l ++ [j] else l
    | .answer q' _ => if q' = q then [] else l
    | _ => l) []

/-- Answers sent to a route request. -/
def answers (outs : List Out) : List Int := outs.filterMap fun | .answer q _ => some q | _ => none

/-- Responses to plan requests for route requests only contain routes with ids below those of the aggregator. -/
def NoClash (rs : List Resp) : Prop := ∀ r ∈ rs, r.id ≠ 0 → ∀ p ∈ r.routes, p.1 < 1000000

/-- A vehicle may use an option of a task of the request, `known` being the options of tasks. -/
def Usable (known : Int → List Opt → Prop) (r : AutoReq) (v : Int) (o : Opt) : Prop :=
  ∃ t ∈ r.tasks, ∃ os, known t os ∧ o ∈ os ∧ (o.eligible = [] ∨ v ∈ o.eligible)

/-- Options name their task, have different option ids, and no task has the id 0; no task is listed twice. -/
structure WellNamed (known : Int → List Opt → Prop) (r : AutoReq) : Prop where
  tasks : r.tasks.Nodup
  zero : 0 ∉ r.tasks
  task : ∀ t ∈ r.tasks, ∀ os, known t os → ∀ o ∈ os, o.task = t
  option : ∀ t ∈ r.tasks, ∀ os, known t os → (os.map (·.option)).Nodup

/-- The options last received for a task, provided no matrix was sent since. -/
def Known (s : St) (h : List In) (t : Int) (os : List Opt) : Prop :=
  ∃ A B, h = A ++ .options t os :: B ∧ (∀ os', .options t os' ∉ B) ∧ matrixKeys (sent s h) = matrixKeys (sent s A)

/-- The position last reported for a vehicle. -/
def lastState (h : List In) (v : Int) : Option Point :=
  (h.filterMap fun | .state id p _ => if id = v then some p else none | _ => none).getLast?

/-- Where a vehicle starts: its planning state in the request or its last known position. -/
def StartsAt (h : List In) (r : AutoReq) (v : Int) (p : Point) : Prop :=
  (∃ A B, r.planning = A ++ (v, p) :: B ∧ ∀ x ∈ A, x.1 ≠ v) ∨ (∀ x ∈ r.planning, x.1 ≠ v) ∧ lastState h v = some p

/-- How many routes of a list have given ends and meaning. -/
def timesAsked (rs : List MRoute) (start stop : Point) (pair : Pair) : Nat :=
  (rs.filter fun m => m.route.start = start ∧ m.route.stop = stop ∧ m.pair = pair).length

/-- The routes of a plan request for a vehicle are what the request needs: one from the start to each option the vehicle can
use, one from each of these to each other one, nothing else. -/
structure Complete (known : Int → List Opt → Prop) (r : AutoReq) (v : Int) (p : Point) (routes : List MRoute) : Prop where
  toOption : ∀ o, Usable known r v o → timesAsked routes p o.start ⟨v, 0, 0, o.task, o.option⟩ = 1
  between : ∀ a b, Usable known r v a → Usable known r v b → a ≠ b →
    timesAsked routes a.stop b.start ⟨v, a.task, a.option, b.task, b.option⟩ = 1
  only : ∀ m ∈ routes,
    (∃ o, Usable known r v o ∧ m.route.start = p ∧ m.route.stop = o.start ∧ m.pair = ⟨v, 0, 0, o.task, o.option⟩) ∨
    ∃ a b, Usable known r v a ∧ Usable known r v b ∧ a ≠ b ∧ m.route.start = a.stop ∧
      m.route.stop = b.start ∧ m.pair = ⟨v, a.task, a.option, b.task, b.option⟩

end Verif.Routes
