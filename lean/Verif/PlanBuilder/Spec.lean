import Verif.PlanBuilder.Model

/-!
Vocabulary for the claims about the plan builder: what was received and sent, and what a plan should be, without
reference to the state of the service.
-/

namespace Verif.PlanBuilder

open Verif

/-- A message received, with the messages sent in answer. -/
abbrev Ev := In × List Out

/-- What happens from a state on. -/
def events (s : St) (h : List In) : List Ev := h.zip (runM step s h).2

/-- All messages sent. -/
def sent (es : List Ev) : List Out := es.flatMap (·.2)

/-- The service after a history. -/
def after (c : Config) (h : List In) : St := (runM step (start c) h).1

/-- Everything sent in a history. -/
def sentIn (c : Config) (h : List In) : List Out := sent (events (start c) h)

/-- The implementation requests for the automation request `q`. -/
def asksOf (q : Int) (os : List Out) : List Ask :=
  os.filterMap fun | .ask a => if a.req = q then some a else none | _ => none

/-- The plans for the automation request `q`. -/
def plansOf (q : Int) (os : List Out) : List Plan :=
  os.filterMap fun | .plan p => if p.req = q then some p else none | _ => none

/-- The message, if it is a response with one of the ids. -/
def responseTo (ids : List Int) : In → List Response
  | .response r => if r.id ∈ ids then [r] else []
  | _ => []

/-- The responses that answer an implementation request for `q` that had been sent when they came; `b` is what was sent
before. -/
def heard (q : Int) : List Out → List Ev → List Response
  | _, [] => []
  | b, (i, o) :: es =>
    responseTo ((asksOf q b).map (·.id)) i ++ heard q (b ++ o) es

/-- The tasks answer in turn: each response for `q` answers the implementation request for `q` sent last, and that was not
answered before. -/
def Prompt (q : Int) (b : List Out) (es : List Ev) : Prop :=
  ∀ P r o S, es = P ++ (.response r, o) :: S → r.id ∈ (asksOf q (b ++ sent P)).map (·.id) →
    ((asksOf q (b ++ sent P)).map (·.id)).getLast? = some r.id ∧ r.id ∉ (heard q b P).map (·.id)

/-- The message starts the work on the automation request `q` afresh. -/
def restarts (q : Int) : In → Bool
  | .request r => r.id == q
  | .summary m => m.req == q
  | _ => false

/-- Work on an assignment: after the history `A` the assignment `m` comes and a task is asked for its implementation;
then come the messages `B`, none of which starts the work on this automation request afresh. -/
structure Session (c : Config) (A : List In) (m : Summary) (B : List In) : Prop where
  begun : asksOf m.req (step (after c A) (.summary m)).2 ≠ []
  on : ∀ i ∈ B, restarts m.req i = false

/-- What happens from the assignment on. -/
def during (c : Config) (A : List In) (m : Summary) (B : List In) : List Ev :=
  events (after c A) (.summary m :: B)

/-- The implementation requests sent from the assignment on. -/
def asked (c : Config) (A : List In) (m : Summary) (B : List In) : List Ask :=
  asksOf m.req (sent (during c A m B))

/-- The plans sent from the assignment on. -/
def published (c : Config) (A : List In) (m : Summary) (B : List In) : List Plan :=
  plansOf m.req (sent (during c A m B))

/-- The answers to implementation requests. -/
def answers (c : Config) (A : List In) (m : Summary) (B : List In) : List Response :=
  heard m.req (sentIn c A) (during c A m B)

/-- The tasks answer in turn, from the assignment on. -/
def InTurn (c : Config) (A : List In) (m : Summary) (B : List In) : Prop :=
  Prompt m.req (sentIn c A) (during c A m B)

/-- The assignment that an implementation request is for. -/
def Ask.key (a : Ask) : Assign := { vehicle := a.vehicle, task := a.task, option := a.option, threshold := a.threshold }

/-- The answers that give waypoints for a vehicle. -/
def givenFor (v : Int) (rs : List Response) : List Response := rs.filter fun r => r.vehicle == v && r.wps != []

/-- Waypoint lists one after the other, the last waypoint of each leading to the first of the next. -/
def joined : List (List Wp) → List Wp
  | [] => []
  | [ws] => ws
  | ws :: ws' :: rest =>
    ws.dropLast ++ (ws.getLast?.map fun w => { w with next := ((ws'.head?).map (·.number)).getD 0 }).toList ++
      joined (ws' :: rest)

/-- The overrides received. -/
def overridesIn (h : List In) : List Override :=
  h.flatMap fun | .overrides _ os => os | _ => []

/-- The plan made of the answers `rs`: one mission for each vehicle for which there are waypoints, made of its waypoint
lists; `opens r m` says what the mission is made after the first answer `r` for the vehicle. -/
structure IsPlan (opens : Response → Mission → Prop) (rs : List Response) (ms : List Mission) : Prop where
  one : (ms.map (·.vehicle)).Nodup
  vehicles : ∀ v, v ∈ ms.map (·.vehicle) ↔ ∃ r ∈ rs, r.vehicle = v ∧ r.wps ≠ []
  content : ∀ m ∈ ms, ∃ (r : Response) (rest : List Response) (m0 : Mission),
    givenFor m.vehicle rs = r :: rest ∧ opens r m0 ∧
    m = { m0 with wps := joined (m0.wps :: rest.map (·.wps)) }

/-- The mission made of the first answer for a vehicle: its waypoints as given, but for overrides, which are of those in
`os` for the vehicle and the task. -/
structure Opening (os : List Override) (r : Response) (m : Mission) : Prop where
  vehicle : m.vehicle = r.vehicle
  first : m.first = ((r.wps.head?).map (·.number)).getD 0
  wps : ∃ os' : List Override, (∀ o ∈ os', o ∈ os ∧ o.vehicle = r.vehicle ∧ (o.task = r.task ∨ o.task = 0)) ∧
    m.wps = r.wps.map fun w => os'.foldl (fun w o => o.apply w) w

/-- What of a waypoint makes the route: its number, the next and its place. -/
structure Leg where
  number : Int
  next : Int
  place : Place
deriving DecidableEq, Repr

/-- Not in the code: what of a waypoint makes the route. -/
def Wp.leg (w : Wp) : Leg := ⟨w.number, w.next, w.place⟩

/-- What of a mission makes the route. -/
structure Course where
  command : Int
  vehicle : Int
  first : Int
  legs : List Leg
deriving DecidableEq, Repr

/-- Not in the code: what of a mission makes the route. -/
def Mission.course (m : Mission) : Course := ⟨m.command, m.vehicle, m.first, m.wps.map Wp.leg⟩

/-- The last request received with an id. -/
def lastRequest (q : Int) (h : List In) : Option Request :=
  (h.filterMap fun | .request r => if r.id = q then some r else none | _ => none).getLast?

/-- The last state received of a vehicle. -/
def lastState (v : Int) (h : List In) : Option VState :=
  (h.filterMap fun | .state x => if x.id = v then some x else none | _ => none).getLast?

/-- The last answer with waypoints for a vehicle. -/
def lastFor (v : Int) (rs : List Response) : Option Response :=
  (givenFor v rs).getLast?

/-- Where a vehicle is planned to start: as the request says, or ahead of where it was last. -/
def startOf (c : Config) (r : Request) (x : VState) : Planning :=
  ((r.planning.filter (·.vehicle = x.id)).head?).getD ⟨x.id, c.lead x.place x.heading, x.heading⟩

/-- Where a vehicle is planned to be after the answers `rs`. -/
def placeAfter (c : Config) (A : List In) (r : Request) (rs : List Response) (v : Int) : Option Planning :=
  match lastFor v rs with
  | some a => some ⟨v, a.place, a.heading⟩
  | none => (lastState v A).map (startOf c r)

end Verif.PlanBuilder
