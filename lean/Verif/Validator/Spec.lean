import Verif.Validator.Model

/-!
Specification of the validator in terms of the messages it receives and sends.
-/

namespace Verif.Validator

/-- The requests published by one step. -/
def published (os : List Out) : List Req :=
  os.filterMap fun o => match o with
    | .publish r => some r
    | _ => none

/-- The answers sent by one step. -/
def answered (os : List Out) : List (Kind × Plan) :=
  os.filterMap fun o => match o with
    | .answer k p => some (k, p)
    | _ => none

/-- All requests of a history, in the order of their arrival. -/
def arrivals (h : List In) : List (Kind × Req) :=
  h.filterMap fun i => match i with
    | .request k r => some (k, r)
    | _ => none

/-! ### One request in flight -/

/-- The request in flight is no longer so when a response for it arrives, and when it has timed
out (which is reported by an answer). -/
def landed (f : Option Int) (i : In) (os : List Out) : Option Int :=
  match i with
  | .response id _ => if f = some id then none else f
  | .responseTimeout => if (answered os).isEmpty then f else none
  | _ => f

/-- The request in flight after a step. -/
def flight (f : Option Int) (i : In) (os : List Out) : Option Int :=
  match published os with
  | [] => landed f i os
  | r :: _ => some r.id

/-- The request in flight after a history. -/
def inFlight : Option Int → List In → List (List Out) → Option Int
  | f, i :: is, os :: oss => inFlight (flight f i os) is oss
  | f, _, _ => f

/-- Along the history requests are published one at a time, each when no other is in flight. -/
def OneInFlight : Option Int → List In → List (List Out) → Prop
  | f, i :: is, os :: oss =>
    ((published os).length ≤ 1 ∧ (published os ≠ [] → landed f i os = none)) ∧
      OneInFlight (flight f i os) is oss
  | _, _, _ => True

/-- The same, but the request in flight may be published again. -/
def OneDistinctInFlight : Option Int → List In → List (List Out) → Prop
  | f, i :: is, os :: oss =>
    ((published os).length ≤ 1 ∧
      ∀ r ∈ published os, landed f i os = none ∨ landed f i os = some r.id) ∧
      OneDistinctInFlight (flight f i os) is oss
  | _, _, _ => True

/-- Drop repetitions of adjacent elements. -/
def collapse : List Req → List Req
  | [] => []
  | a :: l =>
    match l with
    | [] => [a]
    | b :: _ => if a = b then collapse l else a :: collapse l

/-! ### Counting -/

/-- Number of requests of a kind in a history. -/
def requestCount (k : Kind) (h : List In) : Nat := (arrivals h).countP fun p => p.1 == k

/-- Number of answers of a kind. -/
def answerCount (k : Kind) (oss : List (List Out)) : Nat :=
  (oss.flatMap answered).countP fun p => p.1 == k

/-- No answer is sent by the expiration of the task timer. -/
def NoTaskTimeoutAnswer : List In → List (List Out) → Prop
  | i :: is, os :: oss => (i = .taskTimeout → answered os = []) ∧ NoTaskTimeoutAnswer is oss
  | _, _ => True

/-- No request is published by the expiration of a timer. -/
def NoTimeoutPublication : List In → List (List Out) → Prop
  | i :: is, os :: oss =>
    (i = .taskTimeout ∨ i = .responseTimeout → published os = []) ∧ NoTimeoutPublication is oss
  | _, _ => True

instance decOneInFlight : ∀ f is oss, Decidable (OneInFlight f is oss)
  | f, i :: is, os :: oss =>
    have := decOneInFlight (flight f i os) is oss
    inferInstanceAs (Decidable (((published os).length ≤ 1 ∧
      (published os ≠ [] → landed f i os = none)) ∧ OneInFlight (flight f i os) is oss))
  | _, [], _ => .isTrue (by simp [OneInFlight])
  | _, _ :: _, [] => .isTrue (by simp [OneInFlight])

instance decNoTaskTimeoutAnswer : ∀ is oss, Decidable (NoTaskTimeoutAnswer is oss)
  | i :: is, os :: oss =>
    have := decNoTaskTimeoutAnswer is oss
    inferInstanceAs (Decidable ((i = .taskTimeout → answered os = []) ∧ NoTaskTimeoutAnswer is oss))
  | [], _ => .isTrue (by simp [NoTaskTimeoutAnswer])
  | _ :: _, [] => .isTrue (by simp [NoTaskTimeoutAnswer])

instance decNoTimeoutPublication : ∀ is oss, Decidable (NoTimeoutPublication is oss)
  | i :: is, os :: oss =>
    have := decNoTimeoutPublication is oss
    inferInstanceAs (Decidable ((i = .taskTimeout ∨ i = .responseTimeout → published os = []) ∧
      NoTimeoutPublication is oss))
  | [], _ => .isTrue (by simp [NoTimeoutPublication])
  | _ :: _, [] => .isTrue (by simp [NoTimeoutPublication])

/-! ### What is known after a history -/

/-- The task is known: it was announced and not removed since. -/
def TaskKnown (h : List In) (id : Int) (n : Needs) : Prop :=
  ∃ h1 h2, h = h1 ++ .task id n :: h2 ∧ (∀ n', .task id n' ∉ h2) ∧
    ∀ ids, .removeTasks ids ∈ h2 → id ∉ ids

/-- The task is initialised: reported so, and neither announced again nor removed since. -/
def TaskInitialised (h : List In) (id : Int) : Prop :=
  ∃ h1 h2, h = h1 ++ .taskInitialized id :: h2 ∧ (∀ n', .task id n' ∉ h2) ∧
    ∀ ids, .removeTasks ids ∈ h2 → id ∉ ids

/-- The last announcement of an operating region. -/
def RegionKnown (h : List In) (id : Int) (ins outs : List Int) : Prop :=
  ∃ h1 h2, h = h1 ++ .region id ins outs :: h2 ∧ ∀ a b, .region id a b ∉ h2

/-- The things that a task refers to are known. -/
def NeedsKnown (h : List In) : Needs → Prop
  | .nothing => True
  | .area id => id = 0 ∨ .area id ∈ h
  | .line id => id = 0 ∨ .line id ∈ h
  | .point id => id = 0 ∨ .point id ∈ h

/-- After the history everything that a request refers to is known. -/
structure Admissible (h : List In) (r : Req) : Prop where
  configs : ∀ id ∈ r.entities, .config id ∈ h
  states : ∀ id ∈ r.entities, .state id ∈ h ∨ id ∈ r.planning
  region : r.region ≠ 0 → ∃ ins outs, RegionKnown h r.region ins outs ∧
    (∀ z ∈ ins, .keepIn z ∈ h) ∧ ∀ z ∈ outs, .keepOut z ∈ h
  tasks : ∀ id ∈ r.tasks, ∃ n, TaskKnown h id n ∧ NeedsKnown h n

end Verif.Validator
