import Verif.Task.Model

/-!
What is said about the task services, in terms of the messages that are received and sent.
-/

namespace Verif.Task

open Verif

/-- The state and the messages sent after a history. -/
abbrev after (c : Config) (h : List In) : St := (runM step (start c) h).1

/-- Not in the code: what is sent after each message. -/
abbrev sent (c : Config) (h : List In) : List (List Out) := (runM step (start c) h).2

/-- The messages sent for an input after a history. -/
abbrev sends (c : Config) (h : List In) (i : In) : List Out := (step (after c h) i).2

/-- The history runs without undefined behaviour. -/
def Fine (c : Config) (h : List In) : Prop := (after c h).ub = false

/-- The input opens or closes the request with the id. -/
def In.concerns (id : Int) : In → Bool
  | .request r _ => r.id == id
  | .response k _ => k == id
  | _ => false

/-- The request with the id that has not been answered, if there is one. -/
def openRequest (h : List In) (id : Int) : Option Request :=
  match h.reverse.find? (In.concerns id) with
  | some (.request r _) => some r
  | _ => none

/-- A mission of vehicle `w` among the missions of an answer has a waypoint for the task. -/
def HasTask (t w : Int) (ms : List (Int × List (List Int))) : Prop := ∃ m ∈ ms, m.1 = w ∧ ∃ ts ∈ m.2, t ∈ ts

/-- The input, after the history, gives vehicle `w` a new mission: it is the answer to an open request that was not in a
sandbox, with a mission for `w`. -/
def Commands (h : List In) (i : In) (w : Int) : Prop :=
  ∃ id ms r, i = .response id ms ∧ openRequest h id = some r ∧ r.sandbox = false ∧ w ∈ ms.map Prod.fst

/-- The latest mission of the vehicle has a waypoint of the task. -/
def Assigned (t : Int) (h : List In) (w : Int) : Prop :=
  ∃ h₁ id ms h₂, h = h₁ ++ .response id ms :: h₂ ∧ Commands h₁ (.response id ms) w ∧ HasTask t w ms ∧
    ∀ g j k, h₂ = g ++ j :: k → ¬ Commands (h₁ ++ .response id ms :: g) j w

/-- The latest report of the vehicle, since its latest mission, is that it is on the task. -/
def OnTask (t : Int) (h : List In) (w : Int) : Prop :=
  ∃ h₁ v h₂, h = h₁ ++ .state v :: h₂ ∧ v.id = w ∧ t ∈ v.tasks ∧ (∀ u, .state u ∈ h₂ → u.id ≠ w) ∧
    ∀ g j k, h₂ = g ++ j :: k → ¬ Commands (h₁ ++ .state v :: g) j w

/-- The waypoints are numbered from `n` on, and each leads to the next one. -/
def Chain : Int → List Wp → Prop
  | _, [] => True
  | n, [w] => w.number = n
  | n, w :: w' :: ws => w.number = n ∧ w.next = w'.number ∧ Chain (n + 1) (w' :: ws)

/-- The input is the answer of the route planner. -/
def In.plans : In → List RoutePlan
  | .route r => r.plans
  | _ => []

/-- The `TaskPlanOptions` among the messages. -/
def optionsOf : List Out → List Options
  | [] => []
  | .options o :: l => o :: optionsOf l
  | _ :: l => optionsOf l

/-- The `TaskImplementationResponse`s among the messages. -/
def implsOf : List Out → List ImplResp
  | [] => []
  | .implemented r :: l => r :: implsOf l
  | _ :: l => implsOf l

/-- The `RoutePlanRequest`s among the messages. -/
def asksOf : List Out → List RouteReq
  | [] => []
  | .ask r :: l => r :: asksOf l
  | _ :: l => asksOf l

end Verif.Task
