import Verif.Assign.Model
import Verif.Algebra.Spec

/-!
Specification of task assignment, independent of the branch and bound search.

A *schedule* is a list of (objective, vehicle) decisions in the order in which the objectives are
executed.  It is allowed when its objectives form a word of the expression; each vehicle's share
has a timeline obtained by adding travel times and task durations.
-/

namespace Verif.Assign

open Verif.Algebra (Tree Word)

/-- A problem: an expression, vehicles, known travel times (`travel v from to`, where a vehicle
that has not done anything yet is at the place named by its own id), and the duration of an
objective for an eligible vehicle. -/
structure Problem where
  tree : Tree
  vehicles : List Int
  travel : Int → Int → Int → Option Int
  duration : Int → Int → Option Int

/-- A schedule: objectives with the vehicles that execute them, in execution order. -/
abbrev Schedule := List (Int × Int)

/-- The objectives a vehicle executes, in order. -/
def share (s : Schedule) (v : Int) : List Int := (s.filter fun p => p.2 == v).map Prod.fst

/-- When vehicle `v`, being at `at_` at time `t`, finishes each of the given objectives; `none`
if one of them cannot be reached or the vehicle is not eligible for it. -/
def timeline (P : Problem) (v : Int) : Int → Int → List Int → Option (List (Int × Int))
  | _, _, [] => some []
  | at_, t, o :: os =>
    match P.travel v at_ o, P.duration o v with
    | some a, some d => (timeline P v o (t + a + d) os).map fun r => (o, t + a + d) :: r
    | _, _ => none

/-- The timeline of a vehicle in a schedule: it starts at its own place at time zero. -/
def vehiclePlan (P : Problem) (s : Schedule) (v : Int) : Option (List (Int × Int)) :=
  timeline P v v 0 (share s v)

/-- The time at which a timeline is over. -/
def finish (l : List (Int × Int)) : Int := ((l.getLast?).map Prod.snd).getD 0

/-- A schedule is feasible: the objectives are a complete allowed order, and every vehicle
used exists, can reach and is eligible for what it is given. -/
def Feasible (P : Problem) (s : Schedule) : Prop :=
  Word P.tree (s.map Prod.fst) ∧ (∀ p ∈ s, p.2 ∈ P.vehicles) ∧
  ∀ v ∈ P.vehicles, ∃ l, vehiclePlan P s v = some l

/-- `c` is the completion time of a schedule: the latest time at which a vehicle finishes. -/
def Makespan (P : Problem) (s : Schedule) (c : Int) : Prop :=
  (∀ v ∈ P.vehicles, ∃ l, vehiclePlan P s v = some l ∧ finish l ≤ c) ∧
  ∃ v ∈ P.vehicles, ∃ l, vehiclePlan P s v = some l ∧ finish l = c

/-- The sum of the completion times of the vehicles (cumulative cost). -/
def totalTime (P : Problem) (s : Schedule) : List Int → Option Int
  | [] => some 0
  | v :: vs =>
    match vehiclePlan P s v, totalTime P s vs with
    | some l, some c => some (finish l + c)
    | _, _ => none

/-- The assignment that a timeline entry of a vehicle is published as. -/
def published (v : Int) (e : Int × Int) : Assignment where
  taskId := taskIdOf e.1
  optionId := optionIdOf e.1
  vehicle := v
  timeThreshold := 0
  timeCompleted := e.2

/-- The problem stated by the messages: the last entry of the matrix for a leg counts, negative
times mean unreachable, and a vehicle is eligible for an option when the option lists it. -/
def problemOf (t : Tree) (os : List TaskOption) (es : List CostEntry) : Problem where
  tree := t
  vehicles := es.map CostEntry.vehicle
  travel := fun v f o =>
    match es.reverse.find? fun e => e.vehicle == v && entryFrom e == f &&
        taskAndOptionId e.toTask e.toOption == o with
    | some e => if 0 ≤ e.time then some e.time else none
    | none => none
  duration := fun o v =>
    ((os.reverse.find? fun p => taskAndOptionId p.taskId p.optionId == o && p.eligible.contains v)).map
      TaskOption.cost

/-- The matrix has legs only to options the vehicle is eligible for. -/
def MatrixEligible (os : List TaskOption) (es : List CostEntry) : Prop :=
  ∀ e ∈ es, ∃ p ∈ os, taskAndOptionId p.taskId p.optionId = taskAndOptionId e.toTask e.toOption ∧
    e.vehicle ∈ p.eligible

/-! ### Texts with references -/

/-- A piece of a composition or relationship text: an ordinary character or a reference. -/
inductive Tok where
  | ch (c : Char)
  | ref (n : Int)
deriving Repr, DecidableEq

/-- The text, with the references written in a given way. -/
def render (f : Int → Str) : List Tok → Str
  | [] => []
  | .ch c :: r => c :: render f r
  | .ref n :: r => f n ++ render f r

/-- A number that fits `int64_t`. -/
def Fits (n : Int) : Prop := -int64Max - 1 ≤ n ∧ n ≤ int64Max

/-- Well formed: the ordinary characters are not `p`, numbers fit, and after each reference comes
a blank or a closing parenthesis. -/
def WellFormed : List Tok → Prop
  | [] => True
  | .ch c :: r => c ≠ 'p' ∧ WellFormed r
  | .ref n :: r => Fits n ∧ (∃ r', r = .ch ' ' :: r' ∨ r = .ch ')' :: r') ∧ WellFormed r

/-- The usual way of writing a reference: `p<n>`. -/
def pRef (n : Int) : Str := 'p' :: Verif.Algebra.idText n

/-- The tasks or options a text refers to. -/
def refs : List Tok → List Int
  | [] => []
  | .ch _ :: r => refs r
  | .ref n :: r => n :: refs r

mutual
/-- Replacing the objectives of an expression by expressions. -/
def substTree (f : Int → Tree) : Tree → Tree
  | .action a => f a
  | .op o cs => .op o (substTrees f cs)
/-- Replacing the objectives of a list of expressions. -/
def substTrees (f : Int → Tree) : List Tree → List Tree
  | [] => []
  | c :: cs => substTree f c :: substTrees f cs
end

end Verif.Assign
