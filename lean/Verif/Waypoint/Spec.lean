import Verif.Waypoint.Model

/-!
What a segmentation of a mission should be, and what the vehicle should be sent.
-/

namespace Verif.Waypoint

variable {α : Type}

/-- The segments `segs` cover the list `ws` in order: every segment but the last has `n` elements and
the next one starts within it, with at least `m` common elements; the last one reaches the end. -/
inductive Covers (n m : Nat) : List α → List (List α) → Prop
  | last {ws} : ws.length ≤ n → Covers n m ws [ws]
  | more {ws segs} (d : Nat) : 0 < d → d + m ≤ n → n < ws.length → Covers n m (ws.drop d) segs →
      Covers n m ws (ws.take n :: segs)

/-- What a waypoint is, apart from the additions of the service. -/
def Wp.key (w : Wp) : Int × Nat := (w.number, w.content)

/-- The waypoint at which a segment is entered: the second one, if there are two. -/
def entry : List Wp → Option Int
  | [] => none
  | [w] => some w.number
  | _ :: w :: _ => some w.number

/-- The message brings the waypoints `ws` as a new plan for the vehicle: a mission command, or an
automation response whose first mission command for the vehicle has these waypoints. -/
def BringsPlan (c : Cfg) (i : In) (ws : List Wp) : Prop :=
  i = .mission c.vehicle ws ∨
  ∃ pre post, i = .automation (pre ++ (c.vehicle, ws) :: post) ∧ ∀ m ∈ pre, m.1 ≠ c.vehicle

/-- The message brings no plan for the vehicle. -/
def NoPlan (c : Cfg) : In → Prop
  | .mission v _ => v ≠ c.vehicle
  | .automation ms => ∀ m ∈ ms, m.1 ≠ c.vehicle
  | _ => True

/-- The waypoints that the vehicle reports. -/
def reports (c : Cfg) (h : List In) : List Int :=
  h.filterMap fun i => match i with
    | .airState v wp => if v = c.vehicle then some wp else none
    | _ => none

/-- The vehicle is commanded to a waypoint of the segment after the first one, unless it is the only
one. -/
def EntersInside (cmd : Seg) : Prop :=
  cmd.first ∈ (cmd.wps.map (·.number)).tail ∨ cmd.wps.map (·.number) = [cmd.first]

/-- After a history the vehicle was last sent this. -/
def lastSent (os : List (Option Seg)) : Option Seg := (os.filterMap fun o => o).getLast?

/-- The plan contains the waypoint `wp`, followed by `rest`. -/
def PlanAt (ws : List Wp) (wp : Int) (rest : List Int) : Prop :=
  ∃ pre, ws.map (·.number) = pre ++ wp :: rest

/-- The segment contains the waypoint `wp` and, if `rest` is not empty, the next waypoint after it. -/
def Serves (seg : List Int) (wp : Int) (rest : List Int) : Prop :=
  ∃ pre suf, seg = pre ++ wp :: suf ∧ suf.take 1 = rest.take 1

end Verif.Waypoint
