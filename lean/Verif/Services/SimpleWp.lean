import Verif.Common
import Verif.Trace

/-!
# Missions for a vehicle, without segments

`src/cpp/Services/SimpleWaypointPlanManagerService.cpp` 79-178.  Places are not looked into: the point ahead of the last
waypoint (lines 119-175, from the latest state and configuration) is a parameter. Numbers do not overflow.
-/

namespace Verif.SimpleWp

open Verif

/-- mdms/CMASI.xml 1173-1215: a `Waypoint`: what does not matter here is one value. -/
structure Wp where
  number : Int
  next : Int
  place : Int × Int
  rest : Int
deriving DecidableEq, Repr

/-- mdms/CMASI.xml 1227-1237: a `MissionCommand`: what does not matter here is one value.
-/
structure Mission where
  vehicle : Int
  wps : List Wp
  rest : Int
deriving DecidableEq, Repr

/-- SimpleWaypointPlanManagerService.cpp 79-112: what the service receives. -/
inductive In where
  | state (id : Int) (place : Int × Int)
  | entity (id : Int) (radius : Int)
  | response (ms : List Mission)
deriving DecidableEq, Repr

/-- SimpleWaypointPlanManagerService.cpp 42-48 and 119-175: the vehicle, and the geometry.
-/
structure Config where
  vehicle : Int
  /-- the point at twice the radius beyond a place, seen from a place, where these are known -/
  beyond : Option (Int × Int) → Option Int → Int × Int → Int × Int

/-- SimpleWaypointPlanManagerService.h 129-132: the members of the service. -/
structure St where
  /-- `m_states`, for the own vehicle (the others are not read) -/
  state : Option (Int × Int) := none
  /-- `m_configs`, for the own vehicle -/
  entity : Option Int := none
deriving DecidableEq, Repr

/-- `handleSingleWaypointPlan`, SimpleWaypointPlanManagerService.cpp 114-178, for the last
waypoint of a list. -/
def extend (c : Config) (s : St) (ws : List Wp) : List Wp :=
  match ws.getLast? with
  | none => ws
  | some w => ws.dropLast ++ [{ w with next := w.number + 1 }] ++
      [{ w with number := w.number + 1, place := c.beyond s.state s.entity w.place }]

/-- SimpleWaypointPlanManagerService.cpp 93-109. -/
def answer (c : Config) (s : St) : List Mission → List Mission
  | [] => []
  | m :: ms =>
    if m.vehicle = c.vehicle then [if m.wps.length = 1 then { m with wps := extend c s m.wps } else m]
    else answer c s ms

/-- `processReceivedLmcpMessage`, SimpleWaypointPlanManagerService.cpp 79-112. -/
def step (c : Config) (s : St) : In → St × List Mission
  | .state id p => (if id = c.vehicle then { s with state := some p } else s, [])
  | .entity id r => (if id = c.vehicle then { s with entity := some r } else s, [])
  | .response ms => (s, answer c s ms)

/-- Not in the code: what is sent for an input after a history. -/
abbrev sends (c : Config) (h : List In) (i : In) : List Mission := (step c (runM (step c) {} h).1 i).2

/-- Specification: the waypoints follow one another: each leads to the next one. -/
def Linked : List Wp → Prop
  | [] => True
  | [_] => True
  | w :: w' :: ws => w.next = w'.number ∧ Linked (w' :: ws)

theorem answer_eq (c : Config) (s : St) (ms : List Mission) : (∀ m ∈ ms, m.vehicle ≠ c.vehicle) ∧ answer c s ms = [] ∨
    ∃ a m b, ms = a ++ m :: b ∧ (∀ x ∈ a, x.vehicle ≠ c.vehicle) ∧ m.vehicle = c.vehicle ∧
      answer c s ms = [if m.wps.length = 1 then { m with wps := extend c s m.wps } else m] := by
  induction ms with
  | nil => exact .inl ⟨by simp, rfl⟩
  | cons m ms ih =>
    by_cases h : m.vehicle = c.vehicle
    · exact .inr ⟨[], m, ms, rfl, by simp, h, by rw [answer, if_pos h]⟩
    · rcases ih with ⟨h₁, h₂⟩ | ⟨a, x, b, rfl, h₁, h₂, h₃⟩
      · refine .inl ⟨?_, by rw [answer, if_neg h, h₂]⟩
        intro x hx
        rcases List.mem_cons.mp hx with rfl | hx
        · exact h
        · exact h₁ x hx
      · refine .inr ⟨m :: a, x, b, rfl, ?_, h₂, by rw [answer, if_neg h, h₃]⟩
        intro y hy
        rcases List.mem_cons.mp hy with rfl | hy
        · exact h
        · exact h₁ y hy

/-- For each response the first mission of the vehicle is sent, and nothing else. A mission that has not exactly one waypoint
is sent as it is; one with a single waypoint gets a second one that the first leads to, and differs in nothing else. -/
theorem C90_forward {c : Config} {h : List In} {ms a b : List Mission} {m : Mission} (e : ms = a ++ m :: b)
    (ha : ∀ x ∈ a, x.vehicle ≠ c.vehicle) (hm : m.vehicle = c.vehicle) :
    (m.wps.length ≠ 1 → sends c h (.response ms) = [m]) ∧
    (∀ w, m.wps = [w] → ∃ w₁ w₂, sends c h (.response ms) = [{ m with wps := [w₁, w₂] }] ∧ Linked [w₁, w₂] ∧
      w₁ = { w with next := w.number + 1 } ∧ w₂ = { w with number := w.number + 1, place := w₂.place }) := by
  rw [sends]
  generalize (runM (step c) {} h).1 = s
  have key : answer c s ms = [if m.wps.length = 1 then { m with wps := extend c s m.wps } else m] := by
    subst e
    induction a with
    | nil => rw [List.nil_append, answer, if_pos hm]
    | cons x a ih =>
      rw [List.cons_append, answer, if_neg (ha x (by simp))]
      exact ih fun y hy => ha y (by simp [hy])
  simp only [step, key]
  refine ⟨fun hl => by rw [if_neg hl], ?_⟩
  intro w hw
  rw [if_pos (by rw [hw]; rfl), hw]
  exact ⟨_, _, rfl, ⟨rfl, trivial⟩, rfl, rfl⟩

/-- Nothing is sent for another message, or when the response has no mission of the vehicle. -/
theorem C90_only {c : Config} {h : List In} {i : In} {m : Mission} (hm : m ∈ sends c h i) :
    m.vehicle = c.vehicle ∧ ∃ ms m₀, i = .response ms ∧ m₀ ∈ ms ∧ m₀.vehicle = c.vehicle ∧ m₀.rest = m.rest := by
  rw [sends] at hm
  cases i with
  | state _ _ => simp [step] at hm
  | entity _ _ => simp [step] at hm
  | response ms =>
    simp only [step] at hm
    rcases answer_eq c (runM (step c) {} h).1 ms with ⟨-, h₂⟩ | ⟨a, x, b, rfl, -, h₂, h₃⟩
    · rw [h₂] at hm; cases hm
    · rw [h₃] at hm
      simp only [List.mem_singleton] at hm
      subst hm
      refine ⟨by split <;> exact h₂, _, x, rfl, by simp, h₂, by split <;> rfl⟩

/-- A mission that was linked is linked when it is sent. -/
theorem C90_linked {c : Config} {h : List In} {ms : List Mission} {m : Mission} (hl : ∀ m ∈ ms, Linked m.wps)
    (hm : m ∈ sends c h (.response ms)) : Linked m.wps := by
  rw [sends] at hm
  simp only [step] at hm
  rcases answer_eq c (runM (step c) {} h).1 ms with ⟨-, h₂⟩ | ⟨a, x, b, rfl, -, h₂, h₃⟩
  · rw [h₂] at hm; cases hm
  · rw [h₃] at hm
    simp only [List.mem_singleton] at hm
    subst hm
    split
    · next hx =>
      match hw : x.wps, hx with
      | [w], _ => exact ⟨rfl, trivial⟩
    · exact hl x (by simp)

/-- For the examples: a vehicle, with a simple geometry. -/
def c₀ : Config := { vehicle := 5, beyond := fun _ _ p => (p.1 + 100, p.2) }

example : sends c₀ [] (.response [⟨4, [], 0⟩, ⟨5, [⟨7, 7, (1, 1), 0⟩], 3⟩, ⟨5, [], 0⟩]) =
    [⟨5, [⟨7, 8, (1, 1), 0⟩, ⟨8, 7, (101, 1), 0⟩], 3⟩] := by decide
example : sends c₀ [] (.response [⟨5, [⟨7, 8, (1, 1), 0⟩, ⟨8, 8, (1, 2), 0⟩], 3⟩]) =
    [⟨5, [⟨7, 8, (1, 1), 0⟩, ⟨8, 8, (1, 2), 0⟩], 3⟩] := by decide

end Verif.SimpleWp
