import Verif.PlanBuilder.Props

/-!
# Where C67 and C68 fail
-/

namespace Verif.PlanBuilder

open Verif

/-- **C67 fails** for a request that lists a vehicle twice: the task of another vehicle is told of two places for it, of which the
second is where it was before its own task. -/
theorem C67_twice_violated : ∃ (c : Config) (A : List In) (m : Summary) (B : List In) (a : Ask) (r : Request), Session c A m B ∧
    InTurn c A m B ∧ lastRequest m.req A = some r ∧ r.vehicles = [1, 1, 2] ∧ (asked c A m B)[1]? = some a ∧ a.vehicle = 2 ∧
    (answers c A m B).take 1 = [ex1] ∧ ex1.place = 12 ∧ a.neighbours.map (fun p => (p.vehicle, p.place)) = [(1, 12), (1, 10)] :=
  ⟨{}, exA.dropLast ++ [.request { id := 7, vehicles := [1, 1, 2], region := 3 }], exM, exB,
    ((asked {} (exA.dropLast ++ [.request { id := 7, vehicles := [1, 1, 2], region := 3 }]) exM exB)[1]?).getD
      ⟨0, 0, 0, 0, 0, 0, 0, 0, 0, 0, 0, []⟩,
    { id := 7, vehicles := [1, 1, 2], region := 3 }, ⟨by decide, by decide⟩, inTurn_of (by decide), by decide, rfl, by decide, by decide,
    by decide, by decide, by decide⟩

/-- **C68 fails** for a task that answers twice: every answer is numbered from the number it was asked to start with, for the vehicle
it was asked for, and linked, but the mission is numbered 1, 2, 1, 2 and its second waypoint leads back to the first. -/
theorem C68_repeat_violated : ∃ (c : Config) (A : List In) (m : Summary) (B : List In) (p : Plan) (μ : Mission), Session c A m B ∧
    p ∈ published c A m B ∧ μ ∈ p.missions ∧
    (∀ x ∈ answers c A m B, ∃ a ∈ asked c A m B, a.id = x.id ∧ a.vehicle = x.vehicle ∧ CountsFrom a.start (x.wps.map (·.number)) ∧
      Linked (x.wps.map Wp.leg)) ∧
    μ.wps.map (·.number) = [1, 2, 1, 2] ∧ ¬ CountsFrom 1 (μ.wps.map (·.number)) := by
  refine ⟨{}, exA, { req := 7, tasks := [⟨1, 100, 0, 0⟩, ⟨2, 101, 0, 0⟩] }, [.response ex1, .response ex1],
    ((published {} exA { req := 7, tasks := [⟨1, 100, 0, 0⟩, ⟨2, 101, 0, 0⟩] }
      [.response ex1, .response ex1]).head?).getD ⟨0, [], []⟩,
    ((((published {} exA { req := 7, tasks := [⟨1, 100, 0, 0⟩, ⟨2, 101, 0, 0⟩] }
      [.response ex1, .response ex1]).head?).getD ⟨0, [], []⟩).missions.head?).getD ⟨0, 0, 0, [], []⟩, ⟨by decide, by decide⟩, by decide,
    by decide, ?_, by decide, ?_⟩
  · have e : answers {} exA { req := 7, tasks := [⟨1, 100, 0, 0⟩, ⟨2, 101, 0, 0⟩] } [.response ex1, .response ex1] = [ex1, ex1] := by
      decide
    rw [e]
    intro x hx
    have hx : x = ex1 := by simpa using hx
    subst hx
    refine ⟨((asked {} exA { req := 7, tasks := [⟨1, 100, 0, 0⟩, ⟨2, 101, 0, 0⟩] } [.response ex1, .response ex1]).head?).getD
      ⟨0, 0, 0, 0, 0, 0, 0, 0, 0, 0, 0, []⟩, by decide, by decide, by decide, ?_, ⟨rfl, trivial⟩⟩
    intro j y hy
    match j, hy with
    | 0, hy => simp [ex1] at hy; rw [← hy]; decide
    | 1, hy => simp [ex1] at hy; rw [← hy]; decide
    | j + 2, hy => simp [ex1] at hy
  · intro h
    have := h 2 1 (by decide)
    revert this
    decide

end Verif.PlanBuilder
