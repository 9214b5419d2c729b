import Verif.System.Props

/-! A request with two tasks and two vehicles on its way through the services, and what a late plan does. -/

namespace Verif.System

open Verif

variable {S : Setup} {n : Net}

theorem Reach.vs : ∀ (l : List Validator.In) {n : Net}, Reach S n → (∀ i ∈ l, n.mayV S i) → Reach S { n with v := n.v ++ l }
  | [], _, h, _ => by simpa using h
  | i :: l, _, h, hl => by
    have := Reach.vs l (Reach.v h (hl i (by simp))) (fun j hj => by have := hl j (by simp [hj]); cases j <;> exact this)
    simpa using this

theorem Reach.rs : ∀ (l : List Routes.In) {n : Net}, Reach S n → (∀ i ∈ l, n.mayR i) → Reach S { n with r := n.r ++ l }
  | [], _, h, _ => by simpa using h
  | i :: l, _, h, hl => by
    have := Reach.rs l (Reach.r h (hl i (by simp))) (fun j hj => by have := hl j (by simp [hj]); cases j <;> exact this)
    simpa using this

theorem Reach.as : ∀ (l : List Assign.Msg) {n : Net}, Reach S n → (∀ i ∈ l, n.mayA S i) → Reach S { n with a := n.a ++ l }
  | [], _, h, _ => by simpa using h
  | i :: l, _, h, hl => by
    have := Reach.as l (Reach.a h (hl i (by simp))) (fun j hj => by have := hl j (by simp [hj]); cases j <;> exact this)
    simpa using this

theorem Reach.ps : ∀ (l : List PlanBuilder.In) {n : Net}, Reach S n → (∀ i ∈ l, n.mayP S i) → Reach S { n with p := n.p ++ l }
  | [], _, h, _ => by simpa using h
  | i :: l, _, h, hl => by
    have := Reach.ps l (Reach.p h (hl i (by simp))) (fun j hj => by have := hl j (by simp [hj]); cases j <;> exact this)
    simpa using this

/-- Not in the code: a request of a task, with id 5, for two tasks and two vehicles in region 9. -/
def exR : Validator.Req := { id := 5, entities := [400, 500], tasks := [1, 2], region := 9 }

/-- Not in the code: what the validator gets before. -/
def exV : List Validator.In :=
  [.config 400, .config 500, .state 400, .state 500, .region 9 [] [], .task 1 .nothing, .task 2 .nothing, .taskInitialized 1,
   .request (.task 5) exR, .taskInitialized 2]

/-- Not in the code: the options of the two tasks as the route aggregator sees them. -/
def exOpts1 : List Routes.Opt := [⟨1, 1, [400, 500], 11, 12⟩, ⟨1, 2, [400], 12, 11⟩]
/-- Not in the code: the options of the second task. -/
def exOpts2 : List Routes.Opt := [⟨2, 1, [500], 21, 21⟩]

/-- Not in the code: what the route aggregator gets. -/
def exRoutes : List Routes.In :=
  [.state 400 10 false, .state 500 30 false, .options 1 exOpts1, .request ⟨5, [1, 2], [400, 500], [], 9⟩, .options 2 exOpts2,
   .response ⟨0, [(1000000, 10), (1000001, 5), (1000002, 3), (1000003, 3)]⟩,
   .response ⟨0, [(1000004, 6), (1000005, 7), (1000006, 2), (1000007, 2)]⟩]

/-- Not in the code: the matrix that it sends. -/
def exMx : Assign.CostMatrix :=
  { requestId := 5, entries :=
    [⟨400, 0, 0, 1, 1, 10⟩, ⟨400, 0, 0, 1, 2, 5⟩, ⟨400, 1, 1, 1, 2, 3⟩, ⟨400, 1, 2, 1, 1, 3⟩, ⟨500, 0, 0, 1, 1, 6⟩, ⟨500, 0, 0, 2, 1, 7⟩,
     ⟨500, 1, 1, 2, 1, 2⟩, ⟨500, 2, 1, 1, 1, 2⟩] }

/-- Not in the code: the summary of the example of the assignment. -/
def exS : PlanBuilder.Summary := { req := 5, tasks := [⟨500, 2, 1, 0⟩, ⟨400, 1, 2, 0⟩] }

/-- Not in the code: what the plan builder gets before and after the summary. -/
def exPA : List PlanBuilder.In :=
  [.state { id := 400, place := 10, time := 5 }, .state { id := 500, place := 30, time := 6 },
   .request { id := 5, vehicles := [400, 500], region := 9 }]

/-- Not in the code: the answers of the tasks. -/
def exPB : List PlanBuilder.In :=
  [.response { id := 1, vehicle := 500, task := 2, option := 1, wps := [⟨1, 0, 31, 0, 0, 0, 0, []⟩], place := 31, time := 60 },
   .response { id := 2, vehicle := 400, task := 1, option := 2, place := 12, time := 50,
               wps := [⟨1, 2, 11, 0, 0, 0, 0, []⟩, ⟨2, 0, 12, 0, 0, 0, 0, []⟩] }]

/-- Not in the code: plans are named by their numbers of missions. -/
def exSetup : Setup := { code := fun p => p.missions.length }

/-- Not in the code: all messages up to the plan. -/
def exNet : Net where
  v := exV
  r := exRoutes
  a := [.options Assign.exPlan1, .request Assign.exReq, .matrix exMx, .options Assign.exPlan2]
  p := exPA ++ .summary exS :: exPB

theorem exV_published : (Validator.run exV).2.flatMap Validator.published = [exR] := by decide +kernel

theorem exOrders : Assign.Orders exMx (fun _ => [400, 500]) [500, 400] where
  node := by intro n w; simp [exMx]; grind
  pubMem := by intro w; simp [exMx]; grind
  pubNodup := by decide

/-- The entries of the matrix as the route aggregator sends them. -/
def exEntries : List Routes.Entry :=
  [⟨⟨400, 0, 0, 1, 1⟩, 10⟩, ⟨⟨400, 0, 0, 1, 2⟩, 5⟩, ⟨⟨400, 1, 1, 1, 2⟩, 3⟩, ⟨⟨400, 1, 2, 1, 1⟩, 3⟩, ⟨⟨500, 0, 0, 1, 1⟩, 6⟩,
   ⟨⟨500, 0, 0, 2, 1⟩, 7⟩, ⟨⟨500, 1, 1, 2, 1⟩, 2⟩, ⟨⟨500, 2, 1, 1, 1⟩, 2⟩]

theorem ex_costed : .matrix 1 5 9 [1, 2] exEntries ∈ exNet.costed exSetup := by decide +kernel

theorem ex_calculated : Calculated exSetup { exNet with p := exPA } exS := by
  refine ⟨{ request := some Assign.exReq, matrix := some exMx, plans := Assign.exPlans }, ?_, Assign.exReq, exMx,
    [{ taskId := 2, optionId := 1, vehicle := 500, timeThreshold := 0, timeCompleted := 8 },
     { taskId := 1, optionId := 2, vehicle := 400, timeThreshold := 0, timeCompleted := 9 }],
    ⟨rfl, rfl, fun _ => [400, 500], [500, 400],
      [.complete, .summary 5 9
        [{ taskId := 2, optionId := 1, vehicle := 500, timeThreshold := 0, timeCompleted := 8 },
         { taskId := 1, optionId := 2, vehicle := 400, timeThreshold := 0, timeCompleted := 9 }]], 9, exOrders, ?_, by simp [exS]⟩, by decide⟩
  · decide +kernel
  · decide +kernel

theorem ex_reach : Reach exSetup exNet := by
  have h1 : Reach exSetup { v := exV } := by
    have := Reach.vs (S := exSetup) exV .start (by simp [exV, Net.mayV])
    simpa using this
  have hr : exR ∈ ({ v := exV } : Net).requested := by
    unfold Net.requested; rw [exV_published]; simp
  have h1' : Reach exSetup { v := exV, r := exRoutes } := by
    have := Reach.rs exRoutes h1 (by
      simp only [exRoutes, List.mem_cons, List.not_mem_nil, or_false, forall_eq_or_imp, forall_eq]
      exact ⟨trivial, trivial, trivial, ⟨exR, hr, rfl, rfl, rfl, rfl, rfl⟩, trivial, trivial, trivial⟩)
    simpa using this
  have h2 : Reach exSetup { v := exV, r := exRoutes, a := exNet.a } := by
    have := Reach.as exNet.a h1' (by
      simp only [exNet, List.mem_cons, List.not_mem_nil, or_false, forall_eq_or_imp, forall_eq]
      exact ⟨trivial, ⟨exR, hr, rfl, rfl, rfl⟩, ⟨1, 9, [1, 2], exEntries, ex_costed, by decide⟩, trivial⟩)
    simpa using this
  have h3 : Reach exSetup { exNet with p := exPA } := by
    have := Reach.ps exPA h2 (by
      simp only [exPA, List.mem_cons, List.not_mem_nil, or_false, forall_eq_or_imp, forall_eq]
      exact ⟨trivial, trivial, ⟨exR, hr, rfl, rfl, rfl, rfl⟩⟩)
    simpa [exNet] using this
  have h4 := Reach.ps exPB (Reach.p h3 (i := .summary exS) ex_calculated) (by
      simp only [exPB, List.mem_cons, List.not_mem_nil, or_false, forall_eq_or_imp, forall_eq]
      exact ⟨trivial, trivial⟩)
  simpa [exNet] using h4

/-- Not in the code: the plan that is sent. -/
def exPlan : PlanBuilder.Plan := ((PlanBuilder.published {} exPA exS exPB).head?).getD ⟨0, [], []⟩

theorem exPlan_sent : .plan exPlan ∈ exNet.sent exSetup := by decide +kernel

example : exPlan.req = 5 ∧ exPlan.missions.map (fun μ => (μ.vehicle, μ.wps.map (·.number))) = [(500, [1]), (400, [1, 2])] := by
  decide +kernel

/-- The plan comes back as the answer to the task's request: the hypotheses of `C194_answered_partial` are met. -/
example : ∃ k r, (k, r) ∈ Validator.arrivals exV ∧ r.id = 5 ∧
    Validator.answered (Validator.step (Validator.run exV).1 (.response 5 2)).2 = [(k, .planned 2)] :=
  (C194_answered_partial ex_reach (by decide) (by decide +kernel) exPlan_sent (by decide +kernel)).2

/-- The hypotheses of `C194_traceable_partial` are met. -/
example : ∃ n : Net, Reach exSetup n ∧ ((Validator.arrivals n.v).map (·.2.id)).Nodup ∧ n.v = exV ++ .response 5 2 :: [] ∧
    (Validator.Kind.task 5, .planned 2) ∈ Validator.answered (Validator.step (Validator.run exV).1 (.response 5 2)).2 :=
  ⟨{ exNet with v := exV ++ [.response 5 2] }, .v ex_reach ⟨exPlan, exPlan_sent, by decide +kernel, by decide +kernel⟩, by decide, rfl,
    by decide +kernel⟩

/-- The hypotheses of `C194_feasible_partial` are met. -/
example : Steady exNet ∧ Assign.initializeAlgebra Assign.exReq.relationships Assign.exPlans = .ok (some Assign.exAlg) ∧
    Algebra.Distinct Assign.exAlg ∧ Algebra.NonEmptyOps Assign.exAlg := by
  refine ⟨⟨?_, ?_⟩, Assign.exInit, Assign.exAlg_ok⟩
  · intro t os o h1 h2 h3
    simp only [exNet, exRoutes, List.mem_cons, List.not_mem_nil, or_false, reduceCtorEq, false_or, Routes.In.options.injEq] at h1
    simp only [exNet, List.mem_cons, List.not_mem_nil, or_false, reduceCtorEq, false_or, Assign.Msg.options.injEq] at h2
    rcases h1 with ⟨rfl, rfl⟩ | ⟨rfl, rfl⟩ <;> rcases h2 with rfl | rfl <;> revert h3 <;> decide
  · intro t os h1
    simp only [exNet, exRoutes, List.mem_cons, List.not_mem_nil, or_false, reduceCtorEq, false_or, Routes.In.options.injEq] at h1
    rcases h1 with ⟨rfl, rfl⟩ | ⟨rfl, rfl⟩ <;> decide

/-- **C194 fails** for two requests with the same id, which tasks choose themselves: the first gets no answer in time and is given up; the
plan for it arrives when the second, for another task and another vehicle, is in flight, and is the answer to the second. -/
theorem C194_late_violated : ∃ (n : Net) (k : Validator.Kind) (r : Validator.Req) (p : PlanBuilder.Plan) (h : List Validator.In),
    Reach exSetup n ∧ n.v = h ++ [.response r.id (exSetup.code p)] ∧ Validator.inFlight none h (Validator.run h).2 = some r.id ∧
    (k, r) ∈ Validator.arrivals h ∧ (Validator.run h).2.getLast?.map Validator.published = some [r] ∧
    r.tasks = [3] ∧ r.entities = [600] ∧ .plan p ∈ n.sent exSetup ∧ p.missions.map (·.vehicle) = [500, 400] ∧
    Validator.answered (Validator.step (Validator.run h).1 (.response r.id (exSetup.code p))).2 = [(k, .planned (exSetup.code p))] := by
  let r : Validator.Req := { id := 5, entities := [600], tasks := [3] }
  let more : List Validator.In := [.responseTimeout, .config 600, .state 600, .task 3 .nothing, .taskInitialized 3, .request (.task 5) r]
  refine ⟨{ exNet with v := exV ++ more ++ [.response 5 2] }, .task 5, r, exPlan, exV ++ more, ?_, by decide +kernel, by decide +kernel,
    by decide, by decide +kernel, rfl, rfl, exPlan_sent, by decide +kernel, by decide +kernel⟩
  have h1 : Reach exSetup { exNet with v := exV ++ more } := Reach.vs more ex_reach (by simp [more, Net.mayV])
  exact .v h1 ⟨exPlan, exPlan_sent, by decide +kernel, by decide +kernel⟩

end Verif.System
