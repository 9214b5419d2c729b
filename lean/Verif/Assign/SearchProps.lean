import Verif.Assign.Props

/-!
Properties C34 to C37: what the branch and bound search publishes.
-/

namespace Verif.Assign

open Verif.Algebra (Tree Word Distinct NonEmptyOps objectives)

/-- The orders in which the hash maps are walked are arbitrary; each lists the vehicles of the
cost matrix, and the published map lists each once. -/
structure Orders (m : CostMatrix) (order : Node → List Int) (pub : List Int) : Prop where
  node : ∀ n w, w ∈ order n ↔ ∃ e ∈ m.entries, e.vehicle = w
  pubMem : ∀ w, w ∈ pub ↔ ∃ e ∈ m.entries, e.vehicle = w
  pubNodup : pub.Nodup

/-- All options of a request. -/
def allOptions (plans : List (Int × PlanOptions)) : List TaskOption :=
  plans.flatMap fun p => p.2.options

/-- The published list of assignments is a schedule: the assignments of each vehicle, in the
order published, are its timeline in the schedule, and no other vehicle has any. -/
def Publishes (P : Problem) (s : Schedule) (tasks : List Assignment) : Prop :=
  (∀ a ∈ tasks, a.vehicle ∈ P.vehicles) ∧
  ∀ v ∈ P.vehicles, ∃ l, vehiclePlan P s v = some l ∧
    tasks.filter (fun a => a.vehicle == v) = l.map (published v)

theorem orders_good {m : CostMatrix} {order : Node → List Int} {pub : List Int}
    (h : Orders m order pub) (t : Tree) (os : List TaskOption) :
    GoodOrder (mkInst t os m.entries) order := by
  intro n w
  rw [h.node, show (mkInst t os m.entries).vehicles = matrixVehicles m.entries from rfl,
    mem_matrixVehicles]
  simp

theorem filter_flatMap {c : Int → VState} {L : Int → List (Int × Int)}
    (hc : ∀ v, (c v).tasks = (L v).map (published v)) (v : Int) : ∀ (pub : List Int), pub.Nodup →
    (pub.flatMap fun w => (c w).tasks).filter (fun a => a.vehicle == v) =
      if v ∈ pub then (c v).tasks else []
  | [], _ => by simp
  | w :: ws, hn => by
    simp only [List.nodup_cons] at hn
    have ih := filter_flatMap hc v ws hn.2
    simp only [List.flatMap_cons, List.filter_append, ih, List.mem_cons]
    by_cases hvw : v = w
    · subst hvw
      have : (c v).tasks.filter (fun a => a.vehicle == v) = (c v).tasks := by
        rw [List.filter_eq_self, hc]
        intro a ha
        obtain ⟨e, -, rfl⟩ := List.mem_map.1 ha
        simp [published]
      simp [this, hn.1]
    · have : (c w).tasks.filter (fun a => a.vehicle == v) = [] := by
        rw [List.filter_eq_nil_iff, hc]
        intro a ha
        obtain ⟨e, -, rfl⟩ := List.mem_map.1 ha
        simp [published, Ne.symm hvw]
      simp [this, hvw]

/-- What the search ends with: nothing, or a leaf of the tree. -/
theorem search_result {I : Inst} {limit : Int} {order : Node → List Int} (ho : GoodOrder I order) :
    ((search I limit order).candidate = none ∧ (search I limit order).complete = 0 ∧
      (search I limit order).min = int64Max) ∨
    ∃ s k, Path I s k ∧ offersAt I k = [] ∧ (search I limit order).candidate = some k.vs ∧
      (search I limit order).min = k.cost ∧ k.cost < int64Max ∧ 0 < (search I limit order).complete := by
  rcases expand_better (limit := limit) ho ((Verif.Algebra.actionsOf I.tree).length + 1) rootNode {} with
    ⟨h1, h2, h3⟩ | ⟨k, hk, h1, h2, h3, h4, h5⟩
  · exact .inl ⟨h2, h3, h1⟩
  · obtain ⟨s, hs⟩ := desc_path hk [] .root
    exact .inr ⟨s, k, hs, h1, h4, h2, h3, h5⟩

theorem publishes_of_path {t : Tree} {os : List TaskOption} {es : List CostEntry}
    (he : MatrixEligible os es) {pub : List Int} (hpub : ∀ w, w ∈ pub ↔ ∃ e ∈ es, e.vehicle = w)
    (hnd : pub.Nodup) {s : Schedule} {k : Node} (hp : Path (mkInst t os es) s k) :
    Publishes (problemOf t os es) s (pub.flatMap fun v => (k.vs v).tasks) := by
  have hre := path_realises hp
  have hag := agree_of_eligible (t := t) he
  have hL : ∀ v, (k.vs v).tasks =
      ((vehiclePlan (relaxed (mkInst t os es)) s v).getD []).map (published v) := by
    intro v
    obtain ⟨l, h1, h2, -⟩ := hre.plan v
    rw [h1, h2]; rfl
  have hv : ∀ w, w ∈ pub ↔ w ∈ (problemOf t os es).vehicles := by
    intro w; rw [hpub]; simp [problemOf]
  refine ⟨?_, ?_⟩
  · intro a ha
    obtain ⟨w, hw, haw⟩ := List.mem_flatMap.1 ha
    rw [hL] at haw
    obtain ⟨e, -, rfl⟩ := List.mem_map.1 haw
    exact (hv w).1 hw
  · intro v hvm
    obtain ⟨l, h1, h2, -⟩ := hre.plan v
    refine ⟨l, by rw [← plan_agree hag]; exact h1, ?_⟩
    rw [filter_flatMap hL v pub hnd, if_pos ((hv v).2 hvm), h2]

theorem feasible_of_path {t : Tree} {os : List TaskOption} {es : List CostEntry}
    (he : MatrixEligible os es) (hd : Distinct t) (hn : NonEmptyOps t) {s : Schedule} {k : Node}
    (hp : Path (mkInst t os es) s k) (hl : offersAt (mkInst t os es) k = []) :
    Feasible (problemOf t os es) s := by
  rw [← feasible_agree (agree_of_eligible (t := t) he)]
  have hre := path_realises hp
  refine ⟨(offersAt_word (I := mkInst t os es) hd hn hp).1 hl, hre.used, fun v _ => ?_⟩
  obtain ⟨l, h1, -⟩ := hre.plan v
  exact ⟨l, h1⟩

/-! ### C34: assignments are feasible -/

/-- **C34, partial.** Whatever the search limit and the order in which hash maps are walked: a
published summary belongs to the request, and is a feasible schedule of the stated problem, i.e. a
complete allowed order in which every vehicle is eligible for and can reach what it is given, with
completion times that add up travel times and durations.

Missing: this needs the cost matrix to have legs only to options the vehicle is eligible for
(the service does not check, `C34_violated`), and an algebra with distinct objectives and no empty
operator. -/
theorem C34_feasible_partial {cfg : Config} {order : Node → List Int} {pub : List Int} {req : Request}
    {plans : List (Int × PlanOptions)} {m : CostMatrix} {t : Tree} {rs : List Reply}
    (ho : Orders m order pub) (he : MatrixEligible (allOptions plans) m.entries)
    (ht : initializeAlgebra req.relationships plans = .ok (some t)) (hd : Distinct t)
    (hn : NonEmptyOps t) (hr : calculateAssignment cfg order pub req plans m = .ok rs)
    {id region : Int} {tasks : List Assignment} (hs : Reply.summary id region tasks ∈ rs) :
    id = req.requestId ∧ region = req.operatingRegion ∧
    ∃ s, Feasible (problemOf t (allOptions plans) m.entries) s ∧
      Publishes (problemOf t (allOptions plans) m.entries) s tasks := by
  simp only [calculateAssignment, ht, Outcome.bind_ok, Outcome.ok.injEq] at hr
  subst hr
  have hg := orders_good ho t (allOptions plans)
  rw [show (plans.flatMap fun p => p.2.options) = allOptions plans from rfl] at hs
  rcases search_result (limit := cfg.numberNodesMaximum) hg with
    ⟨hc, h0, -⟩ | ⟨s, k, hp, hl, hc, -, -, hpos⟩
  · simp [replies, hc, h0] at hs
  · simp only [replies, hc, if_neg (Nat.pos_iff_ne_zero.1 hpos)] at hs
    by_cases hpn : pub ≠ []
    · simp only [if_pos hpn, List.mem_cons, Reply.summary.injEq, reduceCtorEq, false_or,
        List.not_mem_nil, or_false] at hs
      obtain ⟨rfl, rfl, rfl⟩ := hs
      exact ⟨rfl, rfl, s, feasible_of_path he hd hn hp hl,
        publishes_of_path he ho.pubMem ho.pubNodup hp⟩
    · simp [hpn] at hs

/-! ### C35: exhaustive search -/

theorem mono_of_costs {t : Tree} {os : List TaskOption} {es : List CostEntry}
    (he : MatrixEligible os es) (hc : ∀ p ∈ os, 0 ≤ p.cost) : Mono (mkInst t os es) := by
  intro v hv f o hk htr
  have hag := agree_of_eligible (t := t) he
  have h1 : (relaxed (mkInst t os es)).travel v f o = some ((mkInst t os es).travelTime v f o) := by
    simp [relaxed, htr]
  have h2 := hag.duration v f o _ h1
  simp only [relaxed, hk, if_true, problemOf] at h2
  rcases hf : os.reverse.find? (fun p => taskAndOptionId p.taskId p.optionId == o &&
      p.eligible.contains v) with _ | p
  · rw [hf] at h2; simp at h2
  · rw [hf] at h2
    simp only [Option.map_some, Option.some.injEq] at h2
    have := hc p (by simpa using List.mem_of_find?_eq_some hf)
    omega

/-- With no limit the search ends with a bound for every feasible schedule. -/
theorem search_bound {t : Tree} {os : List TaskOption} {es : List CostEntry} {limit : Int}
    (hl : limit < 0) {order : Node → List Int} (hg : GoodOrder (mkInst t os es) order)
    (he : MatrixEligible os es) (hc : ∀ p ∈ os, 0 ≤ p.cost) (hd : Distinct t) (hn : NonEmptyOps t)
    {s : Schedule} {c : Int} (hf : Feasible (problemOf t os es) s)
    (hm : Makespan (problemOf t os es) s c) : (search (mkInst t os es) limit order).min ≤ c := by
  have hag := agree_of_eligible (t := t) he
  rw [← feasible_agree hag] at hf
  rw [← makespan_agree hag] at hm
  obtain ⟨hw, hu, hp⟩ := hf
  have hrun := (Verif.Algebra.C28_complete_orders (g := algOf t) rfl hd hn _).2 hw
  obtain ⟨k, hk⟩ := exists_path (I := mkInst t os es) hrun.1 s rfl hu hp
  have hvs : (mkInst t os es).vehicles ≠ [] := by
    obtain ⟨v, hv, -⟩ := hm.2
    intro e
    rw [show (relaxed (mkInst t os es)).vehicles = (mkInst t os es).vehicles from rfl, e] at hv
    simp at hv
  have hms := makespan_unique (path_makespan hvs hk) hm
  rw [← hms]
  have hroot : CostInv (mkInst t os es) rootNode := by
    obtain ⟨v, hv⟩ := List.exists_mem_of_ne_nil _ hvs
    exact ⟨fun v _ => Int.le_refl _, v, hv, rfl⟩
  exact expand_sees hl hg (mono_of_costs he hc) _ rootNode {} hroot .start (by
    simp only [rootNode, List.length_nil, Nat.zero_add, Verif.Algebra.objectives_eq]
    exact Nat.lt_succ_self _) rfl k (path_desc hk k .refl)
    ((offersAt_word (I := mkInst t os es) hd hn hk).2 hw)

/-- What a successful calculation answers. -/
theorem replies_of_candidate {req : Request} {pub : List Int} {st : Static} {c : Int → VState}
    (h : st.candidate = some c) (hpos : 0 < st.complete) (hp : pub ≠ []) :
    replies req pub st = [.complete, .summary req.requestId req.operatingRegion
      (pub.flatMap fun v => (c v).tasks)] := by
  simp only [replies, h, if_neg (Nat.pos_iff_ne_zero.1 hpos), if_pos hp]

/-- **C35, partial.** With a negative node limit (unlimited search): if any feasible schedule
exists (with a completion time below the sentinel 2^63-1), a summary is published, and its
schedule has the smallest completion time of all feasible schedules.

Missing: needs non-negative task durations and, as C34, matrix legs only to eligible options;
without this pruning is unsound (`C35_violated`). -/
theorem C35_optimal_partial {cfg : Config} {order : Node → List Int} {pub : List Int} {req : Request}
    {plans : List (Int × PlanOptions)} {m : CostMatrix} {t : Tree}
    (hlim : cfg.numberNodesMaximum < 0)
    (ho : Orders m order pub) (he : MatrixEligible (allOptions plans) m.entries)
    (hc : ∀ p ∈ allOptions plans, 0 ≤ p.cost)
    (ht : initializeAlgebra req.relationships plans = .ok (some t)) (hd : Distinct t)
    (hn : NonEmptyOps t) {s : Schedule} {c : Int}
    (hf : Feasible (problemOf t (allOptions plans) m.entries) s)
    (hm : Makespan (problemOf t (allOptions plans) m.entries) s c) (hcost : c < int64Max) :
    ∃ tasks s' c', calculateAssignment cfg order pub req plans m =
        .ok [.complete, .summary req.requestId req.operatingRegion tasks] ∧
      Publishes (problemOf t (allOptions plans) m.entries) s' tasks ∧
      Feasible (problemOf t (allOptions plans) m.entries) s' ∧
      Makespan (problemOf t (allOptions plans) m.entries) s' c' ∧
      ∀ s'' c'', Feasible (problemOf t (allOptions plans) m.entries) s'' →
        Makespan (problemOf t (allOptions plans) m.entries) s'' c'' → c' ≤ c'' := by
  have hg := orders_good ho t (allOptions plans)
  have hb := fun s c hf hm => search_bound (s := s) (c := c) hlim hg he hc hd hn hf hm
  have hvs : (mkInst t (allOptions plans) m.entries).vehicles ≠ [] := by
    obtain ⟨v, hv, -⟩ := hm.2
    have : v ∈ matrixVehicles m.entries := mem_matrixVehicles.2 hv
    intro e
    rw [show (mkInst t (allOptions plans) m.entries).vehicles = matrixVehicles m.entries from rfl] at e
    rw [e] at this; simp at this
  have hpn : pub ≠ [] := by
    obtain ⟨v, hv, -⟩ := hm.2
    have : v ∈ pub := (ho.pubMem v).2 (by simpa [problemOf] using hv)
    intro e; rw [e] at this; simp at this
  rcases search_result (limit := cfg.numberNodesMaximum) hg with
    ⟨-, -, hmin⟩ | ⟨s', k, hp, hl, hcand, hmin, -, hpos⟩
  · have := hb s c hf hm
    rw [hmin] at this
    omega
  · refine ⟨pub.flatMap fun v => (k.vs v).tasks, s', k.cost, ?_,
      publishes_of_path he ho.pubMem ho.pubNodup hp, feasible_of_path he hd hn hp hl,
      (makespan_agree (agree_of_eligible he) _ _).1 (path_makespan hvs hp), ?_⟩
    · simp only [calculateAssignment, ht, Outcome.bind_ok]
      rw [show (plans.flatMap fun p => p.2.options) = allOptions plans from rfl,
        replies_of_candidate hcand hpos hpn]
    · intro s'' c'' hf'' hm''
      have := hb s'' c'' hf'' hm''
      omega

/-! ### C36: limited search -/

/-- The completion time of the published assignment (`int64Max` if there is none). -/
def publishedCost (cfg : Config) (order : Node → List Int) (t : Tree)
    (plans : List (Int × PlanOptions)) (m : CostMatrix) : Int :=
  (search (mkInst t (allOptions plans) m.entries) cfg.numberNodesMaximum order).min

/-- **C36.** For every node limit (the default is 0): if any feasible schedule exists, an
assignment is published; it is a feasible schedule (same hypotheses as C35). -/
theorem C36_limited_search_finds_partial {cfg : Config} {order : Node → List Int} {pub : List Int}
    {req : Request} {plans : List (Int × PlanOptions)} {m : CostMatrix} {t : Tree}
    (ho : Orders m order pub) (he : MatrixEligible (allOptions plans) m.entries)
    (hc : ∀ p ∈ allOptions plans, 0 ≤ p.cost)
    (ht : initializeAlgebra req.relationships plans = .ok (some t)) (hd : Distinct t)
    (hn : NonEmptyOps t) {s : Schedule} {c : Int}
    (hf : Feasible (problemOf t (allOptions plans) m.entries) s)
    (hm : Makespan (problemOf t (allOptions plans) m.entries) s c) (hcost : c < int64Max) :
    ∃ tasks s' c', calculateAssignment cfg order pub req plans m =
        .ok [.complete, .summary req.requestId req.operatingRegion tasks] ∧
      Publishes (problemOf t (allOptions plans) m.entries) s' tasks ∧
      Feasible (problemOf t (allOptions plans) m.entries) s' ∧
      Makespan (problemOf t (allOptions plans) m.entries) s' c' ∧
      c' = publishedCost cfg order t plans m := by
  have hg := orders_good ho t (allOptions plans)
  have hvs : (mkInst t (allOptions plans) m.entries).vehicles ≠ [] := by
    obtain ⟨v, hv, -⟩ := hm.2
    have : v ∈ matrixVehicles m.entries := mem_matrixVehicles.2 hv
    intro e
    rw [show (mkInst t (allOptions plans) m.entries).vehicles = matrixVehicles m.entries from rfl] at e
    rw [e] at this; simp at this
  have hpn : pub ≠ [] := by
    obtain ⟨v, hv, -⟩ := hm.2
    have : v ∈ pub := (ho.pubMem v).2 (by simpa [problemOf] using hv)
    intro e; rw [e] at this; simp at this
  rcases search_result (limit := cfg.numberNodesMaximum) hg with
    ⟨hnone, hzero, hmin⟩ | ⟨s', k, hp, hl, hcand, hmin, -, hpos⟩
  · exfalso
    by_cases hlim : cfg.numberNodesMaximum < 0
    · have := search_bound hlim hg he hc hd hn hf hm
      rw [hmin] at this
      omega
    · have hsim := expand_sim (I := mkInst t (allOptions plans) m.entries)
        (l := cfg.numberNodesMaximum) (l' := -1) ⟨by omega, .inr (by omega)⟩ order
        ((Verif.Algebra.actionsOf t).length + 1) rootNode {} {} (.inl ⟨rfl, rfl⟩)
      have hb := search_bound (limit := -1) (by omega) hg he hc hd hn hf hm
      rcases hsim with ⟨heq, -⟩ | ⟨-, h2, -, -⟩
      · have heq' : search (mkInst t (allOptions plans) m.entries) cfg.numberNodesMaximum order =
            search (mkInst t (allOptions plans) m.entries) (-1) order := heq
        rw [← heq', hmin] at hb
        omega
      · have : (search (mkInst t (allOptions plans) m.entries) cfg.numberNodesMaximum order).complete =
            (expandNode (mkInst t (allOptions plans) m.entries) cfg.numberNodesMaximum order
              ((Verif.Algebra.actionsOf t).length + 1) rootNode {}).complete := rfl
        omega
  · refine ⟨pub.flatMap fun v => (k.vs v).tasks, s', k.cost, ?_,
      publishes_of_path he ho.pubMem ho.pubNodup hp, feasible_of_path he hd hn hp hl,
      (makespan_agree (agree_of_eligible he) _ _).1 (path_makespan hvs hp), ?_⟩
    · simp only [calculateAssignment, ht, Outcome.bind_ok]
      rw [show (plans.flatMap fun p => p.2.options) = allOptions plans from rfl,
        replies_of_candidate hcand hpos hpn]
    · exact hmin.symm

/-- **C36.** Visiting more nodes never makes the result worse: with a larger limit, or no limit,
the published completion time is not larger.  No hypothesis on the instance. -/
theorem C36_more_nodes_never_worse (cfg cfg' : Config) (order : Node → List Int) (t : Tree)
    (plans : List (Int × PlanOptions)) (m : CostMatrix)
    (hle : 0 ≤ cfg.numberNodesMaximum ∧ (cfg.numberNodesMaximum ≤ cfg'.numberNodesMaximum ∨
      cfg'.numberNodesMaximum < 0)) :
    publishedCost cfg' order t plans m ≤ publishedCost cfg order t plans m := by
  have hsim := expand_sim (I := mkInst t (allOptions plans) m.entries)
    (l := cfg.numberNodesMaximum) (l' := cfg'.numberNodesMaximum) hle order
    ((Verif.Algebra.actionsOf t).length + 1) rootNode {} {} (.inl ⟨rfl, rfl⟩)
  rcases hsim with ⟨heq, -⟩ | ⟨-, -, h, -⟩
  · exact Int.le_of_eq (congrArg Static.min heq).symm
  · exact h

/-! ### A concrete request -/

/-- The request of the examples. -/
def exReq : Request := { requestId := 5, tasks := [1, 2], relationships := [], operatingRegion := 9 }

/-- The cost matrix of the examples: vehicles 400 and 500. -/
def exMatrix : CostMatrix :=
  { requestId := 5, entries := [
    { vehicle := 400, fromTask := 0, fromOption := 0, toTask := 1, toOption := 1, time := 10 },
    { vehicle := 400, fromTask := 0, fromOption := 0, toTask := 1, toOption := 2, time := 5 },
    { vehicle := 500, fromTask := 0, fromOption := 0, toTask := 1, toOption := 1, time := 6 },
    { vehicle := 500, fromTask := 0, fromOption := 0, toTask := 2, toOption := 1, time := 7 },
    { vehicle := 500, fromTask := 1, fromOption := 1, toTask := 2, toOption := 1, time := 2 },
    { vehicle := 500, fromTask := 2, fromOption := 1, toTask := 1, toOption := 1, time := 2 }] }

/-- The plans of the examples. -/
def exPlans : List (Int × PlanOptions) := [(1, exPlan1), (2, exPlan2)]

/-- The algebra of the examples. -/
def exAlg : Tree := .op .par [.op .alt [.action 100001, .action 100002], .op .seq [.action 200001]]

theorem exOrders : Orders exMatrix (fun _ => [400, 500]) [500, 400] where
  node := by intro n w; simp [exMatrix]; grind
  pubMem := by intro w; simp [exMatrix]; grind
  pubNodup := by decide

theorem exEligible : MatrixEligible (allOptions exPlans) exMatrix.entries := by
  intro e he
  simp only [exMatrix, List.mem_cons, List.not_mem_nil, or_false] at he
  rcases he with rfl | rfl | rfl | rfl | rfl | rfl <;> decide

/-- Vehicle 400 takes option 2 of task 1, then vehicle 500 does task 2. -/
def exSchedule : Schedule := [(100002, 400), (200001, 500)]

theorem exFeasible : Feasible (problemOf exAlg (allOptions exPlans) exMatrix.entries) exSchedule := by
  refine ⟨?_, by decide, ?_⟩
  · exact ⟨[100002], [200001], .left (.right .nil), .inr (.inl rfl), [200001], [],
      .left .nil, ⟨[200001], [], rfl, rfl, rfl⟩, rfl⟩
  · intro v hv
    simp only [problemOf, exMatrix, List.map_cons, List.map_nil, List.mem_cons, List.not_mem_nil,
      or_false] at hv
    have : v = 400 ∨ v = 500 := by grind
    rcases this with rfl | rfl
    · exact ⟨[(100002, 9)], by decide +kernel⟩
    · exact ⟨[(200001, 8)], by decide +kernel⟩

theorem exMakespan : Makespan (problemOf exAlg (allOptions exPlans) exMatrix.entries) exSchedule 9 := by
  refine ⟨?_, 400, by decide, [(100002, 9)], by decide +kernel, by decide⟩
  intro v hv
  simp only [problemOf, exMatrix, List.map_cons, List.map_nil, List.mem_cons, List.not_mem_nil,
    or_false] at hv
  have : v = 400 ∨ v = 500 := by grind
  rcases this with rfl | rfl
  · exact ⟨[(100002, 9)], by decide +kernel, by decide⟩
  · exact ⟨[(200001, 8)], by decide +kernel, by decide⟩

theorem exInit : initializeAlgebra exReq.relationships exPlans = .ok (some exAlg) :=
  C33_all_tasks_in_parallel exGood

theorem exAlg_ok : Distinct exAlg ∧ NonEmptyOps exAlg := by
  constructor
  · unfold Distinct; decide
  · simp [exAlg, NonEmptyOps, Verif.Algebra.NonEmptyOpsList]

/-- The hypotheses of C34, C35 and C36 are met by a request with two tasks and two vehicles. -/
example : ∃ tasks s' c', calculateAssignment { numberNodesMaximum := -1 } (fun _ => [400, 500])
      [500, 400] exReq exPlans exMatrix = .ok [.complete, .summary 5 9 tasks] ∧
    Publishes (problemOf exAlg (allOptions exPlans) exMatrix.entries) s' tasks ∧
    Feasible (problemOf exAlg (allOptions exPlans) exMatrix.entries) s' ∧
    Makespan (problemOf exAlg (allOptions exPlans) exMatrix.entries) s' c' ∧
    ∀ s'' c'', Feasible (problemOf exAlg (allOptions exPlans) exMatrix.entries) s'' →
      Makespan (problemOf exAlg (allOptions exPlans) exMatrix.entries) s'' c'' → c' ≤ c'' :=
  C35_optimal_partial (by decide) exOrders exEligible (by decide) exInit exAlg_ok.1 exAlg_ok.2
    exFeasible exMakespan (by decide)

/-- What it publishes, with the default limit. -/
example : calculateAssignment {} (fun _ => [400, 500]) [500, 400] exReq exPlans exMatrix =
    .ok [.complete, .summary 5 9
      [{ taskId := 2, optionId := 1, vehicle := 500, timeThreshold := 0, timeCompleted := 8 },
       { taskId := 1, optionId := 2, vehicle := 400, timeThreshold := 0, timeCompleted := 9 }]] := by
  decide +kernel

/-! ### Violations -/

/-- **C34 is violated** when the matrix has a leg to an option the vehicle is not eligible for:
vehicle 500 is given option 2 of task 1, for which only 400 is eligible, and the option's duration
(4) is replaced by -1. -/
theorem C34_violated :
    let m : CostMatrix := { requestId := 5, entries := [
      { vehicle := 500, fromTask := 0, fromOption := 0, toTask := 1, toOption := 2, time := 5 }] }
    calculateAssignment {} (fun _ => [500]) [500] { exReq with tasks := [1] } [(1, exPlan1)] m =
      .ok [.complete, .summary 5 9
        [{ taskId := 1, optionId := 2, vehicle := 500, timeThreshold := 0, timeCompleted := 4 }]] ∧
    ∀ o ∈ exPlan1.options, o.optionId = 2 → (500 : Int) ∉ o.eligible := by
  constructor
  · decide +kernel
  · decide

/-- An option without a list of eligible entities, which in the route aggregator means that every
vehicle is eligible. -/
def exOpenPlan : PlanOptions :=
  { requestId := 5, taskId := 1, composition := ".(p1)".toList,
    options := [{ taskId := 1, optionId := 1, cost := 100, eligible := [] }] }

/-- The cost of 100 of such an option is not counted. -/
theorem C34_open_option_cost_ignored :
    let m : CostMatrix := { requestId := 5, entries := [
      { vehicle := 500, fromTask := 0, fromOption := 0, toTask := 1, toOption := 1, time := 5 }] }
    calculateAssignment {} (fun _ => [500]) [500] { exReq with tasks := [1] } [(1, exOpenPlan)] m =
      .ok [.complete, .summary 5 9
        [{ taskId := 1, optionId := 1, vehicle := 500, timeThreshold := 0, timeCompleted := 4 }]] := by
  decide +kernel

/-- Two tasks; the cost of the second is negative. -/
def exNegPlans : List (Int × PlanOptions) :=
  [(1, { requestId := 5, taskId := 1, composition := "+(p1 p2)".toList,
         options := [{ taskId := 1, optionId := 1, cost := 0, eligible := [500] },
                     { taskId := 1, optionId := 2, cost := 0, eligible := [500] }] }),
   (2, { requestId := 5, taskId := 2, composition := ".(p1)".toList,
         options := [{ taskId := 2, optionId := 1, cost := -1, eligible := [500] }] })]

/-- The second leg is longer after option 1. -/
def exNegMatrix : CostMatrix :=
  { requestId := 5, entries := [
    { vehicle := 500, fromTask := 0, fromOption := 0, toTask := 1, toOption := 1, time := 10 },
    { vehicle := 500, fromTask := 0, fromOption := 0, toTask := 1, toOption := 2, time := 11 },
    { vehicle := 500, fromTask := 1, fromOption := 1, toTask := 2, toOption := 1, time := 2 },
    { vehicle := 500, fromTask := 1, fromOption := 2, toTask := 2, toOption := 1, time := 0 }] }

/-- Task 1 before task 2. -/
def exNegAlg : Tree := .op .seq [.op .alt [.action 100001, .action 100002], .op .seq [.action 200001]]

/-- **C35 is violated** when a task has a negative cost: the unlimited search publishes a schedule
that ends at 11, although there is a feasible one with completion time 10 (pruned because it
passes through 11). -/
theorem C35_violated :
    let P := problemOf exNegAlg (allOptions exNegPlans) exNegMatrix.entries
    initializeAlgebra ".(p1 p2)".toList exNegPlans = .ok (some exNegAlg) ∧
    calculateAssignment { numberNodesMaximum := -1 } (fun _ => [500]) [500]
      { exReq with relationships := ".(p1 p2)".toList } exNegPlans exNegMatrix =
      .ok [.complete, .summary 5 9
        [{ taskId := 1, optionId := 1, vehicle := 500, timeThreshold := 0, timeCompleted := 10 },
         { taskId := 2, optionId := 1, vehicle := 500, timeThreshold := 0, timeCompleted := 11 }]] ∧
    Feasible P [(100002, 500), (200001, 500)] ∧ Makespan P [(100002, 500), (200001, 500)] 10 := by
  have hone : ∀ v ∈ (problemOf exNegAlg (allOptions exNegPlans) exNegMatrix.entries).vehicles,
      v = 500 := by
    intro v hv
    simpa [problemOf, exNegMatrix] using hv
  refine ⟨by decide +kernel, by decide +kernel, ⟨?_, by decide, ?_⟩, ?_, ?_⟩
  · exact ⟨[100002], [200001], rfl, .inr (.inl rfl), [200001], [], rfl,
      ⟨[200001], [], rfl, rfl, rfl⟩, rfl⟩
  · intro v hv
    rw [hone v hv]
    exact ⟨[(100002, 11), (200001, 10)], by decide +kernel⟩
  · intro v hv
    rw [hone v hv]
    exact ⟨[(100002, 11), (200001, 10)], by decide +kernel, by decide⟩
  · exact ⟨500, by decide, [(100002, 11), (200001, 10)], by decide +kernel, by decide⟩

/-! ### C37: the cost function -/

/-- The configured cost function has no influence on anything that is published. -/
theorem C37_setting_ignored (cfg : Config) (f : CostFunction) (order : Node → List Int)
    (pub : List Int) (req : Request) (plans : List (Int × PlanOptions)) (m : CostMatrix) :
    calculateAssignment { cfg with costFunction := f } order pub req plans m =
      calculateAssignment cfg order pub req plans m := rfl

/-- Two independent tasks, either vehicle can do both. -/
def exCumPlans : List (Int × PlanOptions) :=
  [(1, { requestId := 5, taskId := 1, composition := ".(p1)".toList,
         options := [{ taskId := 1, optionId := 1, cost := 0, eligible := [400, 500] }] }),
   (2, { requestId := 5, taskId := 2, composition := ".(p1)".toList,
         options := [{ taskId := 2, optionId := 1, cost := 0, eligible := [400, 500] }] })]

/-- Every leg costs 10 for vehicle 400 and 15 for vehicle 500. -/
def exCumMatrix : CostMatrix :=
  { requestId := 5, entries := [
    { vehicle := 400, fromTask := 0, fromOption := 0, toTask := 1, toOption := 1, time := 10 },
    { vehicle := 400, fromTask := 0, fromOption := 0, toTask := 2, toOption := 1, time := 10 },
    { vehicle := 400, fromTask := 1, fromOption := 1, toTask := 2, toOption := 1, time := 10 },
    { vehicle := 400, fromTask := 2, fromOption := 1, toTask := 1, toOption := 1, time := 10 },
    { vehicle := 500, fromTask := 0, fromOption := 0, toTask := 1, toOption := 1, time := 15 },
    { vehicle := 500, fromTask := 0, fromOption := 0, toTask := 2, toOption := 1, time := 15 }] }

/-- **C37 is violated** for CUMULATIVE: the published schedule splits the tasks (total 10 + 15),
although giving both to vehicle 400 is feasible with total 20. -/
theorem C37_cumulative_violated :
    let P := problemOf (.op .par [.op .seq [.action 100001], .op .seq [.action 200001]])
      (allOptions exCumPlans) exCumMatrix.entries
    (∃ a b : Assignment, calculateAssignment { numberNodesMaximum := -1, costFunction := .cumulative }
        (fun _ => [400, 500]) [400, 500] exReq exCumPlans exCumMatrix =
        .ok [.complete, .summary 5 9 [a, b]] ∧
      a.vehicle = 400 ∧ a.timeCompleted = 10 ∧ b.vehicle = 500 ∧ b.timeCompleted = 15) ∧
    Feasible P [(100001, 400), (200001, 400)] ∧
    totalTime P [(100001, 400), (200001, 400)] [400, 500] = some 20 := by
  refine ⟨⟨{ taskId := 1, optionId := 1, vehicle := 400, timeThreshold := 0, timeCompleted := 10 },
    { taskId := 2, optionId := 1, vehicle := 500, timeThreshold := 0, timeCompleted := 15 },
    by decide +kernel, rfl, rfl, rfl, rfl⟩, ⟨?_, by decide, ?_⟩, by decide +kernel⟩
  · exact ⟨[100001], [200001], .left (.right .nil), ⟨[100001], [], rfl, rfl, rfl⟩, [200001], [],
      .left .nil, ⟨[200001], [], rfl, rfl, rfl⟩, rfl⟩
  · intro v hv
    simp only [problemOf, exCumMatrix, List.map_cons, List.map_nil, List.mem_cons,
      List.not_mem_nil, or_false] at hv
    have : v = 400 ∨ v = 500 := by grind
    rcases this with rfl | rfl
    · exact ⟨[(100001, 10), (200001, 20)], by decide +kernel⟩
    · exact ⟨[], by decide +kernel⟩

/-- **C37, partial.** The MINMAX setting is honoured: this is `C35_optimal_partial` with
`costFunction := .minmax`.  Missing: CUMULATIVE, which is violated. -/
theorem C37_minmax_partial {n : Int} (hlim : n < 0) {order : Node → List Int} {pub : List Int}
    {req : Request} {plans : List (Int × PlanOptions)} {m : CostMatrix} {t : Tree}
    (ho : Orders m order pub) (he : MatrixEligible (allOptions plans) m.entries)
    (hc : ∀ p ∈ allOptions plans, 0 ≤ p.cost)
    (ht : initializeAlgebra req.relationships plans = .ok (some t)) (hd : Distinct t)
    (hn : NonEmptyOps t) {s : Schedule} {c : Int}
    (hf : Feasible (problemOf t (allOptions plans) m.entries) s)
    (hm : Makespan (problemOf t (allOptions plans) m.entries) s c) (hcost : c < int64Max) :
    ∃ tasks s' c', calculateAssignment { numberNodesMaximum := n, costFunction := .minmax }
        order pub req plans m =
        .ok [.complete, .summary req.requestId req.operatingRegion tasks] ∧
      Publishes (problemOf t (allOptions plans) m.entries) s' tasks ∧
      Makespan (problemOf t (allOptions plans) m.entries) s' c' ∧
      ∀ s'' c'', Feasible (problemOf t (allOptions plans) m.entries) s'' →
        Makespan (problemOf t (allOptions plans) m.entries) s'' c'' → c' ≤ c'' := by
  obtain ⟨tasks, s', c', h1, h2, -, h4, h5⟩ :=
    C35_optimal_partial (cfg := { numberNodesMaximum := n, costFunction := .minmax }) hlim ho he hc
      ht hd hn hf hm hcost
  exact ⟨tasks, s', c', h1, h2, h4, h5⟩

end Verif.Assign
