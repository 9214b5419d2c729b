import Verif.Assign.SearchProps

/-!
# What a limited search returns, for every request (C36)

Without the hypotheses of C34 and C35: durations may be negative and the cost matrix may have legs to options that a vehicle is not eligible for.
The problem is then the one the cost matrix states (`relaxed`).
-/

namespace Verif.Assign

open Verif.Algebra (Tree Alg nextActions Run Offers Word Distinct NonEmptyOps)

/-! ### The complete assignments that are visited -/

/-- Not in the code: `expandChildren` with a record of the complete assignments that were visited. -/
def logChildren (expand : Node → Static × List Node → Static × List Node) :
    List Node → Static × List Node → Static × List Node
  | [], a => a
  | c :: cs, a => logChildren expand cs (if c.cost < a.1.min ∧ a.1.stop = false then expand c a else a)

/-- Not in the code: `expandNode` with a record of the complete assignments that were visited: the nodes at which nothing is left to do. -/
def logNode (I : Inst) (limit : Int) (order : Node → List Int) : Nat → Node → Static × List Node → Static × List Node
  | 0, _, a => a
  | fuel + 1, n, a =>
    let offers := (nextActions n.assigned I.tree).1
    let r := assignAll I limit (order n) n offers (a.1, [])
    if r.1.stop then (r.1, a.2)
    else if r.2 ≠ [] then logChildren (logNode I limit order fuel) r.2 (r.1, a.2)
    else if offers = [] then (newLeaf n r.1, a.2 ++ [n])
    else (r.1, a.2)

/-- Not in the code: the complete assignments a search visits, in its order. -/
def visitedLeaves (I : Inst) (limit : Int) (order : Node → List Int) : List Node :=
  (logNode I limit order ((Verif.Algebra.actionsOf I.tree).length + 1) rootNode ({}, [])).2

theorem logChildren_fst {f : Node → Static × List Node → Static × List Node} {g : Node → Static → Static}
    (h : ∀ c a, (f c a).1 = g c a.1) : ∀ cs a, (logChildren f cs a).1 = expandChildren g cs a.1
  | [], _ => rfl
  | c :: cs, a => by
      simp only [logChildren, expandChildren]
      rw [logChildren_fst h cs]
      congr 1
      split
      · exact h c a
      · rfl

/-- The record changes nothing. -/
theorem logNode_fst (I : Inst) (limit : Int) (order : Node → List Int) :
    ∀ fuel n a, (logNode I limit order fuel n a).1 = expandNode I limit order fuel n a.1
  | 0, _, _ => rfl
  | fuel + 1, n, a => by
      simp only [logNode, expandNode]
      split
      · rfl
      · split
        · exact logChildren_fst (logNode_fst I limit order fuel) _ _
        · split <;> rfl

/-- The least cost of the record and its node. -/
structure Best (a : Static × List Node) : Prop where
  le : ∀ n ∈ a.2, a.1.min ≤ n.cost
  some : ∀ c, a.1.candidate = some c → ∃ n ∈ a.2, c = n.vs ∧ a.1.min = n.cost ∧ n.cost < int64Max
  none : a.1.candidate = none → a.1.min = int64Max
  count : a.1.complete = 0 ↔ a.1.candidate = Option.none

theorem Best.round {limit : Int} {a : Static × List Node} {st : Static} (h : Best a) (r : Round limit a.1 st) : Best (st, a.2) where
  le := by intro n hn; show st.min ≤ _; rw [r.min]; exact h.le n hn
  some := by
    intro c hc
    have hc' : st.candidate = .some c := hc
    rw [r.candidate] at hc'
    obtain ⟨n, h1, h2, h3, h4⟩ := h.some c hc'
    exact ⟨n, h1, h2, by show st.min = _; rw [r.min]; exact h3, h4⟩
  none := by
    intro hc
    have hc' : st.candidate = .none := hc
    rw [r.candidate] at hc'
    show st.min = _
    rw [r.min]; exact h.none hc'
  count := by show st.complete = 0 ↔ st.candidate = .none; rw [r.complete, r.candidate]; exact h.count

theorem Best.min_le {a : Static × List Node} (h : Best a) : a.1.min ≤ int64Max := by
  cases hc : a.1.candidate with
  | none => rw [h.none hc]; exact Int.le_refl _
  | some c => obtain ⟨n, -, -, h1, h2⟩ := h.some c hc; omega

theorem Best.leaf {a : Static × List Node} {st : Static} (h : Best (st, a.2)) (n : Node) : Best (newLeaf n st, a.2 ++ [n]) := by
  have hm := h.min_le
  simp only at hm
  unfold newLeaf
  split
  · next hlt =>
    refine ⟨?_, ?_, ?_, ?_⟩
    · intro k hk
      rcases List.mem_append.1 hk with hk | hk
      · have := h.le k hk
        simp only at this ⊢
        omega
      · simp only [List.mem_singleton] at hk
        subst hk
        exact Int.le_refl _
    · intro c hc
      simp only [Option.some.injEq] at hc
      exact ⟨n, by simp, hc.symm, rfl, by omega⟩
    · intro hc; simp at hc
    · simp
  · next hlt =>
    refine ⟨?_, ?_, h.none, h.count⟩
    · intro k hk
      rcases List.mem_append.1 hk with hk | hk
      · exact h.le k hk
      · simp only [List.mem_singleton] at hk
        subst hk
        simp only
        omega
    · intro c hc
      obtain ⟨k, h1, h2⟩ := h.some c hc
      exact ⟨k, by simp [h1], h2⟩

theorem logChildren_best {f : Node → Static × List Node → Static × List Node} (hf : ∀ c a, Best a → Best (f c a)) :
    ∀ cs a, Best a → Best (logChildren f cs a)
  | [], _, h => h
  | c :: cs, a, h => by
      simp only [logChildren]
      apply logChildren_best hf cs
      split
      · exact hf c a h
      · exact h

theorem logNode_best {I : Inst} {limit : Int} {order : Node → List Int} (ho : GoodOrder I order) :
    ∀ fuel n a, Best a → Best (logNode I limit order fuel n a)
  | 0, _, _, h => h
  | fuel + 1, n, a, h => by
      obtain ⟨hr, -⟩ := assignAll_spec (limit := limit) (ho n) n (nextActions n.assigned I.tree).1 (a.1, [])
      simp only [logNode]
      have hb := h.round hr
      split
      · exact hb
      · split
        · exact logChildren_best (logNode_best ho fuel) _ _ hb
        · split
          · exact hb.leaf n
          · exact hb

theorem best_start : Best ({}, []) := ⟨by simp, by intro c hc; simp at hc, fun _ => rfl, by simp⟩

/-! ### The dive -/

/-- A way down in the tree on which all completion times are below 2^63 - 1. -/
inductive Low (I : Inst) : Node → Node → Prop where
  | refl {n} : Low I n n
  | step {n o v m k} : o ∈ offersAt I n → v ∈ I.vehicles → Child I n o v m → m.cost < int64Max → Low I m k → Low I n k

theorem dive_children {I : Inst} {limit : Int} (hl : limit < 0) {order : Node → List Int} (ho : GoodOrder I order) {fuel : Nat} {m : Node}
    (ih : ∀ st : Static, st.stop = false → (expandNode I limit order fuel m st).min < int64Max) (hm : m.cost < int64Max) :
    ∀ (cs : List Node) (st : Static), st.stop = false → m ∈ cs → (expandChildren (expandNode I limit order fuel) cs st).min < int64Max
  | [], _, _, h => by simp at h
  | c :: cs, st, hs, h => by
      have mono := fun cs st => (expandChildren_complete (expand_complete I limit order fuel) cs st).1
      simp only [expandChildren, hs, and_true]
      rcases List.mem_cons.1 h with rfl | h
      · by_cases hlt : m.cost < st.min
        · rw [if_pos hlt]
          have := mono cs (expandNode I limit order fuel m st)
          have := ih st hs
          omega
        · rw [if_neg hlt]
          have := mono cs st
          omega
      · apply dive_children hl ho ih hm cs _ _ h
        split
        · exact expand_stop hl ho fuel c st hs
        · exact hs

theorem expand_dive {I : Inst} {limit : Int} (hl : limit < 0) {order : Node → List Int} (ho : GoodOrder I order) :
    ∀ (fuel : Nat) (n : Node) (st : Static), Run (algOf I.tree) n.assigned →
    (Verif.Algebra.objectives I.tree).length < n.assigned.length + fuel → st.stop = false → n.cost < int64Max →
    ∀ k, Low I n k → offersAt I k = [] → (expandNode I limit order fuel n st).min < int64Max
  | 0, n, st, hr, hlen, _, _ => by
    have := run_bound hr
    omega
  | fuel + 1, n, st, hrun, hlen, hs, hcost => by
    intro k hk hof
    by_cases hmin : st.min < int64Max
    · have := (expand_complete I limit order (fuel + 1) n st).1
      omega
    obtain ⟨hr, hch⟩ := assignAll_spec (limit := limit) (ho n) n (offersAt I n) (st, [])
    simp only [expandNode]
    rw [show (nextActions n.assigned I.tree).1 = offersAt I n from rfl]
    generalize assignAll I limit (order n) n (offersAt I n) (st, []) = r at hr hch
    have hs1 : r.1.stop = false := by
      cases hr1 : r.1.stop with
      | false => rfl
      | true =>
        rcases hr.why hr1 with h' | ⟨h', -⟩
        · simp [hs] at h'
        · omega
    rw [if_neg (by simp [hs1])]
    have hm : r.1.min = st.min := hr.min
    cases hk with
    | refl =>
      have : r.2 = [] := by
        cases hr2 : r.2 with
        | nil => rfl
        | cons c cs =>
          have := (hch c).1 (by simp [hr2])
          simp [hof] at this
      rw [if_neg (by simp [this]), if_pos hof]
      unfold newLeaf
      rw [if_pos (by omega)]
      exact hcost
    | @step _ o v m _ hoff hv hc hlow hd =>
      have hmem : m ∈ r.2 := (hch m).2 (.inr ⟨o, hoff, v, hv, hc, by simp only; omega⟩)
      rw [if_pos (by intro e; rw [e] at hmem; simp at hmem)]
      refine dive_children hl ho (fun st' hst => ?_) hlow r.2 r.1 hs1 hmem
      refine expand_dive hl ho fuel m st' (run_child hoff hc hrun) ?_ hst hlow k hd hof
      rw [assigned_of_child hc]
      simp only [List.length_append, List.length_cons, List.length_nil]
      omega

theorem path_low {I : Inst} {s : Schedule} {k : Node} (h : Path I s k) :
    (∀ s' n, s' <+: s → Path I s' n → n.cost < int64Max) → ∀ m, Low I k m → Low I rootNode m := by
  induction h with
  | root => exact fun _ m h => h
  | @snoc s n o v m' hp ho hv hc ih =>
      intro hall m hm
      refine ih (fun s' n' hpre hp' => hall s' n' (hpre.trans (List.prefix_append _ _)) hp') m ?_
      exact .step ho hv hc (hall _ m' (List.prefix_refl _) (.snoc hp ho hv hc)) hm

/-- Every limited search finds something if there is something to find. -/
theorem search_finds {I : Inst} {limit : Int} {order : Node → List Int} (ho : GoodOrder I order) {k : Node}
    (hk : Low I rootNode k) (hof : offersAt I k = []) : 0 < (search I limit order).complete := by
  have hfuel : (Verif.Algebra.objectives I.tree).length < rootNode.assigned.length + ((Verif.Algebra.actionsOf I.tree).length + 1) := by
    simp only [rootNode, List.length_nil, Nat.zero_add, Verif.Algebra.objectives_eq]
    exact Nat.lt_succ_self _
  have hfree := expand_dive (I := I) (limit := -1) (by omega) ho _ rootNode {} .start hfuel rfl (by decide) k hk hof
  have key : ∀ l, (search I l order).min < int64Max → 0 < (search I l order).complete := by
    intro l h
    rcases search_result (limit := l) ho with ⟨-, -, h'⟩ | ⟨_, _, -, -, -, -, -, h'⟩
    · omega
    · exact h'
  by_cases hl : limit < 0
  · exact key limit (expand_dive (I := I) hl ho _ rootNode {} .start hfuel rfl (by decide) k hk hof)
  · have hsim := expand_sim (I := I) (l := limit) (l' := -1) ⟨by omega, .inr (by omega)⟩ order
      ((Verif.Algebra.actionsOf I.tree).length + 1) rootNode {} {} (.inl ⟨rfl, rfl⟩)
    rcases hsim with ⟨heq, -⟩ | ⟨-, h2, -, -⟩
    · have heq' : search I limit order = search I (-1) order := heq
      rw [heq']
      exact key (-1) hfree
    · exact h2

/-! ### C36 -/

/-- A published list of assignments is a schedule, in the problem the cost matrix states. -/
theorem publishes_relaxed {t : Tree} {os : List TaskOption} {es : List CostEntry} {pub : List Int}
    (hpub : ∀ w, w ∈ pub ↔ ∃ e ∈ es, e.vehicle = w) (hnd : pub.Nodup) {s : Schedule} {k : Node} (hp : Path (mkInst t os es) s k) :
    Publishes (relaxed (mkInst t os es)) s (pub.flatMap fun v => (k.vs v).tasks) := by
  have hre := path_realises hp
  have hL : ∀ v, (k.vs v).tasks = ((vehiclePlan (relaxed (mkInst t os es)) s v).getD []).map (published v) := by
    intro v
    obtain ⟨l, h1, h2, -⟩ := hre.plan v
    rw [h1, h2]; rfl
  have hv : ∀ w, w ∈ pub ↔ w ∈ (relaxed (mkInst t os es)).vehicles := by
    intro w
    rw [hpub, show (relaxed (mkInst t os es)).vehicles = matrixVehicles es from rfl, mem_matrixVehicles]
    simp
  refine ⟨?_, ?_⟩
  · intro a ha
    obtain ⟨w, hw, haw⟩ := List.mem_flatMap.1 ha
    rw [hL] at haw
    obtain ⟨e, -, rfl⟩ := List.mem_map.1 haw
    exact (hv w).1 hw
  · intro v hvm
    obtain ⟨l, h1, h2, -⟩ := hre.plan v
    refine ⟨l, h1, ?_⟩
    rw [filter_flatMap hL v pub hnd, if_pos ((hv v).2 hvm), h2]

/-- **C36.**  Whatever the limit, the durations and the matrix: if any schedule is feasible as the matrix states it and its completion times stay
below 2^63 - 1 on the way, an assignment is published, and it is a feasible schedule in this sense. -/
theorem C36_limited_search_finds {cfg : Config} {order : Node → List Int} {pub : List Int}
    {req : Request} {plans : List (Int × PlanOptions)} {m : CostMatrix} {t : Tree} (ho : Orders m order pub) (hne : m.entries ≠ [])
    (ht : initializeAlgebra req.relationships plans = .ok (some t)) (hd : Distinct t) (hn : NonEmptyOps t) {s : Schedule}
    (hf : Feasible (relaxed (mkInst t (allOptions plans) m.entries)) s)
    (hlow : ∀ s' c, s' <+: s → Makespan (relaxed (mkInst t (allOptions plans) m.entries)) s' c → c < int64Max) :
    ∃ tasks s' c', calculateAssignment cfg order pub req plans m = .ok [.complete, .summary req.requestId req.operatingRegion tasks] ∧
      Publishes (relaxed (mkInst t (allOptions plans) m.entries)) s' tasks ∧
      Feasible (relaxed (mkInst t (allOptions plans) m.entries)) s' ∧
      Makespan (relaxed (mkInst t (allOptions plans) m.entries)) s' c' ∧ c' = publishedCost cfg order t plans m := by
  have hg := orders_good ho t (allOptions plans)
  obtain ⟨e, he⟩ := List.exists_mem_of_ne_nil _ hne
  have hvs : (mkInst t (allOptions plans) m.entries).vehicles ≠ [] := by
    have : e.vehicle ∈ matrixVehicles m.entries := mem_matrixVehicles.2 (List.mem_map.2 ⟨e, he, rfl⟩)
    intro e'
    rw [show (mkInst t (allOptions plans) m.entries).vehicles = matrixVehicles m.entries from rfl] at e'
    rw [e'] at this; simp at this
  have hpn : pub ≠ [] := by
    have := (ho.pubMem e.vehicle).2 ⟨e, he, rfl⟩
    intro e'; rw [e'] at this; simp at this
  obtain ⟨hw, hu, hp⟩ := hf
  have hrun := (Verif.Algebra.C28_complete_orders (g := algOf t) rfl hd hn _).2 hw
  obtain ⟨k, hk⟩ := exists_path (I := mkInst t (allOptions plans) m.entries) hrun.1 s rfl hu hp
  have hl := path_low hk (fun s' n hpre hp' => hlow s' _ hpre (path_makespan hvs hp')) k .refl
  have hleaf := (offersAt_word (I := mkInst t (allOptions plans) m.entries) hd hn hk).2 hw
  have hpos := search_finds (limit := cfg.numberNodesMaximum) hg hl hleaf
  rcases search_result (limit := cfg.numberNodesMaximum) hg with ⟨-, h0, -⟩ | ⟨s', k', hp', hl', hcand, hmin, -, hpos'⟩
  · omega
  · have hre := path_realises hp'
    refine ⟨pub.flatMap fun v => (k'.vs v).tasks, s', k'.cost, ?_, publishes_relaxed ho.pubMem ho.pubNodup hp',
      ⟨(offersAt_word (I := mkInst t (allOptions plans) m.entries) hd hn hp').1 hl', hre.used, fun v _ => ?_⟩, path_makespan hvs hp', hmin.symm⟩
    · simp only [calculateAssignment, ht, Outcome.bind_ok]
      rw [show (plans.flatMap fun p => p.2.options) = allOptions plans from rfl, replies_of_candidate hcand hpos' hpn]
    · obtain ⟨l, h1, -⟩ := hre.plan v
      exact ⟨l, h1⟩

/-- **C36.**  What is published is the best of the complete assignments that were visited: its completion time is the least of them, and there is
none exactly if none was visited with a completion time below 2^63 - 1. -/
theorem C36_best_visited {I : Inst} {limit : Int} {order : Node → List Int} (ho : GoodOrder I order) :
    (∀ n ∈ visitedLeaves I limit order, (search I limit order).min ≤ n.cost) ∧
    (∀ c, (search I limit order).candidate = some c →
      ∃ n ∈ visitedLeaves I limit order, c = n.vs ∧ (search I limit order).min = n.cost) ∧
    ((search I limit order).candidate = none ↔ ∀ n ∈ visitedLeaves I limit order, int64Max ≤ n.cost) ∧
    ((search I limit order).complete = 0 ↔ (search I limit order).candidate = none) := by
  have h := logNode_best (limit := limit) ho ((Verif.Algebra.actionsOf I.tree).length + 1) rootNode ({}, []) best_start
  have e := logNode_fst I limit order ((Verif.Algebra.actionsOf I.tree).length + 1) rootNode ({}, [])
  have e' : search I limit order = (logNode I limit order ((Verif.Algebra.actionsOf I.tree).length + 1) rootNode ({}, [])).1 := e.symm
  unfold visitedLeaves
  rw [e']
  refine ⟨h.le, ?_, ⟨?_, ?_⟩, h.count⟩
  · intro c hc
    obtain ⟨n, h1, h2, h3, -⟩ := h.some c hc
    exact ⟨n, h1, h2, h3⟩
  · intro hc n hn
    have := h.le n hn
    rw [h.none hc] at this
    exact this
  · intro hall
    cases hc : (logNode I limit order ((Verif.Algebra.actionsOf I.tree).length + 1) rootNode ({}, [])).1.candidate with
    | none => rfl
    | some c =>
      obtain ⟨n, h1, -, -, h4⟩ := h.some c hc
      have := hall n h1
      omega

/-- Every visited one is complete: the nodes of the record are those at which nothing is left to do, below the root. -/
theorem logChildren_mem {I : Inst} {n : Node} {f : Node → Static × List Node → Static × List Node}
    (hf : ∀ c a k, k ∈ (f c a).2 → k ∈ a.2 ∨ (Desc I c k ∧ offersAt I k = [])) : ∀ cs {a : Static × List Node},
    (∀ c ∈ cs, ∃ o v, o ∈ offersAt I n ∧ v ∈ I.vehicles ∧ Child I n o v c) →
    ∀ k ∈ (logChildren f cs a).2, k ∈ a.2 ∨ (Desc I n k ∧ offersAt I k = [])
  | [], _, _, k, hk => .inl hk
  | c :: cs, a, h, k, hk => by
      simp only [logChildren] at hk
      rcases logChildren_mem hf cs (fun d hd => h d (by simp [hd])) k hk with hk | hk
      · split at hk
        · rcases hf c a k hk with hk | ⟨hk1, hk2⟩
          · exact .inl hk
          · obtain ⟨o, v, ho, hv, hc⟩ := h c (by simp)
            exact .inr ⟨.step ho hv hc hk1, hk2⟩
        · exact .inl hk
      · exact .inr hk

theorem logNode_mem {I : Inst} {limit : Int} {order : Node → List Int} (ho : GoodOrder I order) : ∀ fuel n a k,
    k ∈ (logNode I limit order fuel n a).2 → k ∈ a.2 ∨ (Desc I n k ∧ offersAt I k = [])
  | 0, _, _, _, h => .inl h
  | fuel + 1, n, a, k, h => by
      obtain ⟨-, hch⟩ := assignAll_spec (limit := limit) (ho n) n (offersAt I n) (a.1, [])
      simp only [logNode] at h
      rw [show (nextActions n.assigned I.tree).1 = offersAt I n from rfl] at h
      split at h
      · exact .inl h
      · split at h
        · have := logChildren_mem (n := n) (logNode_mem ho fuel) _ (fun c hc => by
            rcases (hch c).1 hc with h | ⟨o, ho', v, hv, hc, -⟩
            · simp at h
            · exact ⟨o, v, ho', hv, hc⟩) k h
          exact this
        · split at h
          · next hof =>
            rcases List.mem_append.1 h with h | h
            · exact .inl h
            · simp only [List.mem_singleton] at h
              subst h
              exact .inr ⟨.refl, hof⟩
          · exact .inl h

/-- **C36.**  The visited ones are complete schedules, feasible as the matrix states it, with their completion times. -/
theorem C36_visited_feasible {t : Tree} {os : List TaskOption} {es : List CostEntry} (hne : es ≠ []) {limit : Int} {order : Node → List Int}
    (ho : GoodOrder (mkInst t os es) order) (hd : Distinct t) (hn : NonEmptyOps t) :
    ∀ k ∈ visitedLeaves (mkInst t os es) limit order, ∃ s, Feasible (relaxed (mkInst t os es)) s ∧ Makespan (relaxed (mkInst t os es)) s k.cost := by
  intro k hk
  obtain ⟨e, he⟩ := List.exists_mem_of_ne_nil _ hne
  have hvs : (mkInst t os es).vehicles ≠ [] := by
    have : e.vehicle ∈ matrixVehicles es := mem_matrixVehicles.2 (List.mem_map.2 ⟨e, he, rfl⟩)
    intro e'
    rw [show (mkInst t os es).vehicles = matrixVehicles es from rfl] at e'
    rw [e'] at this; simp at this
  rcases logNode_mem ho _ rootNode _ k hk with h | ⟨h1, h2⟩
  · simp at h
  · obtain ⟨s, hs⟩ := desc_path h1 [] .root
    have hre := path_realises hs
    refine ⟨s, ⟨(offersAt_word (I := mkInst t os es) hd hn hs).1 h2, hre.used, fun v _ => ?_⟩, path_makespan hvs hs⟩
    obtain ⟨l, h1, -⟩ := hre.plan v
    exact ⟨l, h1⟩

/-! ### The request with a negative duration of `C35_violated` -/

/-- The only vehicle does the second option of task 1, then task 2. -/
def exNegSchedule : Schedule := [(100002, 500), (200001, 500)]

/-- `C36_limited_search_finds`, with the default limit: the hypotheses are met though a duration is negative. -/
example : ∃ tasks s' c', calculateAssignment {} (fun _ => [500]) [500] { exReq with relationships := ".(p1 p2)".toList } exNegPlans exNegMatrix =
      .ok [.complete, .summary 5 9 tasks] ∧
    Publishes (relaxed (mkInst exNegAlg (allOptions exNegPlans) exNegMatrix.entries)) s' tasks ∧
    Feasible (relaxed (mkInst exNegAlg (allOptions exNegPlans) exNegMatrix.entries)) s' ∧
    Makespan (relaxed (mkInst exNegAlg (allOptions exNegPlans) exNegMatrix.entries)) s' c' ∧
    c' = publishedCost {} (fun _ => [500]) exNegAlg exNegPlans exNegMatrix := by
  have hv : ∀ v, v ∈ (relaxed (mkInst exNegAlg (allOptions exNegPlans) exNegMatrix.entries)).vehicles → v = 500 := by
    have : (relaxed (mkInst exNegAlg (allOptions exNegPlans) exNegMatrix.entries)).vehicles = [500] := by decide +kernel
    rw [this]; simp
  refine C36_limited_search_finds (cfg := {}) (m := exNegMatrix) (s := exNegSchedule) ⟨?_, ?_, by decide⟩ (by decide) C35_violated.1 ?_ ?_ ⟨?_, by decide +kernel, ?_⟩ ?_
  · intro n w; simp [exNegMatrix, eq_comm]
  · intro w; simp [exNegMatrix, eq_comm]
  · unfold Distinct; decide
  · simp [exNegAlg, NonEmptyOps, Verif.Algebra.NonEmptyOpsList]
  · exact ⟨[100002], [200001], rfl, .inr (.inl rfl), [200001], [], rfl, ⟨[200001], [], rfl, rfl, rfl⟩, rfl⟩
  · intro v h
    obtain rfl := hv v h
    exact ⟨[(100002, 11), (200001, 10)], by decide +kernel⟩
  · intro s' c hpre hm
    obtain ⟨v, h1, l, h2, h3⟩ := hm.2
    obtain rfl := hv v h1
    have hs : s' = [] ∨ s' = [(100002, 500)] ∨ s' = exNegSchedule := by
      obtain ⟨r, hr⟩ := hpre
      match s', hr with
      | [], _ => exact .inl rfl
      | [a], hr => simp [exNegSchedule] at hr; exact .inr (.inl (by rw [hr.1]))
      | [a, b], hr => simp [exNegSchedule] at hr; exact .inr (.inr (by rw [hr.1, hr.2.1]; rfl))
      | a :: b :: c :: d, hr => simp [exNegSchedule] at hr
    rcases hs with rfl | rfl | rfl
    · have e : vehiclePlan (relaxed (mkInst exNegAlg (allOptions exNegPlans) exNegMatrix.entries)) [] 500 = some [] := by decide +kernel
      rw [e] at h2; cases h2; rw [← h3]; decide
    · have e : vehiclePlan (relaxed (mkInst exNegAlg (allOptions exNegPlans) exNegMatrix.entries)) [(100002, 500)] 500 = some [(100002, 11)] := by decide +kernel
      rw [e] at h2; cases h2; rw [← h3]; decide
    · have e : vehiclePlan (relaxed (mkInst exNegAlg (allOptions exNegPlans) exNegMatrix.entries)) exNegSchedule 500 = some [(100002, 11), (200001, 10)] := by decide +kernel
      rw [e] at h2; cases h2; rw [← h3]; decide

/-- `C36_best_visited`, `C36_visited_feasible`: the search of this request visits one complete assignment, which ends at 11; the better one is
pruned on the way. -/
example : (visitedLeaves (mkInst exNegAlg (allOptions exNegPlans) exNegMatrix.entries) (-1) (fun _ => [500])).map Node.cost = [11] := by decide +kernel

end Verif.Assign
