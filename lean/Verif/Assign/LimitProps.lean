import Verif.Assign.Limit

/-!
# The limit on the number of nodes (C203)
-/

namespace Verif.Assign

open Verif.Algebra (Run Tree nextActions nextActionsList actionsOf objectives objectivesL)

/-- Not in the code: each option of the expression can be reached by some vehicle from its start and from all options of the expression,
and no leg with the option at its end takes more than `T`. -/
structure Linked (I : Inst) (T : Int) : Prop where
  known : ∀ o ∈ actionsOf I.tree, I.known o = true
  served : ∀ o ∈ actionsOf I.tree, ∃ v ∈ I.vehicles, ∀ f, f = v ∨ f ∈ actionsOf I.tree → ∃ d, I.travel v f o = some d ∧ 0 ≤ d
  short : ∀ o ∈ actionsOf I.tree, ∀ v ∈ I.vehicles, ∀ f d, I.travel v f o = some d → d + (I.duration o v).getD (-1) ≤ T
  low : 0 ≤ T ∧ ((actionsOf I.tree).length : Int) * T < int64Max

/-- What holds at each node on the way. -/
structure Within (I : Inst) (T : Int) (n : Node) : Prop where
  run : Run (algOf I.tree) n.assigned
  total : ∀ w, (n.vs w).total ≤ n.assigned.length * T
  at' : ∀ w, startLocation w (n.vs w) = w ∨ startLocation w (n.vs w) ∈ actionsOf I.tree

theorem within_child {I : Inst} {T : Int} (hL : Linked I T) {n m : Node} (hn : Within I T n) {o v : Int} (ho : o ∈ offersAt I n)
    (hv : v ∈ I.vehicles) (h : Child I n o v m) : Within I T m ∧ m.cost ≤ m.assigned.length * T := by
  have hr := run_child ho h hn.run
  have hoa : o ∈ actionsOf I.tree := (Verif.Algebra.next_sub _ ho).1
  obtain ⟨-, h1, rfl⟩ := h
  have hT := hL.low.1
  have hleg : I.taskTime o v + I.travelTime v (startLocation v (n.vs v)) o ≤ T := by
    cases hd : I.travel v (startLocation v (n.vs v)) o with
    | none => simp [Inst.travelTime, hd] at h1
    | some d =>
      have := hL.short o hoa v hv _ d hd
      simp only [Inst.travelTime, hd, Option.getD_some, Inst.taskTime]
      omega
  have hlen : ((n.assigned ++ [o]).length : Int) * T = n.assigned.length * T + T := by
    simp only [List.length_append, List.length_cons, List.length_nil]
    push_cast
    rw [Int.add_mul]
    omega
  have hend : I.taskTime o v + I.travelTime v (startLocation v (n.vs v)) o + (n.vs v).total ≤ n.assigned.length * T + T := by
    have := hn.total v
    omega
  refine ⟨⟨hr, fun w => ?_, fun w => ?_⟩, ?_⟩
  · simp only [childNode]
    rw [hlen]
    split
    · exact hend
    · have := hn.total w; omega
  · simp only [childNode]
    split
    · right
      simp only [startLocation, List.getLast?_append, List.getLast?_singleton, Option.some_or]
      rw [id_roundtrip]
      exact hoa
    · exact hn.at' w
  · simp only [childNode]
    rw [hlen]
    rcases (nodeCost_spec n.vs v I.vehicles (I.taskTime o v + I.travelTime v (startLocation v (n.vs v)) o + (n.vs v).total)).2.2 with h | ⟨w, -, -, h⟩
    · omega
    · have := hn.total w; omega

theorem within_low {I : Inst} {T : Int} (hL : Linked I T) {a n : Node} (h : Low I a n) : Within I T a → Within I T n := by
  induction h with
  | refl => exact id
  | step h1 h2 h3 _ _ ih => exact fun ha => ih (within_child hL ha h1 h2 h3).1

theorem linked_goes {I : Inst} {T : Int} (hL : Linked I T) : Goes I := by
  intro n hlow hof
  have hroot : Within I T rootNode := ⟨.start, fun w => by simp [rootNode], fun w => .inl (by simp [rootNode, startLocation])⟩
  have hn := within_low hL hlow hroot
  obtain ⟨o, ho⟩ := List.exists_mem_of_ne_nil _ hof
  have hoa : o ∈ actionsOf I.tree := (Verif.Algebra.next_sub _ ho).1
  obtain ⟨v, hv, hd⟩ := hL.served o hoa
  obtain ⟨d, hd, hd0⟩ := hd _ (hn.at' v)
  have hc : Child I n o v _ := ⟨hL.known o hoa, by simpa [Inst.travelTime, hd] using hd0, rfl⟩
  refine ⟨o, ho, v, hv, _, hc, ?_⟩
  obtain ⟨h1, h2⟩ := within_child hL hn ho hv hc
  have hb := run_bound h1.run
  rw [Verif.Algebra.objectives_eq] at hb
  have : ((childNode n v o _ _).assigned.length : Int) * T ≤ ((actionsOf I.tree).length : Int) * T :=
    Int.mul_le_mul_of_nonneg_right (by exact_mod_cast hb) hL.low.1
  have := hL.low.2
  omega

theorem actions_par : ∀ l : List Int, Verif.Algebra.actionsOfList (l.map Tree.action) = l
  | [] => rfl
  | a :: l => by simp [Verif.Algebra.actionsOfList, Verif.Algebra.actionsOf, actions_par l]

/-- **C203, in part.**  If each option can be reached by some vehicle from everywhere, in times that add up to less than 2^63 - 1, then a
search with a limit visits no more nodes than the limit, or the way down to the first assignment if this is more, and one round more: a
round tries each option of the expression with each vehicle, and the way down has no more rounds than there are options, and one. -/
theorem C203_limited_partial {I : Inst} {T : Int} (hL : Linked I T) {order : Node → List Int} (ho : GoodOrder I order)
    (hlen : ∀ n, (order n).length ≤ I.vehicles.length) {limit : Int} (h0 : 0 ≤ limit) :
    ((search I limit order).visited : Int) ≤
      max limit (((actionsOf I.tree).length + 1) * ((actionsOf I.tree).length * I.vehicles.length)) +
        (actionsOf I.tree).length * I.vehicles.length := by
  have hfuel : (objectives I.tree).length < rootNode.assigned.length + ((actionsOf I.tree).length + 1) := by
    simp only [rootNode, List.length_nil, Nat.zero_add, Verif.Algebra.objectives_eq]
    exact Nat.lt_succ_self _
  have h := (first_node (I := I) h0 (B := max limit (((actionsOf I.tree).length + 1) * ((actionsOf I.tree).length * I.vehicles.length)))
    (Int.le_max_left _ _) ho hlen (linked_goes hL) _ rootNode {} .refl .start hfuel (by decide) rfl rfl rfl (by
      rw [Verif.Algebra.objectives_eq]
      push_cast
      rw [Int.zero_add]
      exact Int.le_max_right _ _)).1.2
  rw [Verif.Algebra.objectives_eq] at h
  push_cast at h
  exact h

/-- **C203, in part.**  In every case a limited search visits no more nodes than the limit, or than the search that ends once it has found
an assignment if this is more, and one round more. -/
theorem C203_relative_partial {I : Inst} {order : Node → List Int} (ho : GoodOrder I order)
    (hlen : ∀ n, (order n).length ≤ I.vehicles.length) {limit : Int} (h0 : 0 ≤ limit) :
    ((search I limit order).visited : Int) ≤
      max limit (search I 0 order).visited + (actionsOf I.tree).length * I.vehicles.length := by
  have h := both_node (I := I) h0 ho hlen ((actionsOf I.tree).length + 1) rootNode {} rfl
  rw [Verif.Algebra.objectives_eq] at h
  rcases h with ⟨h, -⟩ | ⟨-, -, h⟩
  · have e : search I 0 order = search I limit order := h
    rw [← e]
    have : (0 : Int) ≤ (actionsOf I.tree).length * I.vehicles.length := by exact_mod_cast Nat.zero_le _
    have := Int.le_max_right limit (search I 0 order).visited
    omega
  · have := (h _ (Int.le_max_left limit (search I 0 order).visited) (Int.le_max_right _ _)).2
    push_cast at this
    exact this

/-- **C203 is false**: with one task that cannot be reached beside `n` others, the search visits `n! - 1` nodes at least, whatever the limit,
though there is one vehicle only. -/
theorem C203_unreachable_violated (n : Nat) (limit : Int) (order : Node → List Int) (ho : GoodOrder (farInst n) order) :
    (actionsOf (farInst n).tree).length = n + 1 ∧ (farInst n).vehicles.length = 1 ∧
    n.factorial ≤ (search (farInst n) limit order).visited + 1 := by
  refine ⟨?_, rfl, (C201_factorial_violated n limit order ho).2⟩
  simp only [farInst, Verif.Algebra.actionsOf, actions_par]
  simp [near]

/-! ### The hypotheses are met -/

/-- Two vehicles and `n` tasks beside each other; each leg takes 3 and each task 4. -/
def closeInst (n : Nat) : Inst where
  tree := .op .par ((near n).map .action)
  vehicles := [501, 502]
  travel := fun _ _ _ => some 3
  known := fun _ => true
  duration := fun _ _ => some 4

theorem close_order (n : Nat) : GoodOrder (closeInst n) fun _ => [502, 501] := by
  intro _ w
  simp only [closeInst, List.mem_cons, List.not_mem_nil, or_false]
  tauto

theorem close_linked {n : Nat} (h : n < 1000000) : Linked (closeInst n) 7 where
  known := fun _ _ => rfl
  served := fun _ _ => ⟨501, by simp [closeInst], fun _ _ => ⟨3, rfl, by decide⟩⟩
  short := fun o _ v _ f d h => by
    simp only [closeInst, Option.some.injEq] at h
    subst h
    show (3 : Int) + 4 ≤ 7
    decide
  low := by
    simp only [closeInst, actionsOf, actions_par, near, List.length_map, List.length_range, int64Max]
    omega

/-- `C203_limited_partial` for a thousand tasks and a limit of 5000000 nodes: there are 1000! orders of the tasks. -/
example : ((search (closeInst 1000) 5000000 fun _ => [502, 501]).visited : Int) ≤ 5002000 := by
  have hn : (actionsOf (closeInst 1000).tree).length = 1000 := by
    simp only [closeInst, Verif.Algebra.actionsOf, actions_par]
    simp [near]
  have h := C203_limited_partial (close_linked (n := 1000) (by decide)) (close_order 1000) (fun _ => Nat.le_refl 2) (limit := 5000000) (by decide)
  rw [hn] at h
  exact h

/-- `C203_relative_partial` on three tasks: 14 nodes until something is found, and with the limit 20 two more than the limit. -/
example : (search (closeInst 3) 0 fun _ => [502, 501]).visited = 14 ∧ (search (closeInst 3) 20 fun _ => [502, 501]).visited = 22 := by
  decide +kernel

end Verif.Assign
