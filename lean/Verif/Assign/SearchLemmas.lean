import Verif.Assign.Spec
import Verif.Algebra.Props

/-! Lemmas about the branch and bound search. -/

namespace Verif.Assign

open Verif.Algebra (Tree Alg nextActions Run Offers Word)

/-- The objectives offered at a node. -/
def offersAt (I : Inst) (n : Node) : List Int := (nextActions n.assigned I.tree).1

/-- `m` is `n` with objective `o` given to vehicle `v`. -/
def Child (I : Inst) (n : Node) (o v : Int) (m : Node) : Prop :=
  I.known o = true ∧ 0 ≤ I.travelTime v (startLocation v (n.vs v)) o ∧
  m = childNode n v o (I.taskTime o v + I.travelTime v (startLocation v (n.vs v)) o + (n.vs v).total)
    (nodeCost I.vehicles n.vs v
      (I.taskTime o v + I.travelTime v (startLocation v (n.vs v)) o + (n.vs v).total))

/-! ### The cost of a node -/

theorem nodeCost_spec (vs : Int → VState) (v : Int) : ∀ (l : List Int) (e : Int),
    e ≤ nodeCost l vs v e ∧ (∀ w ∈ l, w ≠ v → (vs w).total ≤ nodeCost l vs v e) ∧
    (nodeCost l vs v e = e ∨ ∃ w ∈ l, w ≠ v ∧ nodeCost l vs v e = (vs w).total) := by
  intro l
  induction l with
  | nil => intro e; simp [nodeCost]
  | cons w ws ih =>
    intro e
    have hstep : nodeCost (w :: ws) vs v e =
        nodeCost ws vs v (if w ≠ v ∧ (vs w).total > e then (vs w).total else e) := by
      simp only [nodeCost, List.foldl_cons]
      by_cases hw : w = v
      · simp [hw]
      · simp only [ne_eq, hw, not_false_eq_true, if_true, true_and]
    rw [hstep]
    by_cases hc : w ≠ v ∧ (vs w).total > e
    · rw [if_pos hc]
      obtain ⟨h1, h2, h3⟩ := ih (vs w).total
      refine ⟨by omega, ?_, ?_⟩
      · intro x hx hxv
        rcases List.mem_cons.1 hx with rfl | hx
        · exact h1
        · exact h2 x hx hxv
      · rcases h3 with h3 | ⟨x, hx, hxv, h3⟩
        · exact .inr ⟨w, by simp, hc.1, h3⟩
        · exact .inr ⟨x, by simp [hx], hxv, h3⟩
    · rw [if_neg hc]
      obtain ⟨h1, h2, h3⟩ := ih e
      refine ⟨h1, ?_, ?_⟩
      · intro x hx hxv
        rcases List.mem_cons.1 hx with rfl | hx
        · have : ¬ (vs x).total > e := fun h => hc ⟨hxv, h⟩
          omega
        · exact h2 x hx hxv
      · rcases h3 with h3 | ⟨x, hx, hxv, h3⟩
        · exact .inl h3
        · exact .inr ⟨x, by simp [hx], hxv, h3⟩

/-- The cost does not depend on the iteration order. -/
theorem nodeCost_congr {l l' : List Int} (h : ∀ w, w ∈ l ↔ w ∈ l') (vs : Int → VState) (v e : Int) :
    nodeCost l vs v e = nodeCost l' vs v e := by
  obtain ⟨a1, a2, a3⟩ := nodeCost_spec vs v l e
  obtain ⟨b1, b2, b3⟩ := nodeCost_spec vs v l' e
  apply Int.le_antisymm
  · rcases a3 with a3 | ⟨w, hw, hwv, a3⟩
    · omega
    · rw [a3]; exact b2 w ((h w).1 hw) hwv
  · rcases b3 with b3 | ⟨w, hw, hwv, b3⟩
    · omega
    · rw [b3]; exact a2 w ((h w).2 hw) hwv

/-! ### One round of `NodeAssignment` -/

theorem mem_insertChild {c m : Node} : ∀ {l : List Node}, m ∈ insertChild c l ↔ m = c ∨ m ∈ l
  | [] => by simp [insertChild]
  | d :: ds => by
    simp only [insertChild]
    split
    · simp
    · simp only [List.mem_cons, mem_insertChild (l := ds)]; grind

/-- What a round of assignments does to the static part. -/
structure Round (limit : Int) (a b : Static) : Prop where
  min : b.min = a.min
  complete : b.complete = a.complete
  candidate : b.candidate = a.candidate
  visited : a.visited ≤ b.visited
  stop : a.stop = true → b.stop = true
  why : b.stop = true → a.stop = true ∨ (0 ≤ limit ∧ limit ≤ (b.visited : Int) ∧ 0 < b.complete)

theorem Round.refl (limit : Int) (a : Static) : Round limit a a :=
  ⟨rfl, rfl, rfl, Nat.le_refl _, id, .inl⟩

theorem Round.trans {limit : Int} {a b c : Static} (h : Round limit a b) (k : Round limit b c) :
    Round limit a c :=
  ⟨k.min.trans h.min, k.complete.trans h.complete, k.candidate.trans h.candidate,
    Nat.le_trans h.visited k.visited, fun x => k.stop (h.stop x), fun x => by
      rcases k.why x with hb | hb
      · rcases h.why hb with ha | ⟨ha1, ha2, ha3⟩
        · exact .inl ha
        · refine .inr ⟨ha1, ?_, by rw [k.complete]; exact ha3⟩
          have := k.visited
          omega
      · exact .inr hb⟩

/-- The stop check. -/
theorem round_check (limit : Int) (st : Static) :
    Round limit st (if 0 ≤ limit ∧ limit ≤ (st.visited : Int) ∧ 0 < st.complete
      then { st with stop := true } else st) := by
  split
  · next h => exact ⟨rfl, rfl, rfl, Nat.le_refl _, fun _ => rfl, fun _ => .inr h⟩
  · exact .refl _ _

theorem round_visit (limit : Int) (st : Static) :
    Round limit st { st with visited := st.visited + 1 } :=
  ⟨rfl, rfl, rfl, Nat.le_succ _, id, .inl⟩

/-- The order of a node's map lists exactly the vehicles. -/
def GoodOrder (I : Inst) (order : Node → List Int) : Prop := ∀ n w, w ∈ order n ↔ w ∈ I.vehicles

theorem nodeAssignment_spec {I : Inst} {limit : Int} {order : List Int}
    (ho : ∀ w, w ∈ order ↔ w ∈ I.vehicles) (n : Node) (o v : Int) (st : Static)
    (ch : List Node) :
    Round limit st (nodeAssignment I limit order n o v st ch).1 ∧
    ∀ m, m ∈ (nodeAssignment I limit order n o v st ch).2 ↔
      m ∈ ch ∨ (Child I n o v m ∧ m.cost < st.min) := by
  have hmin := (round_check limit st).min
  have hround := round_check limit st
  generalize hst : (if 0 ≤ limit ∧ limit ≤ (st.visited : Int) ∧ 0 < st.complete
      then { st with stop := true } else st) = st1 at hmin hround
  unfold nodeAssignment
  simp only [hst]
  by_cases hk : I.known o
  · rw [if_pos hk]
    by_cases ht : 0 ≤ I.travelTime v (startLocation v (n.vs v)) o
    · rw [if_pos ht]
      rw [nodeCost_congr ho]
      by_cases hc : nodeCost I.vehicles n.vs v
          (I.taskTime o v + I.travelTime v (startLocation v (n.vs v)) o + (n.vs v).total) < st1.min
      · rw [if_pos hc]
        refine ⟨hround.trans (round_visit _ _), fun m => ?_⟩
        simp only [mem_insertChild]
        constructor
        · rintro (rfl | h)
          · exact .inr ⟨⟨hk, ht, rfl⟩, by rw [hmin] at hc; exact hc⟩
          · exact .inl h
        · rintro (h | ⟨⟨-, -, rfl⟩, -⟩)
          · exact .inr h
          · exact .inl rfl
      · rw [if_neg hc]
        refine ⟨hround.trans (round_visit _ _), fun m => ?_⟩
        constructor
        · exact .inl
        · rintro (h | ⟨⟨-, -, rfl⟩, hlt⟩)
          · exact h
          · rw [← hmin] at hlt; exact absurd hlt hc
    · rw [if_neg ht]
      refine ⟨hround, fun m => ⟨.inl, ?_⟩⟩
      rintro (h | ⟨⟨-, h, -⟩, -⟩)
      · exact h
      · exact absurd h ht
  · rw [if_neg hk]
    refine ⟨hround, fun m => ⟨.inl, ?_⟩⟩
    rintro (h | ⟨⟨h, -⟩, -⟩)
    · exact h
    · exact absurd h hk

theorem assignVehicles_spec {I : Inst} {limit : Int} {order : List Int}
    (ho : ∀ w, w ∈ order ↔ w ∈ I.vehicles) (n : Node) (o : Int) : ∀ (vs : List Int)
    (acc : Static × List Node),
    Round limit acc.1 (assignVehicles I limit order n o vs acc).1 ∧
    ∀ m, m ∈ (assignVehicles I limit order n o vs acc).2 ↔
      m ∈ acc.2 ∨ ∃ v ∈ vs, Child I n o v m ∧ m.cost < acc.1.min
  | [], acc => by simp [assignVehicles, Round.refl]
  | v :: vs, acc => by
    obtain ⟨h1, h2⟩ := nodeAssignment_spec (limit := limit) ho n o v acc.1 acc.2
    obtain ⟨k1, k2⟩ := assignVehicles_spec (limit := limit) ho n o vs
      (nodeAssignment I limit order n o v acc.1 acc.2)
    refine ⟨h1.trans k1, fun m => ?_⟩
    simp only [assignVehicles, k2, h2, h1.min, List.mem_cons, exists_eq_or_imp]
    grind

theorem assignAll_spec {I : Inst} {limit : Int} {order : List Int}
    (ho : ∀ w, w ∈ order ↔ w ∈ I.vehicles) (n : Node) : ∀ (os : List Int)
    (acc : Static × List Node),
    Round limit acc.1 (assignAll I limit order n os acc).1 ∧
    ∀ m, m ∈ (assignAll I limit order n os acc).2 ↔
      m ∈ acc.2 ∨ ∃ o ∈ os, ∃ v ∈ I.vehicles, Child I n o v m ∧ m.cost < acc.1.min
  | [], acc => by simp [assignAll, Round.refl]
  | o :: os, acc => by
    obtain ⟨h1, h2⟩ := assignVehicles_spec (limit := limit) ho n o order acc
    obtain ⟨k1, k2⟩ := assignAll_spec (limit := limit) ho n os
      (assignVehicles I limit order n o order acc)
    refine ⟨h1.trans k1, fun m => ?_⟩
    simp only [assignAll, k2, h2, h1.min, List.mem_cons, exists_eq_or_imp, ho]
    grind

/-! ### Descendants -/

/-- Nodes reachable by giving offered objectives to vehicles. -/
inductive Desc (I : Inst) : Node → Node → Prop where
  | refl {n} : Desc I n n
  | step {n o v m k} : o ∈ offersAt I n → v ∈ I.vehicles → Child I n o v m → Desc I m k → Desc I n k

/-- How the result of an expansion compares with the state before. -/
def Better (I : Inst) (n : Node) (a b : Static) : Prop :=
  (b.min = a.min ∧ b.candidate = a.candidate ∧ b.complete = a.complete) ∨
  ∃ k, Desc I n k ∧ offersAt I k = [] ∧ b.min = k.cost ∧ k.cost < a.min ∧
    b.candidate = some k.vs ∧ 0 < b.complete

theorem expandChildren_better {I : Inst} {n : Node} {f : Node → Static → Static}
    (hf : ∀ c st, Better I c st (f c st)) : ∀ (cs : List Node) (st : Static),
    (∀ c ∈ cs, ∃ o v, o ∈ offersAt I n ∧ v ∈ I.vehicles ∧ Child I n o v c) →
    Better I n st (expandChildren f cs st)
  | [], st, _ => .inl ⟨rfl, rfl, rfl⟩
  | c :: cs, st, h => by
    have ih := expandChildren_better hf cs
      (if c.cost < st.min ∧ st.stop = false then f c st else st)
      (fun d hd => h d (List.mem_cons_of_mem _ hd))
    simp only [expandChildren]
    have hb : Better I n st (if c.cost < st.min ∧ st.stop = false then f c st else st) := by
      split
      · rcases hf c st with h1 | ⟨k, hk, hr⟩
        · exact .inl h1
        · obtain ⟨o, v, ho, hv, hc⟩ := h c (by simp)
          exact .inr ⟨k, .step ho hv hc hk, hr⟩
      · exact .inl ⟨rfl, rfl, rfl⟩
    generalize (if c.cost < st.min ∧ st.stop = false then f c st else st) = st1 at hb ih
    rcases ih with ⟨e1, e2, e3⟩ | ⟨k, hk1, hk2, hk3, hk4, hk5⟩
    · rcases hb with ⟨f1, f2, f3⟩ | ⟨k, g1, g2, g3, g4, g5, g6⟩
      · exact .inl ⟨e1.trans f1, e2.trans f2, e3.trans f3⟩
      · exact .inr ⟨k, g1, g2, e1.trans g3, g4, e2.trans g5, by rw [e3]; exact g6⟩
    · refine .inr ⟨k, hk1, hk2, hk3, ?_, hk5⟩
      rcases hb with ⟨f1, -⟩ | ⟨k', -, -, g3, g4, -⟩ <;> omega

theorem expand_better {I : Inst} {limit : Int} {order : Node → List Int} (ho : GoodOrder I order) :
    ∀ (fuel : Nat) (n : Node) (st : Static),
    Better I n st (expandNode I limit order fuel n st)
  | 0, n, st => .inl ⟨rfl, rfl, rfl⟩
  | fuel + 1, n, st => by
    obtain ⟨hr, hch⟩ := assignAll_spec (limit := limit) (ho n) n (offersAt I n) (st, [])
    simp only [expandNode]
    rw [show (nextActions n.assigned I.tree).1 = offersAt I n from rfl]
    generalize assignAll I limit (order n) n (offersAt I n) (st, []) = r at hr hch
    have hsame : Better I n st r.1 := .inl ⟨hr.min, hr.candidate, hr.complete⟩
    by_cases hs : r.1.stop = true
    · rw [if_pos hs]; exact hsame
    · rw [if_neg hs]
      by_cases hne : r.2 ≠ []
      · rw [if_pos hne]
        have := expandChildren_better (n := n) (expand_better (limit := limit) ho fuel) r.2 r.1
          (fun c hc => by
            rcases (hch c).1 hc with h | ⟨o, ho', v, hv, hc, -⟩
            · simp at h
            · exact ⟨o, v, ho', hv, hc⟩)
        rcases this with ⟨e1, e2, e3⟩ | ⟨k, hk1, hk2, hk3, hk4, hk5⟩
        · exact .inl ⟨e1.trans hr.min, e2.trans hr.candidate, e3.trans hr.complete⟩
        · exact .inr ⟨k, hk1, hk2, hk3, by rw [hr.min] at hk4; exact hk4, hk5⟩
      · rw [if_neg hne]
        by_cases hof : offersAt I n = []
        · rw [if_pos hof]
          unfold newLeaf
          split
          · next hlt =>
            refine .inr ⟨n, .refl, hof, rfl, by rw [hr.min] at hlt; exact hlt, rfl, Nat.succ_pos _⟩
          · exact hsame
        · rw [if_neg hof]; exact hsame

theorem Better.min_le {I : Inst} {n : Node} {a b : Static} (h : Better I n a b) : b.min ≤ a.min := by
  rcases h with ⟨h, -⟩ | ⟨k, -, -, h, h', -⟩ <;> omega

/-! ### Costs never decrease along the tree -/

/-- Doing something never takes negative time. -/
def Mono (I : Inst) : Prop := ∀ v ∈ I.vehicles, ∀ f o, I.known o = true →
  0 ≤ I.travelTime v f o → 0 ≤ I.taskTime o v + I.travelTime v f o

/-- The cost of a node is the largest total. -/
def CostInv (I : Inst) (n : Node) : Prop :=
  (∀ v ∈ I.vehicles, (n.vs v).total ≤ n.cost) ∧ ∃ v ∈ I.vehicles, (n.vs v).total = n.cost

theorem child_costInv {I : Inst} {n m : Node} {o v : Int} (hv : v ∈ I.vehicles)
    (h : Child I n o v m) : CostInv I m := by
  obtain ⟨-, -, rfl⟩ := h
  obtain ⟨h1, h2, h3⟩ := nodeCost_spec n.vs v I.vehicles
    (I.taskTime o v + I.travelTime v (startLocation v (n.vs v)) o + (n.vs v).total)
  refine ⟨fun w hw => ?_, ?_⟩
  · simp only [childNode]
    split
    · exact h1
    · next hne => exact h2 w hw hne
  · rcases h3 with h3 | ⟨w, hw, hwv, h3⟩
    · exact ⟨v, hv, by simp [childNode, h3]⟩
    · exact ⟨w, hw, by simp [childNode, hwv, h3]⟩

theorem child_cost_ge {I : Inst} (hm : Mono I) {n m : Node} {o v : Int} (hv : v ∈ I.vehicles)
    (hn : CostInv I n) (h : Child I n o v m) : n.cost ≤ m.cost := by
  obtain ⟨w, hw, he⟩ := hn.2
  have hk := (child_costInv hv h).1 w hw
  obtain ⟨h1, h2, rfl⟩ := h
  have hge := hm v hv _ o h1 h2
  have : (n.vs w).total ≤
      ((childNode n v o (I.taskTime o v + I.travelTime v (startLocation v (n.vs v)) o +
        (n.vs v).total) (nodeCost I.vehicles n.vs v (I.taskTime o v +
        I.travelTime v (startLocation v (n.vs v)) o + (n.vs v).total))).vs w).total := by
    simp only [childNode]
    split
    · next e => subst e; simp only; omega
    · exact Int.le_refl _
  omega

theorem desc_cost_ge {I : Inst} (hm : Mono I) {n k : Node} (h : Desc I n k) :
    CostInv I n → n.cost ≤ k.cost := by
  induction h with
  | refl => intro _; exact Int.le_refl _
  | step ho hv hc _ ih =>
    intro hn
    have := child_cost_ge hm hv hn hc
    have := ih (child_costInv hv hc)
    omega

/-! ### The exhaustive search sees every leaf -/

theorem assigned_of_child {I : Inst} {n m : Node} {o v : Int} (h : Child I n o v m) :
    m.assigned = n.assigned ++ [o] := by
  obtain ⟨-, -, rfl⟩ := h; rfl

/-- The object whose `searchNext` the search calls. -/
def algOf (t : Tree) : Alg := { root := some t }

theorem run_child {I : Inst} {n m : Node} {o v : Int} (ho : o ∈ offersAt I n) (h : Child I n o v m)
    (hr : Run (algOf I.tree) n.assigned) : Run (algOf I.tree) m.assigned := by
  rw [assigned_of_child h]
  exact .step hr ⟨_, rfl, ho⟩

theorem expandChildren_stop {f : Node → Static → Static}
    (hf : ∀ c st, st.stop = false → (f c st).stop = false) : ∀ (cs : List Node) (st : Static),
    st.stop = false → (expandChildren f cs st).stop = false
  | [], _, h => h
  | c :: cs, st, h => by
    simp only [expandChildren]
    apply expandChildren_stop hf cs
    split
    · exact hf c st h
    · exact h

theorem expand_stop {I : Inst} {limit : Int} (hl : limit < 0) {order : Node → List Int}
    (ho : GoodOrder I order) : ∀ (fuel : Nat) (n : Node) (st : Static), st.stop = false →
    (expandNode I limit order fuel n st).stop = false
  | 0, _, _, h => h
  | fuel + 1, n, st, h => by
    obtain ⟨hr, hch⟩ := assignAll_spec (limit := limit) (ho n) n (offersAt I n) (st, [])
    simp only [expandNode]
    rw [show (nextActions n.assigned I.tree).1 = offersAt I n from rfl]
    generalize assignAll I limit (order n) n (offersAt I n) (st, []) = r at hr hch
    have hs : r.1.stop = false := by
      cases hr1 : r.1.stop with
      | false => rfl
      | true =>
        rcases hr.why hr1 with h' | ⟨h', -⟩
        · simp [h] at h'
        · omega
    simp only [hs]
    rw [if_neg (by simp)]
    split
    · exact expandChildren_stop (expand_stop hl ho fuel) _ _ hs
    · split
      · unfold newLeaf; split <;> exact hs
      · exact hs

/-- The children loop leaves a bound for everything below any of the children. -/
theorem expandChildren_sees {I : Inst} {limit : Int} (hl : limit < 0) {order : Node → List Int}
    (ho : GoodOrder I order) (hm : Mono I) {fuel : Nat}
    (ih : ∀ (n : Node) (st : Static), CostInv I n → Run (algOf I.tree) n.assigned →
      (Verif.Algebra.objectives I.tree).length < n.assigned.length + fuel → st.stop = false →
      ∀ k, Desc I n k → offersAt I k = [] → (expandNode I limit order fuel n st).min ≤ k.cost) :
    ∀ (cs : List Node) (st : Static), st.stop = false →
    (∀ c ∈ cs, CostInv I c ∧ Run (algOf I.tree) c.assigned ∧
      (Verif.Algebra.objectives I.tree).length < c.assigned.length + fuel) →
    (expandChildren (expandNode I limit order fuel) cs st).min ≤ st.min ∧
    ∀ c ∈ cs, ∀ k, Desc I c k → offersAt I k = [] →
      (expandChildren (expandNode I limit order fuel) cs st).min ≤ k.cost
  | [], st, _, _ => ⟨Int.le_refl _, by simp⟩
  | c :: cs, st, hs, hall => by
    obtain ⟨hc1, hc2, hc3⟩ := hall c (by simp)
    simp only [expandChildren, hs, and_true]
    by_cases hlt : c.cost < st.min
    · rw [if_pos hlt]
      obtain ⟨g1, g2⟩ := expandChildren_sees hl ho hm ih cs (expandNode I limit order fuel c st)
        (expand_stop hl ho fuel c st hs) (fun d hd => hall d (by simp [hd]))
      have hb := (expand_better (limit := limit) ho fuel c st).min_le
      refine ⟨by omega, ?_⟩
      intro d hd k hk hof
      rcases List.mem_cons.1 hd with rfl | hd
      · have := ih d st hc1 hc2 hc3 hs k hk hof
        omega
      · exact g2 d hd k hk hof
    · rw [if_neg hlt]
      obtain ⟨g1, g2⟩ := expandChildren_sees hl ho hm ih cs st hs (fun d hd => hall d (by simp [hd]))
      refine ⟨g1, ?_⟩
      intro d hd k hk hof
      rcases List.mem_cons.1 hd with rfl | hd
      · have := desc_cost_ge hm hk hc1
        omega
      · exact g2 d hd k hk hof

theorem run_bound {t : Tree} {ex : List Int} (h : Run (algOf t) ex) :
    ex.length ≤ (Verif.Algebra.objectives t).length :=
  (Verif.Algebra.C29_run_bounded (g := algOf t) rfl h).2.2

theorem expand_sees {I : Inst} {limit : Int} (hl : limit < 0) {order : Node → List Int}
    (ho : GoodOrder I order) (hm : Mono I) : ∀ (fuel : Nat) (n : Node) (st : Static),
    CostInv I n → Run (algOf I.tree) n.assigned →
    (Verif.Algebra.objectives I.tree).length < n.assigned.length + fuel → st.stop = false →
    ∀ k, Desc I n k → offersAt I k = [] → (expandNode I limit order fuel n st).min ≤ k.cost
  | 0, n, st, _, hr, hlen, _ => by
    have := run_bound hr
    omega
  | fuel + 1, n, st, hn, hrun, hlen, hs => by
    intro k hk hof
    obtain ⟨hr, hch⟩ := assignAll_spec (limit := limit) (ho n) n (offersAt I n) (st, [])
    simp only [expandNode]
    rw [show (nextActions n.assigned I.tree).1 = offersAt I n from rfl]
    generalize assignAll I limit (order n) n (offersAt I n) (st, []) = r at hr hch
    have hs1 : r.1.stop = false := by
      cases hr1 : r.1.stop with
      | false => rfl
      | true =>
        rcases hr.why hr1 with h' | ⟨h', -⟩
        · simp [hs] at h'
        · omega
    rw [if_neg (by simp [hs1])]
    have hmin : r.1.min = st.min := hr.min
    cases hk with
    | refl =>
      have : r.2 = [] := by
        cases hr2 : r.2 with
        | nil => rfl
        | cons c cs =>
          have := (hch c).1 (by simp [hr2])
          simp [hof] at this
      rw [if_neg (by simp [this]), if_pos hof]
      unfold newLeaf
      split
      · exact Int.le_refl _
      · omega
    | @step _ o v m _ hoff hv hc hd =>
      have hnof : offersAt I n ≠ [] := by
        intro e; rw [e] at hoff; simp at hoff
      have hcost := desc_cost_ge hm hd (child_costInv hv hc)
      by_cases hlt : m.cost < st.min
      · have hmem : m ∈ r.2 := (hch m).2 (.inr ⟨o, hoff, v, hv, hc, hlt⟩)
        rw [if_pos (by intro e; rw [e] at hmem; simp at hmem)]
        have := expandChildren_sees hl ho hm (fuel := fuel)
          (fun n st h1 h2 h3 h4 => expand_sees hl ho hm fuel n st h1 h2 h3 h4) r.2 r.1 hs1
          (fun c hcm => by
            rcases (hch c).1 hcm with h | ⟨o', ho', v', hv', hc', -⟩
            · simp at h
            · refine ⟨child_costInv hv' hc', run_child ho' hc' hrun, ?_⟩
              rw [assigned_of_child hc']
              simp only [List.length_append, List.length_cons, List.length_nil]
              omega)
        exact this.2 m hmem k hd hof
      · by_cases hne : r.2 ≠ []
        · rw [if_pos hne]
          have : (expandChildren (expandNode I limit order fuel) r.2 r.1).min ≤ r.1.min := by
            have := expandChildren_better (n := n) (expand_better (limit := limit) ho fuel) r.2 r.1
              (fun c hc => by
                rcases (hch c).1 hc with h | ⟨o, ho', v, hv, hc, -⟩
                · simp at h
                · exact ⟨o, v, ho', hv, hc⟩)
            exact this.min_le
          omega
        · rw [if_neg hne, if_neg hnof]
          omega

/-! ### Limits -/

/-- How a run with a smaller limit relates to one with a larger (or no) limit: they agree, or
the smaller has stopped with a complete assignment that is not better. -/
def Sim (a b : Static) : Prop :=
  (a = b ∧ a.stop = false) ∨ (a.stop = true ∧ 0 < a.complete ∧ b.min ≤ a.min ∧ 0 < b.complete)

/-- Limit `l` stops no later than limit `l'`. -/
def LimitLe (l l' : Int) : Prop := 0 ≤ l ∧ (l ≤ l' ∨ l' < 0)

/-- The stop check. -/
def check (limit : Int) (st : Static) : Static :=
  if 0 ≤ limit ∧ limit ≤ (st.visited : Int) ∧ 0 < st.complete then { st with stop := true } else st

/-- The rest of `NodeAssignment`. -/
def assignRest (I : Inst) (order : List Int) (n : Node) (o v : Int) (st : Static)
    (ch : List Node) : Static × List Node :=
  if I.known o then
    let taskTime := I.taskTime o v
    let travelTime := I.travelTime v (startLocation v (n.vs v)) o
    if 0 ≤ travelTime then
      let toEnd := taskTime + travelTime + (n.vs v).total
      let st := { st with visited := st.visited + 1 }
      let cost := nodeCost order n.vs v toEnd
      if cost < st.min then (st, insertChild (childNode n v o toEnd cost) ch)
      else (st, ch)
    else (st, ch)
  else (st, ch)

theorem nodeAssignment_eq (I : Inst) (limit : Int) (order : List Int) (n : Node) (o v : Int)
    (st : Static) (ch : List Node) :
    nodeAssignment I limit order n o v st ch = assignRest I order n o v (check limit st) ch := rfl

theorem assignRest_stop (I : Inst) (order : List Int) (n : Node) (o v : Int)
    (st : Static) (ch : List Node) :
    (assignRest I order n o v st ch).1.stop = st.stop ∧
    (assignRest I order n o v st ch).1.min = st.min ∧
    (assignRest I order n o v st ch).1.complete = st.complete := by
  unfold assignRest
  simp only
  split
  · split
    · split <;> exact ⟨rfl, rfl, rfl⟩
    · exact ⟨rfl, rfl, rfl⟩
  · exact ⟨rfl, rfl, rfl⟩

/-- Both runs so far: they agree including the children, or the smaller one has stopped. -/
def Sim2 (a b : Static × List Node) : Prop :=
  (a = b ∧ a.1.stop = false) ∨
  (a.1.stop = true ∧ 0 < a.1.complete ∧ b.1.min ≤ a.1.min ∧ 0 < b.1.complete)

theorem nodeAssignment_sim {I : Inst} {l l' : Int} (hl : LimitLe l l') (order : List Int) (n : Node)
    (o v : Int) {a b : Static × List Node} (h : Sim2 a b) :
    Sim2 (nodeAssignment I l order n o v a.1 a.2) (nodeAssignment I l' order n o v b.1 b.2) := by
  simp only [nodeAssignment_eq]
  obtain ⟨a1, a2, a3⟩ := assignRest_stop I order n o v (check l a.1) a.2
  obtain ⟨b1, b2, b3⟩ := assignRest_stop I order n o v (check l' b.1) b.2
  have hca : (check l a.1).min = a.1.min ∧ (check l a.1).complete = a.1.complete ∧
      (a.1.stop = true → (check l a.1).stop = true) := by
    unfold check; split <;> simp
  have hcb : (check l' b.1).min = b.1.min ∧ (check l' b.1).complete = b.1.complete := by
    unfold check; split <;> simp
  rcases h with ⟨rfl, hs⟩ | ⟨h1, h2, h3, h4⟩
  · by_cases hst : 0 ≤ l ∧ l ≤ (a.1.visited : Int) ∧ 0 < a.1.complete
    · refine .inr ⟨?_, ?_, ?_, ?_⟩
      · rw [a1]; simp [check, hst]
      · rw [a3, hca.2.1]; exact hst.2.2
      · rw [b2, a2, hca.1, hcb.1]; exact Int.le_refl _
      · rw [b3, hcb.2]; exact hst.2.2
    · have hst' : ¬ (0 ≤ l' ∧ l' ≤ (a.1.visited : Int) ∧ 0 < a.1.complete) := by
        rintro ⟨x, y, z⟩
        apply hst
        obtain ⟨hl1, hl2⟩ := hl
        exact ⟨hl1, by omega, z⟩
      have e1 : check l a.1 = a.1 := by simp only [check]; rw [if_neg hst]
      have e2 : check l' a.1 = a.1 := by simp only [check]; rw [if_neg hst']
      rw [e1, e2]
      refine .inl ⟨rfl, ?_⟩
      rw [← hs]
      exact (assignRest_stop I order n o v a.1 a.2).1
  · refine .inr ⟨?_, ?_, ?_, ?_⟩
    · rw [a1]; exact hca.2.2 h1
    · rw [a3, hca.2.1]; exact h2
    · rw [a2, b2, hca.1, hcb.1]; exact h3
    · rw [b3, hcb.2]; exact h4

theorem assignVehicles_sim {I : Inst} {l l' : Int} (hl : LimitLe l l') (order : List Int) (n : Node)
    (o : Int) : ∀ (vs : List Int) {a b : Static × List Node}, Sim2 a b →
    Sim2 (assignVehicles I l order n o vs a) (assignVehicles I l' order n o vs b)
  | [], _, _, h => h
  | v :: vs, _, _, h => assignVehicles_sim hl order n o vs (nodeAssignment_sim hl order n o v h)

theorem assignAll_sim {I : Inst} {l l' : Int} (hl : LimitLe l l') (order : List Int) (n : Node) :
    ∀ (os : List Int) {a b : Static × List Node}, Sim2 a b →
    Sim2 (assignAll I l order n os a) (assignAll I l' order n os b)
  | [], _, _, h => h
  | o :: os, _, _, h => assignAll_sim hl order n os (assignVehicles_sim hl order n o order h)

/-- Complete assignments are never forgotten. -/
theorem expandChildren_complete {f : Node → Static → Static}
    (hf : ∀ c st, (f c st).min ≤ st.min ∧ st.complete ≤ (f c st).complete) :
    ∀ (cs : List Node) (st : Static), (expandChildren f cs st).min ≤ st.min ∧
      st.complete ≤ (expandChildren f cs st).complete
  | [], _ => ⟨Int.le_refl _, Nat.le_refl _⟩
  | c :: cs, st => by
    simp only [expandChildren]
    have := expandChildren_complete hf cs (if c.cost < st.min ∧ st.stop = false then f c st else st)
    split at this
    · next h => rw [if_pos h]; have := hf c st; omega
    · next h => rw [if_neg h]; exact this

theorem assignAll_frame (I : Inst) (limit : Int) (order : List Int) (n : Node) (os : List Int)
    (acc : Static × List Node) : (assignAll I limit order n os acc).1.min = acc.1.min ∧
    (assignAll I limit order n os acc).1.complete = acc.1.complete ∧
    (acc.1.stop = true → (assignAll I limit order n os acc).1.stop = true) := by
  have one : ∀ o v (acc : Static × List Node),
      (nodeAssignment I limit order n o v acc.1 acc.2).1.min = acc.1.min ∧
      (nodeAssignment I limit order n o v acc.1 acc.2).1.complete = acc.1.complete ∧
      (acc.1.stop = true → (nodeAssignment I limit order n o v acc.1 acc.2).1.stop = true) := by
    intro o v acc
    rw [nodeAssignment_eq]
    obtain ⟨h1, h2, h3⟩ := assignRest_stop I order n o v (check limit acc.1) acc.2
    rw [h1, h2, h3]
    unfold check; split <;> simp
  have two : ∀ o vs (acc : Static × List Node),
      (assignVehicles I limit order n o vs acc).1.min = acc.1.min ∧
      (assignVehicles I limit order n o vs acc).1.complete = acc.1.complete ∧
      (acc.1.stop = true → (assignVehicles I limit order n o vs acc).1.stop = true) := by
    intro o vs
    induction vs with
    | nil => intro acc; simp [assignVehicles]
    | cons v vs ih =>
      intro acc
      obtain ⟨h1, h2, h3⟩ := one o v acc
      obtain ⟨k1, k2, k3⟩ := ih (nodeAssignment I limit order n o v acc.1 acc.2)
      exact ⟨k1.trans h1, k2.trans h2, fun h => k3 (h3 h)⟩
  induction os generalizing acc with
  | nil => simp [assignAll]
  | cons o os ih =>
    obtain ⟨h1, h2, h3⟩ := two o order acc
    obtain ⟨k1, k2, k3⟩ := ih (assignVehicles I limit order n o order acc)
    exact ⟨k1.trans h1, k2.trans h2, fun h => k3 (h3 h)⟩

theorem expand_complete (I : Inst) (limit : Int) (order : Node → List Int) : ∀ (fuel : Nat)
    (n : Node) (st : Static), (expandNode I limit order fuel n st).min ≤ st.min ∧
      st.complete ≤ (expandNode I limit order fuel n st).complete
  | 0, _, _ => ⟨Int.le_refl _, Nat.le_refl _⟩
  | fuel + 1, n, st => by
    simp only [expandNode]
    obtain ⟨h1, h2, -⟩ := assignAll_frame I limit (order n) n (nextActions n.assigned I.tree).1 (st, [])
    generalize assignAll I limit (order n) n (nextActions n.assigned I.tree).1 (st, []) = r at h1 h2
    simp only at h1 h2
    split
    · omega
    · split
      · have := expandChildren_complete (expand_complete I limit order fuel) r.2 r.1
        omega
      · split
        · unfold newLeaf; split
          · next h => simp only; omega
          · omega
        · omega

theorem expandChildren_stopped (f : Node → Static → Static) : ∀ (cs : List Node) (st : Static),
    st.stop = true → expandChildren f cs st = st
  | [], _, _ => rfl
  | c :: cs, st, h => by
    simp only [expandChildren, h, Bool.true_eq_false, and_false, if_false]
    exact expandChildren_stopped f cs st h

theorem expandChildren_sim {f f' : Node → Static → Static}
    (hf : ∀ c a b, Sim a b → Sim (f c a) (f' c b))
    (hm : ∀ c st, (f' c st).min ≤ st.min ∧ st.complete ≤ (f' c st).complete) :
    ∀ (cs : List Node) {a b : Static}, Sim a b →
    Sim (expandChildren f cs a) (expandChildren f' cs b)
  | [], _, _, h => h
  | c :: cs, a, b, h => by
    rcases h with ⟨rfl, hs⟩ | ⟨h1, h2, h3, h4⟩
    · simp only [expandChildren]
      apply expandChildren_sim hf hm cs
      split
      · exact hf c a a (.inl ⟨rfl, hs⟩)
      · exact .inl ⟨rfl, hs⟩
    · rw [expandChildren_stopped f _ a h1]
      have := expandChildren_complete hm (c :: cs) b
      exact .inr ⟨h1, h2, by omega, by omega⟩

theorem expand_sim {I : Inst} {l l' : Int} (hl : LimitLe l l') (order : Node → List Int) :
    ∀ (fuel : Nat) (n : Node) (a b : Static), Sim a b →
    Sim (expandNode I l order fuel n a) (expandNode I l' order fuel n b)
  | 0, _, _, _, h => h
  | fuel + 1, n, a, b, h => by
    rcases h with ⟨rfl, hs⟩ | ⟨h1, h2, h3, h4⟩
    · have hsim := assignAll_sim (I := I) hl (order n) n (nextActions n.assigned I.tree).1
        (a := (a, [])) (b := (a, [])) (.inl ⟨rfl, hs⟩)
      have hge := expand_complete I l' order (fuel + 1) n a
      obtain ⟨g1, g2, -⟩ := assignAll_frame I l (order n) n (nextActions n.assigned I.tree).1 (a, [])
      obtain ⟨k1, k2, -⟩ := assignAll_frame I l' (order n) n (nextActions n.assigned I.tree).1 (a, [])
      rcases hsim with ⟨he, hst⟩ | ⟨s1, s2, s3, s4⟩
      · simp only [expandNode]
        rw [← he]
        generalize assignAll I l (order n) n (nextActions n.assigned I.tree).1 (a, []) = r at hst
        simp only [hst, Bool.false_eq_true, if_false]
        by_cases hne : r.2 ≠ []
        · simp only [if_pos hne]
          exact expandChildren_sim (expand_sim hl order fuel)
            (expand_complete I l' order fuel) _ (.inl ⟨rfl, hst⟩)
        · simp only [if_neg hne]
          by_cases hof : (nextActions n.assigned I.tree).1 = []
          · simp only [if_pos hof]
            refine .inl ⟨rfl, ?_⟩
            unfold newLeaf; split <;> exact hst
          · simp only [if_neg hof]
            exact .inl ⟨rfl, hst⟩
      · have : expandNode I l order (fuel + 1) n a =
            (assignAll I l (order n) n (nextActions n.assigned I.tree).1 (a, [])).1 := by
          simp only [expandNode]; rw [if_pos s1]
        rw [this]
        simp only at g1 g2 k1 k2
        exact .inr ⟨s1, s2, by omega, by omega⟩
    · have hge := expand_complete I l' order (fuel + 1) n b
      obtain ⟨g1, g2, g3⟩ := assignAll_frame I l (order n) n (nextActions n.assigned I.tree).1 (a, [])
      have : expandNode I l order (fuel + 1) n a =
          (assignAll I l (order n) n (nextActions n.assigned I.tree).1 (a, [])).1 := by
        simp only [expandNode]; rw [if_pos (g3 h1)]
      rw [this]
      simp only at g1 g2
      exact .inr ⟨g3 h1, by omega, by omega, by omega⟩

end Verif.Assign
