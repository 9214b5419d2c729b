import Verif.Assign.Kept
import Mathlib.Data.Nat.Factorial.Basic
import Mathlib.Data.List.Nodup
import Mathlib.Data.List.Perm.Subperm
import Mathlib.Tactic.SplitIfs
import Mathlib.Tactic.Tauto

/-!
# How large the search becomes when a task cannot be reached (C201)
-/

namespace Verif.Assign

open Verif.Algebra (Tree nextActions nextActionsList)
open Kept

/-! ### Every node added was counted as visited -/

theorem insertChild_length (c : Node) : ∀ l, (insertChild c l).length = l.length + 1
  | [] => rfl
  | d :: ds => by
      simp only [insertChild]
      split
      · simp
      · simp [insertChild_length c ds]

theorem nodeAssignment_visited (I : Inst) (limit : Int) (order : List Int) (n : Node) (o v : Int) (st : Static) (cs : List Node) :
    (nodeAssignment I limit order n o v st cs).2.length + st.visited ≤ (nodeAssignment I limit order n o v st cs).1.visited + cs.length := by
  unfold nodeAssignment
  have : (if 0 ≤ limit ∧ limit ≤ (st.visited : Int) ∧ 0 < st.complete then { st with stop := true } else st).visited = st.visited := by
    split <;> rfl
  generalize (if 0 ≤ limit ∧ limit ≤ (st.visited : Int) ∧ 0 < st.complete then { st with stop := true } else st) = t at this ⊢
  simp only
  split_ifs <;> simp only [insertChild_length] <;> omega

theorem assignVehicles_visited (I : Inst) (limit : Int) (order : List Int) (n : Node) (o : Int) : ∀ vs (acc : Static × List Node),
    (assignVehicles I limit order n o vs acc).2.length + acc.1.visited ≤ (assignVehicles I limit order n o vs acc).1.visited + acc.2.length
  | [], acc => by simp only [assignVehicles]; omega
  | v :: vs, acc => by
      have h1 := nodeAssignment_visited I limit order n o v acc.1 acc.2
      have h2 := assignVehicles_visited I limit order n o vs (nodeAssignment I limit order n o v acc.1 acc.2)
      simp only [assignVehicles]
      omega

theorem assignAll_visited (I : Inst) (limit : Int) (order : List Int) (n : Node) : ∀ os (acc : Static × List Node),
    (assignAll I limit order n os acc).2.length + acc.1.visited ≤ (assignAll I limit order n os acc).1.visited + acc.2.length
  | [], acc => by simp only [assignAll]; omega
  | o :: os, acc => by
      have h1 := assignVehicles_visited I limit order n o order acc
      have h2 := assignAll_visited I limit order n os (assignVehicles I limit order n o order acc)
      simp only [assignAll]
      omega

theorem keepChildren_visited {f : Node → Static × Nat → Kept × Static × Nat} (hf : ∀ c s, s.2 ≤ s.1.visited → (f c s).2.2 ≤ (f c s).2.1.visited) :
    ∀ cs s, s.2 ≤ s.1.visited → (keepChildren f cs s).2.2 ≤ (keepChildren f cs s).2.1.visited
  | [], _, h => h
  | c :: cs, s, h => by
      simp only [keepChildren]
      apply keepChildren_visited hf cs
      split
      · exact hf c s h
      · exact h

theorem keepNode_visited (I : Inst) (limit : Int) (order : Node → List Int) : ∀ fuel n s, s.2 ≤ s.1.visited →
    (keepNode I limit order fuel n s).2.2 ≤ (keepNode I limit order fuel n s).2.1.visited
  | 0, _, _, h => h
  | fuel + 1, n, s, h => by
      simp only [keepNode]
      have hv := assignAll_visited I limit (order n) n (nextActions n.assigned I.tree).1 (s.1, [])
      generalize assignAll I limit (order n) n (nextActions n.assigned I.tree).1 (s.1, []) = r at hv
      simp only [List.length_nil] at hv
      have hr : s.2 + r.2.length ≤ r.1.visited := by omega
      split
      · exact hr
      · split
        · exact keepChildren_visited (keepNode_visited I limit order fuel) _ _ hr
        · split
          · have : (newLeaf n r.1).visited = r.1.visited := by unfold newLeaf; split <;> rfl
            simp only [this]; exact hr
          · exact hr

/-! ### One task that cannot be reached -/

/-- The tasks that can be reached. -/
def near (n : Nat) : List Int := (List.range n).map fun i : Nat => (i : Int) + 1

/-- One vehicle that reaches the tasks 1 to `n` from everywhere at once and task `n + 1` from nowhere; all in parallel
(task options with the numbers 1 to `n + 1` of task 0). -/
def farInst (n : Nat) : Inst where
  tree := .op .par ((near n ++ [(n : Int) + 1]).map .action)
  vehicles := [1]
  travel := fun _ _ b => if b = (n : Int) + 1 then none else some 0
  known := fun _ => true
  duration := fun _ _ => some 0

theorem mem_near {n : Nat} {o : Int} : o ∈ near n ↔ 1 ≤ o ∧ o ≤ n := by
  simp only [near, List.mem_map, List.mem_range]
  constructor
  · rintro ⟨i, hi, rfl⟩; omega
  · intro h; exact ⟨(o - 1).toNat, by omega, by omega⟩

theorem near_nodup (n : Nat) : (near n).Nodup := by
  unfold near
  refine List.Nodup.map ?_ List.nodup_range
  intro a b h
  simp only at h
  omega

theorem par_offers (ex : List Int) : ∀ l : List Int, ((nextActionsList ex (l.map Tree.action)).flatMap fun r => r.1) = l.filter (· ∉ ex)
  | [] => rfl
  | a :: l => by
      simp only [List.map_cons, nextActionsList, List.flatMap_cons, par_offers ex l, nextActions]
      by_cases h : a ∈ ex <;> simp [h]

theorem far_offers (n : Nat) (k : Node) : offersAt (farInst n) k = (near n ++ [(n : Int) + 1]).filter (· ∉ k.assigned) := by
  simp only [offersAt, farInst, nextActions, Verif.Algebra.combine, Verif.Algebra.parNext, par_offers]

/-- Nothing has cost anything yet, and the task that cannot be reached is left. -/
structure Idle (n : Nat) (k : Node) : Prop where
  cost : k.cost = 0
  total : ∀ w, (k.vs w).total = 0
  left : (n : Int) + 1 ∉ k.assigned

/-- The tasks within reach that are left. -/
def fresh (n : Nat) (k : Node) : List Int := (near n).filter (· ∉ k.assigned)

theorem far_child {n : Nat} {k c : Node} (hk : Idle n k) {o : Int} (h : Child (farInst n) k o 1 c) :
    Idle n c ∧ c.assigned = k.assigned ++ [o] ∧ o ≠ (n : Int) + 1 := by
  obtain ⟨-, h1, rfl⟩ := h
  have ho : o ≠ (n : Int) + 1 := by
    rintro rfl
    simp [Inst.travelTime, farInst] at h1
  have ht : ∀ f, (farInst n).travelTime 1 f o = 0 := by intro f; simp [Inst.travelTime, farInst, ho]
  have hd : (farInst n).taskTime o 1 = 0 := by simp [Inst.taskTime, farInst]
  simp only [ht, hd, hk.total]
  refine ⟨⟨by simp [childNode, nodeCost, farInst], ?_, ?_⟩, rfl, ho⟩
  · intro w
    simp only [childNode]
    split
    · rfl
    · exact hk.total w
  · simp only [childNode, List.mem_append, List.mem_singleton, not_or]
    exact ⟨hk.left, fun h => ho h.symm⟩

theorem far_has {n : Nat} {k : Node} (hk : Idle n k) {o : Int} (ho : o ≠ (n : Int) + 1) :
    ∃ c, Child (farInst n) k o 1 c ∧ c.assigned = k.assigned ++ [o] ∧ c.cost = 0 := by
  have ht : ∀ f, (farInst n).travelTime 1 f o = 0 := by intro f; simp [Inst.travelTime, farInst, ho]
  have h : Child (farInst n) k o 1 _ := ⟨rfl, by rw [ht]; decide, rfl⟩
  exact ⟨_, h, (far_child hk h).2.1, (far_child hk h).1.cost⟩

theorem fresh_child {n : Nat} {k c : Node} {o : Int} (ho : o ∈ fresh n k) (h : c.assigned = k.assigned ++ [o]) :
    (fresh n c).length + 1 = (fresh n k).length := by
  have e : fresh n c = (fresh n k).erase o := by
    have hn : (fresh n k).Nodup := (near_nodup n).filter _
    rw [hn.erase_eq_filter]
    unfold fresh
    rw [List.filter_filter]
    congr 1
    funext x
    rw [Bool.eq_iff_iff]
    simp [h]
    tauto
  rw [e, List.length_erase_of_mem ho]
  have : 0 < (fresh n k).length := List.length_pos_of_mem ho
  omega

/-- Each of several children adds its share. -/
theorem keepChildren_many {n : Nat} {f : Node → Static × Nat → Kept × Static × Nat} {m : Nat}
    (hf : ∀ c s, Idle n c → (fresh n c).length = m → s.1.stop = false → s.1.min = int64Max → s.1.complete = 0 →
      (f c s).2.1.stop = false ∧ (f c s).2.1.min = int64Max ∧ (f c s).2.1.complete = 0 ∧ s.2 + m.factorial ≤ (f c s).2.2 + 1) :
    ∀ cs s, (∀ c ∈ cs, Idle n c ∧ (fresh n c).length = m) → s.1.stop = false → s.1.min = int64Max → s.1.complete = 0 →
      (keepChildren f cs s).2.1.stop = false ∧ (keepChildren f cs s).2.1.min = int64Max ∧ (keepChildren f cs s).2.1.complete = 0 ∧
      s.2 + cs.length * m.factorial ≤ (keepChildren f cs s).2.2 + cs.length
  | [], s, _, h1, h2, h3 => ⟨h1, h2, h3, by simp [keepChildren]⟩
  | c :: cs, s, hcs, h1, h2, h3 => by
      simp only [keepChildren]
      obtain ⟨hi, hm⟩ := hcs c (by simp)
      rw [if_pos ⟨by rw [hi.cost, h2]; decide, h1⟩]
      obtain ⟨g1, g2, g3, g4⟩ := hf c s hi hm h1 h2 h3
      obtain ⟨k1, k2, k3, k4⟩ := keepChildren_many hf cs (f c s).2 (fun d hd => hcs d (by simp [hd])) g1 g2 g3
      refine ⟨k1, k2, k3, ?_⟩
      simp only [List.length_cons, Nat.add_mul, Nat.one_mul]
      omega

theorem keepNode_many (n : Nat) (limit : Int) (order : Node → List Int) (ho : GoodOrder (farInst n) order) : ∀ m fuel k (s : Static × Nat),
    m < fuel → Idle n k → (fresh n k).length = m → s.1.stop = false → s.1.min = int64Max → s.1.complete = 0 →
    (keepNode (farInst n) limit order fuel k s).2.1.stop = false ∧ (keepNode (farInst n) limit order fuel k s).2.1.min = int64Max ∧
    (keepNode (farInst n) limit order fuel k s).2.1.complete = 0 ∧
    s.2 + m.factorial ≤ (keepNode (farInst n) limit order fuel k s).2.2 + 1
  | m, 0, k, s, hm, _, _, _, _, _ => by omega
  | m, fuel + 1, k, s, hm, hk, hf, h1, h2, h3 => by
      obtain ⟨hr, hch⟩ := assignAll_spec (limit := limit) (ho k) k (offersAt (farInst n) k) (s.1, [])
      simp only [keepNode]
      rw [show (nextActions k.assigned (farInst n).tree).1 = offersAt (farInst n) k from rfl]
      generalize assignAll (farInst n) limit (order k) k (offersAt (farInst n) k) (s.1, []) = r at hr hch ⊢
      have hmin : r.1.min = int64Max := hr.min.trans h2
      have hcomp : r.1.complete = 0 := hr.complete.trans h3
      have hstop : r.1.stop = false := by
        cases h : r.1.stop with
        | false => rfl
        | true =>
          rcases hr.why h with h' | ⟨-, -, h'⟩
          · simp [h1] at h'
          · omega
      rw [if_neg (by simp [hstop])]
      have hof : offersAt (farInst n) k ≠ [] := by
        rw [far_offers]
        apply List.ne_nil_of_mem (a := (n : Int) + 1)
        simp [hk.left]
      have hlen : m ≤ r.2.length := by
        have hnd : ((fresh n k).map fun o => k.assigned ++ [o]).Nodup := by
          refine List.Nodup.map ?_ ((near_nodup n).filter _)
          intro a b h
          simpa using h
        have hsub : ((fresh n k).map fun o => k.assigned ++ [o]) ⊆ r.2.map Node.assigned := by
          intro x hx
          obtain ⟨o, hof', rfl⟩ := List.mem_map.1 hx
          have hon := hof'
          simp only [fresh, List.mem_filter, mem_near] at hon
          obtain ⟨c, hc, hca, hcc⟩ := far_has hk (o := o) (by omega)
          refine List.mem_map.2 ⟨c, (hch c).2 (.inr ⟨o, ?_, 1, by simp [farInst], hc, ?_⟩), hca⟩
          · rw [far_offers, List.filter_append, List.mem_append]
            exact .inl hof'
          · simp only; rw [hcc, h2]; decide
        have := (hnd.subperm hsub).length_le
        simpa [hf] using this
      cases m with
      | zero =>
        by_cases hne : r.2 ≠ []
        · exfalso
          obtain ⟨c, hc⟩ := List.exists_mem_of_ne_nil _ hne
          rcases (hch c).1 hc with h | ⟨o, hom, v, hv, hcv, -⟩
          · simp at h
          · simp only [farInst, List.mem_singleton] at hv
            subst hv
            have hon := (far_child hk hcv).2.2
            rw [far_offers, List.filter_append, List.mem_append] at hom
            rcases hom with hom | hom
            · rw [show (near n).filter (· ∉ k.assigned) = fresh n k from rfl, List.length_eq_zero_iff.1 hf] at hom
              simp at hom
            · simp only [List.mem_filter, List.mem_singleton] at hom
              exact hon hom.1
        · rw [if_neg hne, if_neg hof]
          refine ⟨hstop, hmin, hcomp, ?_⟩
          simp only [Nat.factorial]
          omega
      | succ m =>
        have hne : r.2 ≠ [] := by
          intro h
          rw [h] at hlen
          simp at hlen
        rw [if_pos hne]
        obtain ⟨g1, g2, g3, g4⟩ := keepChildren_many (n := n) (f := keepNode (farInst n) limit order fuel) (m := m)
          (fun c s' a b c' d e => keepNode_many n limit order ho m fuel c s' (by omega) a b c' d e) r.2 (r.1, s.2 + r.2.length)
          (fun c hc => by
            rcases (hch c).1 hc with h | ⟨o, hom, v, hv, hcv, -⟩
            · simp at h
            · simp only [farInst, List.mem_singleton] at hv
              subst hv
              obtain ⟨hi, ha, hon⟩ := far_child hk hcv
              refine ⟨hi, ?_⟩
              have hof' : o ∈ fresh n k := by
                rw [far_offers, List.filter_append, List.mem_append] at hom
                rcases hom with hom | hom
                · exact hom
                · simp only [List.mem_filter, List.mem_singleton] at hom
                  exact absurd hom.1 hon
              have := fresh_child hof' ha
              omega)
          hstop hmin hcomp
        refine ⟨g1, g2, g3, ?_⟩
        simp only at g4 ⊢
        have : (m + 1) * m.factorial ≤ r.2.length * m.factorial := Nat.mul_le_mul_right _ hlen
        rw [Nat.factorial_succ]
        omega

/-- **C201 is false**: with one task that cannot be reached beside `n` others, the search looks at `n!` nodes at least and keeps them
all, whatever the limit on the number of nodes. -/
theorem C201_factorial_violated (n : Nat) (limit : Int) (order : Node → List Int) (ho : GoodOrder (farInst n) order) :
    n.factorial ≤ (keepSearch (farInst n) limit order).1.size ∧ n.factorial ≤ (search (farInst n) limit order).visited + 1 := by
  have hroot : Idle n rootNode := ⟨rfl, fun _ => rfl, by simp [rootNode]⟩
  have hfresh : (fresh n rootNode).length = n := by simp [fresh, rootNode, near]
  have hacts : ∀ l : List Int, Verif.Algebra.actionsOfList (l.map Tree.action) = l := by
    intro l
    induction l with
    | nil => rfl
    | cons a l ih => simp [Verif.Algebra.actionsOfList, Verif.Algebra.actionsOf, ih]
  have hfuel : n < (Verif.Algebra.actionsOf (farInst n).tree).length + 1 := by
    simp only [farInst, Verif.Algebra.actionsOf, hacts, List.length_append, near, List.length_map, List.length_range]
    omega
  obtain ⟨-, -, h0, h⟩ := keepNode_many n limit order ho n _ rootNode ({}, 0) hfuel hroot hfresh rfl rfl rfl
  have h0' : (search (farInst n) limit order).complete = 0 := by rw [← C201_same]; exact h0
  have hsize := C201_all_kept_violated ho h0'
  have hv := keepNode_visited (farInst n) limit order ((Verif.Algebra.actionsOf (farInst n).tree).length + 1) rootNode ({}, 0) (Nat.le_refl _)
  refine ⟨?_, ?_⟩
  · rw [hsize]
    unfold keepSearch
    simp only at h
    omega
  · rw [← C201_same]
    unfold keepSearch
    simp only at h
    omega

/-- Twelve tasks within reach and a limit of 1000 nodes: 479001600 nodes. -/
example : 479001600 ≤ (keepSearch (farInst 12) 1000 fun _ => [1]).1.size :=
  (C201_factorial_violated 12 1000 _ fun _ _ => Iff.rfl).1

end Verif.Assign
