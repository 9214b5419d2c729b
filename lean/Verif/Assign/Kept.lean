import Verif.Assign.SearchProps

/-!
# What the search for an assignment keeps in memory (C201)

`ExpandNode` and `PruneChildren` (`src/cpp/Services/AssignmentTreeBranchBoundBase.cpp` 761-923) with the nodes that exist: the model
of the search (`Verif.Assign.Model`) leaves them out, as they have no influence on its result (`C201_same`).
-/

namespace Verif.Assign

open Verif.Algebra (Tree Alg nextActions Run)

/-! ### Model -/

/-- AssignmentTreeBranchBoundBase.h 255, 267: a node with `m_isLeafNode` and `m_costVsChildren`. -/
inductive Kept where
  | mk (node : Node) (leaf : Bool) (kids : List Kept)

namespace Kept

/-- The node itself. -/
def node : Kept → Node
  | .mk n _ _ => n

/-- AssignmentTreeBranchBoundBase.h 267: `m_isLeafNode`. -/
def leaf : Kept → Bool
  | .mk _ l _ => l

/-- AssignmentTreeBranchBoundBase.h 255: `m_costVsChildren`, in the order of the multimap. -/
def kids : Kept → List Kept
  | .mk _ _ ks => ks

mutual

/-- AssignmentTreeBranchBoundBase.cpp 884-923, `PruneChildren`: the node afterwards, and its `m_isPruneable`.  The loop that begins again
after each `erase` (894-914) leaves the children that are not pruneable, in their order. -/
def prune (min : Int) : Kept → Kept × Bool
  | .mk n l [] => (.mk n l [], !(decide (n.cost < min) && l))
  | .mk n l (k :: ks) => (.mk n l (((pruneAll min (k :: ks)).filter fun p => !p.2).map Prod.fst), (pruneAll min (k :: ks)).all fun p => p.2)

/-- AssignmentTreeBranchBoundBase.cpp 890-893: the loop over the children. -/
def pruneAll (min : Int) : List Kept → List (Kept × Bool)
  | [] => []
  | k :: ks => prune min k :: pruneAll min ks

end

mutual

/-- The number of nodes. -/
def size : Kept → Nat
  | .mk _ _ ks => 1 + sizes ks

/-- The number of nodes of all. -/
def sizes : List Kept → Nat
  | [] => 0
  | k :: ks => size k + sizes ks

end

/-- Not in the code: one of the nodes below a node, or the node itself. -/
inductive In : Kept → Kept → Prop
  | self {k} : In k k
  | deeper {d k k'} : k ∈ k'.kids → In d k → In d k'

end Kept

open Kept

/-- AssignmentTreeBranchBoundBase.cpp 812-826: the children are expanded, or left as they are; with `m_numberNodesAdded`. -/
def keepChildren (expand : Node → Static × Nat → Kept × Static × Nat) : List Node → Static × Nat → List Kept × Static × Nat
  | [], s => ([], s)
  | c :: cs, s =>
    let r := if c.cost < s.1.min ∧ s.1.stop = false then expand c s else (.mk c false [], s)
    let rs := keepChildren expand cs r.2
    (r.1 :: rs.1, rs.2)

/-- AssignmentTreeBranchBoundBase.cpp 761-882, `ExpandNode` with the nodes that exist afterwards and with `m_numberNodesAdded` (1043). -/
def keepNode (I : Inst) (limit : Int) (order : Node → List Int) : Nat → Node → Static × Nat → Kept × Static × Nat
  | 0, n, s => (.mk n false [], s)
  | fuel + 1, n, s =>
    let offers := (nextActions n.assigned I.tree).1
    let r := assignAll I limit (order n) n offers (s.1, [])
    let added := s.2 + r.2.length
    if r.1.stop then (.mk n false [], r.1, added)
    else if r.2 ≠ [] then
      let k := keepChildren (keepNode I limit order fuel) r.2 (r.1, added)
      (if k.2.1.stop then .mk n false [] else (prune k.2.1.min (.mk n false k.1)).1, k.2)
    else if offers = [] then (.mk n true [], newLeaf n r.1, added)
    else (.mk n true [], r.1, added)

/-- AssignmentTreeBranchBoundBase.cpp 570: the whole search; the nodes that exist when it has ended, the result, and how many nodes
were added. -/
def keepSearch (I : Inst) (limit : Int) (order : Node → List Int) : Kept × Static × Nat :=
  keepNode I limit order ((Verif.Algebra.actionsOf I.tree).length + 1) rootNode ({}, 0)

/-! ### The result of the search -/

theorem keepChildren_same {f : Node → Static × Nat → Kept × Static × Nat} {g : Node → Static → Static}
    (h : ∀ c s, (f c s).2.1 = g c s.1) : ∀ cs s, (keepChildren f cs s).2.1 = expandChildren g cs s.1
  | [], _ => rfl
  | c :: cs, s => by
      simp only [keepChildren, expandChildren]
      rw [keepChildren_same h cs]
      congr 1
      split
      · exact h c s
      · rfl

theorem keepNode_same (I : Inst) (limit : Int) (order : Node → List Int) :
    ∀ fuel n s, (keepNode I limit order fuel n s).2.1 = expandNode I limit order fuel n s.1
  | 0, _, _ => rfl
  | fuel + 1, n, s => by
      simp only [keepNode, expandNode]
      split
      · rfl
      · split
        · exact keepChildren_same (keepNode_same I limit order fuel) _ _
        · split <;> rfl

/-- **C201.**  Which nodes are kept has no influence on the assignment that is found. -/
theorem C201_same (I : Inst) (limit : Int) (order : Node → List Int) : (keepSearch I limit order).2.1 = search I limit order :=
  keepNode_same I limit order _ _ _

/-! ### What is given up -/

mutual

theorem prune_ends (min : Int) : ∀ (k d : Kept), (∃ k' ∈ (prune min k).1.kids, In d k') → d.kids = [] →
    d.leaf = true ∧ d.node.cost < min
  | .mk n l [], d, h, _ => by simp [prune, Kept.kids] at h
  | .mk n l (k :: ks), d, ⟨k', hk, hd⟩, he => by
      simp only [prune, Kept.kids, List.mem_map, List.mem_filter] at hk
      obtain ⟨p, ⟨hp, hpn⟩, rfl⟩ := hk
      exact pruneAll_ends min (k :: ks) p hp (by simpa using hpn) d hd he

theorem pruneAll_ends (min : Int) : ∀ (ks : List Kept) (p : Kept × Bool), p ∈ pruneAll min ks → p.2 = false → ∀ d, In d p.1 →
    d.kids = [] → d.leaf = true ∧ d.node.cost < min
  | [], p, h, _, _, _, _ => by simp [pruneAll] at h
  | k :: ks, p, h, hp, d, hd, he => by
      simp only [pruneAll, List.mem_cons] at h
      rcases h with rfl | h
      · cases hd with
        | deeper h1 h2 => exact prune_ends min k d ⟨_, h1, h2⟩ he
        | self =>
          cases k with
          | mk n l kk =>
            cases kk with
            | nil =>
              simp only [prune, Bool.not_eq_false', Bool.and_eq_true, decide_eq_true_eq] at hp
              exact ⟨hp.2, hp.1⟩
            | cons a as =>
              exfalso
              simp only [prune, Kept.kids, List.map_eq_nil_iff, List.filter_eq_nil_iff] at he hp
              have : (pruneAll min (a :: as)).all (fun p => p.2) = true := by
                rw [List.all_eq_true]
                intro q hq
                have := he q hq
                simpa using this
              rw [this] at hp
              exact absurd hp (by simp)
      · exact pruneAll_ends min ks p h hp d hd he

end

mutual

/-- What is kept was there. -/
theorem prune_in (min : Int) : ∀ (k d : Kept), In d (prune min k).1 → ∃ d', In d' k ∧ d'.node = d.node ∧ d'.leaf = d.leaf
  | .mk n l [], d, h => by
      simp only [prune] at h
      exact ⟨d, h, rfl, rfl⟩
  | .mk n l (k :: ks), d, h => by
      simp only [prune] at h
      cases h with
      | self => exact ⟨.mk n l (k :: ks), .self, rfl, rfl⟩
      | deeper h1 h2 =>
        simp only [Kept.kids, List.mem_map, List.mem_filter] at h1
        obtain ⟨p, ⟨hp, -⟩, rfl⟩ := h1
        obtain ⟨k', hk', d', hd', h3⟩ := pruneAll_in min (k :: ks) p hp d h2
        exact ⟨d', .deeper hk' hd', h3⟩

theorem pruneAll_in (min : Int) : ∀ (ks : List Kept) (p : Kept × Bool), p ∈ pruneAll min ks → ∀ d, In d p.1 →
    ∃ k ∈ ks, ∃ d', In d' k ∧ d'.node = d.node ∧ d'.leaf = d.leaf
  | [], p, h, _, _ => by simp [pruneAll] at h
  | k :: ks, p, h, d, hd => by
      simp only [pruneAll, List.mem_cons] at h
      rcases h with rfl | h
      · obtain ⟨d', h1, h2⟩ := prune_in min k d hd
        exact ⟨k, by simp, d', h1, h2⟩
      · obtain ⟨k', h1, h2⟩ := pruneAll_in min ks p h d hd
        exact ⟨k', by simp [h1], h2⟩

end

/-- Complete assignments are no better than the best. -/
def Full (I : Inst) (min : Int) (k : Kept) : Prop :=
  ∀ d, In d k → d.leaf = true → offersAt I d.node = [] → min ≤ d.node.cost

theorem Full.mono {I : Inst} {m m' : Int} (h : m' ≤ m) {k : Kept} (hk : Full I m k) : Full I m' k :=
  fun d hd hl ho => Int.le_trans h (hk d hd hl ho)

theorem full_bare (I : Inst) (m : Int) (n : Node) : Full I m (.mk n false []) := by
  intro d hd hl
  cases hd with
  | self => simp [Kept.leaf] at hl
  | deeper h _ => simp [Kept.kids] at h

theorem keepChildren_full {I : Inst} {f : Node → Static × Nat → Kept × Static × Nat}
    (hf : ∀ c s, (f c s).2.1.min ≤ s.1.min ∧ Full I (f c s).2.1.min (f c s).1) : ∀ cs s,
    (keepChildren f cs s).2.1.min ≤ s.1.min ∧ ∀ k ∈ (keepChildren f cs s).1, Full I (keepChildren f cs s).2.1.min k
  | [], s => by simp [keepChildren]
  | c :: cs, s => by
      simp only [keepChildren]
      obtain ⟨r, hr⟩ : ∃ r, r = (if c.cost < s.1.min ∧ s.1.stop = false then f c s else (.mk c false [], s)) := ⟨_, rfl⟩
      rw [← hr]
      have h1 : r.2.1.min ≤ s.1.min ∧ Full I r.2.1.min r.1 := by
        rw [hr]
        split
        · exact hf c s
        · exact ⟨Int.le_refl _, full_bare I _ c⟩
      obtain ⟨h2, h3⟩ := keepChildren_full hf cs r.2
      refine ⟨Int.le_trans h2 h1.1, fun k hk => ?_⟩
      rcases List.mem_cons.1 hk with rfl | hk
      · exact h1.2.mono h2
      · exact h3 k hk

theorem keepNode_full (I : Inst) (limit : Int) (order : Node → List Int) : ∀ fuel n s,
    (keepNode I limit order fuel n s).2.1.min ≤ s.1.min ∧
    Full I (keepNode I limit order fuel n s).2.1.min (keepNode I limit order fuel n s).1
  | 0, n, s => ⟨Int.le_refl _, full_bare I _ n⟩
  | fuel + 1, n, s => by
      simp only [keepNode]
      obtain ⟨h1, -, -⟩ := assignAll_frame I limit (order n) n (nextActions n.assigned I.tree).1 (s.1, [])
      generalize assignAll I limit (order n) n (nextActions n.assigned I.tree).1 (s.1, []) = r at h1
      simp only at h1
      split
      · exact ⟨by simp only; omega, full_bare I _ n⟩
      · split
        · obtain ⟨h2, h3⟩ := keepChildren_full (keepNode_full I limit order fuel) r.2 (r.1, s.2 + r.2.length)
          generalize keepChildren (keepNode I limit order fuel) r.2 (r.1, s.2 + r.2.length) = k at h2 h3
          simp only at h2
          refine ⟨by simp only; omega, ?_⟩
          split
          · exact full_bare I _ n
          · intro d hd hl ho
            obtain ⟨d', hd', e1, e2⟩ := prune_in _ _ _ hd
            rw [← e2] at hl
            rw [← e1] at ho ⊢
            cases hd' with
            | self => simp [Kept.leaf] at hl
            | deeper hk hd' => exact h3 _ hk d' hd' hl ho
        · split
          · next hof =>
            have hm : (newLeaf n r.1).min ≤ r.1.min ∧ (newLeaf n r.1).min ≤ n.cost := by
              unfold newLeaf
              split
              · simp only; omega
              · omega
            refine ⟨by simp only; omega, ?_⟩
            intro d hd _ _
            cases hd with
            | self => exact hm.2
            | deeper h _ => simp [Kept.kids] at h
          · next hof =>
            refine ⟨by simp only; omega, ?_⟩
            intro d hd _ ho
            cases hd with
            | self => exact absurd ho hof
            | deeper h _ => simp [Kept.kids] at h

/-- **C201, in part.**  When the search has ended, every node that is still kept, other than the first, leads to a dead end that is
cheaper than the assignment found, that is, to a node where a task is left but no vehicle can go on for less than the best known at
the time; no complete assignment is kept, and nothing that costs as much as the assignment found or more.  Missing: that these ends
are given up (`C201_all_kept_violated`, `C201_dead_end_violated`, `C201_bounded_violated`). -/
theorem C201_ends_partial (I : Inst) (limit : Int) (order : Node → List Int) (d k : Kept) (hk : k ∈ (keepSearch I limit order).1.kids)
    (hd : In d k) (he : d.kids = []) : d.node.cost < (search I limit order).min ∧ offersAt I d.node ≠ [] := by
  obtain ⟨-, hfull⟩ := keepNode_full I limit order ((Verif.Algebra.actionsOf I.tree).length + 1) rootNode ({}, 0)
  have hin : In d (keepSearch I limit order).1 := .deeper hk hd
  have key : d.leaf = true ∧ d.node.cost < (search I limit order).min := by
    rw [← C201_same]
    unfold keepSearch at hk ⊢
    simp only [keepNode] at hk ⊢
    generalize assignAll I limit (order rootNode) rootNode (nextActions rootNode.assigned I.tree).1 ({}, []) = r at hk ⊢
    split at hk
    · simp [Kept.kids] at hk
    · next h1 =>
      rw [if_neg h1]
      split at hk
      · next h2 =>
        rw [if_pos h2]
        split at hk
        · simp [Kept.kids] at hk
        · exact prune_ends _ _ _ ⟨k, hk, hd⟩ he
      · split at hk <;> simp [Kept.kids] at hk
  refine ⟨key.2, fun ho => ?_⟩
  have := hfull d hin key.1 ho
  rw [show (keepNode I limit order ((Verif.Algebra.actionsOf I.tree).length + 1) rootNode ({}, 0)).2.1 = search I limit order from
    C201_same I limit order] at this
  omega

/-! ### What is not given up -/

mutual

/-- Not in the code: each end is a leaf cheaper than the best. -/
def Solid (min : Int) : Kept → Prop
  | .mk n l [] => l = true ∧ n.cost < min
  | .mk _ _ (k :: ks) => Solids min (k :: ks)

/-- Not in the code: `Solid` for all. -/
def Solids (min : Int) : List Kept → Prop
  | [] => True
  | k :: ks => Solid min k ∧ Solids min ks

end

mutual

theorem solid_prune (min : Int) : ∀ k, Solid min k → prune min k = (k, false)
  | .mk n l [], h => by
      simp only [Solid] at h
      simp [prune, h.1, h.2]
  | .mk n l (k :: ks), h => by
      simp only [Solid] at h
      have e := solids_prune min (k :: ks) h
      simp only [prune, e]
      simp [List.filter_map, Function.comp_def]

theorem solids_prune (min : Int) : ∀ ks, Solids min ks → pruneAll min ks = ks.map fun k => (k, false)
  | [], _ => rfl
  | k :: ks, h => by
      simp only [Solids] at h
      simp [pruneAll, solid_prune min k h.1, solids_prune min ks h.2]

end

/-- While no complete assignment is found, all are expanded and nothing is removed. -/
theorem keepChildren_all {f : Node → Static × Nat → Kept × Static × Nat}
    (hm : ∀ c s, (f c s).2.1.min ≤ s.1.min ∧ s.1.complete ≤ (f c s).2.1.complete) : ∀ cs s,
    (keepChildren f cs s).2.1.min ≤ s.1.min ∧ s.1.complete ≤ (keepChildren f cs s).2.1.complete
  | [], s => ⟨Int.le_refl _, Nat.le_refl _⟩
  | c :: cs, s => by
      simp only [keepChildren]
      obtain ⟨r, hr⟩ : ∃ r, r = (if c.cost < s.1.min ∧ s.1.stop = false then f c s else (.mk c false [], s)) := ⟨_, rfl⟩
      rw [← hr]
      have h1 : r.2.1.min ≤ s.1.min ∧ s.1.complete ≤ r.2.1.complete := by
        rw [hr]
        split
        · exact hm c s
        · exact ⟨Int.le_refl _, Nat.le_refl _⟩
      have := keepChildren_all hm cs r.2
      omega

theorem solids_keep {f : Node → Static × Nat → Kept × Static × Nat} {P : Node → Prop}
    (hm : ∀ c s, (f c s).2.1.min ≤ s.1.min ∧ s.1.complete ≤ (f c s).2.1.complete)
    (hf : ∀ c s, P c → s.1.stop = false → s.1.min = int64Max → (f c s).2.1.complete = 0 → c.cost < int64Max →
      (f c s).2.1.stop = false ∧ (f c s).2.1.min = int64Max ∧ Solid int64Max (f c s).1 ∧ (f c s).1.size + s.2 = (f c s).2.2 + 1) :
    ∀ cs s, (∀ c ∈ cs, P c ∧ c.cost < int64Max) → s.1.stop = false → s.1.min = int64Max → (keepChildren f cs s).2.1.complete = 0 →
      (keepChildren f cs s).2.1.stop = false ∧ (keepChildren f cs s).2.1.min = int64Max ∧ Solids int64Max (keepChildren f cs s).1 ∧
      sizes (keepChildren f cs s).1 + s.2 = (keepChildren f cs s).2.2 + cs.length
  | [], s, _, hs, hi, _ => ⟨hs, hi, trivial, by simp [keepChildren, sizes]⟩
  | c :: cs, s, hP, hs, hi, h0 => by
      simp only [keepChildren] at h0 ⊢
      obtain ⟨p1, p2⟩ := hP c (by simp)
      rw [if_pos ⟨by rw [hi]; exact p2, hs⟩] at h0 ⊢
      have hz : (f c s).2.1.complete = 0 := by
        have := (keepChildren_all hm cs (f c s).2).2
        omega
      obtain ⟨h1, h2, h3, h4⟩ := hf c s p1 hs hi hz p2
      obtain ⟨g1, g2, g3, g4⟩ := solids_keep hm hf cs (f c s).2 (fun d hd => hP d (by simp [hd])) h1 h2 h0
      refine ⟨g1, g2, ⟨h3, g3⟩, ?_⟩
      simp only [sizes, List.length_cons]
      omega

theorem keepNode_solid {I : Inst} {limit : Int} {order : Node → List Int} (ho : GoodOrder I order) : ∀ fuel n (s : Static × Nat),
    Run (algOf I.tree) n.assigned → (Verif.Algebra.objectives I.tree).length < n.assigned.length + fuel →
    s.1.stop = false → s.1.min = int64Max → (keepNode I limit order fuel n s).2.1.complete = 0 → n.cost < int64Max →
    (keepNode I limit order fuel n s).2.1.stop = false ∧ (keepNode I limit order fuel n s).2.1.min = int64Max ∧
    Solid int64Max (keepNode I limit order fuel n s).1 ∧
    (keepNode I limit order fuel n s).1.size + s.2 = (keepNode I limit order fuel n s).2.2 + 1
  | 0, n, s, hr, hlen, _, _, _, _ => by
      have := run_bound hr
      omega
  | fuel + 1, n, s, hrun, hlen, hs, hi, h0, hc => by
      have hmono := (expand_complete I limit order (fuel + 1) n s.1).2
      have hzero : s.1.complete = 0 := by
        rw [keepNode_same] at h0
        omega
      obtain ⟨hr, hch⟩ := assignAll_spec (limit := limit) (ho n) n (offersAt I n) (s.1, [])
      simp only [keepNode] at h0 ⊢
      rw [show (nextActions n.assigned I.tree).1 = offersAt I n from rfl] at h0 ⊢
      generalize assignAll I limit (order n) n (offersAt I n) (s.1, []) = r at hr hch h0 ⊢
      have hmin : r.1.min = int64Max := hr.min.trans hi
      have hcomp : r.1.complete = 0 := hr.complete.trans hzero
      have hstop : r.1.stop = false := by
        cases h : r.1.stop with
        | false => rfl
        | true =>
          rcases hr.why h with h' | ⟨-, -, h'⟩
          · simp [hs] at h'
          · omega
      rw [if_neg (by simp [hstop])] at h0 ⊢
      by_cases hne : r.2 ≠ []
      · rw [if_pos hne] at h0 ⊢
        obtain ⟨g1, g2, g3, g4⟩ := solids_keep (f := keepNode I limit order fuel)
          (P := fun c => Run (algOf I.tree) c.assigned ∧ (Verif.Algebra.objectives I.tree).length < c.assigned.length + fuel)
          (fun c s => by rw [keepNode_same]; exact expand_complete I limit order fuel c s.1)
          (fun c s' hP h1 h2 h3 h4 => keepNode_solid ho fuel c s' hP.1 hP.2 h1 h2 h3 h4)
          r.2 (r.1, s.2 + r.2.length)
          (fun c hcm => by
            rcases (hch c).1 hcm with h | ⟨o', ho', v', hv', hc', hlt⟩
            · simp at h
            · refine ⟨⟨run_child ho' hc' hrun, ?_⟩, by simp only at hlt; rw [hi] at hlt; exact hlt⟩
              rw [assigned_of_child hc']
              simp only [List.length_append, List.length_cons, List.length_nil]
              omega)
          hstop hmin h0
        have hlen' : ∀ cs s, (keepChildren (keepNode I limit order fuel) cs s).1.length = cs.length := by
          intro cs
          induction cs with
          | nil => intro s; rfl
          | cons c cs ih => intro s; simp only [keepChildren, List.length_cons, ih]
        have hl := hlen' r.2 (r.1, s.2 + r.2.length)
        generalize keepChildren (keepNode I limit order fuel) r.2 (r.1, s.2 + r.2.length) = k at g1 g2 g3 g4 h0 hl ⊢
        rw [if_neg (by simp [g1])]
        have hsol : Solid int64Max (.mk n false k.1) := by
          cases hk : k.1 with
          | nil =>
            rw [hk] at hl
            exact absurd (List.length_eq_zero_iff.1 hl.symm) hne
          | cons a as => simp only [Solid]; rw [← hk]; exact g3
        rw [g2, solid_prune _ _ hsol]
        refine ⟨g1, rfl, hsol, ?_⟩
        simp only [size]
        simp only at g4
        omega
      · rw [if_neg hne] at h0 ⊢
        have hnil : r.2 = [] := by simpa using hne
        by_cases hof : offersAt I n = []
        · exfalso
          rw [if_pos hof] at h0
          simp only [newLeaf] at h0
          rw [if_pos (by rw [hmin]; exact hc)] at h0
          simp at h0
        · rw [if_neg hof]
          refine ⟨hstop, hmin, ⟨rfl, hc⟩, ?_⟩
          simp only [size, sizes, hnil, List.length_nil]
          omega

/-- **C201 is false.**  When there is no assignment of all tasks, or none is found, every node that was ever added is still kept at the
end of the search, whatever the tasks, the vehicles, the costs and the limit on the number of nodes (`m_isPruneable`, set at 854 and 864, is overwritten at 922). -/
theorem C201_all_kept_violated {I : Inst} {limit : Int} {order : Node → List Int} (ho : GoodOrder I order)
    (h : (search I limit order).complete = 0) :
    (keepSearch I limit order).1.size = (keepSearch I limit order).2.2 + 1 := by
  rw [← C201_same] at h
  exact (keepNode_solid ho _ rootNode ({}, 0) .start (by
    simp only [rootNode, List.length_nil, Nat.zero_add, Verif.Algebra.objectives_eq]
    omega) rfl rfl h (by decide)).2.2.2

/-! ### Cases -/

/-- One vehicle, three tasks that it reaches from everywhere and one (14) that it does not reach. -/
def lostInst : Inst where
  tree := .op .par [.action 11, .action 12, .action 13, .action 14]
  vehicles := [1]
  travel := fun _ _ to => if to = 14 then none else some 1
  known := fun _ => true
  duration := fun _ _ => some 0

/-- `C201_all_kept_violated`: nothing is found, and all 15 nodes below the first are kept, with the limit of the configuration (0). -/
example : (keepSearch lostInst 0 fun _ => [1]).1.size = (keepSearch lostInst 0 fun _ => [1]).2.2 + 1 :=
  C201_all_kept_violated (fun _ _ => Iff.rfl) (by decide +kernel)

example : (keepSearch lostInst 0 fun _ => [1]).2.2 = 15 := by decide +kernel

/-- One vehicle, two tasks; there is no way from the first (11), which is near, to the second. -/
def deadInst : Inst where
  tree := .op .par [.action 11, .action 12]
  vehicles := [1]
  travel := fun _ from' to => if from' = 11 then none else if from' = 12 ∨ to = 12 then some 5 else some 1
  known := fun _ => true
  duration := fun _ _ => some 0

/-- **C201 is false** also when an assignment of all tasks is found: the one that begins with the first task cannot be completed, and is
still kept at the end. -/
theorem C201_dead_end_violated : (search deadInst (-1) fun _ => [1]).min = 10 ∧
    ((keepSearch deadInst (-1) fun _ => [1]).1.kids.map fun k => (k.node.assigned, k.node.cost, k.kids.length)) = [([11], 1, 0)] := by
  decide +kernel

/-- `C201_ends_partial`: what is kept there is cheaper than what is found, and has a task left. -/
example : ∀ k ∈ (keepSearch deadInst (-1) fun _ => [1]).1.kids, k.kids = [] →
    k.node.cost < (search deadInst (-1) fun _ => [1]).min ∧ offersAt deadInst k.node ≠ [] :=
  fun k hk he => C201_ends_partial _ _ _ k k hk .self he

/-- **C201 is false** also where each assignment can be completed: the second that is looked at cannot be completed for less than the
first, so its beginning has no children, counts as an end and is kept. -/
theorem C201_bounded_violated : (search { deadInst with travel := fun _ _ _ => some 1 } (-1) fun _ => [1]).min = 2 ∧
    ((keepSearch { deadInst with travel := fun _ _ _ => some 1 } (-1) fun _ => [1]).1.kids.map fun k =>
      (k.node.assigned, k.node.cost, k.kids.length)) = [([12], 1, 0)] := by
  decide +kernel

/-- With one task the complete assignment is given up and nothing is kept but the first node. -/
example : (keepSearch { deadInst with tree := .action 11 } (-1) fun _ => [1]).1.size = 1 ∧
    (keepSearch { deadInst with tree := .action 11 } (-1) fun _ => [1]).2.2 = 1 := by
  decide +kernel

end Verif.Assign
