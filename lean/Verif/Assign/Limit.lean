import Verif.Assign.Factorial
import Verif.Assign.Dive

/-!
# How many nodes a search with a limit visits (C203)
-/

namespace Verif.Assign

open Verif.Algebra (Run Tree nextActions nextActionsList objectives objectivesL)

/-! ### How many tasks are offered at once -/

theorem seqNext_length (rs : List Verif.Algebra.NextRes) : ∀ b, (Verif.Algebra.seqNext b rs).1.length ≤ (rs.flatMap fun r => r.1).length := by
  induction rs with
  | nil => intro b; simp [Verif.Algebra.seqNext]
  | cons r rs ih =>
    intro b
    simp only [Verif.Algebra.seqNext, List.flatMap_cons, List.length_append]
    split
    · simp only; omega
    · have := ih false; omega

theorem find_length {p : Verif.Algebra.NextRes → Bool} : ∀ {rs : List Verif.Algebra.NextRes} {r}, rs.find? p = some r →
    r.1.length ≤ (rs.flatMap fun r => r.1).length
  | [], r, h => by simp at h
  | a :: rs, r, h => by
      simp only [List.flatMap_cons, List.length_append]
      rw [List.find?_cons] at h
      split at h
      · cases h; omega
      · have := find_length h; omega

theorem combine_length (o : Verif.Algebra.OpType) (rs : List Verif.Algebra.NextRes) :
    (Verif.Algebra.combine o rs).1.length ≤ (rs.flatMap fun r => r.1).length := by
  cases o
  · exact seqNext_length rs true
  · simp only [Verif.Algebra.combine, Verif.Algebra.altNext]
    split
    · next r h => have := find_length h; exact this
    · exact Nat.le_refl _
  · simp only [Verif.Algebra.combine, Verif.Algebra.parNext]
    exact Nat.le_refl _

mutual

theorem next_length (ex : List Int) : ∀ t : Tree, (nextActions ex t).1.length ≤ (objectives t).length
  | .action a => by
      simp only [nextActions, objectives]
      split <;> simp
  | .op o cs => by
      simp only [nextActions, objectives]
      exact Nat.le_trans (combine_length o _) (nextList_length ex cs)

theorem nextList_length (ex : List Int) : ∀ cs : List Tree,
    ((nextActionsList ex cs).flatMap fun r => r.1).length ≤ (objectivesL cs).length
  | [] => by simp [nextActionsList]
  | c :: cs => by
      simp only [nextActionsList, objectivesL, List.flatMap_cons, List.length_append]
      have h1 := next_length ex c
      have h2 := nextList_length ex cs
      omega

end

/-! ### One round, once something was found -/

/-- What holds after `k` trials; `B` is the larger of the limit and the nodes visited at the start. -/
def Held (B : Int) (k : Nat) (st : Static) : Prop := (st.stop = false → (st.visited : Int) ≤ B) ∧ (st.visited : Int) ≤ B + k

theorem held_one {I : Inst} {limit B : Int} (h0 : 0 ≤ limit) (hB : limit ≤ B) (order : List Int) (n : Node) (o v : Int) {k : Nat}
    (acc : Static × List Node) (hc : 0 < acc.1.complete) (h : Held B k acc.1) :
    Held B (k + 1) (nodeAssignment I limit order n o v acc.1 acc.2).1 ∧ 0 < (nodeAssignment I limit order n o v acc.1 acc.2).1.complete := by
  have hs : ∃ t : Static, t = (if 0 ≤ limit ∧ limit ≤ (acc.1.visited : Int) ∧ 0 < acc.1.complete then { acc.1 with stop := true } else acc.1) ∧
      t.visited = acc.1.visited ∧ t.complete = acc.1.complete ∧ (t.stop = false → acc.1.stop = false ∧ (acc.1.visited : Int) < limit) := by
    refine ⟨_, rfl, ?_⟩
    split
    · exact ⟨rfl, rfl, by simp⟩
    · next hn => exact ⟨rfl, rfl, fun h => ⟨h, by omega⟩⟩
  obtain ⟨t, ht, h1, h2, h3⟩ := hs
  obtain ⟨ha, hb⟩ := h
  unfold nodeAssignment Held
  rw [← ht]
  have hstop : t.stop = false → (t.visited : Int) < limit ∧ (t.visited : Int) ≤ B := by
    intro hf
    obtain ⟨g1, g2⟩ := h3 hf
    have := ha g1
    omega
  simp only
  split_ifs <;> simp only <;> refine ⟨⟨fun hf => ?_, ?_⟩, ?_⟩ <;> first | (have := hstop hf; omega) | omega

theorem held_vehicles {I : Inst} {limit B : Int} (h0 : 0 ≤ limit) (hB : limit ≤ B) (order : List Int) (n : Node) (o : Int) :
    ∀ (vs : List Int) {k : Nat} (acc : Static × List Node), 0 < acc.1.complete → Held B k acc.1 →
    Held B (k + vs.length) (assignVehicles I limit order n o vs acc).1 ∧ 0 < (assignVehicles I limit order n o vs acc).1.complete
  | [], k, acc, hc, h => ⟨h, hc⟩
  | v :: vs, k, acc, hc, h => by
      obtain ⟨h1, h2⟩ := held_one (I := I) h0 hB order n o v acc hc h
      have := held_vehicles (I := I) h0 hB order n o vs _ h2 h1
      simp only [assignVehicles, List.length_cons]
      rw [show k + (vs.length + 1) = k + 1 + vs.length by omega]
      exact this

theorem held_all {I : Inst} {limit B : Int} (h0 : 0 ≤ limit) (hB : limit ≤ B) (order : List Int) (n : Node) :
    ∀ (os : List Int) {k : Nat} (acc : Static × List Node), 0 < acc.1.complete → Held B k acc.1 →
    Held B (k + os.length * order.length) (assignAll I limit order n os acc).1 ∧ 0 < (assignAll I limit order n os acc).1.complete
  | [], k, acc, hc, h => by simpa [assignAll] using ⟨h, hc⟩
  | o :: os, k, acc, hc, h => by
      obtain ⟨h1, h2⟩ := held_vehicles (I := I) h0 hB order n o order acc hc h
      have := held_all (I := I) h0 hB order n os _ h2 h1
      simp only [assignAll, List.length_cons]
      rw [show k + (os.length + 1) * order.length = k + order.length + os.length * order.length by rw [Nat.add_mul]; omega]
      exact this

theorem Held.mono {B : Int} {k k' : Nat} {st : Static} (h : Held B k st) (hk : k ≤ k') : Held B k' st := ⟨h.1, by have := h.2; omega⟩

/-! ### The search, once something was found -/

theorem held_children {B : Int} {R : Nat} {f : Node → Static → Static}
    (hf : ∀ c st, 0 < st.complete → st.stop = false → Held B 0 st → Held B R (f c st) ∧ 0 < (f c st).complete) :
    ∀ cs st, 0 < st.complete → Held B R st → Held B R (expandChildren f cs st) ∧ 0 < (expandChildren f cs st).complete
  | [], st, hc, h => ⟨h, hc⟩
  | c :: cs, st, hc, h => by
      simp only [expandChildren]
      split
      · next hlt =>
        have h0 : Held B 0 st := ⟨h.1, by have := h.1 hlt.2; omega⟩
        obtain ⟨h1, h2⟩ := hf c st hc hlt.2 h0
        exact held_children hf cs _ h2 h1
      · exact held_children hf cs _ hc h

theorem held_node {I : Inst} {limit B : Int} (h0 : 0 ≤ limit) (hB : limit ≤ B) {order : Node → List Int} {V : Nat}
    (hV : ∀ n, (order n).length ≤ V) : ∀ fuel n st, 0 < st.complete → st.stop = false → Held B 0 st →
    Held B ((objectives I.tree).length * V) (expandNode I limit order fuel n st) ∧ 0 < (expandNode I limit order fuel n st).complete
  | 0, n, st, hc, _, h => ⟨h.mono (by omega), hc⟩
  | fuel + 1, n, st, hc, hs, h => by
      simp only [expandNode]
      obtain ⟨h1, h2⟩ := held_all (I := I) h0 hB (order n) n (nextActions n.assigned I.tree).1 (st, []) hc h
      have hR : 0 + (nextActions n.assigned I.tree).1.length * (order n).length ≤ (objectives I.tree).length * V := by
        rw [Nat.zero_add]
        exact Nat.mul_le_mul (next_length _ _) (hV n)
      generalize assignAll I limit (order n) n (nextActions n.assigned I.tree).1 (st, []) = r at h1 h2
      have h1' := h1.mono hR
      split
      · exact ⟨h1', h2⟩
      · split
        · exact held_children (fun c st a b d => held_node h0 hB hV fuel c st a b d) _ _ h2 h1'
        · split
          · unfold newLeaf
            split
            · exact ⟨h1', by simp only; omega⟩
            · exact ⟨h1', h2⟩
          · exact ⟨h1', h2⟩

/-! ### Before: as the search with the limit 0 -/

/-- Two states that differ at most in that only the first is stopped. -/
def Ahead (a b : Static) : Prop := a = { b with stop := a.stop } ∧ (b.stop = true → a.stop = true)

theorem ahead_one {I : Inst} {limit : Int} (order : List Int) (n : Node) (o v : Int) (a b : Static) (cs : List Node)
    (h : Ahead a b) : Ahead (nodeAssignment I 0 order n o v a cs).1 (nodeAssignment I limit order n o v b cs).1 ∧
    (nodeAssignment I 0 order n o v a cs).2 = (nodeAssignment I limit order n o v b cs).2 := by
  obtain ⟨h1, h2⟩ := h
  obtain ⟨am, av, ac, as, aa⟩ := a
  obtain ⟨bm, bv, bc, bs, ba⟩ := b
  simp only [Static.mk.injEq, true_and] at h1
  obtain ⟨rfl, rfl, rfl, rfl⟩ := h1
  simp only at h2
  unfold nodeAssignment Ahead
  simp only
  split_ifs <;> simp_all

theorem ahead_vehicles {I : Inst} {limit : Int} (order : List Int) (n : Node) (o : Int) : ∀ (vs : List Int) (a b : Static × List Node),
    Ahead a.1 b.1 → a.2 = b.2 → Ahead (assignVehicles I 0 order n o vs a).1 (assignVehicles I limit order n o vs b).1 ∧
    (assignVehicles I 0 order n o vs a).2 = (assignVehicles I limit order n o vs b).2
  | [], a, b, h, e => ⟨h, e⟩
  | v :: vs, a, b, h, e => by
      simp only [assignVehicles]
      rw [e]
      obtain ⟨h1, h2⟩ := ahead_one (I := I) (limit := limit) order n o v a.1 b.1 b.2 h
      exact ahead_vehicles order n o vs _ _ h1 h2

theorem ahead_all {I : Inst} {limit : Int} (order : List Int) (n : Node) : ∀ (os : List Int) (a b : Static × List Node),
    Ahead a.1 b.1 → a.2 = b.2 → Ahead (assignAll I 0 order n os a).1 (assignAll I limit order n os b).1 ∧
    (assignAll I 0 order n os a).2 = (assignAll I limit order n os b).2
  | [], a, b, h, e => ⟨h, e⟩
  | o :: os, a, b, h, e => by
      simp only [assignAll]
      obtain ⟨h1, h2⟩ := ahead_vehicles (I := I) (limit := limit) order n o order a b h e
      exact ahead_all order n os _ _ h1 h2

/-- The search with the limit 0, and the one with the limit of interest. -/
def Both (limit : Int) (R : Nat) (a b : Static) : Prop :=
  (a = b ∧ a.stop = false) ∨
  (a.stop = true ∧ 0 < b.complete ∧ ∀ B : Int, limit ≤ B → (a.visited : Int) ≤ B → Held B R b)

theorem both_children {limit : Int} {R : Nat} {f g : Node → Static → Static} (h : ∀ c s, s.stop = false → Both limit R (f c s) (g c s))
    (hg : ∀ B : Int, limit ≤ B → ∀ c st, 0 < st.complete → st.stop = false → Held B 0 st → Held B R (g c st) ∧ 0 < (g c st).complete) :
    ∀ cs a b, Both limit R a b → Both limit R (expandChildren f cs a) (expandChildren g cs b)
  | [], a, b, hab => hab
  | c :: cs, a, b, hab => by
      simp only [expandChildren]
      rcases hab with ⟨rfl, hs⟩ | ⟨h1, h2, h3⟩
      · by_cases hc : c.cost < a.min
        · rw [if_pos ⟨hc, hs⟩, if_pos ⟨hc, hs⟩]
          exact both_children h hg cs _ _ (h c a hs)
        · rw [if_neg (fun h => hc h.1), if_neg (fun h => hc h.1)]
          exact both_children h hg cs _ _ (.inl ⟨rfl, hs⟩)
      · rw [if_neg (by simp [h1])]
        apply both_children h hg cs
        right
        split
        · next hb =>
          refine ⟨h1, ?_, fun B hl hv => ?_⟩
          · have hh := h3 (max limit a.visited) (Int.le_max_left _ _) (Int.le_max_right _ _)
            exact (hg _ (Int.le_max_left limit a.visited) c b h2 hb.2 ⟨hh.1, by have := hh.1 hb.2; omega⟩).2
          · have hh := h3 B hl hv
            exact (hg B hl c b h2 hb.2 ⟨hh.1, by have := hh.1 hb.2; omega⟩).1
        · exact ⟨h1, h2, h3⟩

theorem both_node {I : Inst} {limit : Int} (h0 : 0 ≤ limit) {order : Node → List Int} (ho : GoodOrder I order) {V : Nat} (hV : ∀ n, (order n).length ≤ V) :
    ∀ fuel n s, s.stop = false →
    Both limit ((objectives I.tree).length * V) (expandNode I 0 order fuel n s) (expandNode I limit order fuel n s)
  | 0, n, s, hs => .inl ⟨rfl, hs⟩
  | fuel + 1, n, s, hs => by
      simp only [expandNode]
      obtain ⟨hA, hE⟩ := ahead_all (I := I) (limit := limit) (order n) n (nextActions n.assigned I.tree).1 (s, []) (s, [])
        ⟨rfl, id⟩ rfl
      obtain ⟨hr, -⟩ := assignAll_spec (limit := 0) (ho n) n (nextActions n.assigned I.tree).1 (s, [])
      generalize assignAll I 0 (order n) n (nextActions n.assigned I.tree).1 (s, []) = ra at hA hE hr
      generalize assignAll I limit (order n) n (nextActions n.assigned I.tree).1 (s, []) = rb at hA hE
      obtain ⟨e1, e2⟩ := hA
      have hg : ∀ B : Int, limit ≤ B → ∀ c st, 0 < st.complete → st.stop = false → Held B 0 st →
          Held B ((objectives I.tree).length * V) (expandNode I limit order fuel c st) ∧ 0 < (expandNode I limit order fuel c st).complete :=
        fun B hl c st a b d => held_node h0 hl hV fuel c st a b d
      by_cases hst : ra.1.stop = true
      · rw [if_pos hst]
        have hc : 0 < rb.1.complete := by
          have : rb.1.complete = ra.1.complete := by rw [e1]
          rcases hr.why hst with h | ⟨-, -, h⟩
          · simp [hs] at h
          · omega
        have hv : rb.1.visited = ra.1.visited := by rw [e1]
        have hheld : ∀ B : Int, (ra.1.visited : Int) ≤ B → Held B 0 rb.1 := fun B hB => ⟨fun _ => by omega, by omega⟩
        right
        split
        · exact ⟨hst, hc, fun B hl hB => (hheld B hB).mono (by omega)⟩
        · split
          · refine ⟨hst, ?_, fun B hl hB => ?_⟩
            · exact (held_children (hg (max limit ra.1.visited) (Int.le_max_left _ _)) rb.2 rb.1 hc
                ((hheld _ (Int.le_max_right _ _)).mono (by omega))).2
            · exact (held_children (hg B hl) rb.2 rb.1 hc ((hheld B hB).mono (by omega))).1
          · split
            · unfold newLeaf
              split
              · exact ⟨hst, by simp only; omega, fun B hl hB => (hheld B hB).mono (by omega)⟩
              · exact ⟨hst, hc, fun B hl hB => (hheld B hB).mono (by omega)⟩
            · exact ⟨hst, hc, fun B hl hB => (hheld B hB).mono (by omega)⟩
      · have hfa : ra.1.stop = false := by simpa using hst
        have hfb : rb.1.stop = false := by
          cases h : rb.1.stop with
          | false => rfl
          | true => exact absurd (e2 h) hst
        have hab : ra = rb := by
          obtain ⟨⟨am, av, ac, as, aa⟩, al⟩ := ra
          obtain ⟨⟨bm, bv, bc, bs, ba⟩, bl⟩ := rb
          simp only [Static.mk.injEq, true_and] at e1 hE hfa hfb
          obtain ⟨rfl, rfl, rfl, rfl⟩ := e1
          subst hE hfa hfb
          rfl
        subst hab
        rw [if_neg hst, if_neg hst]
        split
        · exact both_children (fun c s' hs' => both_node h0 ho hV fuel c s' hs') hg _ _ _ (.inl ⟨rfl, hfb⟩)
        · split
          · left
            refine ⟨rfl, ?_⟩
            unfold newLeaf
            split <;> exact hfb
          · exact .inl ⟨rfl, hfb⟩

/-! ### The first way down -/

theorem upper_one (I : Inst) (limit : Int) (order : List Int) (n : Node) (o v : Int) (acc : Static × List Node) :
    (nodeAssignment I limit order n o v acc.1 acc.2).1.visited ≤ acc.1.visited + 1 := by
  unfold nodeAssignment
  have : (if 0 ≤ limit ∧ limit ≤ (acc.1.visited : Int) ∧ 0 < acc.1.complete then { acc.1 with stop := true } else acc.1).visited =
      acc.1.visited := by
    split <;> rfl
  generalize (if 0 ≤ limit ∧ limit ≤ (acc.1.visited : Int) ∧ 0 < acc.1.complete then { acc.1 with stop := true } else acc.1) = t at this ⊢
  simp only
  split_ifs <;> simp only <;> omega

theorem upper_vehicles (I : Inst) (limit : Int) (order : List Int) (n : Node) (o : Int) : ∀ (vs : List Int) (acc : Static × List Node),
    (assignVehicles I limit order n o vs acc).1.visited ≤ acc.1.visited + vs.length
  | [], acc => by simp [assignVehicles]
  | v :: vs, acc => by
      have h1 := upper_one I limit order n o v acc
      have h2 := upper_vehicles I limit order n o vs (nodeAssignment I limit order n o v acc.1 acc.2)
      simp only [assignVehicles, List.length_cons]
      omega

theorem upper_all (I : Inst) (limit : Int) (order : List Int) (n : Node) : ∀ (os : List Int) (acc : Static × List Node),
    (assignAll I limit order n os acc).1.visited ≤ acc.1.visited + os.length * order.length
  | [], acc => by simp [assignAll]
  | o :: os, acc => by
      have h1 := upper_vehicles I limit order n o order acc
      have h2 := upper_all I limit order n os (assignVehicles I limit order n o order acc)
      simp only [assignAll, List.length_cons]
      rw [Nat.add_mul]
      omega

/-- Not in the code: from every beginning of an assignment that the search can come to, some task that is offered can be given to some
vehicle. -/
def Goes (I : Inst) : Prop := ∀ n, Low I rootNode n → offersAt I n ≠ [] →
  ∃ o ∈ offersAt I n, ∃ v ∈ I.vehicles, ∃ m, Child I n o v m ∧ m.cost < int64Max

theorem Low.snoc {I : Inst} {a n : Node} (h : Low I a n) {o v : Int} {m : Node} (ho : o ∈ offersAt I n) (hv : v ∈ I.vehicles)
    (hc : Child I n o v m) (hm : m.cost < int64Max) : Low I a m := by
  induction h with
  | refl => exact .step ho hv hc hm .refl
  | step h1 h2 h3 h4 _ ih => exact .step h1 h2 h3 h4 (ih ho hc)

theorem first_node {I : Inst} {limit B : Int} (h0 : 0 ≤ limit) (hB : limit ≤ B) {order : Node → List Int} (ho : GoodOrder I order) {V : Nat}
    (hV : ∀ n, (order n).length ≤ V) (hgo : Goes I) : ∀ (fuel : Nat) (n : Node) (st : Static), Low I rootNode n →
    Run (algOf I.tree) n.assigned → (objectives I.tree).length < n.assigned.length + fuel → n.cost < int64Max →
    st.stop = false → st.min = int64Max → st.complete = 0 → ((st.visited + fuel * ((objectives I.tree).length * V) : Nat) : Int) ≤ B →
    Held B ((objectives I.tree).length * V) (expandNode I limit order fuel n st) ∧ 0 < (expandNode I limit order fuel n st).complete
  | 0, n, st, _, hrun, hlen, _, _, _, _, _ => by
      have := run_bound hrun
      omega
  | fuel + 1, n, st, hlow, hrun, hlen, hcost, hs, hmin, hz, hbud => by
      obtain ⟨hr, hch⟩ := assignAll_spec (limit := limit) (ho n) n (offersAt I n) (st, [])
      have hup := upper_all I limit (order n) n (offersAt I n) (st, [])
      have hR : (offersAt I n).length * (order n).length ≤ (objectives I.tree).length * V := Nat.mul_le_mul (next_length _ _) (hV n)
      simp only [expandNode]
      rw [show (nextActions n.assigned I.tree).1 = offersAt I n from rfl]
      generalize assignAll I limit (order n) n (offersAt I n) (st, []) = r at hr hch hup
      obtain ⟨R, hRe⟩ : ∃ R, R = (objectives I.tree).length * V := ⟨_, rfl⟩
      rw [← hRe] at hR hbud ⊢
      simp only at hup
      rw [Nat.add_mul, Nat.one_mul] at hbud
      have hs1 : r.1.stop = false := by
        cases h : r.1.stop with
        | false => rfl
        | true =>
          rcases hr.why h with h' | ⟨-, -, h'⟩
          · simp [hs] at h'
          · have : r.1.complete = st.complete := hr.complete
            omega
      have hm1 : r.1.min = int64Max := hr.min.trans hmin
      have hz1 : r.1.complete = 0 := hr.complete.trans hz
      rw [if_neg (by simp [hs1])]
      by_cases hof : offersAt I n = []
      · have : r.2 = [] := by
          cases hr2 : r.2 with
          | nil => rfl
          | cons c cs =>
            have := (hch c).1 (by simp [hr2])
            simp [hof] at this
        rw [if_neg (by simp [this]), if_pos hof]
        unfold newLeaf
        rw [if_pos (by omega)]
        refine ⟨⟨fun _ => ?_, ?_⟩, ?_⟩ <;> simp only <;> omega
      · obtain ⟨o, hoo, v, hv, m, hc, hm⟩ := hgo n hlow hof
        have hmem : m ∈ r.2 := (hch m).2 (.inr ⟨o, hoo, v, hv, hc, by simp only; omega⟩)
        cases hr2 : r.2 with
        | nil => rw [hr2] at hmem; simp at hmem
        | cons c cs =>
          rw [if_pos (by simp)]
          rcases (hch c).1 (by simp [hr2]) with h | ⟨o', ho', v', hv', hc', hlt⟩
          · simp at h
          · have hlt' : c.cost < int64Max := by simp only at hlt; omega
            simp only [expandChildren]
            rw [if_pos ⟨by omega, hs1⟩]
            obtain ⟨g1, g2⟩ := first_node h0 hB ho hV hgo fuel c r.1 (hlow.snoc ho' hv' hc' hlt') (run_child ho' hc' hrun)
              (by rw [assigned_of_child hc']; simp only [List.length_append, List.length_cons, List.length_nil]; omega) hlt' hs1 hm1 hz1
              (by rw [← hRe]; omega)
            rw [hRe]
            exact held_children (fun c st a b d => held_node h0 hB hV fuel c st a b d) cs _ g2 g1

end Verif.Assign
