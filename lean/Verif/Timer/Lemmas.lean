import Verif.Timer.Spec

/-!
The invariant of the timer manager, and the simulation of the phases of one timer.
-/

namespace Verif.Timer

/-- What holds in every state reached without undefined behaviour. -/
structure Inv (s : State) : Prop where
  entry : ∀ k ∈ s.queue, ∃ t, s.timers k = some t ∧ t.executing = false
  sorted : s.queue.Pairwise fun a b => s.key a ≤ s.key b
  nodup : s.queue.Nodup
  known : ∀ k t, s.timers k = some t → k < s.nextId
  executing : ∀ k t, s.timers k = some t → t.executing = true → s.running = some k
  period : ∀ k t, s.timers k = some t → 0 ≤ t.period
  pos : 1 ≤ s.nextId

theorem inv_init : Inv {} := ⟨by simp, by simp, by simp, by simp, by simp, by simp, by simp⟩

theorem mem_insertEntry {key : Nat → Int} {id x : Nat} : ∀ {l : List Nat},
    x ∈ insertEntry key id l ↔ x = id ∨ x ∈ l
  | [] => by simp [insertEntry]
  | k :: ks => by
    unfold insertEntry
    by_cases h : key id < key k
    · simp [if_pos h]
    · simp only [if_neg h, List.mem_cons, mem_insertEntry (l := ks)]
      grind

theorem nodup_insertEntry {key : Nat → Int} {id : Nat} : ∀ {l : List Nat}, id ∉ l → l.Nodup →
    (insertEntry key id l).Nodup
  | [], _, _ => by simp [insertEntry]
  | k :: ks, hi, hn => by
    simp only [List.mem_cons, not_or] at hi
    simp only [List.nodup_cons] at hn
    unfold insertEntry
    by_cases h : key id < key k
    · simp only [if_pos h, List.nodup_cons, List.mem_cons, not_or]
      exact ⟨hi, hn⟩
    · simp only [if_neg h, List.nodup_cons, mem_insertEntry, not_or]
      exact ⟨⟨fun e => hi.1 e.symm, hn.1⟩, nodup_insertEntry hi.2 hn.2⟩

theorem sorted_insertEntry {key : Nat → Int} {id : Nat} : ∀ {l : List Nat},
    (l.Pairwise fun a b => key a ≤ key b) →
    ((insertEntry key id l).Pairwise fun a b => key a ≤ key b)
  | [], _ => by simp [insertEntry]
  | k :: ks, hs => by
    rw [List.pairwise_cons] at hs
    unfold insertEntry
    by_cases h : key id < key k
    · simp only [if_pos h, List.pairwise_cons, List.mem_cons]
      refine ⟨?_, hs.1, hs.2⟩
      rintro b (rfl | hb)
      · omega
      · have := hs.1 b hb; omega
    · simp only [if_neg h, List.pairwise_cons]
      refine ⟨?_, sorted_insertEntry hs.2⟩
      intro b hb
      rcases mem_insertEntry.1 hb with rfl | hb
      · omega
      · exact hs.1 b hb

theorem find_some {s : State} {time : Int} {k : Nat} (h : s.find time = some k) :
    k ∈ s.queue ∧ s.key k = time := by
  unfold State.find at h
  refine ⟨List.mem_of_find?_eq_some h, ?_⟩
  have := List.find?_some h
  simpa using this

theorem find_none {s : State} {time : Int} (h : s.find time = none) :
    ∀ k ∈ s.queue, s.key k ≠ time := by
  unfold State.find at h
  intro k hk
  have := List.find?_eq_none.1 h k hk
  simpa using this

theorem find_isSome {s : State} {time : Int} : (s.find time).isSome = true ↔
    ∃ k ∈ s.queue, s.key k = time := by
  constructor
  · intro h
    obtain ⟨k, hk⟩ := Option.isSome_iff_exists.1 h
    exact ⟨k, find_some hk⟩
  · rintro ⟨k, hk, he⟩
    rcases h : s.find time with _ | x
    · exact absurd he (find_none h k hk)
    · simp

theorem key_of {s : State} {k : Nat} {t : Timer} (h : s.timers k = some t) : s.key k = t.next := by
  simp [State.key, h]

/-- Removing the entries of one time, whether or not there are any. -/
theorem erase_if (s : State) (time : Int) :
    (if (s.find time).isSome then s.eraseTime time else s) = s.eraseTime time := by
  by_cases h : (s.find time).isSome = true
  · rw [if_pos h]
  · rw [if_neg h]
    have hq : s.queue.filter (fun k => s.key k != time) = s.queue := by
      rw [List.filter_eq_self]
      intro k hk
      have : s.find time = none := by simpa using h
      have := find_none this k hk
      simpa using this
    simp [State.eraseTime, hq]

/-- Dropping a timer that is not executing. -/
theorem dropExisting_idle {s : State} {id k : Nat} {t : Timer} {d : Bool} (h : t.executing = false) :
    dropExisting s id k t d =
      (if d then (s.eraseTime t.next).set id none else s.eraseTime t.next, true) := by
  simp [dropExisting, h, erase_if]

theorem inv_erase {s : State} (h : Inv s) (time : Int) : Inv (s.eraseTime time) where
  entry := fun k hk => h.entry k (List.mem_filter.1 hk).1
  sorted := h.sorted.filter _
  nodup := h.nodup.filter _
  known := h.known
  executing := h.executing
  period := h.period
  pos := h.pos

/-- Changing a timer that is not in the queue. -/
theorem inv_set {s : State} (h : Inv s) {id : Nat} {t : Option Timer} (hid : id ∉ s.queue)
    (hlt : id < s.nextId) (hex : ∀ u, t = some u → u.executing = true → s.running = some id)
    (hp : ∀ u, t = some u → 0 ≤ u.period) : Inv (s.set id t) := by
  have hkey : ∀ k ∈ s.queue, (s.set id t).key k = s.key k := by
    intro k hk
    have : k ≠ id := fun e => hid (e ▸ hk)
    simp [State.key, State.set, this]
  refine ⟨?_, ?_, h.nodup, ?_, ?_, ?_, h.pos⟩
  · intro k hk
    have : k ≠ id := fun e => hid (e ▸ hk)
    obtain ⟨u, hu⟩ := h.entry k hk
    exact ⟨u, by simp [State.set, this, hu.1], hu.2⟩
  · refine List.Pairwise.imp_of_mem ?_ h.sorted
    intro a b ha hb hab
    rw [hkey a ha, hkey b hb]; exact hab
  · intro k u hu
    by_cases hk : k = id
    · rw [hk]; exact hlt
    · simp only [State.set, if_neg hk] at hu; exact h.known k u hu
  · intro k u hu hx
    by_cases hk : k = id
    · subst hk
      simp only [State.set, if_true] at hu
      exact hex u hu hx
    · simp only [State.set, if_neg hk] at hu; exact h.executing k u hu hx
  · intro k u hu
    by_cases hk : k = id
    · subst hk
      simp only [State.set, if_true] at hu
      exact hp u hu
    · simp only [State.set, if_neg hk] at hu; exact h.period k u hu

theorem inv_insert {s : State} (h : Inv s) {id : Nat} {t : Timer} (hid : id ∉ s.queue)
    (ht : s.timers id = some t) (hx : t.executing = false) :
    Inv { s with queue := insertEntry s.key id s.queue } where
  entry := by
    intro k hk
    rcases mem_insertEntry.1 hk with rfl | hk
    · exact ⟨t, ht, hx⟩
    · exact h.entry k hk
  sorted := sorted_insertEntry h.sorted
  nodup := nodup_insertEntry hid h.nodup
  known := h.known
  executing := h.executing
  period := h.period
  pos := h.pos

/-- In a good state the whole effect of `start` is known. -/
theorem start_eq {s : State} (h : Inv s) {id : Nat} {now delay period : Int} {t : Timer}
    (ht : s.timers id = some t) :
    start s id now delay period =
      .ok ({ (s.eraseTime t.next).set id (some { next := now + delay, period := period }) with
              queue := insertEntry
                ((s.eraseTime t.next).set id (some { next := now + delay, period := period })).key id
                (s.eraseTime t.next).queue }, .result true) := by
  have hlt := h.known id t ht
  unfold start
  rw [if_neg (by omega)]
  simp only [ht]
  rcases hf : s.find t.next with _ | k
  · have he := erase_if s t.next
    rw [hf] at he
    simp only [Option.isSome_none, Bool.false_eq_true, if_false] at he
    simp only [if_true]
    rw [← he]
    rfl
  · obtain ⟨hk, hkey⟩ := find_some hf
    obtain ⟨u, hu, hx⟩ := h.entry k hk
    have hun : u.next = t.next := by rw [← key_of hu]; exact hkey
    simp only [hu, dropExisting_idle hx, hun, Bool.false_eq_true, if_false, if_true]
    rfl

theorem not_mem_erase {s : State} {id : Nat} {t : Timer} (ht : s.timers id = some t) :
    id ∉ (s.eraseTime t.next).queue := by
  intro hm
  have := (List.mem_filter.1 hm).2
  rw [key_of ht] at this
  simp at this

theorem inv_start {s s' : State} {o : Out} (h : Inv s) {id : Nat} {now delay period : Int}
    (hp : 0 ≤ period) (hs : start s id now delay period = .ok (s', o)) : Inv s' := by
  rcases ht : s.timers id with _ | t
  · unfold start at hs
    simp only [ht] at hs
    by_cases hc : id > s.nextId - 1
    · simp only [if_pos hc, Outcome.ok.injEq, Prod.mk.injEq] at hs
      rw [← hs.1]; exact h
    · simp only [if_neg hc, Outcome.ok.injEq, Prod.mk.injEq] at hs
      rw [← hs.1]; exact h
  · rw [start_eq h ht] at hs
    simp only [Outcome.ok.injEq, Prod.mk.injEq] at hs
    rw [← hs.1]
    have h1 := inv_erase h t.next
    have h2 : Inv ((s.eraseTime t.next).set id (some { next := now + delay, period := period })) :=
      inv_set h1 (not_mem_erase ht) (h.known id t ht) (by simp) (by simp [hp])
    exact inv_insert h2 (t := { next := now + delay, period := period }) (not_mem_erase ht)
      (by simp [State.set]) rfl

theorem inv_drop {s : State} (h : Inv s) (id : Nat) (d : Bool) : Inv (drop s id d).1 := by
  unfold drop
  by_cases hc : id > s.nextId - 1
  · simp [if_pos hc, h]
  · rw [if_neg hc]
    rcases ht : s.timers id with _ | t
    · simp [h]
    · simp only
      by_cases hx : t.executing = true
      · unfold dropExisting
        simp only [hx, if_true]
        have hq : id ∉ s.queue := by
          intro hm
          obtain ⟨u, hu, hux⟩ := h.entry id hm
          rw [ht] at hu
          simp only [Option.some.injEq] at hu
          rw [hu, hux] at hx; simp at hx
        refine inv_set h hq (h.known id t ht) ?_ ?_
        · intro u hu hux
          exact h.executing id t ht hx
        · intro u hu
          simp only [Option.some.injEq] at hu
          rw [← hu]
          exact h.period id t ht
      · have hx' : t.executing = false := by simpa using hx
        rw [dropExisting_idle hx']
        have h1 := inv_erase h t.next
        cases d
        · exact h1
        · exact inv_set h1 (not_mem_erase ht) (h.known id t ht) (by simp) (by simp)

theorem inv_dropAll : ∀ {s : State} (ids : List Nat), Inv s → Inv (dropAll s ids).1
  | _, [], h => h
  | _, id :: ids, h => inv_dropAll ids (inv_drop h id true)

theorem fire_cases {s s' : State} {now : Int} {o : Out} (hf : fire s now = .ok (s', o)) :
    (s' = s ∧ o = .idle ∧ (s.running = none → ∀ id rest t, s.queue = id :: rest →
      s.timers id = some t → now < t.next)) ∨
    ∃ id rest t, s.running = none ∧ s.queue = id :: rest ∧ s.timers id = some t ∧ t.next ≤ now ∧
      o = .fired id ∧
      s' = { s with queue := rest, running := some id }.set id (some { t with executing := true }) := by
  unfold fire at hf
  rcases hr : s.running with _ | r
  · simp only [hr] at hf
    rcases hq : s.queue with _ | ⟨id, rest⟩
    · simp only [hq, Outcome.ok.injEq, Prod.mk.injEq] at hf
      exact .inl ⟨hf.1.symm, hf.2.symm, by simp⟩
    · simp only [hq] at hf
      rcases ht : s.timers id with _ | t
      · simp [ht] at hf
      · simp only [ht] at hf
        by_cases hn : t.next ≤ now
        · simp only [if_pos hn, Outcome.ok.injEq, Prod.mk.injEq] at hf
          exact .inr ⟨id, rest, t, rfl, rfl, ht, hn, hf.2.symm, hf.1.symm⟩
        · simp only [if_neg hn, Outcome.ok.injEq, Prod.mk.injEq] at hf
          refine .inl ⟨hf.1.symm, hf.2.symm, ?_⟩
          intro _ id' rest' t' he ht'
          simp only [List.cons.injEq] at he
          rw [← he.1, ht] at ht'
          simp only [Option.some.injEq] at ht'
          subst ht'
          omega
  · simp only [hr, Outcome.ok.injEq, Prod.mk.injEq] at hf
    exact .inl ⟨hf.1.symm, hf.2.symm, by simp⟩

theorem inv_fire {s s' : State} {now : Int} {o : Out} (h : Inv s) (hf : fire s now = .ok (s', o)) :
    Inv s' := by
  rcases fire_cases hf with ⟨rfl, -⟩ | ⟨id, rest, t, hr, hq, ht, -, -, rfl⟩
  · exact h
  · have hn := h.nodup
    have hs := h.sorted
    rw [hq] at hn hs
    have h1 : Inv { s with queue := rest, running := some id } := by
      refine ⟨?_, (List.pairwise_cons.1 hs).2, (List.nodup_cons.1 hn).2, h.known, ?_, h.period, h.pos⟩
      · intro k hk
        exact h.entry k (by rw [hq]; exact List.mem_cons_of_mem _ hk)
      · intro k u hu hx
        have := h.executing k u hu hx
        rw [hr] at this; simp at this
    refine inv_set h1 (List.nodup_cons.1 hn).1 (h.known id t ht) ?_ ?_
    · intro u _ _; rfl
    · intro u hu
      simp only [Option.some.injEq] at hu
      rw [← hu]; exact h.period id t ht

/-- The effect of `finish` when it is defined. -/
theorem finish_cases {s s' : State} {o : Out} (hf : finish s = .ok (s', o)) :
    (s.running = none ∧ s' = s ∧ o = .idle) ∨
    ∃ id t, s.running = some id ∧ s.timers id = some t ∧ o = .finished id ∧
      ((t.toDestroy = true ∧ id ∉ s.queue ∧ s' = ({ s with running := none }).set id none) ∨
       (t.toDestroy = false ∧ t.disabled = true ∧
         s' = ({ s with running := none }).set id (some { t with executing := false })) ∨
       (t.toDestroy = false ∧ t.disabled = false ∧ 0 < t.period ∧ id ∉ s.queue ∧
         s' = { ({ s with running := none }).set id
                  (some { t with executing := false, next := t.next + t.period }) with
                queue := insertEntry (({ s with running := none }).set id
                  (some { t with executing := false, next := t.next + t.period })).key id s.queue }) ∨
       (t.toDestroy = false ∧ t.disabled = false ∧ ¬ 0 < t.period ∧
         s' = ({ s with running := none }).set id
           (some { t with executing := false, disabled := true }))) := by
  unfold finish at hf
  rcases hr : s.running with _ | id
  · simp only [hr, Outcome.ok.injEq, Prod.mk.injEq] at hf
    exact .inl ⟨rfl, hf.1.symm, hf.2.symm⟩
  · simp only [hr] at hf
    rcases ht : s.timers id with _ | t
    · simp [ht] at hf
    · have hset : ∀ (x y : Option Timer), (({ s with running := none } : State).set id x).set id y =
          ({ s with running := none } : State).set id y := by
        intro x y
        simp only [State.set, State.mk.injEq, and_true, true_and]
        funext k
        by_cases hk : k = id <;> simp [hk]
      simp only [ht] at hf
      right
      refine ⟨id, t, rfl, ht, ?_⟩
      by_cases h1 : t.toDestroy = true
      · simp only [h1, if_true] at hf
        by_cases hq : id ∈ s.queue
        · simp [State.set, hq] at hf
        · simp only [State.set, if_neg hq, Outcome.ok.injEq, Prod.mk.injEq] at hf
          refine ⟨hf.2.symm, .inl ⟨h1, hq, ?_⟩⟩
          rw [← hf.1]
          simp only [State.set, State.mk.injEq, and_true, true_and]
          funext k
          by_cases hk : k = id <;> simp [hk]
      · have h1' : t.toDestroy = false := by simpa using h1
        simp only [h1', Bool.false_eq_true, if_false] at hf
        by_cases h2 : t.disabled = true
        · simp only [h2, if_true, Outcome.ok.injEq, Prod.mk.injEq] at hf
          refine ⟨hf.2.symm, .inr (.inl ⟨h1', h2, ?_⟩)⟩
          rw [← hf.1, ← h2, ← h1']
        · have h2' : t.disabled = false := by simpa using h2
          simp only [h2', Bool.false_eq_true, if_false] at hf
          by_cases h3 : t.period > 0
          · simp only [if_pos h3] at hf
            by_cases hq : id ∈ s.queue
            · simp [State.set, hq] at hf
            · simp only [show (({ s with running := none } : State).set id
                  (some { t with executing := false, disabled := false, toDestroy := false })).queue
                    = s.queue from rfl, if_neg hq, hset, Outcome.ok.injEq, Prod.mk.injEq] at hf
              refine ⟨hf.2.symm, .inr (.inr (.inl ⟨h1', h2', h3, hq, ?_⟩))⟩
              rw [← hf.1]
              simp only [h1', h2']
              rfl
          · simp only [if_neg h3, hset, Outcome.ok.injEq, Prod.mk.injEq] at hf
            refine ⟨hf.2.symm, .inr (.inr (.inr ⟨h1', h2', h3, ?_⟩))⟩
            rw [← hf.1]
            simp only [h1']

end Verif.Timer
