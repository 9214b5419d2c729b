import Verif.Manager.Sweep
import Mathlib.Tactic.Common
import Mathlib.Data.List.Nodup

/-!
C206: all bridges are asked to stop.
-/

namespace Verif.Manager

/-- What holds during the loop when nothing is removed: some entries are done. -/
structure Sweeping (b : List (Nat × Bool)) (evs : List SweepIn) (s : Sweep) : Prop where
  fine : s.undefined = false
  ids : s.bridges.map (·.1) = b.map (·.1)
  split : ∃ pre post, s.bridges = pre ++ post ∧ s.at? = post.head?.map (·.1) ∧ (evs.count .go ≤ pre.length ∨ post = []) ∧
    s.asked.Sublist (pre.map (·.1)) ∧ ∀ p ∈ pre, (p.1, true) ∉ b → .ends p.1 ∉ evs → p.1 ∈ s.asked
  ended : ∀ p ∈ s.bridges, p.2 = true → (p.1, true) ∈ b ∨ .ends p.1 ∈ evs
  started : ∀ id ∈ s.asked, (id, false) ∈ b

theorem following_append : ∀ (pre : List (Nat × Bool)) (p : Nat × Bool) (post : List (Nat × Bool)), (∀ q ∈ pre, q.1 ≠ p.1) →
    following p.1 (pre ++ p :: post) = post.head?.map (·.1)
  | [], p, post, _ => by simp [following]
  | q :: pre, p, post, h => by
      rw [List.cons_append, following, if_neg (h q (by simp))]
      exact following_append pre p post fun x hx => h x (by simp [hx])

theorem sweeping_step {b : List (Nat × Bool)} (hb : (b.map (·.1)).Nodup) {evs : List SweepIn} {s : Sweep} (h : Sweeping b evs s)
    (hstill : ∀ p ∈ s.bridges, p.2 = false → (p.1, false) ∈ b) {i : SweepIn} (hi : i ≠ .remove) :
    Sweeping b (evs ++ [i]) (s.step i) ∧ ∀ p ∈ (s.step i).bridges, p.2 = false → (p.1, false) ∈ b := by
  obtain ⟨hfine, hids, ⟨pre, post, hsplit, hat, hcount, hsub, hall⟩, hend, hstart⟩ := h
  cases i with
  | remove => exact absurd rfl hi
  | ends id =>
    have hfst : ∀ p : Nat × Bool, (if p.1 = id then (p.1, true) else p).1 = p.1 := by intro p; split_ifs <;> rfl
    refine ⟨⟨hfine, ?_, ⟨pre.map fun p => if p.1 = id then (p.1, true) else p, post.map fun p => if p.1 = id then (p.1, true) else p,
      ?_, ?_, ?_, ?_, ?_⟩, ?_, hstart⟩, ?_⟩
    · simp only [Sweep.step, List.map_map]
      rw [← hids]
      exact List.map_congr_left fun p _ => hfst p
    · simp [Sweep.step, hsplit]
    · simp only [Sweep.step, hat]
      cases post with
      | nil => rfl
      | cons p post => simp [hfst p]
    · rcases hcount with hc | rfl
      · left
        simpa [List.count_append] using hc
      · exact .inr rfl
    · have : (pre.map fun p => if p.1 = id then (p.1, true) else p).map (·.1) = pre.map (·.1) := by
        rw [List.map_map]; exact List.map_congr_left fun p _ => hfst p
      rw [this]; exact hsub
    · intro p hp h1 h2
      obtain ⟨q, hq, rfl⟩ := List.mem_map.1 hp
      rw [hfst] at h1 h2 ⊢
      exact hall q hq h1 fun h3 => h2 (by simp [h3])
    · intro p hp h1
      obtain ⟨q, hq, rfl⟩ := List.mem_map.1 hp
      rw [hfst]
      by_cases hqi : q.1 = id
      · exact .inr (by simp [hqi])
      · rw [if_neg hqi] at h1
        exact (hend q hq h1).imp_right fun h3 => by simp [h3]
    · intro p hp h1
      obtain ⟨q, hq, rfl⟩ := List.mem_map.1 hp
      by_cases hqi : q.1 = id
      · rw [if_pos hqi] at h1; cases h1
      · rw [if_neg hqi] at h1 ⊢
        exact hstill q hq h1
  | go =>
    cases post with
    | nil =>
      have : s.step .go = s := by simp [Sweep.step, hat]
      rw [this]
      refine ⟨⟨hfine, hids, ⟨pre, [], hsplit, hat, .inr rfl, hsub, ?_⟩, ?_, hstart⟩, hstill⟩
      · exact fun p hp h1 h2 => hall p hp h1 fun h3 => h2 (by simp [h3])
      · exact fun p hp h1 => (hend p hp h1).imp_right fun h3 => by simp [h3]
    | cons p post =>
      have hnd : (s.bridges.map (·.1)).Nodup := by rw [hids]; exact hb
      have hne : ∀ q ∈ pre, q.1 ≠ p.1 := by
        rw [hsplit, List.map_append, List.map_cons, List.nodup_append] at hnd
        intro q hq
        exact hnd.2.2 q.1 (List.mem_map_of_mem hq) p.1 (by simp)
      have hfind : s.bridges.find? (fun q => q.1 == p.1) = some p := by
        rw [hsplit, List.find?_append, List.find?_eq_none.2 fun q hq => by simpa using hne q hq]
        simp
      have hfol : following p.1 s.bridges = post.head?.map (·.1) := by rw [hsplit]; exact following_append pre p post hne
      have hp : p ∈ s.bridges := by rw [hsplit]; simp
      have hstep : s.step .go = { s with asked := if p.2 then s.asked else s.asked ++ [p.1], at? := post.head?.map (·.1) } := by
        simp only [Sweep.step, hat, List.head?_cons, Option.map_some, hfind, hfol]
      rw [hstep]
      refine ⟨⟨hfine, hids, ⟨pre ++ [p], post, by simp [hsplit], rfl, ?_, ?_, ?_⟩, ?_, ?_⟩, hstill⟩
      · rcases hcount with hc | hc
        · left
          simpa [List.count_append] using hc
        · cases hc
      · simp only [List.map_append, List.map_cons, List.map_nil]
        split_ifs
        · exact hsub.trans (List.sublist_append_left _ _)
        · exact hsub.append (List.Sublist.refl _)
      · intro q hq h1 h2
        have h2' : .ends q.1 ∉ evs := fun h3 => h2 (by simp [h3])
        simp only [List.mem_append, List.mem_singleton] at hq
        simp only
        rcases hq with hq | rfl
        · split_ifs
          · exact hall q hq h1 h2'
          · exact List.mem_append_left _ (hall q hq h1 h2')
        · rw [if_neg]
          · simp
          · intro h3
            rcases hend q hp h3 with h4 | h4
            · exact h1 h4
            · exact h2' h4
      · exact fun q hq h1 => (hend q hq h1).imp_right fun h3 => by simp [h3]
      · intro id hid
        simp only at hid
        split_ifs at hid with h1
        · exact hstart id hid
        · simp only [List.mem_append, List.mem_singleton] at hid
          rcases hid with hid | rfl
          · exact hstart id hid
          · exact hstill p hp (by simpa using h1)

theorem sweeping_all {b : List (Nat × Bool)} (hb : (b.map (·.1)).Nodup) : ∀ (evs seen : List SweepIn) (s : Sweep), Sweeping b seen s →
    (∀ p ∈ s.bridges, p.2 = false → (p.1, false) ∈ b) → SweepIn.remove ∉ evs → Sweeping b (seen ++ evs) (evs.foldl Sweep.step s)
  | [], seen, s, h, _, _ => by simpa using h
  | i :: evs, seen, s, h, hs, hr => by
      obtain ⟨h1, h2⟩ := sweeping_step hb h hs (i := i) (fun e => hr (by simp [e]))
      have := sweeping_all hb evs (seen ++ [i]) _ h1 h2 (fun e => hr (by simp [e]))
      simpa using this

/-- **C206, in part.**  If the main thread removes nothing meanwhile, then, whichever bridges end meanwhile: the loop uses no entry that
is gone; it asks no bridge twice, and none that had ended before it began; and once it has made as many steps as there are bridges, it
has come to its end and has asked every bridge that had not ended. -/
theorem C206_asked_partial (b : List (Nat × Bool)) (hb : (b.map (·.1)).Nodup) (evs : List SweepIn) (hr : .remove ∉ evs) :
    let s := evs.foldl Sweep.step (Sweep.start b)
    s.undefined = false ∧ s.asked.Nodup ∧ (∀ id ∈ s.asked, (id, false) ∈ b) ∧
    (b.length ≤ evs.count .go → s.at? = none ∧ ∀ id, (id, false) ∈ b → .ends id ∉ evs → id ∈ s.asked) := by
  intro s
  have h : Sweeping b ([] ++ evs) s := sweeping_all hb evs [] (Sweep.start b)
    ⟨rfl, rfl, ⟨[], b, rfl, rfl, by simp, by simp [Sweep.start], by simp⟩, fun p hp h1 => .inl (by rw [← h1]; exact hp), by simp [Sweep.start]⟩
    (fun p hp h1 => by rw [← h1]; exact hp) hr
  rw [List.nil_append] at h
  obtain ⟨hfine, hids, ⟨pre, post, hsplit, hat, hcount, hsub, hall⟩, hend, hstart⟩ := h
  have hnd : (s.bridges.map (·.1)).Nodup := by rw [hids]; exact hb
  refine ⟨hfine, ?_, hstart, fun hlen => ?_⟩
  · rw [hsplit, List.map_append] at hnd
    exact hsub.nodup (List.nodup_append.1 hnd).1
  · have hpost : post = [] := by
      rcases hcount with hc | hc
      · have hl : s.bridges.length = b.length := by simpa using congrArg List.length hids
        rw [hsplit, List.length_append] at hl
        exact List.length_eq_zero_iff.1 (by omega)
      · exact hc
    subst hpost
    refine ⟨by rw [hat]; rfl, fun id hid hne => ?_⟩
    have hm : id ∈ s.bridges.map (·.1) := by rw [hids]; exact List.mem_map.2 ⟨_, hid, rfl⟩
    rw [hsplit, List.append_nil] at hm
    obtain ⟨p, hp, rfl⟩ := List.mem_map.1 hm
    refine hall p hp (fun h1 => ?_) hne
    have := List.inj_on_of_nodup_map hb hid h1 rfl
    simp at this

/-! ### With passes of the main thread -/

/-- What holds while the entry the loop has come to is there. -/
structure Course (b : List (Nat × Bool)) (evs : List SweepIn) (s : Sweep) : Prop where
  fine : s.undefined = false
  sub : (s.bridges.map (·.1)).Sublist (b.map (·.1))
  split : ∃ pre post, s.bridges = pre ++ post ∧ s.at? = post.head?.map (·.1) ∧ s.asked.Nodup ∧ (∀ p ∈ post, p.1 ∉ s.asked) ∧
    ∀ id, (id, false) ∈ b → .ends id ∉ evs → id ∈ s.asked ∨ (id, false) ∈ post
  still : ∀ p ∈ s.bridges, p.2 = false → (p.1, false) ∈ b
  started : ∀ id ∈ s.asked, (id, false) ∈ b

/-- The entry the loop has come to is gone. -/
def Dangling (s : Sweep) : Prop := s.undefined = true ∨ ∃ id, s.at? = some id ∧ id ∉ s.bridges.map (·.1)

theorem dangling_step {s : Sweep} (h : Dangling s) (i : SweepIn) : Dangling (s.step i) := by
  cases i with
  | ends id =>
    rcases h with h | ⟨k, h1, h2⟩
    · exact .inl h
    · refine .inr ⟨k, h1, ?_⟩
      have : (s.step (.ends id)).bridges.map (·.1) = s.bridges.map (·.1) := by
        simp only [Sweep.step, List.map_map]
        exact List.map_congr_left fun p _ => by simp only [Function.comp]; split_ifs <;> rfl
      rw [this]; exact h2
  | remove =>
    rcases h with h | ⟨k, h1, h2⟩
    · exact .inl h
    · refine .inr ⟨k, h1, fun h3 => h2 ?_⟩
      exact (List.filter_sublist.map _).subset h3
  | go =>
    rcases h with h | ⟨k, h1, h2⟩
    · left
      simp only [Sweep.step]
      repeat' split
      all_goals simp [h]
    · left
      have : s.bridges.find? (fun p => p.1 == k) = none := by
        rw [List.find?_eq_none]
        intro p hp e
        exact h2 (List.mem_map.2 ⟨p, hp, by simpa using e⟩)
      simp [Sweep.step, h1, this]

theorem course_step {b : List (Nat × Bool)} (hb : (b.map (·.1)).Nodup) {evs : List SweepIn} {s : Sweep} (h : Course b evs s) (i : SweepIn) :
    Course b (evs ++ [i]) (s.step i) ∨ (i = .remove ∧ ∃ id, s.at? = some id ∧ (id, true) ∈ s.bridges) := by
  obtain ⟨hfine, hsubl, ⟨pre, post, hsplit, hat, hnod, hdis, hall⟩, hstill, hstart⟩ := h
  have hnd : (s.bridges.map (·.1)).Nodup := hsubl.nodup hb
  cases i with
  | ends id =>
    left
    have hfst : ∀ p : Nat × Bool, (if p.1 = id then (p.1, true) else p).1 = p.1 := by intro p; split_ifs <;> rfl
    refine ⟨hfine, ?_, ⟨pre.map fun p => if p.1 = id then (p.1, true) else p, post.map fun p => if p.1 = id then (p.1, true) else p,
      ?_, ?_, hnod, ?_, ?_⟩, ?_, hstart⟩
    · have : (s.step (.ends id)).bridges.map (·.1) = s.bridges.map (·.1) := by
        simp only [Sweep.step, List.map_map]
        exact List.map_congr_left fun p _ => hfst p
      rw [this]; exact hsubl
    · simp [Sweep.step, hsplit]
    · simp only [Sweep.step, hat]
      cases post with
      | nil => rfl
      | cons p post => simp [hfst p]
    · intro p hp
      obtain ⟨q, hq, rfl⟩ := List.mem_map.1 hp
      rw [hfst]; exact hdis q hq
    · intro k hk hk'
      simp only [List.mem_append, List.mem_singleton, SweepIn.ends.injEq, not_or] at hk'
      refine (hall k hk hk'.1).imp_right fun h3 => List.mem_map.2 ⟨_, h3, ?_⟩
      rw [if_neg hk'.2]
    · intro p hp h1
      obtain ⟨q, hq, rfl⟩ := List.mem_map.1 hp
      by_cases hqi : q.1 = id
      · rw [if_pos hqi] at h1; cases h1
      · rw [if_neg hqi] at h1 ⊢
        exact hstill q hq h1
  | remove =>
    by_cases hd : ∃ id, s.at? = some id ∧ (id, true) ∈ s.bridges
    · exact .inr ⟨rfl, hd⟩
    · left
      refine ⟨hfine, (List.filter_sublist.map _).trans hsubl, ⟨pre.filter fun p => !p.2, post.filter fun p => !p.2, ?_, ?_, hnod, ?_, ?_⟩,
        fun p hp => hstill p (List.mem_filter.1 hp).1, hstart⟩
      · simp [Sweep.step, hsplit]
      · simp only [Sweep.step, hat]
        cases post with
        | nil => rfl
        | cons p post =>
          have hp : p.2 = false := by
            cases h2 : p.2 with
            | false => rfl
            | true => exact absurd ⟨p.1, by rw [hat]; rfl, by rw [hsplit, ← h2]; simp⟩ hd
          simp [hp]
      · exact fun p hp => hdis p (List.mem_filter.1 hp).1
      · intro k hk hk'
        exact (hall k hk fun h3 => hk' (by simp [h3])).imp_right fun h3 => List.mem_filter.2 ⟨h3, rfl⟩
  | go =>
    left
    cases post with
    | nil =>
      have : s.step .go = s := by simp [Sweep.step, hat]
      rw [this]
      exact ⟨hfine, hsubl, ⟨pre, [], hsplit, hat, hnod, hdis, fun k hk hk' => hall k hk fun h3 => hk' (by simp [h3])⟩, hstill, hstart⟩
    | cons p post =>
      rw [hsplit, List.map_append, List.map_cons, List.nodup_append] at hnd
      have hne : ∀ q ∈ pre, q.1 ≠ p.1 := fun q hq => hnd.2.2 q.1 (List.mem_map_of_mem hq) p.1 (by simp)
      have hne' : ∀ q ∈ post, q.1 ≠ p.1 := fun q hq e =>
        (List.nodup_cons.1 hnd.2.1).1 (by rw [← e]; exact List.mem_map_of_mem hq)
      have hfind : s.bridges.find? (fun q => q.1 == p.1) = some p := by
        rw [hsplit, List.find?_append, List.find?_eq_none.2 fun q hq => by simpa using hne q hq]
        simp
      have hfol : following p.1 s.bridges = post.head?.map (·.1) := by rw [hsplit]; exact following_append pre p post hne
      have hp : p ∈ s.bridges := by rw [hsplit]; simp
      have hstep : s.step .go = { s with asked := if p.2 then s.asked else s.asked ++ [p.1], at? := post.head?.map (·.1) } := by
        simp only [Sweep.step, hat, List.head?_cons, Option.map_some, hfind, hfol]
      rw [hstep]
      have hpa : p.1 ∉ s.asked := hdis p (by simp)
      refine ⟨hfine, hsubl, ⟨pre ++ [p], post, by simp [hsplit], rfl, ?_, ?_, ?_⟩, hstill, ?_⟩
      · simp only
        split_ifs
        · exact hnod
        · rw [List.nodup_append]
          exact ⟨hnod, by simp, fun x hx y hy => by rw [List.mem_singleton.1 hy]; rintro rfl; exact hpa hx⟩
      · intro q hq
        have h1 := hdis q (by simp [hq])
        simp only
        split_ifs
        · exact h1
        · simp only [List.mem_append, List.mem_singleton, not_or]
          exact ⟨h1, hne' q hq⟩
      · intro k hk hk'
        simp only
        rcases hall k hk fun h3 => hk' (by simp [h3]) with h3 | h3
        · left
          split_ifs
          · exact h3
          · exact List.mem_append_left _ h3
        · rcases List.mem_cons.1 h3 with h4 | h4
          · left; rw [← h4]; simp
          · exact .inr h4
      · intro id hid
        simp only at hid
        split_ifs at hid with h1
        · exact hstart id hid
        · simp only [List.mem_append, List.mem_singleton] at hid
          rcases hid with hid | rfl
          · exact hstart id hid
          · exact hstill p hp (by simpa using h1)

theorem course_all {b : List (Nat × Bool)} (hb : (b.map (·.1)).Nodup) : ∀ (evs seen : List SweepIn) (s : Sweep), Course b seen s →
    Course b (seen ++ evs) (evs.foldl Sweep.step s) ∨ (Dangling (evs.foldl Sweep.step s) ∧
      ∃ A B id, evs = A ++ .remove :: B ∧ (A.foldl Sweep.step s).at? = some id ∧ (id, true) ∈ (A.foldl Sweep.step s).bridges)
  | [], seen, s, h => .inl (by simpa using h)
  | i :: evs, seen, s, h => by
      rcases course_step hb h i with h1 | ⟨rfl, id, h1, h2⟩
      · rcases course_all hb evs (seen ++ [i]) _ h1 with h2 | ⟨h2, A, B, id, rfl, h3, h4⟩
        · exact .inl (by simpa using h2)
        · exact .inr ⟨h2, i :: A, B, id, rfl, h3, h4⟩
      · refine .inr ⟨?_, [], evs, id, rfl, h1, h2⟩
        have hd : Dangling (s.step .remove) := by
          refine .inr ⟨id, h1, fun h3 => ?_⟩
          obtain ⟨p, hp, e⟩ := List.mem_map.1 h3
          obtain ⟨hp1, hp2⟩ := List.mem_filter.1 hp
          have := List.inj_on_of_nodup_map (h.sub.nodup hb) hp1 h2 e
          rw [this] at hp2
          simp at hp2
        have : ∀ (l : List SweepIn) (u : Sweep), Dangling u → Dangling (l.foldl Sweep.step u) := by
          intro l
          induction l with
          | nil => exact fun _ hu => hu
          | cons j l ih => exact fun u hu => ih _ (dangling_step hu j)
        exact this evs _ hd

theorem course_start (b : List (Nat × Bool)) : Course b [] (Sweep.start b) :=
  ⟨rfl, List.Sublist.refl _, ⟨[], b, rfl, rfl, by simp [Sweep.start], by simp [Sweep.start], fun _ hk _ => .inr hk⟩,
    fun p hp h1 => by rw [← h1]; exact hp, by simp [Sweep.start]⟩

/-- **C206, in part.**  With any passes of the main thread: an erased entry is used only if a pass came while the loop was at a bridge
that had ended. -/
theorem C206_only_then_partial (b : List (Nat × Bool)) (hb : (b.map (·.1)).Nodup) (evs : List SweepIn)
    (h : (evs.foldl Sweep.step (Sweep.start b)).undefined = true) :
    ∃ A B id, evs = A ++ .remove :: B ∧ (A.foldl Sweep.step (Sweep.start b)).at? = some id ∧
      (id, true) ∈ (A.foldl Sweep.step (Sweep.start b)).bridges := by
  rcases course_all hb evs [] _ (course_start b) with h1 | h1
  · rw [h1.fine] at h; cases h
  · exact h1.2

/-- **C206, in part.**  With any passes of the main thread: if the loop has come to its end without using an erased entry, it has asked
every bridge that had not ended, none twice, and none that had ended before. -/
theorem C206_passes_partial (b : List (Nat × Bool)) (hb : (b.map (·.1)).Nodup) (evs : List SweepIn)
    (h : (evs.foldl Sweep.step (Sweep.start b)).undefined = false) (hend : (evs.foldl Sweep.step (Sweep.start b)).at? = none) :
    (evs.foldl Sweep.step (Sweep.start b)).asked.Nodup ∧
    (∀ id ∈ (evs.foldl Sweep.step (Sweep.start b)).asked, (id, false) ∈ b) ∧
    ∀ id, (id, false) ∈ b → .ends id ∉ evs → id ∈ (evs.foldl Sweep.step (Sweep.start b)).asked := by
  rcases course_all hb evs [] _ (course_start b) with h1 | ⟨h1 | ⟨id, h1, -⟩, -⟩
  · obtain ⟨pre, post, -, hat, hnod, -, hall⟩ := h1.split
    rw [hend] at hat
    have hpost : post = [] := by
      cases post with
      | nil => rfl
      | cons p post => simp at hat
    subst hpost
    exact ⟨hnod, h1.started, fun id hid hne => (hall id hid (by simpa using hne)).resolve_right (by simp)⟩
  · rw [h] at h1; cases h1
  · rw [hend] at h1; cases h1

/-! ### Where it fails -/

/-- **C206 is false.**  Among any bridges, if the one that the loop has come to ends and the main thread looks at the bridges at this
moment, the loop goes on with an entry that was erased. -/
theorem C206_race_violated (id : Nat) (b : List (Nat × Bool)) :
    ((([.ends id, .remove, .go] : List SweepIn).foldl Sweep.step (Sweep.start ((id, false) :: b)))).undefined = true := by
  have : ((List.map (fun p : Nat × Bool => if p.1 = id then (p.1, true) else p) b).filter fun p => !p.2).find? (fun p => p.1 == id) = none := by
    rw [List.find?_eq_none]
    intro p hp
    obtain ⟨hp1, hp2⟩ := List.mem_filter.1 hp
    obtain ⟨q, -, rfl⟩ := List.mem_map.1 hp1
    by_cases hq : q.1 = id
    · simp [hq] at hp2
    · simp [hq]
  simp [Sweep.step, Sweep.start, this]

/-- **C206 is false.**  The same with a bridge further on, while the loop runs. -/
theorem C206_race_later_violated : (([.go, .ends 8, .remove, .go] : List SweepIn).foldl Sweep.step
    (Sweep.start [(7, false), (8, false), (9, false)])).undefined = true := by decide

/-- `C206_asked_partial` for three bridges of which one has ended before and one ends meanwhile. -/
example : (([.go, .ends 7, .go, .go] : List SweepIn).foldl Sweep.step (Sweep.start [(7, false), (8, true), (9, false)])).asked = [7, 9] := by
  decide

/-- `C206_passes_partial` with a pass that removes a bridge the loop has left and one it has not come to. -/
example : ([.go, .ends 7, .ends 9, .remove, .go, .go] : List SweepIn).foldl Sweep.step
      (Sweep.start [(7, false), (8, false), (9, false), (10, false)]) =
    { bridges := [(8, false), (10, false)], at? := none, asked := [7, 8, 10], undefined := false } := by decide

end Verif.Manager
