import Verif.Manager.Run
import Verif.Manager.Props
import Mathlib.Tactic.Common

/-!
C205: the run of the program ends as it should.
-/

namespace Verif.Manager

/-- Not in the code: what happened until the last of some looks, with the passes over the services at the looks before it. -/
def history (pre : List Look) (l : Look) : List SIn := pre.flatMap (fun l => l.before ++ [.cleanUp]) ++ l.before

theorem foldl_runM (h : List SIn) : ∀ s, h.foldl (fun s i => (smStep s i).1) s = (runM smStep s h).1 := by
  induction h with
  | nil => intro s; rfl
  | cons i h ih => intro s; exact ih _

theorem watch_looks (seconds : Nat) : ∀ (looks : List Look) (s : SM) (k : Nat) (hk : k < looks.length),
    (seconds : Int) ≤ looks[k].elapsed → ∃ u ls, watch seconds looks s = some (u, ls) ∧ looks.length ≤ ls.length + (k + 1)
  | [], _, _, hk, _ => by simp at hk
  | l :: ls, s, k, hk, h => by
      rw [watch]
      split_ifs with h1 h2
      · exact ⟨_, _, rfl, by simp⟩
      · cases k with
        | zero => simp at h; omega
        | succ k =>
          obtain ⟨u, r, hw, hl⟩ := watch_looks seconds ls (s.look l) k (by simpa using hk) (by simpa using h)
          exact ⟨u, r, hw, by simp only [List.length_cons]; omega⟩
      · exact ⟨_, _, rfl, by simp⟩

theorem drain_looks : ∀ (k : Nat) (ls : List Look) (s : SM), k ≤ ls.length →
    ∃ u r, drain k ls s = some (u, r) ∧ ls.length ≤ r.length + k
  | 0, ls, s, _ => ⟨s, ls, rfl, by simp⟩
  | k + 1, [], s, h => by simp at h
  | k + 1, l :: ls, s, h => by
      rw [drain]
      split_ifs with h1
      · exact ⟨_, _, rfl, by simp⟩
      · obtain ⟨u, r, hd, hl⟩ := drain_looks k ls (s.look l) (by simpa using h)
        exact ⟨u, r, hd, by simp only [List.length_cons]; omega⟩

theorem join_looks : ∀ (k : Nat) (ls : List Look) (s : SM), k < ls.length → ∃ u, join k ls s = some u
  | _, [], _, h => by simp at h
  | 0, l :: ls, s, _ => ⟨_, rfl⟩
  | k + 1, l :: ls, s, h => by
      rw [join]
      split_ifs with h1
      · exact ⟨_, rfl⟩
      · exact join_looks k ls (s.after l) (by simpa using h)

/-- **C205.**  Whatever the services, the bridges and the thread of the manager do, and whatever is asked for: once the clock shows that
the time is over, the run ends within 41 looks (of half a second each). -/
theorem C205_returns (seconds : Nat) (looks : List Look) (s : SM) (k : Nat) (hk : k < looks.length)
    (htime : (seconds : Int) ≤ looks[k].elapsed) (hlen : k + 1 + 41 ≤ looks.length) : ∃ e, runUntil seconds looks s = some e := by
  obtain ⟨u, ls, hw, hl⟩ := watch_looks seconds looks s k hk htime
  unfold runUntil
  rw [hw]
  simp only
  split_ifs with ht
  · obtain ⟨v, hv⟩ := join_looks 20 ls u (by omega)
    exact ⟨_, by rw [hv]; rfl⟩
  · obtain ⟨v, r, hd, hr⟩ := drain_looks 20 ls u (by omega)
    obtain ⟨x, hx⟩ := join_looks 20 r v (by omega)
    exact ⟨_, by rw [hd]; simp only [hx]; rfl⟩

theorem terminating_step {s : SM} {i : SIn} (h : (smStep s i).1.terminating = true) : s.terminating = true ∨ i = .kill (-1) := by
  by_cases hi : i = .kill (-1)
  · exact .inr hi
  · refine .inl ?_
    revert h
    cases i with
    | create given a =>
      simp only [smStep, SM.create]
      repeat' split
      all_goals exact id
    | finish id => simp [smStep]
    | cleanUp => simp [smStep]
    | kill id =>
      have : id ≠ -1 := fun e => hi (by rw [e])
      simp only [smStep, this, if_false]
      split
      · split <;> simp
      · simp
    | idOp op => simp [smStep]

theorem terminating_after : ∀ (h : List SIn) (s : SM), (h.foldl (fun s i => (smStep s i).1) s).terminating = true →
    s.terminating = true ∨ .kill (-1) ∈ h
  | [], _, h => .inl h
  | i :: l, s, h => by
      rcases terminating_after l _ h with h1 | h1
      · rcases terminating_step h1 with h2 | h2
        · exact .inl h2
        · exact .inr (by simp [h2])
      · exact .inr (by simp [h1])

/-- Not in the code: a stop of all was asked for at one of the looks. -/
def Asked (looks : List Look) : Prop := ∃ l ∈ looks, SIn.kill (-1) ∈ l.before

theorem look_terminating {s : SM} {l : Look} (h : (s.look l).terminating = true) : s.terminating = true ∨ .kill (-1) ∈ l.before :=
  terminating_after l.before s h

theorem watch_asked (seconds : Nat) : ∀ (looks : List Look) (s : SM) {u : SM} {ls : List Look}, watch seconds looks s = some (u, ls) →
    s.terminating = false → ((∃ l ∈ looks, (seconds : Int) ≤ l.elapsed) ∨ Asked looks) ∧ (u.terminating = true → Asked looks) ∧
    ∃ a, looks = a ++ ls
  | [], _, _, _, h, _ => by simp [watch] at h
  | l :: ls, s, u, r, h, hs => by
      rw [watch] at h
      split_ifs at h with h1 h2
      · simp only [Option.some.injEq, Prod.mk.injEq] at h
        obtain ⟨rfl, rfl⟩ := h
        have : Asked (l :: ls) := by
          rcases look_terminating h2.1 with h3 | h3
          · rw [hs] at h3; cases h3
          · exact ⟨l, by simp, h3⟩
        exact ⟨.inr this, fun _ => this, [l], rfl⟩
      · cases hl : (s.look l).terminating with
        | false =>
          obtain ⟨g1, g2, a, g3⟩ := watch_asked seconds ls _ h hl
          refine ⟨?_, ?_, l :: a, by rw [g3]; rfl⟩
          · rcases g1 with ⟨m, hm, hm'⟩ | ⟨m, hm, hm'⟩
            · exact .inl ⟨m, by simp [hm], hm'⟩
            · exact .inr ⟨m, by simp [hm], hm'⟩
          · intro hu
            obtain ⟨m, hm, hm'⟩ := g2 hu
            exact ⟨m, by simp [hm], hm'⟩
        | true =>
          have : Asked (l :: ls) := by
            rcases look_terminating hl with h3 | h3
            · rw [hs] at h3; cases h3
            · exact ⟨l, by simp, h3⟩
          refine ⟨.inr this, fun _ => this, ?_⟩
          exact watch_suffix seconds (l :: ls) s (by rw [watch, if_pos h1, if_neg h2]; exact h)
      · simp only [Option.some.injEq, Prod.mk.injEq] at h
        obtain ⟨rfl, rfl⟩ := h
        refine ⟨.inl ⟨l, by simp, by omega⟩, fun hu => ?_, [l], rfl⟩
        rcases terminating_after _ _ hu with h3 | h3
        · rw [hs] at h3; cases h3
        · exact ⟨l, by simp, h3⟩
where
  watch_suffix (seconds : Nat) : ∀ (looks : List Look) (s : SM) {u : SM} {ls : List Look}, watch seconds looks s = some (u, ls) →
      ∃ a, looks = a ++ ls
    | [], _, _, _, h => by simp [watch] at h
    | l :: ls, s, u, r, h => by
        rw [watch] at h
        split_ifs at h with h1 h2
        · simp only [Option.some.injEq, Prod.mk.injEq] at h
          exact ⟨[l], by rw [← h.2]; rfl⟩
        · obtain ⟨a, ha⟩ := watch_suffix seconds ls _ h
          exact ⟨l :: a, by rw [ha]; rfl⟩
        · simp only [Option.some.injEq, Prod.mk.injEq] at h
          exact ⟨[l], by rw [← h.2]; rfl⟩

theorem drain_asked : ∀ (k : Nat) (ls : List Look) (s : SM) {u : SM} {r : List Look}, drain k ls s = some (u, r) →
    (u.terminating = true → s.terminating = true ∨ Asked ls) ∧ ∃ a, ls = a ++ r
  | 0, ls, s, u, r, h => by
      simp only [drain, Option.some.injEq, Prod.mk.injEq] at h
      exact ⟨fun hu => .inl (by rw [h.1]; exact hu), [], by rw [h.2]; rfl⟩
  | k + 1, [], s, u, r, h => by simp [drain] at h
  | k + 1, l :: ls, s, u, r, h => by
      rw [drain] at h
      split_ifs at h with h1
      · simp only [Option.some.injEq, Prod.mk.injEq] at h
        refine ⟨fun hu => ?_, [l], by rw [← h.2]; rfl⟩
        rw [← h.1] at hu
        exact (look_terminating hu).imp_right fun h3 => ⟨l, by simp, h3⟩
      · obtain ⟨g, a, ha⟩ := drain_asked k ls _ h
        refine ⟨fun hu => ?_, l :: a, by rw [ha]; rfl⟩
        rcases g hu with h3 | ⟨m, hm, hm'⟩
        · exact (look_terminating h3).imp_right fun h3 => ⟨l, by simp, h3⟩
        · exact .inr ⟨m, by simp [hm], hm'⟩

theorem join_asked : ∀ (k : Nat) (ls : List Look) (s : SM) {u : SM}, join k ls s = some u →
    u.terminating = true → s.terminating = true ∨ Asked ls
  | _, [], _, _, h, _ => by simp [join] at h
  | 0, l :: ls, s, u, h, hu => by
      simp only [join, Option.some.injEq] at h
      rw [← h] at hu
      exact (terminating_after _ _ hu).imp_right fun h3 => ⟨l, by simp, h3⟩
  | k + 1, l :: ls, s, u, h, hu => by
      rw [join] at h
      split_ifs at h with h1
      · simp only [Option.some.injEq] at h
        rw [← h] at hu
        exact (terminating_after _ _ hu).imp_right fun h3 => ⟨l, by simp, h3⟩
      · rcases join_asked k ls _ h hu with h3 | ⟨m, hm, hm'⟩
        · exact (terminating_after _ _ h3).imp_right fun h3 => ⟨l, by simp, h3⟩
        · exact .inr ⟨m, by simp [hm], hm'⟩

/-- **C205.**  The run does not end before the time is over unless a stop of all was asked for, and the processor is shut down only if
it was. -/
theorem C205_not_early (seconds : Nat) (looks : List Look) (s : SM) (h0 : s.terminating = false) {e : End}
    (h : runUntil seconds looks s = some e) :
    ((∃ l ∈ looks, (seconds : Int) ≤ l.elapsed) ∨ Asked looks) ∧ (e.shutdown = true → Asked looks) := by
  unfold runUntil at h
  split at h
  · cases h
  · next u ls hw =>
    obtain ⟨g1, g2, a, rfl⟩ := watch_asked seconds looks s hw h0
    refine ⟨g1, fun he => ?_⟩
    by_cases hu : u.terminating = true
    · exact g2 hu
    · rw [if_neg hu] at h
      have up : ∀ {r : List Look}, Asked r → (∃ b, ls = b ++ r) → Asked (a ++ ls) := by
        rintro r ⟨m, hm, hm'⟩ ⟨b, rfl⟩
        exact ⟨m, by simp [hm], hm'⟩
      split at h
      · cases h
      · next v r hd =>
        obtain ⟨d1, d2⟩ := drain_asked 20 ls u hd
        cases hj : join 20 r v with
        | none => rw [hj] at h; cases h
        | some x =>
          rw [hj] at h
          simp only [Option.map_some, Option.some.injEq] at h
          subst h
          rcases join_asked 20 r v hj he with h3 | h3
          · rcases d1 h3 with h4 | h4
            · exact absurd h4 hu
            · exact up h4 ⟨[], rfl⟩
          · exact up h3 d2

theorem watch_at (seconds : Nat) : ∀ (pre : List Look) (l : Look) (post : List Look) (s : SM),
    (∀ m ∈ pre, m.elapsed < seconds) → (seconds : Int) ≤ l.elapsed → s.terminating = false → ¬ Asked pre →
    watch seconds (pre ++ l :: post) s = some ((runM smStep s (history pre l)).1, post)
  | [], l, post, s, _, hl, _, _ => by
      rw [List.nil_append, watch, if_neg (by omega), SM.after, foldl_runM]; simp [history]
  | m :: pre, l, post, s, hp, hl, hs, ha => by
      have hm : (s.look m).terminating = false := by
        cases h : (s.look m).terminating with
        | false => rfl
        | true =>
          rcases look_terminating h with h3 | h3
          · rw [hs] at h3; cases h3
          · exact absurd ⟨m, by simp, h3⟩ ha
      rw [List.cons_append, watch, if_pos (hp m (by simp)), if_neg (by simp [hm]),
        watch_at seconds pre l post _ (fun x hx => hp x (by simp [hx])) hl hm (fun ⟨x, hx, hx'⟩ => ha ⟨x, by simp [hx], hx'⟩)]
      congr 2
      rw [← foldl_runM, ← foldl_runM, history, history, List.flatMap_cons]
      simp only [List.append_assoc, List.foldl_append]
      rfl

theorem shrink : ∀ (evs : List SIn) (s : SM), (∀ g a, .create g a ∉ evs) →
    ∀ p ∈ (evs.foldl (fun s i => (smStep s i).1) s).table, ∃ q ∈ s.table, q.2.id = p.2.id ∧
      (p.2.finished = false → q.2.finished = false ∧ .finish p.2.id ∉ evs)
  | [], s, _, p, hp => ⟨p, hp, rfl, fun h => ⟨h, by simp⟩⟩
  | i :: evs, s, hc, p, hp => by
      obtain ⟨q, hq, hid, hf⟩ := shrink evs (smStep s i).1 (fun g a hm => hc g a (by simp [hm])) p hp
      have one : ∃ r ∈ s.table, r.2.id = q.2.id ∧ (q.2.finished = false → r.2.finished = false ∧ i ≠ .finish q.2.id) := by
        cases i with
        | create g a => exact absurd (by simp) (hc g a)
        | finish id =>
          simp only [smStep, List.mem_map] at hq
          obtain ⟨r, hr, rfl⟩ := hq
          refine ⟨r, hr, ?_, ?_⟩
          · split_ifs <;> rfl
          · split_ifs with h1
            · simp
            · intro h2; exact ⟨h2, by simpa using fun e => h1 e.symm⟩
        | cleanUp =>
          simp only [smStep] at hq
          exact ⟨q, (List.mem_filter.1 hq).1, rfl, fun h => ⟨h, by simp⟩⟩
        | kill id =>
          have : (smStep s (.kill id)).1.table = s.table := by
            simp only [smStep]; repeat' split
            all_goals rfl
          rw [this] at hq
          exact ⟨q, hq, rfl, fun h => ⟨h, by simp⟩⟩
        | idOp op => exact ⟨q, hq, rfl, fun h => ⟨h, by simp⟩⟩
      obtain ⟨r, hr, hrid, hrf⟩ := one
      refine ⟨r, hr, hrid.trans hid, fun h => ?_⟩
      obtain ⟨h1, h2⟩ := hf h
      obtain ⟨h3, h4⟩ := hrf h1
      refine ⟨h3, ?_⟩
      rw [hid] at h4
      simp only [List.mem_cons, not_or]
      exact ⟨fun e => h4 e.symm, h2⟩

theorem shrink_nil {evs : List SIn} {s : SM} (hc : ∀ g a, .create g a ∉ evs) (h : s.table = []) :
    (evs.foldl (fun s i => (smStep s i).1) s).table = [] := by
  rw [List.eq_nil_iff_forall_not_mem]
  intro p hp
  obtain ⟨q, hq, _⟩ := shrink evs s hc p hp
  rw [h] at hq
  simp at hq

theorem mem_look {s : SM} {l : Look} {p : Nat × Svc} (hp : p ∈ (s.look l).table) :
    p ∈ (s.after l).table ∧ p.2.finished = false := by
  simpa [SM.look, smStep] using hp

theorem drain_clean : ∀ (k : Nat) (ls : List Look) (s : SM) (m : Nat) (hm : m < ls.length), m < k →
    (∀ l ∈ ls, ∀ g a, .create g a ∉ l.before) → ls[m].bridges = 0 →
    (∀ p ∈ s.table, p.2.finished = false → ∃ l ∈ ls.take (m + 1), .finish p.2.id ∈ l.before) →
    ∃ u r, drain k ls s = some (u, r) ∧ u.table = [] ∧ ∃ a, ls = a ++ r
  | 0, _, _, _, _, hk, _, _, _ => by simp at hk
  | _ + 1, [], _, _, hm, _, _, _, _ => by simp at hm
  | k + 1, l :: ls, s, m, hm, hk, hc, hb, hf => by
      rw [drain]
      split_ifs with h1
      · refine ⟨_, _, rfl, ?_, [l], rfl⟩
        exact List.length_eq_zero_iff.1 (by unfold SM.running at h1; omega)
      · have left : ∀ p ∈ (s.look l).table, ∃ q ∈ s.table, q.2.id = p.2.id ∧ q.2.finished = false ∧ .finish p.2.id ∉ l.before := by
          intro p hp
          obtain ⟨hp1, hp2⟩ := mem_look hp
          obtain ⟨q, hq, e, hh⟩ := shrink l.before s (hc l (by simp)) p hp1
          exact ⟨q, hq, e, (hh hp2).1, (hh hp2).2⟩
        cases m with
        | zero =>
          exfalso
          apply h1
          have : (s.look l).table = [] := by
            rw [List.eq_nil_iff_forall_not_mem]
            intro p hp
            obtain ⟨q, hq, e, g1, g2⟩ := left p hp
            obtain ⟨x, hx, hx'⟩ := hf q hq g1
            simp only [List.take_succ_cons, List.take_zero, List.mem_singleton] at hx
            rw [hx, e] at hx'
            exact g2 hx'
          unfold SM.running
          simp only [List.getElem_cons_zero] at hb
          rw [this, hb]; simp
        | succ m =>
          obtain ⟨u, r, hd, hu, a, ha⟩ := drain_clean k ls (s.look l) m (by simpa using hm) (by omega)
            (fun x hx => hc x (by simp [hx])) (by simpa using hb) (by
              intro p hp _
              obtain ⟨q, hq, e, g1, g2⟩ := left p hp
              obtain ⟨x, hx, hx'⟩ := hf q hq g1
              rw [List.take_succ_cons, List.mem_cons] at hx
              rw [e] at hx'
              rcases hx with rfl | hx
              · exact absurd hx' g2
              · exact ⟨x, hx, hx'⟩)
          exact ⟨u, r, hd, hu, l :: a, by rw [ha]; rfl⟩

theorem join_clean : ∀ (k : Nat) (ls : List Look) (s : SM) {u : SM}, (∀ l ∈ ls, ∀ g a, .create g a ∉ l.before) →
    join k ls s = some u → s.table = [] → u.table = []
  | _, [], _, _, _, h, _ => by simp [join] at h
  | 0, l :: ls, s, u, hc, h, hs => by
      simp only [join, Option.some.injEq] at h
      rw [← h]
      exact shrink_nil (hc l (by simp)) hs
  | k + 1, l :: ls, s, u, hc, h, hs => by
      rw [join] at h
      have h2 := shrink_nil (hc l (by simp)) hs
      split_ifs at h with h1
      · simp only [Option.some.injEq] at h
        rw [← h]
        exact h2
      · exact join_clean k ls _ (fun x hx => hc x (by simp [hx])) h h2

/-- **C205, in part.**  If the time is over and no stop was asked for before: exactly the services that the manager knows and whose
threads have not ended are asked to stop; and if no service is created any more and within the next 20 looks the thread of each
of these ends and then no bridge runs, the run ends with no service left. -/
theorem C205_time_over_partial (seconds : Nat) (s : SM) (h0 : s.terminating = false) (pre : List Look) (l : Look) (post : List Look)
    (hpre : ∀ m ∈ pre, m.elapsed < seconds) (hl : (seconds : Int) ≤ l.elapsed) (ha : ¬ Asked pre) (ha' : .kill (-1) ∉ l.before) {e : End}
    (h : runUntil seconds (pre ++ l :: post) s = some e) :
    (∃ ids, e.kills = some ids ∧ ∀ id, id ∈ ids ↔ Tracks (runM smStep s (history pre l)).1 id false) ∧
    ((∀ x ∈ post, ∀ g a, .create g a ∉ x.before) → ∀ (m : Nat) (hm : m < post.length), m < 20 → post[m].bridges = 0 →
      (∀ id, Tracks (runM smStep s (history pre l)).1 id false → ∃ x ∈ post.take (m + 1), .finish id ∈ x.before) → e.sm.table = []) := by
  have hw := watch_at seconds pre l post s hpre hl h0 ha
  have ht : (runM smStep s (history pre l)).1.terminating = false := by
    cases hc : (runM smStep s (history pre l)).1.terminating with
    | false => rfl
    | true =>
      rw [← foldl_runM] at hc
      rcases terminating_after _ _ hc with h3 | h3
      · rw [h0] at h3; cases h3
      · simp only [history, List.mem_append, List.mem_flatMap, List.mem_singleton, reduceCtorEq, or_false] at h3
        rcases h3 with ⟨m, hm, hm'⟩ | h3
        · exact absurd ⟨m, hm, hm'⟩ ha
        · exact absurd h3 ha'
  unfold runUntil at h
  rw [hw] at h
  simp only [ht, Bool.false_eq_true, if_false] at h
  generalize (runM smStep s (history pre l)).1 = u at *
  split at h
  · cases h
  · next v r hd =>
    cases hj : join 20 r v with
    | none => rw [hj] at h; cases h
    | some x =>
      rw [hj] at h
      simp only [Option.map_some, Option.some.injEq] at h
      subst h
      refine ⟨⟨_, rfl, fun id => ?_⟩, fun hc m hm hm20 hb hf => ?_⟩
      · simp only [SM.terminateAll, List.mem_map, List.mem_filter, Tracks, Bool.not_eq_true']
        constructor
        · rintro ⟨p, ⟨h1, h2⟩, h3⟩; exact ⟨p, h1, h3, h2⟩
        · rintro ⟨p, h1, h2, h3⟩; exact ⟨p, ⟨h1, h3⟩, h2⟩
      · obtain ⟨v', r', hd', hv, a, hr⟩ := drain_clean 20 post u m hm hm20 hc hb (fun p hp hpf => hf _ ⟨p, hp, rfl, hpf⟩)
        rw [hd] at hd'
        simp only [Option.some.injEq, Prod.mk.injEq] at hd'
        obtain ⟨rfl, rfl⟩ := hd'
        exact join_clean 20 r v (fun y hy => hc y (by rw [hr]; simp [hy])) hj hv

/-- A stop of all ends the thread of the manager. -/
def Quiet (s : SM) : Prop := s.terminating = true → s.runs = false

theorem quiet_step {s : SM} (h : Quiet s) (i : SIn) : Quiet (smStep s i).1 := by
  unfold Quiet at *
  cases i with
  | create given a =>
    simp only [smStep, SM.create]
    repeat' split
    all_goals exact h
  | finish id => exact h
  | cleanUp => exact h
  | kill id =>
    simp only [smStep]
    repeat' split
    all_goals first | exact h | simp
  | idOp op => exact h

theorem quiet_after : ∀ (evs : List SIn) {s : SM}, Quiet s → Quiet (evs.foldl (fun s i => (smStep s i).1) s)
  | [], _, h => h
  | i :: evs, _, h => quiet_after evs (quiet_step h i)

/-- Nothing runs and nothing is created any more. -/
def Over (s : SM) : Prop := s.terminating = true ∧ s.runs = false ∧ s.table = []

theorem over_step {s : SM} (h : Over s) (i : SIn) : Over (smStep s i).1 := by
  obtain ⟨h1, h2, h3⟩ := h
  cases i <;> simp [Over, smStep, h1, h2, h3]

theorem over_after : ∀ (evs : List SIn) {s : SM}, Over s → Over (evs.foldl (fun s i => (smStep s i).1) s)
  | [], _, h => h
  | i :: evs, _, h => over_after evs (over_step h i)

theorem watch_over (seconds : Nat) : ∀ (looks : List Look) (s : SM) {u : SM} {ls : List Look}, Quiet s →
    (∀ l ∈ looks, l.elapsed < seconds) → watch seconds looks s = some (u, ls) → Over u ∧ ∃ l ∈ looks, l.bridges = 0
  | [], _, _, _, _, _, h => by simp [watch] at h
  | l :: ls, s, u, r, hq, ht, h => by
      have hq' : Quiet (s.look l) := quiet_step (quiet_after l.before hq) .cleanUp
      rw [watch, if_pos (ht l (by simp))] at h
      split_ifs at h with h2
      · simp only [Option.some.injEq, Prod.mk.injEq] at h
        rw [← h.1]
        have hr := h2.2
        unfold SM.running at hr
        exact ⟨⟨h2.1, hq' h2.1, List.length_eq_zero_iff.1 (by omega)⟩, l, by simp, by omega⟩
      · obtain ⟨g, x, hx, hb⟩ := watch_over seconds ls _ hq' (fun x hx => ht x (by simp [hx])) h
        exact ⟨g, x, by simp [hx], hb⟩

theorem join_over : ∀ (k : Nat) (ls : List Look) (s : SM) {u : SM}, Over s → join k ls s = some u → Over u
  | _, [], _, _, _, h => by simp [join] at h
  | 0, l :: ls, s, u, hs, h => by
      simp only [join, Option.some.injEq] at h
      rw [← h]
      exact over_after _ hs
  | k + 1, l :: ls, s, u, hs, h => by
      rw [join] at h
      split_ifs at h with h1
      · simp only [Option.some.injEq] at h
        rw [← h]
        exact over_after _ hs
      · exact join_over k ls _ (over_after _ hs) h

/-- **C205.**  If the run ends before the time is over, no service is left, a look has found that no bridge runs, and the processor is
shut down. -/
theorem C205_stopped (seconds : Nat) (looks : List Look) (s : SM) (h0 : s.terminating = false)
    (ht : ∀ l ∈ looks, l.elapsed < seconds) {e : End} (h : runUntil seconds looks s = some e) :
    Asked looks ∧ e.sm.table = [] ∧ (∃ l ∈ looks, l.bridges = 0) ∧ e.kills = none ∧ e.shutdown = true := by
  have hasked : Asked looks := by
    rcases (C205_not_early seconds looks s h0 h).1 with ⟨l, hl, hl'⟩ | h1
    · have := ht l hl; omega
    · exact h1
  unfold runUntil at h
  split at h
  · cases h
  · next u ls hw =>
    obtain ⟨hu, hb⟩ := watch_over seconds looks s (fun h => by rw [h0] at h; cases h) ht hw
    rw [if_pos hu.1] at h
    cases hj : join 20 ls u with
    | none => rw [hj] at h; cases h
    | some x =>
      rw [hj] at h
      simp only [Option.map_some, Option.some.injEq] at h
      subst h
      have hx := join_over 20 ls u hu hj
      exact ⟨hasked, hx.2.2, hb, rfl, hx.1⟩

theorem drain_busy : ∀ (k : Nat) (ls : List Look) (s : SM), (∀ l ∈ ls, l.bridges ≠ 0) → ls.length < k → drain k ls s = none
  | 0, _, _, _, h => by simp at h
  | _ + 1, [], _, _, _ => rfl
  | k + 1, l :: ls, s, hb, h => by
      rw [drain, if_neg (by have := hb l (by simp); unfold SM.running; omega)]
      exact drain_busy k ls _ (fun x hx => hb x (by simp [hx])) (by simpa using h)

/-- **C205.**  Bridges are waited for as well: when the time is over, no stop was asked for and a bridge runs at each look, the run does
not end within 20 looks. -/
theorem C205_bridges (seconds : Nat) (s : SM) (h0 : s.terminating = false) (pre : List Look) (l : Look) (post : List Look)
    (hpre : ∀ m ∈ pre, m.elapsed < seconds) (hl : (seconds : Int) ≤ l.elapsed) (ha : ¬ Asked pre) (ha' : .kill (-1) ∉ l.before)
    (hb : ∀ x ∈ post, x.bridges ≠ 0) (hlen : post.length ≤ 20) : runUntil seconds (pre ++ l :: post) s = none := by
  cases h : runUntil seconds (pre ++ l :: post) s with
  | none => rfl
  | some e =>
    exfalso
    obtain ⟨ids, hk, -⟩ := (C205_time_over_partial seconds s h0 pre l post hpre hl ha ha' h).1
    unfold runUntil at h
    rw [watch_at seconds pre l post s hpre hl h0 ha] at h
    simp only at h
    split_ifs at h with ht
    · cases hj : join 20 post (runM smStep s (history pre l)).1 with
      | none => rw [hj] at h; cases h
      | some x =>
        rw [hj] at h
        simp only [Option.map_some, Option.some.injEq] at h
        subst h
        cases hk
    · rcases Nat.lt_or_ge post.length 20 with h20 | h20
      · rw [drain_busy 20 post _ hb h20] at h; cases h
      · split at h
        · cases h
        · next v r hd =>
          obtain ⟨-, a, hr⟩ := drain_asked 20 post _ hd
          have : r = [] := drain_all 20 post _ hb (by omega) hd
          rw [this] at h
          simp [join] at h
where
  drain_all : ∀ (k : Nat) (ls : List Look) (s : SM) {u : SM} {r : List Look}, (∀ l ∈ ls, l.bridges ≠ 0) → ls.length = k →
      drain k ls s = some (u, r) → r = []
    | 0, ls, _, _, _, _, h, hd => by
        simp only [drain, Option.some.injEq, Prod.mk.injEq] at hd
        rw [← hd.2]; exact List.length_eq_zero_iff.1 h
    | _ + 1, [], _, _, _, _, h, _ => by simp at h
    | k + 1, l :: ls, s, _, _, hb, h, hd => by
        rw [drain, if_neg (by have := hb l (by simp); unfold SM.running; omega)] at hd
        exact drain_all k ls _ (fun x hx => hb x (by simp [hx])) (by simpa using h) hd

/-! ### Where it fails -/

/-- A manager with a service that runs. -/
def exManager : SM := { own := 10, ids := { client := 12 }, table := [(11, { id := 11 })] }

/-- **C205 is false.**  If a stop is asked for shortly before the time is over, the services are not waited for: the run ends at once,
with a service that goes on, and shuts the processor down. -/
theorem C205_not_waited_violated (seconds : Nat) (hs : 0 < seconds) : ∃ e, runUntil seconds
    [{ before := [.kill (-1)], elapsed := 0 }, { elapsed := seconds }, { base := true }] exManager = some e ∧
    Tracks e.sm 11 false ∧ e.shutdown = true := by
  refine ⟨⟨(smStep exManager (.kill (-1))).1, none, true⟩, ?_, ⟨(11, { id := 11 }), by decide, rfl, rfl⟩, rfl⟩
  have h1 : ((0 : Int) < (seconds : Int)) := by omega
  simp only [runUntil, watch, h1, if_true, Int.lt_irrefl, if_false]
  rfl

/-- **C205 is false.**  A service whose thread does not end is left behind after 20 looks. -/
theorem C205_left_violated (seconds : Nat) : ∃ e, runUntil seconds
    ({ elapsed := seconds } :: (List.replicate 20 ({} : Look) ++ [{ base := true }])) exManager = some e ∧ e.kills = some [11] ∧
    Tracks e.sm 11 false := by
  refine ⟨⟨exManager, some [11], false⟩, ?_, rfl, ⟨(11, { id := 11 }), by decide, rfl, rfl⟩⟩
  have : exManager.after { elapsed := seconds } = exManager := rfl
  simp only [runUntil, watch, Int.lt_irrefl, if_false, this]
  decide +kernel

/-- `C205_time_over_partial` with a service that ends at the third look. -/
example : runUntil 5 [{ elapsed := 0 }, { elapsed := 5 }, {}, {}, { before := [.finish 11] }, { base := true }] exManager =
    some { sm := { exManager with table := [] }, kills := some [11], shutdown := false } := by decide +kernel

/-- `C205_not_early` and `C205_stopped` with a stop that was asked for. -/
example : (runUntil 5 [{ before := [.kill (-1)] }, {}, { before := [.finish 11] }, { base := true }] exManager).map
    (fun e => (e.sm.table, e.shutdown)) = some ([], true) := by decide +kernel

/-- `C205_bridges` with a bridge that goes on. -/
example : runUntil 5 ([{ elapsed := 2 }] ++ { elapsed := 5 } :: List.replicate 20 { before := [.finish 11], bridges := 1, base := true }) exManager = none :=
  C205_bridges 5 _ rfl _ _ _ (by decide) (by decide) (by rintro ⟨l, hl, h⟩; simp at hl; subst hl; simp at h) (by simp)
    (by intro x hx; rw [List.eq_of_mem_replicate hx]; decide) (by simp)

/-- `C205_returns` with a service and a thread of the manager that never end. -/
example : ∃ e, runUntil 5 (List.replicate 42 { elapsed := 9 }) exManager = some e :=
  C205_returns 5 _ _ 0 (by decide) (by decide) (by decide)

end Verif.Manager
