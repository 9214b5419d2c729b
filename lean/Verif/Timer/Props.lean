import Verif.Timer.CancelLemmas

/-!
Properties C44 and C45 of the timer manager.
-/

namespace Verif.Timer

/-! ### C44: independence -/

/-- The timers named by a call. -/
def Op.targets : Op → List Nat
  | .startSingleShot k _ _ => [k]
  | .startPeriodic k _ _ _ => [k]
  | .disable k => [k]
  | .destroy k => [k]
  | .destroyMany ks _ => ks
  | _ => []

/-- The operation is a public call (not a step of the worker). -/
def Op.isCall : Op → Prop
  | .fire _ => False
  | .finish => False
  | _ => True

theorem same_dropAll : ∀ {ids : List Nat} {s : State} {id : Nat}, Inv s → id ∉ ids →
    (∀ j ∈ ids, ¬ Coincides s j id) → Same s (dropAll s ids).1 id
  | [], s, id, _, _, _ => .refl _ _
  | j :: ids, s, id, h, hn, hq => by
    simp only [List.mem_cons, not_or] at hn
    have hq' : ∀ k ∈ ids, ¬ Coincides (drop s j true).1 k id :=
      fun k hk hco => hq k (List.mem_cons_of_mem _ hk) (coincides_drop h hco)
    exact (same_drop (d := true) (Ne.symm hn.1) (hq j (by simp))).trans
      (same_dropAll (inv_drop h j true) hn.2 hq')

/-- **C44, partial.** In every reachable state, a call for other timers leaves a timer in its
phase (not existing, idle, started with its due time and period, handler running).

Missing: the claim is false when one of the other timers has the same callback time
(`C44_violated`). -/
theorem C44_independent_partial {h : List Op} {os : List Out} {s s' : State} {op : Op} {o : Out}
    {id : Nat} (hr : run {} h = .ok (s, os)) (hs : step s op = .ok (s', o)) (hc : op.isCall)
    (hid : id ∉ op.targets) (hnew : o ≠ .created id) (hq : ∀ j ∈ op.targets, ¬ Coincides s j id) :
    phaseOf s' id = phaseOf s id := by
  have hI := inv_run inv_init hr
  refine Same.phase ?_
  cases op with
  | create =>
    simp only [step, create, Outcome.ok.injEq, Prod.mk.injEq] at hs
    rw [← hs.2] at hnew
    have hne : s.nextId ≠ id := fun e => hnew (by rw [e])
    rw [← hs.1]
    exact Same.trans (s2 := { s with nextId := s.nextId + 1 }) ⟨rfl, Iff.rfl, Iff.rfl⟩ (same_set hne)
  | startSingleShot j now delay =>
    simp only [Op.targets, List.mem_singleton] at hid hq
    exact start_other hI (Ne.symm hid) (hq j rfl) hs
  | startPeriodic j now delay period =>
    simp only [Op.targets, List.mem_singleton] at hid hq
    simp only [step] at hs
    by_cases hp : period > 0
    · rw [if_pos hp] at hs; exact start_other hI (Ne.symm hid) (hq j rfl) hs
    · simp only [if_neg hp, Outcome.ok.injEq, Prod.mk.injEq] at hs
      rw [← hs.1]; exact .refl _ _
  | startInHandler j =>
    simp only [step, Outcome.ok.injEq, Prod.mk.injEq] at hs
    rw [← hs.1]; exact .refl _ _
  | disable j =>
    simp only [Op.targets, List.mem_singleton] at hid hq
    simp only [step, Outcome.ok.injEq, Prod.mk.injEq] at hs
    rw [← hs.1]; exact same_drop (Ne.symm hid) (hq j rfl)
  | destroy j =>
    simp only [Op.targets, List.mem_singleton] at hid hq
    simp only [step, Outcome.ok.injEq, Prod.mk.injEq] at hs
    rw [← hs.1]; exact same_drop (Ne.symm hid) (hq j rfl)
  | destroyMany js timeout =>
    simp only [step, destroyMany] at hs
    split at hs
    · simp at hs
    · simp only [Outcome.ok.injEq, Prod.mk.injEq] at hs
      rw [← hs.1]; exact same_dropAll hI hid hq
  | isActive j =>
    simp only [step, Outcome.ok.injEq, Prod.mk.injEq] at hs
    rw [← hs.1]; exact .refl _ _
  | fire now => exact absurd hc not_false
  | finish => exact absurd hc not_false

/-- Two timers started 5 ms apart; timer 1 is started again, timer 2 is not affected. -/
example : ∃ s os s' o, run {} [.create, .create, .startSingleShot 1 0 10, .startPeriodic 2 5 10 7] =
      .ok (s, os) ∧ step s (.startSingleShot 1 6 100) = .ok (s', o) ∧
    (∀ j ∈ (Op.startSingleShot 1 6 100).targets, ¬ Coincides s j 2) ∧
    phaseOf s' 2 = .armed 15 7 ∧ phaseOf s' 1 = .armed 106 0 := by
  refine ⟨_, _, _, _, rfl, rfl, ?_, by decide, by decide⟩
  decide

/-- **C44 is violated.** Two timers are due at the same time; disabling the first makes the second
inactive, and it never fires. -/
theorem C44_violated :
    ∃ s, run {} [.create, .create, .startSingleShot 1 0 10, .startSingleShot 2 0 10, .isActive 2,
      .disable 1, .isActive 2, .fire 1000] =
      .ok (s, [.created 1, .created 2, .result true, .result true, .result true, .result true,
        .result false, .idle]) ∧ s.queue = [] :=
  ⟨_, rfl, rfl⟩

/-- Restarting an expired timer also removes another timer that is due at its old time; and an
expired timer is reported active while such a timer exists. -/
theorem C44_restart_violated :
    ∃ s, run {} [.create, .create, .startSingleShot 1 0 10, .fire 10, .finish, .isActive 1,
      .startSingleShot 2 5 5, .isActive 1, .startSingleShot 1 10 50, .isActive 2] =
      .ok (s, [.created 1, .created 2, .result true, .fired 1, .finished 1, .result false,
        .result true, .result true, .result true, .result false]) :=
  ⟨_, rfl⟩

/-! ### C45: firing -/

/-- **C45, partial.** Along every history that does not disturb the timer, it goes through the
phases of its specification: armed with now + delay when started, running when its handler is
called, which happens only when armed and due, then due one period later or idle; and all calls
naming it are answered accordingly.

Missing: histories with calls for other timers with the same callback time, and with a start of
the timer by another thread while its handler is running (`C45_restart_in_handler_violated`). -/
theorem C45_phases_partial {id : Nat} {ops : List Op} {os : List Out} {s : State}
    (hq : QuietRun id {} ops) (hr : run {} ops = .ok (s, os)) :
    phaseOf s id = Phase.after id .gone ops os ∧ Phase.allAnswers id .gone ops os := by
  obtain ⟨h1, -, h3⟩ := phase_run inv_init (calm_init id) hq hr
  exact ⟨h1, h3⟩

/-- **C45.** Due timers fire in the order of their due times: the timer whose handler is called is
due, and no started timer is due earlier.  Holds for all histories. -/
theorem C45_expiry_order {h : List Op} {os : List Out} {s s' : State} {now : Int} {id : Nat}
    (hr : run {} h = .ok (s, os)) (hs : step s (.fire now) = .ok (s', .fired id)) :
    ∃ d p, phaseOf s id = .armed d p ∧ d ≤ now ∧
      ∀ k d' p', phaseOf s k = .armed d' p' → d ≤ d' := by
  have hI := inv_run inv_init hr
  rcases fire_cases hs with ⟨-, h2, -⟩ | ⟨k, rest, t, hrun, hqu, ht, hn, ho, -⟩
  · simp at h2
  · simp only [Out.fired.injEq] at ho
    subst ho
    refine ⟨t.next, t.period, by simp [phaseOf, ht, hrun, hqu], hn, ?_⟩
    intro j d' p' hj
    have hjq : j ∈ s.queue ∧ s.key j = d' := by
      unfold phaseOf at hj
      rcases hu : s.timers j with _ | u
      · rw [hu] at hj; simp at hj
      · rw [hu] at hj
        simp only [hrun, reduceCtorEq, if_false] at hj
        by_cases hm : j ∈ s.queue
        · simp only [if_pos hm, Phase.armed.injEq] at hj
          exact ⟨hm, by rw [key_of hu]; exact hj.1⟩
        · simp [hm] at hj
    have := front_least hI hqu j hjq.1
    rw [key_of ht, hjq.2] at this
    exact this

example : ∃ s os s', run {} [.create, .create, .create, .startSingleShot 1 0 30, .startPeriodic 2 0 20 20,
    .startSingleShot 3 0 25] = .ok (s, os) ∧ step s (.fire 40) = .ok (s', .fired 2) ∧
    phaseOf s 1 = .armed 30 0 ∧ phaseOf s 2 = .armed 20 20 ∧ phaseOf s 3 = .armed 25 0 :=
  ⟨_, _, _, rfl, rfl, by decide, by decide, by decide⟩

/-- **C45.** No started timer is left over when it is due: if the worker is free and finds nothing
to do at time `now`, every started timer is due later.  Holds for all histories. -/
theorem C45_nothing_overdue {h : List Op} {os : List Out} {s s' : State} {now : Int}
    (hr : run {} h = .ok (s, os)) (hfree : s.running = none)
    (hs : step s (.fire now) = .ok (s', .idle)) {k : Nat} {d p : Int}
    (hk : phaseOf s k = .armed d p) : now < d := by
  have hI := inv_run inv_init hr
  rcases fire_cases hs with ⟨-, -, h3⟩ | ⟨_, _, _, -, -, -, -, ho, -⟩
  · unfold phaseOf at hk
    rcases hu : s.timers k with _ | u
    · rw [hu] at hk; simp at hk
    · rw [hu] at hk
      simp only [hfree, reduceCtorEq, if_false] at hk
      by_cases hm : k ∈ s.queue
      · simp only [if_pos hm, Phase.armed.injEq] at hk
        rcases hqu : s.queue with _ | ⟨i, rest⟩
        · rw [hqu] at hm; simp at hm
        · obtain ⟨t, ht, -⟩ := hI.entry i (by rw [hqu]; simp)
          have h4 := h3 hfree i rest t hqu ht
          have h5 := front_least hI hqu k hm
          rw [key_of ht, key_of hu] at h5
          omega
      · simp [hm] at hk
  · simp at ho

example : ∃ s os s', run {} [.create, .create, .startSingleShot 1 0 30, .startSingleShot 2 0 10, .fire 20,
    .finish] = .ok (s, os) ∧ s.running = none ∧ step s (.fire 29) = .ok (s', .idle) ∧
    phaseOf s 1 = .armed 30 0 :=
  ⟨_, _, _, rfl, rfl, rfl, by decide⟩

/-- What a started timer looks like after `n` calls of its handler when nobody touches it. -/
inductive Track (due p T : Int) : Nat → Phase → Prop
  | armed (n : Nat) : (p = 0 → n = 0) → (n ≠ 0 → due + ((n : Int) - 1) * p ≤ T) →
      Track due p T n (.armed (due + n * p) p)
  | running (n : Nat) : (p = 0 → n = 0) → due + (n : Int) * p ≤ T →
      Track due p T (n + 1) (.running (due + n * p) p false false)
  | over : p = 0 → due ≤ T → Track due p T 1 .idle

theorem track_next {due p T : Int} (hp : 0 ≤ p) {n : Nat} {ph : Phase} {id : Nat} {op : Op} {o : Out}
    (h : Track due p T n ph) (ha : ph.answers id op o) (hn : ¬ op.names id)
    (ht : ∀ now, op = .fire now → now ≤ T) (hf : ∀ k, o = .fired k → ∃ now, op = .fire now) :
    Track due p T (n + if o = .fired id then 1 else 0) (ph.next id op o) := by
  have hng : ph ≠ .gone := by cases h <;> simp
  have hother : o ≠ .fired id → (ph.next id op o = ph ∨ (op = .finish ∧ o = .finished id)) := by
    intro ho
    cases op with
    | create => left; simp only [Phase.next]; rw [if_neg (ha hng)]
    | finish =>
      by_cases h2 : o = .finished id
      · exact .inr ⟨rfl, h2⟩
      · left; simp [Phase.next, h2]
    | fire now => left; simp [Phase.next, ho]
    | startPeriodic j now delay period =>
      left
      simp only [Phase.next]
      rw [if_neg (fun e => hn e.1)]
    | startInHandler j => left; rfl
    | isActive j => left; rfl
    | _ =>
      left
      simp only [Op.names] at hn
      simp only [Phase.next, if_neg hn]
  by_cases ho : o = .fired id
  · obtain ⟨now, rfl⟩ := hf id ho
    rw [if_pos ho]
    obtain ⟨d, q, hph, hd⟩ := ha ho
    have hT := ht now rfl
    subst hph
    cases h with
    | armed m h0 h1 =>
      simp only [Phase.next, if_pos ho, Phase.fire]
      exact .running n h0 (by omega)
  · rw [if_neg ho, Nat.add_zero]
    rcases hother ho with he | ⟨rfl, h2⟩
    · rw [he]; exact h
    · simp only [Phase.next, if_pos h2]
      cases h with
      | armed m h0 h1 => exact .armed n h0 h1
      | running m h0 h1 =>
        simp only [Phase.finish, Bool.false_eq_true, if_false]
        by_cases hpp : p > 0
        · rw [if_pos hpp]
          have he : due + (m : Int) * p + p = due + ((m + 1 : Nat) : Int) * p := by
            rw [Int.natCast_add, Int.add_mul]; simp [Int.add_assoc]
          rw [he]
          refine .armed (m + 1) (fun e => absurd e (by omega)) (fun _ => ?_)
          rw [show ((m + 1 : Nat) : Int) - 1 = (m : Int) by omega]
          exact h1
        · rw [if_neg hpp]
          have hp0 : p = 0 := by omega
          have hm0 := h0 hp0
          subst hm0
          subst hp0
          exact .over rfl (by simpa using h1)
      | over h0 h1 => exact .over h0 h1

theorem fired_only {s s' : State} {op : Op} {k : Nat} (h : Inv s)
    (hs : step s op = .ok (s', .fired k)) : ∃ now, op = .fire now := by
  cases op with
  | fire now => exact ⟨now, rfl⟩
  | create => simp [step, create] at hs
  | startSingleShot id now delay => exact absurd rfl (start_not_fired (id := k) h hs)
  | startPeriodic id now delay period =>
    simp only [step] at hs
    split at hs
    · exact absurd rfl (start_not_fired (id := k) h hs)
    · simp at hs
  | startInHandler id => simp [step] at hs
  | disable id => simp [step] at hs
  | destroy id => simp [step] at hs
  | destroyMany ids t =>
    simp only [step, destroyMany] at hs
    split at hs <;> simp at hs
  | isActive id => simp [step] at hs
  | finish =>
    rcases finish_cases hs with ⟨-, -, h⟩ | ⟨_, _, -, -, h, -⟩ <;> simp at h

theorem track_run {due p T : Int} (hp : 0 ≤ p) {id : Nat} : ∀ {ops : List Op} {s s' : State}
    {os : List Out} {n : Nat}, Inv s → Calm s id → QuietRun id s ops → run s ops = .ok (s', os) →
    (∀ op ∈ ops, ¬ op.names id) → (∀ now, Op.fire now ∈ ops → now ≤ T) →
    Track due p T n (phaseOf s id) → Track due p T (n + firings id os) (phaseOf s' id)
  | [], s, s', os, n, _, _, _, hr, _, _, ht => by
    simp only [run, Outcome.ok.injEq, Prod.mk.injEq] at hr
    rw [← hr.1, ← hr.2]
    simpa [firings] using ht
  | op :: ops, s, s', os, n, h, hc, hq, hr, hn, hT, ht => by
    obtain ⟨s1, o, os', h1, h2, rfl⟩ := run_cons hr
    obtain ⟨p1, p2, p3⟩ := phase_step h hc hq.1 h1
    have ht' := track_next hp ht p3 (hn op (by simp))
      (fun now e => hT now (by rw [← e]; simp)) (fun k e => fired_only h (e ▸ h1))
    rw [← p1] at ht'
    have := track_run hp (inv_step h h1) p2 (hq.2 s1 o h1) h2
      (fun x hx => hn x (List.mem_cons_of_mem _ hx)) (fun now hx => hT now (List.mem_cons_of_mem _ hx)) ht'
    have he : n + firings id (o :: os') =
        n + (if o = .fired id then 1 else 0) + firings id os' := by
      simp only [firings, List.countP_cons, beq_iff_eq]
      omega
    rw [he]; exact this

theorem quietRun_append {id : Nat} : ∀ {h1 h2 : List Op} {s s' : State} {os : List Out},
    QuietRun id s (h1 ++ h2) → run s h1 = .ok (s', os) → QuietRun id s h1 ∧ QuietRun id s' h2
  | [], h2, s, s', os, hq, hr => by
    simp only [run, Outcome.ok.injEq, Prod.mk.injEq] at hr
    rw [← hr.1]; exact ⟨trivial, hq⟩
  | op :: h1, h2, s, s', os, hq, hr => by
    obtain ⟨s1, o, os', e1, e2, -⟩ := run_cons hr
    have ih := quietRun_append (hq.2 s1 o e1) e2
    refine ⟨⟨hq.1, fun s2 o2 e => ?_⟩, ih.2⟩
    rw [e1] at e
    simp only [Outcome.ok.injEq, Prod.mk.injEq] at e
    rw [← e.1]; exact ih.1

/-- The situation of the next two theorems: after some history `h0` the timer (which exists) is
started at `now` with a delay, and in the following history `h` nobody names it; up to then the
worker's clock has not passed `T`; finally the worker is free and finds nothing to do at `T`. -/
structure Started (id : Nat) (h0 : List Op) (startOp : Op) (h : List Op) (T : Int) (os : List Out) where
  s0 : State
  s1 : State
  s2 : State
  s3 : State
  os0 : List Out
  history : run {} h0 = .ok (s0, os0)
  started : step s0 startOp = .ok (s1, .result true)
  after : run s1 h = .ok (s2, os)
  quiet : QuietRun id {} (h0 ++ startOp :: h)
  untouched : ∀ op ∈ h, ¬ op.names id
  clock : ∀ now, Op.fire now ∈ h → now ≤ T
  free : s2.running = none
  done : step s2 (.fire T) = .ok (s3, .idle)

theorem run_snoc {s s1 s2 : State} {op : Op} {o : Out} : ∀ {h : List Op} {s0 : State} {os : List Out},
    run s0 h = .ok (s, os) → step s op = .ok (s1, o) → run s0 (h ++ [op]) = .ok (s1, os ++ [o])
  | [], s0, os, hr, hs => by
    simp only [run, Outcome.ok.injEq, Prod.mk.injEq] at hr
    rw [← hr.1] at hs
    simp [run, hs, ← hr.2]
  | x :: h, s0, os, hr, hs => by
    obtain ⟨s3, o', os', e1, e2, rfl⟩ := run_cons hr
    have := run_snoc (s2 := s2) e2 hs
    simp [run, e1, this]

theorem run_append {s s1 s2 : State} : ∀ {h h' : List Op} {os os' : List Out},
    run s h = .ok (s1, os) → run s1 h' = .ok (s2, os') → run s (h ++ h') = .ok (s2, os ++ os')
  | [], h', os, os', hr, hs => by
    simp only [run, Outcome.ok.injEq, Prod.mk.injEq] at hr
    rw [← hr.1] at hs
    simp [hs, ← hr.2]
  | x :: h, h', os, os', hr, hs => by
    obtain ⟨s3, o', os'', e1, e2, rfl⟩ := run_cons hr
    have := run_append e2 hs
    simp [run, e1, this]

theorem started_track {id : Nat} {h0 h : List Op} {startOp : Op} {T due p : Int} {os : List Out}
    (S : Started id h0 startOp h T os) (hp : 0 ≤ p)
    (hph : ∀ ph : Phase, ph ≠ .gone → ph.next id startOp (.result true) = .armed due p)
    (hgone : ∀ ph : Phase, ph.answers id startOp (.result true) → ph ≠ .gone) :
    Track due p T (firings id os) (phaseOf S.s2 id) ∧
      ∀ d q, phaseOf S.s2 id = .armed d q → T < d := by
  have hq := quietRun_append S.quiet S.history
  have hI0 := inv_run inv_init S.history
  obtain ⟨-, hc0, -⟩ := phase_run inv_init (calm_init id) hq.1 S.history
  obtain ⟨p1, p2, p3⟩ := phase_step hI0 hc0 hq.2.1 S.started
  have hI1 := inv_step hI0 S.started
  have harm : phaseOf S.s1 id = .armed due p := by
    rw [p1]; exact hph _ (hgone _ p3)
  have htr : Track due p T 0 (phaseOf S.s1 id) := by
    rw [harm]
    have := Track.armed (due := due) (p := p) (T := T) 0 (fun _ => rfl) (fun e => absurd rfl e)
    simpa using this
  have := track_run hp hI1 p2 (hq.2.2 _ _ S.started) S.after S.untouched S.clock htr
  rw [Nat.zero_add] at this
  refine ⟨this, ?_⟩
  intro d q hd
  have hall := run_append (run_snoc (s2 := S.s2) S.history S.started) S.after
  exact C45_nothing_overdue hall S.free S.done hd

theorem phaseOf_running {s : State} {id : Nat} {d p : Int} {x y : Bool}
    (h : phaseOf s id = .running d p x y) : s.running = some id := by
  unfold phaseOf at h
  rcases ht : s.timers id with _ | t
  · rw [ht] at h; simp at h
  · rw [ht] at h
    by_cases hr : s.running = some id
    · exact hr
    · simp only [if_neg hr] at h
      by_cases hm : id ∈ s.queue <;> simp [hm] at h

/-- **C45, partial.** A single-shot timer that is not touched after its start fires at most once,
and exactly once when the worker has caught up with a time at which it is due (`T`), and not at
all before.  Missing: undisturbed histories only, see `C45_phases_partial`. -/
theorem C45_single_shot_once_partial {id : Nat} {h0 h : List Op} {now delay T : Int} {os : List Out}
    (S : Started id h0 (.startSingleShot id now delay) h T os) :
    firings id os = if now + delay ≤ T then 1 else 0 := by
  obtain ⟨ht, hover⟩ := started_track S (p := 0) (due := now + delay) (Int.le_refl 0)
    (by intro ph hg; cases ph <;> simp_all [Phase.next, Phase.start])
    (by
      intro ph ha hg
      have := ha rfl
      rw [hg] at this
      exact absurd this (by decide))
  generalize hn : firings id os = n at ht
  generalize hphase : phaseOf S.s2 id = ph at ht
  cases ht with
  | armed m h0 h1 =>
    have hm := h0 rfl
    have := hover _ _ hphase
    subst hm
    simp at this
    rw [if_neg (by omega)]
  | running m h0 h1 =>
    have := phaseOf_running hphase
    rw [S.free] at this; simp at this
  | over h0 h1 => rw [if_pos h1]

/-- **C45, partial.** A periodic timer that is not touched after its start fires once per period:
when the worker has caught up with time `T`, the number `n` of calls of its handler is the number
of due times now + delay + k * period that are not after `T`. -/
theorem C45_periodic_count_partial {id : Nat} {h0 h : List Op} {now delay period T : Int}
    {os : List Out} (hp : 0 < period)
    (S : Started id h0 (.startPeriodic id now delay period) h T os) :
    T < now + delay + (firings id os : Int) * period ∧
    (firings id os ≠ 0 → now + delay + ((firings id os : Int) - 1) * period ≤ T) := by
  obtain ⟨ht, hover⟩ := started_track S (p := period) (due := now + delay) (Int.le_of_lt hp)
    (by intro ph hg; cases ph <;> simp_all [Phase.next, Phase.start])
    (by
      intro ph ha hg
      have := ha rfl
      rw [hg] at this
      simp at this)
  generalize hn : firings id os = n at ht
  generalize hphase : phaseOf S.s2 id = ph at ht
  cases ht with
  | armed m h0 h1 => exact ⟨hover _ _ hphase, h1⟩
  | running m h0 h1 =>
    have := phaseOf_running hphase
    rw [S.free] at this; simp at this
  | over h0 h1 => omega

/-! ### Cancelled timers -/

/-- **C45, partial.** A timer that was disabled or destroyed does not fire until it is started
again, whatever happens to other timers.

Missing: the timer must not have been started by another thread while its own handler was running
(`C45_disable_violated`). -/
theorem C45_cancelled_silent_partial {id : Nat} {h0 h : List Op} {cancel : Op} {s0 s1 s2 : State}
    {os0 os : List Out} {o : Out} (hr0 : run {} h0 = .ok (s0, os0)) (hnr : NoRestart id {} h0)
    (hex : s0.timers id ≠ none)
    (hc : cancel = .disable id ∨ cancel = .destroy id) (hs : step s0 cancel = .ok (s1, o))
    (hr : run s1 h = .ok (s2, os)) (hn : ∀ op ∈ h, ¬ op.starts id) : firings id os = 0 := by
  have hI := inv_run inv_init hr0
  have hO := own_run inv_init (own_init id) hnr hr0
  have hk : id < s0.nextId := by
    rcases ht : s0.timers id with _ | t
    · exact absurd ht hex
    · exact hI.known id t ht
  have hS : Silent s1 id := by
    rcases hc with rfl | rfl
    · simp only [step, Outcome.ok.injEq, Prod.mk.injEq] at hs
      rw [← hs.1]; exact silent_drop_self hI hO hk
    · simp only [step, Outcome.ok.injEq, Prod.mk.injEq] at hs
      rw [← hs.1]; exact silent_drop_self hI hO hk
  have hO1 : Own s1 id := own_step hI hO (by rcases hc with rfl | rfl <;> simp [Op.starts]) hs
  exact silent_run (inv_step hI hs) hO1 hS hn hr

/-- A periodic timer is disabled from its own handler; it does not fire any more, although the
worker looks much later, and another timer is started at the same time. -/
example : ∃ s0 os0 s1 o s2 os, run {} [.create, .create, .startPeriodic 1 0 10 10, .fire 10] = .ok (s0, os0) ∧
    NoRestart 1 {} [.create, .create, .startPeriodic 1 0 10 10, .fire 10] ∧ s0.timers 1 ≠ none ∧
    step s0 (.disable 1) = .ok (s1, o) ∧
    run s1 [.startSingleShot 2 10 10, .finish, .fire 1000, .finish, .fire 1000] = .ok (s2, os) ∧
    os = [.result true, .finished 1, .fired 2, .finished 2, .idle] :=
  ⟨_, _, _, _, _, _, rfl, by decide, by decide, rfl, rfl, rfl⟩

/-- **C45 is violated.** Another thread starts a periodic timer while its handler is running and
then disables it, successfully; the timer goes on firing for ever. -/
theorem C45_disable_violated :
    ∃ s, run {} [.create, .startPeriodic 1 0 10 10, .fire 10, .startPeriodic 1 11 10 10, .disable 1,
      .finish, .fire 40, .finish, .fire 50] =
      .ok (s, [.created 1, .result true, .fired 1, .result true, .result true, .finished 1,
        .fired 1, .finished 1, .fired 1]) :=
  ⟨_, rfl⟩

/-- A start of a periodic timer by another thread while its handler is running leads to a change of
the key of an element of the multiset (undefined behaviour). -/
theorem C45_restart_in_handler_violated :
    run {} [.create, .startPeriodic 1 0 10 10, .fire 10, .startPeriodic 1 11 10 10, .finish] = .ub :=
  rfl

/-- A start and a destroy of a timer by another thread while its handler is running destroy the
timer that the worker still uses. -/
theorem C45_destroy_in_handler_violated :
    run {} [.create, .startSingleShot 1 0 10, .fire 10, .startSingleShot 1 11 10, .destroy 1, .finish] =
      .ub :=
  rfl

/-- `destroyTimers` with a timeout and an id that was never created. -/
theorem C45_destroyMany_unknown_violated : run {} [.destroyMany [7] 100] = .ub := rfl

/-- **C45, partial.** Without such calls no history leads to undefined behaviour: timers are not
started by other threads while their own handlers are running, and `destroyTimers` with a timeout
gets ids of timers that were created. -/
theorem C45_defined_partial {ops : List Op} (h : SafeRun {} ops) : ∃ s os, run {} ops = .ok (s, os) :=
  safe_run inv_init (fun id => own_init id) h

example : SafeRun {} [.create, .create, .startPeriodic 1 0 10 10, .startSingleShot 2 0 10, .fire 10,
    .disable 1, .startInHandler 1, .destroy 2, .finish, .startPeriodic 1 20 10 10, .destroyMany [1, 2] 5,
    .fire 30] := by decide

/-- **C45.** `startTimer…` never waits: the case in which it waits for a handler to return does not
occur in any history. -/
theorem C45_start_never_waits {h : List Op} {os : List Out} {s s' : State} {op : Op} {o : Out}
    (hr : run {} h = .ok (s, os)) (hs : step s op = .ok (s', o)) : o ≠ .blocked := by
  have hI := inv_run inv_init hr
  have hst : ∀ j now delay period, start s j now delay period = .ok (s', o) → o ≠ .blocked := by
    intro j now delay period hs
    obtain ⟨b, rfl⟩ := start_result hI hs
    simp
  cases op with
  | startSingleShot j now delay => exact hst _ _ _ _ hs
  | startPeriodic j now delay period =>
    simp only [step] at hs
    by_cases hp : period > 0
    · rw [if_pos hp] at hs; exact hst _ _ _ _ hs
    · simp only [if_neg hp, Outcome.ok.injEq, Prod.mk.injEq] at hs
      rw [← hs.2]; simp
  | create => simp only [step, create, Outcome.ok.injEq, Prod.mk.injEq] at hs; rw [← hs.2]; simp
  | startInHandler j => simp only [step, Outcome.ok.injEq, Prod.mk.injEq] at hs; rw [← hs.2]; simp
  | disable j => simp only [step, Outcome.ok.injEq, Prod.mk.injEq] at hs; rw [← hs.2]; simp
  | destroy j => simp only [step, Outcome.ok.injEq, Prod.mk.injEq] at hs; rw [← hs.2]; simp
  | isActive j => simp only [step, Outcome.ok.injEq, Prod.mk.injEq] at hs; rw [← hs.2]; simp
  | destroyMany js timeout =>
    simp only [step, destroyMany] at hs
    split at hs
    · simp at hs
    · simp only [Outcome.ok.injEq, Prod.mk.injEq] at hs; rw [← hs.2]; simp
  | fire now =>
    rcases fire_cases hs with ⟨-, h, -⟩ | ⟨_, _, _, -, -, -, -, h, -⟩ <;> rw [h] <;> simp
  | finish =>
    rcases finish_cases hs with ⟨-, -, h⟩ | ⟨_, _, -, -, h, -⟩ <;> rw [h] <;> simp

/-! ### Answers for timers that do not exist -/

theorem step_nextId {s s' : State} {op : Op} {o : Out} (hI : Inv s) (hs : step s op = .ok (s', o)) :
    (o = .created s.nextId ∧ s'.nextId = s.nextId + 1) ∨
      (s'.nextId = s.nextId ∧ ∀ k, o ≠ .created k) := by
  have hst : ∀ j now delay period, start s j now delay period = .ok (s', o) →
      s'.nextId = s.nextId ∧ ∀ k, o ≠ .created k := by
    intro j now delay period h
    obtain ⟨b, rfl⟩ := start_result hI h
    exact ⟨start_nextId hI h, by simp⟩
  cases op with
  | create =>
    simp only [step, create, Outcome.ok.injEq, Prod.mk.injEq] at hs
    rw [← hs.1, ← hs.2]; exact .inl ⟨rfl, rfl⟩
  | startSingleShot j now delay => exact .inr (hst _ _ _ _ hs)
  | startPeriodic j now delay period =>
    simp only [step] at hs
    by_cases hp : period > 0
    · rw [if_pos hp] at hs; exact .inr (hst _ _ _ _ hs)
    · simp only [if_neg hp, Outcome.ok.injEq, Prod.mk.injEq] at hs
      rw [← hs.1, ← hs.2]; simp
  | startInHandler j =>
    simp only [step, Outcome.ok.injEq, Prod.mk.injEq] at hs
    rw [← hs.1, ← hs.2]; simp
  | disable j =>
    simp only [step, Outcome.ok.injEq, Prod.mk.injEq] at hs
    rw [← hs.1, ← hs.2, drop_nextId]; simp
  | destroy j =>
    simp only [step, Outcome.ok.injEq, Prod.mk.injEq] at hs
    rw [← hs.1, ← hs.2, drop_nextId]; simp
  | isActive j =>
    simp only [step, Outcome.ok.injEq, Prod.mk.injEq] at hs
    rw [← hs.1, ← hs.2]; simp
  | destroyMany js timeout =>
    simp only [step, destroyMany] at hs
    split at hs
    · simp at hs
    · simp only [Outcome.ok.injEq, Prod.mk.injEq] at hs
      rw [← hs.1, ← hs.2, dropAll_nextId]; simp
  | fire now =>
    rcases fire_cases hs with ⟨rfl, rfl, -⟩ | ⟨_, _, _, -, -, -, -, rfl, rfl⟩ <;> simp [State.set]
  | finish =>
    rcases finish_cases hs with ⟨-, rfl, rfl⟩ | ⟨k, t, -, -, rfl, hcs⟩
    · simp
    · rcases hcs with ⟨-, -, rfl⟩ | ⟨-, -, rfl⟩ | ⟨-, -, -, -, rfl⟩ | ⟨-, -, -, rfl⟩ <;> simp [State.set]

theorem created_iff {id : Nat} : ∀ {h : List Op} {s s' : State} {os : List Out}, Inv s →
    run s h = .ok (s', os) → (id < s'.nextId ↔ id < s.nextId ∨ .created id ∈ os)
  | [], s, s', os, _, hr => by
    simp only [run, Outcome.ok.injEq, Prod.mk.injEq] at hr
    rw [← hr.1, ← hr.2]; simp
  | op :: h, s, s', os, hI, hr => by
    obtain ⟨s1, o, os', h1, h2, rfl⟩ := run_cons hr
    rw [created_iff (inv_step hI h1) h2, List.mem_cons]
    rcases step_nextId hI h1 with ⟨rfl, e⟩ | ⟨e, hne⟩
    · rw [e]
      simp only [Out.created.injEq]
      constructor
      · rintro (h | h)
        · by_cases he : id = s.nextId
          · exact .inr (.inl he)
          · exact .inl (by omega)
        · exact .inr (.inr h)
      · rintro (h | h | h)
        · exact .inl (by omega)
        · exact .inl (by omega)
        · exact .inr h
    · rw [e]
      constructor
      · rintro (h | h)
        · exact .inl h
        · exact .inr (.inr h)
      · rintro (h | h | h)
        · exact .inl h
        · exact absurd h.symm (hne id)
        · exact .inr h

/-- **C45.** Timers that do not exist: starting one fails and it is not active; disabling or
destroying succeeds if and only if it existed once.  (Timer ids start at 1.) -/
theorem C45_gone_answers {h : List Op} {os : List Out} {s : State} {id : Nat} (hpos : 1 ≤ id)
    (hr : run {} h = .ok (s, os)) (hg : phaseOf s id = .gone) (now delay period : Int) :
    step s (.startSingleShot id now delay) = .ok (s, .result false) ∧
    step s (.startPeriodic id now delay period) = .ok (s, .result false) ∧
    step s (.isActive id) = .ok (s, .result false) ∧
    step s (.disable id) = .ok (s, .result (decide (.created id ∈ os))) ∧
    step s (.destroy id) = .ok (s, .result (decide (.created id ∈ os))) := by
  have hI := inv_run inv_init hr
  have hnone : s.timers id = none := by
    unfold phaseOf at hg
    rcases ht : s.timers id with _ | t
    · rfl
    · rw [ht] at hg
      by_cases hx : s.running = some id
      · simp [hx] at hg
      · by_cases hm : id ∈ s.queue <;> simp [hx, hm] at hg
  have hst : ∀ p, start s id now delay p = .ok (s, .result false) := by
    intro p
    unfold start
    by_cases hk : id > s.nextId - 1
    · rw [if_pos hk]
    · simp only [if_neg hk, hnone]
  have hcr : id < s.nextId ↔ .created id ∈ os := by
    have h1 := created_iff (id := id) inv_init hr
    have h2 : ¬ id < (({} : State)).nextId := by simp; omega
    simpa [h2] using h1
  have hdrop : ∀ d, drop s id d = (s, decide (.created id ∈ os)) := by
    intro d
    unfold drop
    have hp := hI.pos
    by_cases hk : id > s.nextId - 1
    · rw [if_pos hk]
      have : ¬ (.created id ∈ os) := fun hm => by
        have := hcr.2 hm
        omega
      simp [this]
    · rw [if_neg hk]
      have : .created id ∈ os := hcr.1 (by omega)
      simp [hnone, this]
  refine ⟨hst 0, ?_, by simp [step, isActive, hnone], by simp [step, hdrop], by simp [step, hdrop]⟩
  simp only [step]
  split
  · exact hst period
  · rfl

example : ∃ s os, run {} [.create, .create, .destroy 1] = .ok (s, os) ∧ phaseOf s 1 = .gone ∧
    .created 1 ∈ os ∧ phaseOf s 3 = .gone ∧ .created 3 ∉ os :=
  ⟨_, _, rfl, by decide, by decide, by decide, by decide⟩

/-- The handler of the timer is running. -/
def executing (s : State) (id : Nat) : Bool :=
  match s.timers id with
  | some t => t.executing
  | none => false

theorem drop_result {s : State} {id : Nat} {d : Bool} (hI : Inv s) :
    (drop s id d).2 = (decide (id < s.nextId) && !executing s id) := by
  have hp := hI.pos
  unfold drop executing
  by_cases hk : id > s.nextId - 1
  · rw [if_pos hk]
    have : ¬ id < s.nextId := by omega
    simp [this]
  · rw [if_neg hk]
    have : id < s.nextId := by omega
    rcases ht : s.timers id with _ | t
    · simp [this]
    · by_cases hx : t.executing = true
      · simp [dropExisting, hx]
      · simp only [dropExisting_idle (show t.executing = false by simpa using hx)]
        simp [this, hx]

theorem drop_executing {s : State} {j id : Nat} {d : Bool} (hI : Inv s) :
    executing (drop s j d).1 id = executing s id := by
  by_cases hj : j = id
  · subst hj
    unfold drop
    by_cases hk : j > s.nextId - 1
    · rw [if_pos hk]
    · rw [if_neg hk]
      rcases ht : s.timers j with _ | t
      · rfl
      · by_cases hx : t.executing = true
        · simp [dropExisting, hx, executing, State.set, ht]
        · simp only [dropExisting_idle (show t.executing = false by simpa using hx)]
          cases d <;> simp [executing, State.set, State.eraseTime, ht, hx]
  · unfold executing
    rw [(sub_drop hj).timer]

theorem dropAll_count : ∀ {ids : List Nat} {s : State}, Inv s →
    (dropAll s ids).2 = ids.countP fun id => decide (id < s.nextId) && !executing s id
  | [], _, _ => rfl
  | j :: ids, s, hI => by
    simp only [dropAll, dropAll_count (ids := ids) (inv_drop hI j true), drop_result hI, drop_nextId,
      drop_executing hI, List.countP_cons]
    omega

/-- **C45.** `destroyTimers` reports the number of the timers that existed once and whose handlers
are not running. -/
theorem C45_destroyMany_count {h : List Op} {os : List Out} {s s' : State} {o : Out} {ids : List Nat}
    {timeout : Nat} (hr : run {} h = .ok (s, os))
    (hs : step s (.destroyMany ids timeout) = .ok (s', o)) :
    o = .count (ids.countP fun id => decide (id < s.nextId) && !executing s id) := by
  have hI := inv_run inv_init hr
  simp only [step, destroyMany] at hs
  split at hs
  · simp at hs
  · simp only [Outcome.ok.injEq, Prod.mk.injEq] at hs
    rw [← hs.2, dropAll_count hI]

example : ∃ s os s', run {} [.create, .create, .create, .startSingleShot 1 0 5, .fire 5, .destroy 3] = .ok (s, os) ∧
    step s (.destroyMany [1, 2, 3] 5) = .ok (s', .count 2) :=
  ⟨_, _, _, rfl, rfl⟩

/-! ### Concrete histories for the counting theorems -/

/-- Timer 2 is started for time 25 among other activity, and fires once up to time 60. -/
example : Nonempty (Started 2 [.create, .create, .startPeriodic 1 0 10 10, .fire 10, .finish]
    (.startSingleShot 2 12 13) [.fire 20, .finish, .fire 26, .finish, .fire 30, .finish, .disable 1,
      .isActive 2, .fire 60] 60
    [.fired 1, .finished 1, .fired 2, .finished 2, .fired 1, .finished 1, .result true, .result false,
      .idle]) :=
  ⟨⟨_, _, _, _, _, rfl, rfl, rfl, by decide, by decide, by simp, rfl, rfl⟩⟩

/-- Timer 1 with period 10 fires at 15, 25 and 35, the last time late. -/
example : Nonempty (Started 1 [.create, .create] (.startPeriodic 1 5 10 10)
    [.startSingleShot 2 6 1, .fire 8, .finish, .fire 15, .finish, .fire 25, .finish, .fire 44, .finish] 44
    [.result true, .fired 2, .finished 2, .fired 1, .finished 1, .fired 1, .finished 1, .fired 1,
      .finished 1]) :=
  ⟨⟨_, _, _, _, _, rfl, rfl, rfl, by decide, by decide, by simp, rfl, rfl⟩⟩

end Verif.Timer
