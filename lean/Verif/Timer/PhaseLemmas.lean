import Verif.Timer.Lemmas

namespace Verif.Timer

theorem inv_stop {s : State} (h : Inv s) {id : Nat} {t u : Timer} (hr : s.running = some id)
    (ht : s.timers id = some t) (hn : u.next = t.next) (hx : u.executing = false)
    (hp : 0 ≤ u.period) : Inv (({ s with running := none }).set id (some u)) := by
  have hkey : ∀ k, (({ s with running := none } : State).set id (some u)).key k = s.key k := by
    intro k
    by_cases hk : k = id
    · subst hk; simp [State.key, State.set, ht, hn]
    · simp [State.key, State.set, hk]
  refine ⟨?_, ?_, h.nodup, ?_, ?_, ?_, h.pos⟩
  · intro k hk
    by_cases hki : k = id
    · exact ⟨u, by simp [State.set, hki], hx⟩
    · obtain ⟨v, hv⟩ := h.entry k hk
      exact ⟨v, by simp [State.set, hki, hv.1], hv.2⟩
  · simp only [hkey]; exact h.sorted
  · intro k v hv
    by_cases hki : k = id
    · rw [hki]; exact h.known id t ht
    · simp only [State.set, if_neg hki] at hv; exact h.known k v hv
  · intro k v hv hvx
    by_cases hki : k = id
    · subst hki
      simp only [State.set, if_true, Option.some.injEq] at hv
      rw [← hv, hx] at hvx; simp at hvx
    · simp only [State.set, if_neg hki] at hv
      have := h.executing k v hv hvx
      rw [hr] at this
      simp only [Option.some.injEq] at this
      exact absurd this.symm hki
  · intro k v hv
    by_cases hki : k = id
    · subst hki
      simp only [State.set, if_true, Option.some.injEq] at hv
      rw [← hv]; exact hp
    · simp only [State.set, if_neg hki] at hv; exact h.period k v hv

theorem inv_finish {s s' : State} {o : Out} (h : Inv s) (hf : finish s = .ok (s', o)) : Inv s' := by
  rcases finish_cases hf with ⟨-, rfl, -⟩ | ⟨id, t, hr, ht, -, hc⟩
  · exact h
  · have hp := h.period id t ht
    have hbase := inv_stop h hr ht (u := { t with executing := false }) rfl rfl hp
    rcases hc with ⟨-, hq, rfl⟩ | ⟨-, -, rfl⟩ | ⟨-, -, hpos, hq, rfl⟩ | ⟨-, -, -, rfl⟩
    · have := inv_set hbase (id := id) (t := none) hq (h.known id t ht) (by simp) (by simp)
      have he : (({ s with running := none } : State).set id (some { t with executing := false })).set id
          none = ({ s with running := none } : State).set id none := by
        simp only [State.set, State.mk.injEq, and_true, true_and]
        funext k
        by_cases hk : k = id <;> simp [hk]
      rw [he] at this
      exact this
    · exact hbase
    · have h2 := inv_set hbase (id := id)
        (t := some { t with executing := false, next := t.next + t.period }) hq (h.known id t ht)
        (by simp) (by simp [hp])
      have he : (({ s with running := none } : State).set id (some { t with executing := false })).set id
          (some { t with executing := false, next := t.next + t.period }) =
          ({ s with running := none } : State).set id
          (some { t with executing := false, next := t.next + t.period }) := by
        simp only [State.set, State.mk.injEq, and_true, true_and]
        funext k
        by_cases hk : k = id <;> simp [hk]
      rw [he] at h2
      exact inv_insert h2 (t := { t with executing := false, next := t.next + t.period }) hq
        (by simp [State.set]) rfl
    · exact inv_stop h hr ht (u := { t with executing := false, disabled := true }) rfl rfl hp

theorem inv_step {s s' : State} {op : Op} {o : Out} (h : Inv s) (hs : step s op = .ok (s', o)) :
    Inv s' := by
  cases op with
  | create =>
    simp only [step, create, Outcome.ok.injEq, Prod.mk.injEq] at hs
    rw [← hs.1]
    have hnone : s.timers s.nextId = none := by
      rcases ht : s.timers s.nextId with _ | t
      · rfl
      · have := h.known _ t ht; omega
    have hq : s.nextId ∉ s.queue := by
      intro hm
      obtain ⟨t, ht, -⟩ := h.entry _ hm
      rw [hnone] at ht; simp at ht
    have h1 : Inv { s with nextId := s.nextId + 1 } :=
      ⟨h.entry, h.sorted, h.nodup, fun k t ht => Nat.lt_succ_of_lt (h.known k t ht), h.executing,
        h.period, Nat.succ_pos _⟩
    exact inv_set h1 hq (Nat.lt_succ_self _) (by simp) (by simp)
  | startSingleShot id now delay => exact inv_start h (Int.le_refl 0) hs
  | startPeriodic id now delay period =>
    simp only [step] at hs
    by_cases hp : period > 0
    · rw [if_pos hp] at hs; exact inv_start h (Int.le_of_lt hp) hs
    · simp only [if_neg hp, Outcome.ok.injEq, Prod.mk.injEq] at hs
      rw [← hs.1]; exact h
  | startInHandler id =>
    simp only [step, Outcome.ok.injEq, Prod.mk.injEq] at hs
    rw [← hs.1]; exact h
  | disable id =>
    simp only [step, Outcome.ok.injEq, Prod.mk.injEq] at hs
    rw [← hs.1]; exact inv_drop h id false
  | destroy id =>
    simp only [step, Outcome.ok.injEq, Prod.mk.injEq] at hs
    rw [← hs.1]; exact inv_drop h id true
  | destroyMany ids timeout =>
    simp only [step, destroyMany] at hs
    split at hs
    · simp at hs
    · simp only [Outcome.ok.injEq, Prod.mk.injEq] at hs
      rw [← hs.1]; exact inv_dropAll ids h
  | isActive id =>
    simp only [step, Outcome.ok.injEq, Prod.mk.injEq] at hs
    rw [← hs.1]; exact h
  | fire now => exact inv_fire h hs
  | finish => exact inv_finish h hs

theorem run_cons {s s' : State} {op : Op} {ops : List Op} {os : List Out}
    (h : run s (op :: ops) = .ok (s', os)) :
    ∃ s1 o os', step s op = .ok (s1, o) ∧ run s1 ops = .ok (s', os') ∧ os = o :: os' := by
  simp only [run, Outcome.bind_eq_ok] at h
  obtain ⟨⟨s1, o⟩, h1, ⟨⟨s2, os'⟩, h2, h3⟩⟩ := h
  simp only [Outcome.ok.injEq, Prod.mk.injEq] at h3
  exact ⟨s1, o, os', h1, by rw [← h3.1]; exact h2, h3.2.symm⟩

theorem inv_run : ∀ {ops : List Op} {s s' : State} {os : List Out}, Inv s →
    run s ops = .ok (s', os) → Inv s'
  | [], s, s', os, h, hr => by
    simp only [run, Outcome.ok.injEq, Prod.mk.injEq] at hr
    rw [← hr.1]; exact h
  | op :: ops, s, s', os, h, hr => by
    obtain ⟨s1, o, os', h1, h2, -⟩ := run_cons hr
    exact inv_run (inv_step h h1) h2

/-! ### The phase of one timer -/

/-- The phase that a state shows for a timer. -/
def phaseOf (s : State) (id : Nat) : Phase :=
  match s.timers id with
  | none => .gone
  | some t =>
    if s.running = some id then .running t.next t.period t.disabled t.toDestroy
    else if id ∈ s.queue then .armed t.next t.period else .idle

/-- Another timer `j` has the same callback time as the queued timer `id` (also when `j` itself
is not queued: its last time counts). -/
def Coincides (s : State) (j id : Nat) : Prop :=
  j ≠ id ∧ id ∈ s.queue ∧ ∃ t, s.timers j = some t ∧ t.next = s.key id

/-- Steps that do not disturb timer `id`: no call for a timer with the same callback time, and no
start of the timer while its own handler is running. -/
def QuietFor (id : Nat) (s : State) : Op → Prop
  | .startSingleShot j _ _ => ¬ Coincides s j id ∧ (j = id → s.running ≠ some id)
  | .startPeriodic j _ _ _ => ¬ Coincides s j id ∧ (j = id → s.running ≠ some id)
  | .disable j => ¬ Coincides s j id
  | .destroy j => ¬ Coincides s j id
  | .destroyMany js _ => ∀ j ∈ js, ¬ Coincides s j id
  | .isActive j => j = id → ∀ k, ¬ Coincides s id k
  | _ => True

/-- What holds for a timer that is not disturbed. -/
structure Calm (s : State) (id : Nat) : Prop where
  running : s.running = some id → ∃ t, s.timers id = some t ∧ t.executing = true ∧ id ∉ s.queue
  queued : id ∈ s.queue → ∀ t, s.timers id = some t → t.disabled = false ∧ t.toDestroy = false

theorem calm_init (id : Nat) : Calm {} id := ⟨by simp, by simp⟩

/-- A step that leaves the data about one timer alone. -/
structure Same (s s' : State) (id : Nat) : Prop where
  timer : s'.timers id = s.timers id
  running : s'.running = some id ↔ s.running = some id
  queue : id ∈ s'.queue ↔ id ∈ s.queue

theorem Same.phase {s s' : State} {id : Nat} (h : Same s s' id) : phaseOf s' id = phaseOf s id := by
  unfold phaseOf
  rw [h.timer]
  simp only [h.running, h.queue]

theorem Same.calm {s s' : State} {id : Nat} (h : Same s s' id) (hc : Calm s id) : Calm s' id := by
  refine ⟨?_, ?_⟩
  · intro hr
    obtain ⟨t, h1, h2, h3⟩ := hc.running (h.running.1 hr)
    exact ⟨t, by rw [h.timer]; exact h1, h2, fun hq => h3 (h.queue.1 hq)⟩
  · intro hq t ht
    rw [h.timer] at ht
    exact hc.queued (h.queue.1 hq) t ht

theorem Same.refl (s : State) (id : Nat) : Same s s id := ⟨rfl, Iff.rfl, Iff.rfl⟩

theorem Same.trans {s1 s2 s3 : State} {id : Nat} (h : Same s1 s2 id) (h' : Same s2 s3 id) :
    Same s1 s3 id :=
  ⟨h'.timer.trans h.timer, h'.running.trans h.running, h'.queue.trans h.queue⟩

theorem same_erase {s : State} {j id : Nat} {t : Timer} (hj : s.timers j = some t) (hne : j ≠ id)
    (hq : ¬ Coincides s j id) : Same s (s.eraseTime t.next) id := by
  refine ⟨rfl, Iff.rfl, ?_⟩
  simp only [State.eraseTime, List.mem_filter, and_iff_left_iff_imp]
  intro hm
  simp only [bne_iff_ne, ne_eq]
  intro he
  exact hq ⟨hne, hm, t, hj, he.symm⟩

theorem same_set {s : State} {j id : Nat} {t : Option Timer} (hne : j ≠ id) :
    Same s (s.set j t) id :=
  ⟨by simp [State.set, Ne.symm hne], Iff.rfl, Iff.rfl⟩

theorem same_insert {s : State} {j id : Nat} (hne : j ≠ id) :
    Same s { s with queue := insertEntry s.key j s.queue } id :=
  ⟨rfl, Iff.rfl, by simp [mem_insertEntry, Ne.symm hne]⟩

theorem same_drop {s : State} {j id : Nat} {d : Bool} (hne : j ≠ id)
    (hq : ¬ Coincides s j id) : Same s (drop s j d).1 id := by
  unfold drop
  by_cases hc : j > s.nextId - 1
  · rw [if_pos hc]; exact .refl _ _
  · rw [if_neg hc]
    rcases ht : s.timers j with _ | t
    · exact .refl _ _
    · simp only
      by_cases hx : t.executing = true
      · simp only [dropExisting, hx, if_true]
        exact same_set hne
      · rw [dropExisting_idle (by simpa using hx)]
        cases d
        · exact same_erase ht hne hq
        · exact (same_erase ht hne hq).trans (same_set hne)

/-- The effect of dropping the timer itself. -/
theorem drop_self {s : State} {id : Nat} {d : Bool} (h : Inv s) (hc : Calm s id) :
    phaseOf (drop s id d).1 id = (phaseOf s id).cancel d ∧ Calm (drop s id d).1 id ∧
    (phaseOf s id ≠ .gone →
      (drop s id d).2 = (phaseOf s id).droppable) := by
  unfold drop
  rcases ht : s.timers id with _ | t
  · have hg : phaseOf s id = .gone := by simp [phaseOf, ht]
    by_cases hk : id > s.nextId - 1
    · simp only [if_pos hk, hg]
      exact ⟨rfl, hc, by simp⟩
    · simp only [if_neg hk, hg]
      exact ⟨rfl, hc, by simp⟩
  · have hlt := h.known id t ht
    rw [if_neg (by omega)]
    simp only
    by_cases hr : s.running = some id
    · obtain ⟨u, hu, hx, hnq⟩ := hc.running hr
      rw [ht] at hu
      simp only [Option.some.injEq] at hu
      subst hu
      have hph : phaseOf s id = .running t.next t.period t.disabled t.toDestroy := by
        simp [phaseOf, ht, hr]
      simp only [dropExisting, hx, if_true, hph, Phase.cancel]
      refine ⟨by simp [phaseOf, State.set, hr], ⟨?_, ?_⟩, by simp [Phase.droppable]⟩
      · intro _
        exact ⟨_, by simp [State.set]; rfl, by simp, hnq⟩
      · intro hq; exact absurd hq hnq
    · have hx : t.executing = false := by
        rcases hxx : t.executing
        · rfl
        · exact absurd (h.executing id t ht hxx) hr
      rw [dropExisting_idle hx]
      have hne := not_mem_erase ht
      refine ⟨?_, ⟨?_, ?_⟩, ?_⟩
      · cases d
        · by_cases hq : id ∈ s.queue
          · simp [phaseOf, ht, hr, hq, State.eraseTime, Phase.cancel, key_of ht]
          · simp [phaseOf, ht, hr, hq, State.eraseTime, Phase.cancel]
        · by_cases hq : id ∈ s.queue
          · simp [phaseOf, ht, hr, hq, State.set, Phase.cancel]
          · simp [phaseOf, ht, hr, hq, State.set, Phase.cancel]
      · intro hr'
        exfalso
        cases d <;> exact hr hr'
      · intro hq
        exfalso
        cases d <;> exact hne hq
      · intro _
        by_cases hq : id ∈ s.queue <;> simp [phaseOf, ht, hr, hq, Phase.droppable]

theorem cancel_cancel (ph : Phase) : (ph.cancel true).cancel true = ph.cancel true := by
  cases ph <;> simp [Phase.cancel]

/-- Dropping does not change the time of any timer. -/
theorem drop_timer {s : State} {j k : Nat} {d : Bool} {t : Timer}
    (h : (drop s j d).1.timers k = some t) : ∃ u, s.timers k = some u ∧ u.next = t.next := by
  unfold drop at h
  by_cases hc : j > s.nextId - 1
  · rw [if_pos hc] at h; exact ⟨t, h, rfl⟩
  · rw [if_neg hc] at h
    rcases ht : s.timers j with _ | v
    · simp only [ht] at h; exact ⟨t, h, rfl⟩
    · simp only [ht] at h
      by_cases hx : v.executing = true
      · simp only [dropExisting, hx, if_true, State.set] at h
        by_cases hk : k = j
        · simp only [hk, if_true, Option.some.injEq] at h
          exact ⟨v, by rw [hk]; exact ht, by rw [← h]⟩
        · simp only [if_neg hk] at h; exact ⟨t, h, rfl⟩
      · rw [dropExisting_idle (by simpa using hx)] at h
        cases d
        · exact ⟨t, h, rfl⟩
        · simp only [if_true, State.set] at h
          by_cases hk : k = j
          · simp [hk] at h
          · simp only [if_neg hk] at h; exact ⟨t, h, rfl⟩

theorem drop_queue {s : State} {j k : Nat} {d : Bool} (h : k ∈ (drop s j d).1.queue) :
    k ∈ s.queue := by
  unfold drop at h
  by_cases hc : j > s.nextId - 1
  · rw [if_pos hc] at h; exact h
  · rw [if_neg hc] at h
    rcases ht : s.timers j with _ | v
    · simp only [ht] at h; exact h
    · simp only [ht] at h
      by_cases hx : v.executing = true
      · simp only [dropExisting, hx, if_true] at h; exact h
      · rw [dropExisting_idle (by simpa using hx)] at h
        cases d
        · exact (List.mem_filter.1 h).1
        · exact (List.mem_filter.1 h).1

theorem coincides_drop {s : State} {i j id : Nat} {d : Bool} (hI : Inv s)
    (h : Coincides (drop s i d).1 j id) : Coincides s j id := by
  obtain ⟨h1, h2, t, h3, h4⟩ := h
  obtain ⟨u, hu, hun⟩ := drop_timer h3
  have hq := drop_queue h2
  have hI' := inv_drop hI i d
  obtain ⟨v, hv, -⟩ := hI'.entry id h2
  obtain ⟨w, hw, hwn⟩ := drop_timer hv
  refine ⟨h1, hq, u, hu, ?_⟩
  rw [hun, h4, key_of hv, key_of hw, hwn]

theorem dropAll_self : ∀ {ids : List Nat} {s : State} {id : Nat}, Inv s → Calm s id →
    (∀ j ∈ ids, ¬ Coincides s j id) →
    phaseOf (dropAll s ids).1 id = (if id ∈ ids then (phaseOf s id).cancel true else phaseOf s id) ∧
    Calm (dropAll s ids).1 id
  | [], s, id, _, hc, _ => by simp [dropAll, hc]
  | j :: ids, s, id, h, hc, hq => by
    have hI := inv_drop h j true
    have hq' : ∀ k ∈ ids, ¬ Coincides (drop s j true).1 k id :=
      fun k hk hco => hq k (List.mem_cons_of_mem _ hk) (coincides_drop h hco)
    simp only [dropAll]
    by_cases hj : j = id
    · subst hj
      obtain ⟨h1, h2, -⟩ := drop_self (d := true) h hc
      obtain ⟨h3, h4⟩ := dropAll_self hI h2 hq'
      refine ⟨?_, h4⟩
      rw [h3, h1]
      simp only [List.mem_cons, true_or, if_true, cancel_cancel, ite_self]
    · have hsame := same_drop (d := true) hj (hq j (by simp))
      obtain ⟨h3, h4⟩ := dropAll_self hI (hsame.calm hc) hq'
      refine ⟨?_, h4⟩
      rw [h3, hsame.phase]
      simp [Ne.symm hj]

/-- The effect of `start` on the timer itself. -/
theorem start_self {s s' : State} {o : Out} {id : Nat} {now delay period : Int} (h : Inv s)
    (hc : Calm s id) (hr : s.running ≠ some id) (hs : start s id now delay period = .ok (s', o)) :
    phaseOf s' id = (phaseOf s id).start (now + delay) period ∧ Calm s' id ∧
      o = .result (phaseOf s id != .gone) := by
  rcases ht : s.timers id with _ | t
  · have hg : phaseOf s id = .gone := by simp [phaseOf, ht]
    unfold start at hs
    simp only [ht] at hs
    by_cases hk : id > s.nextId - 1
    · simp only [if_pos hk, Outcome.ok.injEq, Prod.mk.injEq] at hs
      rw [← hs.1, ← hs.2, hg]
      exact ⟨rfl, hc, by simp⟩
    · simp only [if_neg hk, Outcome.ok.injEq, Prod.mk.injEq] at hs
      rw [← hs.1, ← hs.2, hg]
      exact ⟨rfl, hc, by simp⟩
  · rw [start_eq h ht] at hs
    simp only [Outcome.ok.injEq, Prod.mk.injEq] at hs
    rw [← hs.1, ← hs.2]
    refine ⟨?_, ⟨?_, ?_⟩, ?_⟩
    · have hstart : (phaseOf s id).start (now + delay) period = .armed (now + delay) period := by
        by_cases hq : id ∈ s.queue <;> simp [phaseOf, ht, hr, hq, Phase.start]
      rw [hstart]
      have hr' : (s.eraseTime t.next).running ≠ some id := hr
      simp [phaseOf, State.set, hr', mem_insertEntry]
    · intro hr'; exact absurd hr' hr
    · intro _ u hu
      simp only [State.set, if_true, Option.some.injEq] at hu
      rw [← hu]; exact ⟨rfl, rfl⟩
    · by_cases hq : id ∈ s.queue <;> simp [phaseOf, ht, hr, hq]

theorem start_other {s s' : State} {o : Out} {j id : Nat} {now delay period : Int} (h : Inv s)
    (hne : j ≠ id) (hq : ¬ Coincides s j id) (hs : start s j now delay period = .ok (s', o)) :
    Same s s' id := by
  rcases ht : s.timers j with _ | t
  · unfold start at hs
    simp only [ht] at hs
    by_cases hk : j > s.nextId - 1
    · simp only [if_pos hk, Outcome.ok.injEq, Prod.mk.injEq] at hs
      rw [← hs.1]; exact .refl _ _
    · simp only [if_neg hk, Outcome.ok.injEq, Prod.mk.injEq] at hs
      rw [← hs.1]; exact .refl _ _
  · rw [start_eq h ht] at hs
    simp only [Outcome.ok.injEq, Prod.mk.injEq] at hs
    rw [← hs.1]
    exact ((same_erase ht hne hq).trans (same_set hne)).trans (same_insert hne)

theorem front_least {s : State} (h : Inv s) {id : Nat} {rest : List Nat} (hq : s.queue = id :: rest) :
    ∀ k ∈ s.queue, s.key id ≤ s.key k := by
  intro k hk
  have hs := h.sorted
  rw [hq] at hs hk
  rcases List.mem_cons.1 hk with rfl | hk
  · exact Int.le_refl _
  · exact (List.pairwise_cons.1 hs).1 k hk

/-- One step that does not disturb the timer follows its phases and gives the expected
answers. -/
theorem phase_step {s s' : State} {op : Op} {o : Out} {id : Nat} (h : Inv s) (hc : Calm s id)
    (hq : QuietFor id s op) (hs : step s op = .ok (s', o)) :
    phaseOf s' id = (phaseOf s id).next id op o ∧ Calm s' id ∧ (phaseOf s id).answers id op o := by
  cases op with
  | create =>
    simp only [step, create, Outcome.ok.injEq, Prod.mk.injEq] at hs
    rw [← hs.1, ← hs.2]
    have hnone : s.timers s.nextId = none := by
      rcases ht : s.timers s.nextId with _ | t
      · rfl
      · have := h.known _ t ht; omega
    by_cases hid : s.nextId = id
    · have hnq : id ∉ s.queue := by
        intro hm
        obtain ⟨t, ht, -⟩ := h.entry _ hm
        rw [← hid, hnone] at ht; simp at ht
      have hnr : s.running ≠ some id := by
        intro hr
        obtain ⟨t, ht, -⟩ := hc.running hr
        rw [← hid, hnone] at ht; simp at ht
      refine ⟨?_, ⟨?_, ?_⟩, ?_⟩
      · simp [phaseOf, State.set, Phase.next, hid, hnq, hnr]
      · intro hr; exact absurd hr hnr
      · intro hm; exact absurd hm hnq
      · intro hg
        exact absurd (by rw [← hid]; simp [phaseOf, hnone]) hg
    · have hsame : Same s ({ s with nextId := s.nextId + 1 }.set s.nextId (some {})) id :=
        Same.trans (s2 := { s with nextId := s.nextId + 1 }) ⟨rfl, Iff.rfl, Iff.rfl⟩ (same_set hid)
      refine ⟨?_, hsame.calm hc, fun _ => by simp [hid]⟩
      rw [hsame.phase]
      simp [Phase.next, hid]
  | startSingleShot j now delay =>
    by_cases hj : j = id
    · subst hj
      obtain ⟨h1, h2, h3⟩ := start_self h hc (hq.2 rfl) hs
      exact ⟨by simp [Phase.next, h1], h2, fun _ => h3⟩
    · have hsame := start_other h hj hq.1 hs
      exact ⟨by simp [Phase.next, hj, hsame.phase], hsame.calm hc, fun e => absurd e hj⟩
  | startPeriodic j now delay period =>
    simp only [step] at hs
    by_cases hp : period > 0
    · rw [if_pos hp] at hs
      by_cases hj : j = id
      · subst hj
        obtain ⟨h1, h2, h3⟩ := start_self h hc (hq.2 rfl) hs
        exact ⟨by simp [Phase.next, h1, hp], h2, fun _ => by rw [h3]; simp [hp]⟩
      · have hsame := start_other h hj hq.1 hs
        exact ⟨by simp [Phase.next, hj, hsame.phase], hsame.calm hc, fun e => absurd e hj⟩
    · simp only [if_neg hp, Outcome.ok.injEq, Prod.mk.injEq] at hs
      rw [← hs.1, ← hs.2]
      exact ⟨by simp [Phase.next, hp], hc, fun _ => by simp [hp]⟩
  | startInHandler j =>
    simp only [step, Outcome.ok.injEq, Prod.mk.injEq] at hs
    rw [← hs.1, ← hs.2]
    exact ⟨rfl, hc, fun _ => rfl⟩
  | disable j =>
    simp only [step, Outcome.ok.injEq, Prod.mk.injEq] at hs
    rw [← hs.1, ← hs.2]
    by_cases hj : j = id
    · subst hj
      obtain ⟨h1, h2, h3⟩ := drop_self (d := false) h hc
      exact ⟨by simp [Phase.next, h1], h2, fun _ hg => by rw [h3 hg]⟩
    · have hsame := same_drop (d := false) hj hq
      exact ⟨by simp [Phase.next, hj, hsame.phase], hsame.calm hc, fun e => absurd e hj⟩
  | destroy j =>
    simp only [step, Outcome.ok.injEq, Prod.mk.injEq] at hs
    rw [← hs.1, ← hs.2]
    by_cases hj : j = id
    · subst hj
      obtain ⟨h1, h2, h3⟩ := drop_self (d := true) h hc
      exact ⟨by simp [Phase.next, h1], h2, fun _ hg => by rw [h3 hg]⟩
    · have hsame := same_drop (d := true) hj hq
      exact ⟨by simp [Phase.next, hj, hsame.phase], hsame.calm hc, fun e => absurd e hj⟩
  | destroyMany js timeout =>
    simp only [step, destroyMany] at hs
    split at hs
    · simp at hs
    · simp only [Outcome.ok.injEq, Prod.mk.injEq] at hs
      rw [← hs.1]
      obtain ⟨h1, h2⟩ := dropAll_self h hc hq
      exact ⟨by rw [h1]; simp [Phase.next], h2, trivial⟩
  | isActive j =>
    simp only [step, Outcome.ok.injEq, Prod.mk.injEq] at hs
    rw [← hs.1, ← hs.2]
    refine ⟨rfl, hc, ?_⟩
    intro hj
    subst hj
    have hco := hq rfl
    congr 1
    unfold isActive
    rcases ht : s.timers j with _ | t
    · simp [phaseOf, ht, Phase.active]
    · simp only
      by_cases hm : j ∈ s.queue
      · have hr : s.running ≠ some j := by
          intro hr
          obtain ⟨-, -, -, hnq⟩ := hc.running hr
          exact hnq hm
        simp only [phaseOf, ht, hr, hm, if_false, if_true, Phase.active]
        exact find_isSome.2 ⟨j, hm, key_of ht⟩
      · have hf : (s.find t.next).isSome = false := by
          rw [Bool.eq_false_iff]
          intro hf
          obtain ⟨k, hk, he⟩ := find_isSome.1 hf
          refine hco k ⟨fun e => hm (e ▸ hk), hk, t, ht, he.symm⟩
        rw [hf]
        by_cases hr : s.running = some j <;> simp [phaseOf, ht, hr, hm, Phase.active]
  | fire now =>
    rcases fire_cases hs with ⟨rfl, rfl, -⟩ | ⟨k, rest, t, hr, hqu, ht, hn, rfl, rfl⟩
    · exact ⟨by simp [Phase.next], hc, by simp [Phase.answers]⟩
    · have hmem : k ∈ s.queue := by rw [hqu]; simp
      have hnk : k ∉ rest := by
        have := h.nodup; rw [hqu] at this; exact (List.nodup_cons.1 this).1
      by_cases hk : k = id
      · subst hk
        have hfl := hc.queued hmem t ht
        have hph : phaseOf s k = .armed t.next t.period := by simp [phaseOf, ht, hr, hmem]
        refine ⟨?_, ⟨?_, ?_⟩, ?_⟩
        · simp only [Phase.next, if_true, hph, Phase.fire]; simp [phaseOf, State.set, hfl.1, hfl.2]
        · intro _
          exact ⟨_, by simp [State.set]; rfl, rfl, hnk⟩
        · intro hm; exact absurd hm hnk
        · intro _; exact ⟨t.next, t.period, hph, hn⟩
      · have hsame : Same s ({ s with queue := rest, running := some k }.set k
            (some { t with executing := true })) id := by
          refine Same.trans (s2 := { s with queue := rest, running := some k }) ⟨rfl, ?_, ?_⟩ (same_set hk)
          · simp [hr, hk]
          · simp [hqu, Ne.symm hk]
        refine ⟨?_, hsame.calm hc, ?_⟩
        · rw [hsame.phase]; simp [Phase.next, hk]
        · simp [Phase.answers, hk]
  | finish =>
    rcases finish_cases hs with ⟨hr, rfl, rfl⟩ | ⟨k, t, hr, ht, rfl, hcs⟩
    · exact ⟨by simp [Phase.next], hc, trivial⟩
    · by_cases hk : k = id
      · subst hk
        obtain ⟨u, hu, hx, hnq⟩ := hc.running hr
        rw [ht] at hu
        simp only [Option.some.injEq] at hu
        subst hu
        have hph : phaseOf s k = .running t.next t.period t.disabled t.toDestroy := by
          simp [phaseOf, ht, hr]
        rcases hcs with ⟨h1, -, rfl⟩ | ⟨h1, h2, rfl⟩ | ⟨h1, h2, h3, -, rfl⟩ | ⟨h1, h2, h3, rfl⟩
        · refine ⟨?_, ⟨by simp [State.set], fun hm => absurd hm hnq⟩, trivial⟩
          simp only [Phase.next, if_true, hph, Phase.finish, h1]; simp [phaseOf, State.set]
        · refine ⟨?_, ⟨by simp [State.set], fun hm => absurd hm hnq⟩, trivial⟩
          simp only [Phase.next, if_true, hph, Phase.finish, h1, h2]; simp [phaseOf, State.set, hnq]
        · refine ⟨?_, ⟨by simp [State.set], ?_⟩, trivial⟩
          · simp only [Phase.next, if_true, hph, Phase.finish, h1, h2, h3]; simp [phaseOf, State.set, mem_insertEntry]
          · intro _ v hv
            simp only [State.set, if_true, Option.some.injEq] at hv
            rw [← hv]; exact ⟨h2, h1⟩
        · refine ⟨?_, ⟨by simp [State.set], fun hm => absurd hm hnq⟩, trivial⟩
          simp only [Phase.next, if_true, hph, Phase.finish, h1, h2, h3]; simp [phaseOf, State.set, hnq]
      · have h0 : Same s { s with running := none } id :=
          ⟨rfl, by simp [hr, hk], Iff.rfl⟩
        have hsame : Same s s' id := by
          rcases hcs with ⟨-, -, rfl⟩ | ⟨-, -, rfl⟩ | ⟨-, -, -, -, rfl⟩ | ⟨-, -, -, rfl⟩
          · exact h0.trans (same_set hk)
          · exact h0.trans (same_set hk)
          · exact (h0.trans (same_set hk)).trans (same_insert hk)
          · exact h0.trans (same_set hk)
        refine ⟨?_, hsame.calm hc, trivial⟩
        rw [hsame.phase]; simp [Phase.next, hk]

/-- A history that does not disturb the timer. -/
def QuietRun (id : Nat) : State → List Op → Prop
  | _, [] => True
  | s, op :: ops => QuietFor id s op ∧ ∀ s' o, step s op = .ok (s', o) → QuietRun id s' ops

theorem phase_run {id : Nat} : ∀ {ops : List Op} {s s' : State} {os : List Out}, Inv s → Calm s id →
    QuietRun id s ops → run s ops = .ok (s', os) →
    phaseOf s' id = (phaseOf s id).after id ops os ∧ Calm s' id ∧
      (phaseOf s id).allAnswers id ops os
  | [], s, s', os, _, hc, _, hr => by
    simp only [run, Outcome.ok.injEq, Prod.mk.injEq] at hr
    rw [← hr.1, ← hr.2]
    exact ⟨rfl, hc, trivial⟩
  | op :: ops, s, s', os, h, hc, hq, hr => by
    obtain ⟨s1, o, os', h1, h2, rfl⟩ := run_cons hr
    obtain ⟨p1, p2, p3⟩ := phase_step h hc hq.1 h1
    obtain ⟨q1, q2, q3⟩ := phase_run (inv_step h h1) p2 (hq.2 s1 o h1) h2
    rw [p1] at q1 q3
    exact ⟨q1, q2, p3, q3⟩

end Verif.Timer
