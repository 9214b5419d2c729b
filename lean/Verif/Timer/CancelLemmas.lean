import Verif.Timer.PhaseLemmas

/-!
Cancelled timers and the absence of undefined behaviour; decision procedures for the hypotheses
about histories.
-/

namespace Verif.Timer

/-- The operation starts timer `id`. -/
def Op.starts (id : Nat) : Op → Prop
  | .startSingleShot k _ _ => k = id
  | .startPeriodic k _ _ _ => k = id
  | _ => False

/-- No start of timer `id` by another thread while its handler is running. -/
def NoRestart (id : Nat) : State → List Op → Prop
  | _, [] => True
  | s, op :: ops => (op.starts id → s.running ≠ some id) ∧
      ∀ s' o, step s op = .ok (s', o) → NoRestart id s' ops

/-- The running timer is marked as such. -/
def Own (s : State) (id : Nat) : Prop :=
  s.running = some id → ∃ t, s.timers id = some t ∧ t.executing = true

theorem own_init (id : Nat) : Own {} id := by simp [Own]

/-- A step that at most removes a timer from the queue. -/
structure Sub (s s' : State) (id : Nat) : Prop where
  timer : s'.timers id = s.timers id
  running : s'.running = some id ↔ s.running = some id
  queue : id ∈ s'.queue → id ∈ s.queue

theorem Sub.refl (s : State) (id : Nat) : Sub s s id := ⟨rfl, Iff.rfl, fun h => h⟩

theorem Sub.trans {s1 s2 s3 : State} {id : Nat} (h : Sub s1 s2 id) (h' : Sub s2 s3 id) :
    Sub s1 s3 id :=
  ⟨h'.timer.trans h.timer, h'.running.trans h.running, fun x => h.queue (h'.queue x)⟩

theorem Same.sub {s s' : State} {id : Nat} (h : Same s s' id) : Sub s s' id :=
  ⟨h.timer, h.running, h.queue.1⟩

theorem sub_erase {s : State} {id : Nat} {time : Int} : Sub s (s.eraseTime time) id :=
  ⟨rfl, Iff.rfl, fun h => (List.mem_filter.1 h).1⟩

theorem sub_drop {s : State} {j id : Nat} {d : Bool} (hne : j ≠ id) : Sub s (drop s j d).1 id := by
  unfold drop
  by_cases hc : j > s.nextId - 1
  · rw [if_pos hc]; exact .refl _ _
  · rw [if_neg hc]
    rcases ht : s.timers j with _ | t
    · exact .refl _ _
    · simp only
      by_cases hx : t.executing = true
      · simp only [dropExisting, hx, if_true]
        exact (same_set hne).sub
      · rw [dropExisting_idle (by simpa using hx)]
        cases d
        · exact sub_erase
        · exact sub_erase.trans (same_set hne).sub

theorem sub_start {s s' : State} {o : Out} {j id : Nat} {now delay period : Int} (h : Inv s)
    (hne : j ≠ id) (hs : start s j now delay period = .ok (s', o)) : Sub s s' id := by
  rcases ht : s.timers j with _ | t
  · unfold start at hs
    simp only [ht] at hs
    by_cases hk : j > s.nextId - 1
    · simp only [if_pos hk, Outcome.ok.injEq, Prod.mk.injEq] at hs
      rw [← hs.1]; exact .refl _ _
    · simp only [if_neg hk, Outcome.ok.injEq, Prod.mk.injEq] at hs
      rw [← hs.1]; exact .refl _ _
  · rw [start_eq h ht] at hs
    simp only [Outcome.ok.injEq, Prod.mk.injEq] at hs
    rw [← hs.1]
    exact (sub_erase.trans (same_set hne).sub).trans (same_insert hne).sub

theorem drop_running {s : State} {j : Nat} {d : Bool} : (drop s j d).1.running = s.running := by
  unfold drop
  by_cases hc : j > s.nextId - 1
  · rw [if_pos hc]
  · rw [if_neg hc]
    rcases ht : s.timers j with _ | t
    · rfl
    · simp only
      by_cases hx : t.executing = true
      · simp only [dropExisting, hx, if_true]; rfl
      · rw [dropExisting_idle (by simpa using hx)]
        cases d <;> rfl

theorem start_running {s s' : State} {o : Out} {j : Nat} {now delay period : Int} (h : Inv s)
    (hs : start s j now delay period = .ok (s', o)) : s'.running = s.running := by
  rcases ht : s.timers j with _ | t
  · unfold start at hs
    simp only [ht] at hs
    by_cases hk : j > s.nextId - 1
    · simp only [if_pos hk, Outcome.ok.injEq, Prod.mk.injEq] at hs
      rw [← hs.1]
    · simp only [if_neg hk, Outcome.ok.injEq, Prod.mk.injEq] at hs
      rw [← hs.1]
  · rw [start_eq h ht] at hs
    simp only [Outcome.ok.injEq, Prod.mk.injEq] at hs
    rw [← hs.1]; rfl

theorem Sub.own {s s' : State} {id : Nat} (h : Sub s s' id) (hO : Own s id) : Own s' id := by
  intro hr
  rw [h.timer]; exact hO (h.running.1 hr)

theorem own_drop {s : State} {j id : Nat} {d : Bool} (hI : Inv s) (hO : Own s id) :
    Own (drop s j d).1 id := by
  by_cases hj : j = id
  · subst hj
    intro hr
    rw [drop_running] at hr
    obtain ⟨t, ht, hx⟩ := hO hr
    have := hI.known j t ht
    unfold drop
    rw [if_neg (by omega), ht]
    simp only [dropExisting, hx, if_true]
    exact ⟨_, by simp [State.set]; rfl, rfl⟩
  · exact (sub_drop hj).own hO

theorem own_dropAll : ∀ {ids : List Nat} {s : State} {id : Nat}, Inv s → Own s id →
    Own (dropAll s ids).1 id
  | [], _, _, _, hO => hO
  | j :: _, _, _, hI, hO => by
    simp only [dropAll]
    exact own_dropAll (inv_drop hI j true) (own_drop hI hO)

/-- Steps that do not start a timer and do not call its handler leave it alone, except that it may
be removed from the queue, be marked, or its handler may return. -/
theorem own_step {s s' : State} {op : Op} {o : Out} {id : Nat} (hI : Inv s) (hO : Own s id)
    (hn : op.starts id → s.running ≠ some id) (hs : step s op = .ok (s', o)) : Own s' id := by
  cases op with
  | create =>
    simp only [step, create, Outcome.ok.injEq, Prod.mk.injEq] at hs
    rw [← hs.1]
    intro hr
    obtain ⟨t, ht, hx⟩ := hO hr
    have := hI.known id t ht
    exact ⟨t, by simp [State.set, show id ≠ s.nextId by omega, ht], hx⟩
  | startSingleShot j now delay =>
    by_cases hj : j = id
    · intro hr
      rw [start_running hI hs] at hr
      exact absurd hr (hn hj)
    · exact (sub_start hI hj hs).own hO
  | startPeriodic j now delay period =>
    simp only [step] at hs
    by_cases hp : period > 0
    · rw [if_pos hp] at hs
      by_cases hj : j = id
      · intro hr
        rw [start_running hI hs] at hr
        exact absurd hr (hn hj)
      · exact (sub_start hI hj hs).own hO
    · simp only [if_neg hp, Outcome.ok.injEq, Prod.mk.injEq] at hs
      rw [← hs.1]; exact hO
  | startInHandler j =>
    simp only [step, Outcome.ok.injEq, Prod.mk.injEq] at hs
    rw [← hs.1]; exact hO
  | disable j =>
    simp only [step, Outcome.ok.injEq, Prod.mk.injEq] at hs
    rw [← hs.1]; exact own_drop hI hO
  | destroy j =>
    simp only [step, Outcome.ok.injEq, Prod.mk.injEq] at hs
    rw [← hs.1]; exact own_drop hI hO
  | destroyMany js timeout =>
    simp only [step, destroyMany] at hs
    split at hs
    · simp at hs
    · simp only [Outcome.ok.injEq, Prod.mk.injEq] at hs
      rw [← hs.1]; exact own_dropAll hI hO
  | isActive j =>
    simp only [step, Outcome.ok.injEq, Prod.mk.injEq] at hs
    rw [← hs.1]; exact hO
  | fire now =>
    rcases fire_cases hs with ⟨rfl, -, -⟩ | ⟨k, rest, t, hr, hqu, ht, -, -, rfl⟩
    · exact hO
    · intro hr'
      have hk : k = id := by simpa [State.set] using hr'
      subst hk
      exact ⟨_, by simp [State.set]; rfl, rfl⟩
  | finish =>
    rcases finish_cases hs with ⟨-, rfl, -⟩ | ⟨k, t, -, -, -, hcs⟩
    · exact hO
    · rcases hcs with ⟨-, -, rfl⟩ | ⟨-, -, rfl⟩ | ⟨-, -, -, -, rfl⟩ | ⟨-, -, -, rfl⟩ <;>
        (intro hr; simp [State.set] at hr)

theorem own_run {id : Nat} : ∀ {ops : List Op} {s s' : State} {os : List Out}, Inv s → Own s id →
    NoRestart id s ops → run s ops = .ok (s', os) → Own s' id
  | [], s, s', os, _, hO, _, hr => by
    simp only [run, Outcome.ok.injEq, Prod.mk.injEq] at hr
    rw [← hr.1]; exact hO
  | op :: ops, s, s', os, hI, hO, hn, hr => by
    obtain ⟨s1, o, os', h1, h2, rfl⟩ := run_cons hr
    exact own_run (inv_step hI h1) (own_step hI hO hn.1 h1) (hn.2 s1 o h1) h2

/-- A timer that cannot fire until it is started: not queued, and not put back into the queue
when its handler returns. -/
def Silent (s : State) (id : Nat) : Prop :=
  id < s.nextId ∧ id ∉ s.queue ∧
    ∀ t, s.timers id = some t → s.running = some id → t.disabled = true ∨ t.toDestroy = true

theorem drop_nextId {s : State} {j : Nat} {d : Bool} : (drop s j d).1.nextId = s.nextId := by
  unfold drop
  by_cases hc : j > s.nextId - 1
  · rw [if_pos hc]
  · rw [if_neg hc]
    rcases ht : s.timers j with _ | t
    · rfl
    · simp only
      by_cases hx : t.executing = true
      · simp only [dropExisting, hx, if_true]; rfl
      · rw [dropExisting_idle (by simpa using hx)]
        cases d <;> rfl

theorem silent_drop_self {s : State} {id : Nat} {d : Bool} (hI : Inv s) (hO : Own s id)
    (hk : id < s.nextId) : Silent (drop s id d).1 id := by
  refine ⟨by rw [drop_nextId]; exact hk, ?_, ?_⟩
  · intro hm
    obtain ⟨t, ht, hx⟩ := hI.entry id (drop_queue hm)
    unfold drop at hm
    rw [if_neg (by omega), ht] at hm
    simp only [dropExisting_idle hx] at hm
    cases d <;> exact not_mem_erase ht hm
  · intro t ht hr
    rw [drop_running] at hr
    obtain ⟨u, hu, hx⟩ := hO hr
    unfold drop at ht
    rw [if_neg (by omega), hu] at ht
    simp only [dropExisting, hx, if_true, State.set, Option.some.injEq] at ht
    rw [← ht]; exact .inl rfl

theorem Sub.silent {s s' : State} {id : Nat} (h : Sub s s' id) (hk : s.nextId ≤ s'.nextId)
    (hS : Silent s id) : Silent s' id := by
  refine ⟨Nat.lt_of_lt_of_le hS.1 hk, fun hm => hS.2.1 (h.queue hm), ?_⟩
  intro t ht hr
  rw [h.timer] at ht
  exact hS.2.2 t ht (h.running.1 hr)

theorem silent_drop {s : State} {j id : Nat} {d : Bool} (hI : Inv s) (hO : Own s id)
    (hS : Silent s id) : Silent (drop s j d).1 id := by
  by_cases hj : j = id
  · subst hj; exact silent_drop_self hI hO hS.1
  · exact (sub_drop hj).silent (by rw [drop_nextId]; exact Nat.le_refl _) hS

theorem silent_dropAll : ∀ {ids : List Nat} {s : State} {id : Nat}, Inv s → Own s id → Silent s id →
    Silent (dropAll s ids).1 id
  | [], _, _, _, _, hS => hS
  | j :: _, _, _, hI, hO, hS => by
    simp only [dropAll]
    exact silent_dropAll (inv_drop hI j true) (own_drop hI hO) (silent_drop hI hO hS)

theorem start_nextId {s s' : State} {o : Out} {j : Nat} {now delay period : Int} (h : Inv s)
    (hs : start s j now delay period = .ok (s', o)) : s'.nextId = s.nextId := by
  rcases ht : s.timers j with _ | t
  · unfold start at hs
    simp only [ht] at hs
    by_cases hk : j > s.nextId - 1
    · simp only [if_pos hk, Outcome.ok.injEq, Prod.mk.injEq] at hs
      rw [← hs.1]
    · simp only [if_neg hk, Outcome.ok.injEq, Prod.mk.injEq] at hs
      rw [← hs.1]
  · rw [start_eq h ht] at hs
    simp only [Outcome.ok.injEq, Prod.mk.injEq] at hs
    rw [← hs.1]; rfl

theorem start_result {s s' : State} {o : Out} {j : Nat} {now delay period : Int} (h : Inv s)
    (hs : start s j now delay period = .ok (s', o)) : ∃ b, o = .result b := by
  rcases ht : s.timers j with _ | t
  · unfold start at hs
    simp only [ht] at hs
    by_cases hk : j > s.nextId - 1
    · simp only [if_pos hk, Outcome.ok.injEq, Prod.mk.injEq] at hs
      exact ⟨_, hs.2.symm⟩
    · simp only [if_neg hk, Outcome.ok.injEq, Prod.mk.injEq] at hs
      exact ⟨_, hs.2.symm⟩
  · rw [start_eq h ht] at hs
    simp only [Outcome.ok.injEq, Prod.mk.injEq] at hs
    exact ⟨_, hs.2.symm⟩

theorem start_not_fired {s s' : State} {o : Out} {j id : Nat} {now delay period : Int} (h : Inv s)
    (hs : start s j now delay period = .ok (s', o)) : o ≠ .fired id := by
  obtain ⟨b, rfl⟩ := start_result h hs
  simp

theorem silent_step {s s' : State} {op : Op} {o : Out} {id : Nat} (hI : Inv s) (hO : Own s id)
    (hS : Silent s id) (hn : ¬ op.starts id) (hs : step s op = .ok (s', o)) :
    Silent s' id ∧ o ≠ .fired id := by
  cases op with
  | create =>
    simp only [step, create, Outcome.ok.injEq, Prod.mk.injEq] at hs
    rw [← hs.1, ← hs.2]
    have hlt := hS.1
    refine ⟨?_, by simp⟩
    have hsub : Sub s ({ s with nextId := s.nextId + 1 }.set s.nextId (some {})) id :=
      Sub.trans (s2 := { s with nextId := s.nextId + 1 }) ⟨rfl, Iff.rfl, fun h => h⟩
        (same_set (by omega)).sub
    exact hsub.silent (by simp [State.set]) hS
  | startSingleShot j now delay =>
    exact ⟨(sub_start hI hn hs).silent (by rw [start_nextId hI hs]; exact Nat.le_refl _) hS,
      start_not_fired hI hs⟩
  | startPeriodic j now delay period =>
    simp only [step] at hs
    by_cases hp : period > 0
    · rw [if_pos hp] at hs
      exact ⟨(sub_start hI hn hs).silent (by rw [start_nextId hI hs]; exact Nat.le_refl _) hS,
        start_not_fired hI hs⟩
    · simp only [if_neg hp, Outcome.ok.injEq, Prod.mk.injEq] at hs
      rw [← hs.1, ← hs.2]; exact ⟨hS, by simp⟩
  | startInHandler j =>
    simp only [step, Outcome.ok.injEq, Prod.mk.injEq] at hs
    rw [← hs.1, ← hs.2]; exact ⟨hS, by simp⟩
  | disable j =>
    simp only [step, Outcome.ok.injEq, Prod.mk.injEq] at hs
    rw [← hs.1, ← hs.2]; exact ⟨silent_drop hI hO hS, by simp⟩
  | destroy j =>
    simp only [step, Outcome.ok.injEq, Prod.mk.injEq] at hs
    rw [← hs.1, ← hs.2]; exact ⟨silent_drop hI hO hS, by simp⟩
  | destroyMany js timeout =>
    simp only [step, destroyMany] at hs
    split at hs
    · simp at hs
    · simp only [Outcome.ok.injEq, Prod.mk.injEq] at hs
      rw [← hs.1, ← hs.2]; exact ⟨silent_dropAll hI hO hS, by simp⟩
  | isActive j =>
    simp only [step, Outcome.ok.injEq, Prod.mk.injEq] at hs
    rw [← hs.1, ← hs.2]; exact ⟨hS, by simp⟩
  | fire now =>
    rcases fire_cases hs with ⟨rfl, rfl, -⟩ | ⟨k, rest, t, hr, hqu, ht, -, rfl, rfl⟩
    · exact ⟨hS, by simp⟩
    · have hk : k ≠ id := fun e => hS.2.1 (by rw [hqu, e]; simp)
      refine ⟨?_, by simp [hk]⟩
      have hsub : Sub s ({ s with queue := rest, running := some k }.set k
          (some { t with executing := true })) id := by
        refine Sub.trans (s2 := { s with queue := rest, running := some k }) ⟨rfl, ?_, ?_⟩
          (same_set hk).sub
        · simp [hr, hk]
        · intro hm; rw [hqu]; exact List.mem_cons_of_mem _ hm
      exact hsub.silent (Nat.le_refl _) hS
  | finish =>
    rcases finish_cases hs with ⟨-, rfl, rfl⟩ | ⟨k, t, hr, ht, rfl, hcs⟩
    · exact ⟨hS, by simp⟩
    · refine ⟨?_, by simp⟩
      by_cases hk : k = id
      · subst hk
        rcases hcs with ⟨-, -, rfl⟩ | ⟨-, -, rfl⟩ | ⟨h1, h2, -, -, rfl⟩ | ⟨h1, h2, -, rfl⟩
        · exact ⟨hS.1, hS.2.1, by simp [State.set]⟩
        · exact ⟨hS.1, hS.2.1, by simp [State.set]⟩
        · rcases hS.2.2 t ht hr with h | h
          · rw [h2] at h; simp at h
          · rw [h1] at h; simp at h
        · exact ⟨hS.1, hS.2.1, by simp [State.set]⟩
      · have h0 : Sub s { s with running := none } id := ⟨rfl, by simp [hr, hk], fun h => h⟩
        rcases hcs with ⟨-, -, rfl⟩ | ⟨-, -, rfl⟩ | ⟨-, -, -, -, rfl⟩ | ⟨-, -, -, rfl⟩
        · exact (h0.trans (same_set hk).sub).silent (Nat.le_refl _) hS
        · exact (h0.trans (same_set hk).sub).silent (Nat.le_refl _) hS
        · exact ((h0.trans (same_set hk).sub).trans (same_insert hk).sub).silent (Nat.le_refl _) hS
        · exact (h0.trans (same_set hk).sub).silent (Nat.le_refl _) hS

theorem silent_run {id : Nat} : ∀ {ops : List Op} {s s' : State} {os : List Out}, Inv s → Own s id →
    Silent s id → (∀ op ∈ ops, ¬ op.starts id) → run s ops = .ok (s', os) → firings id os = 0
  | [], s, s', os, _, _, _, _, hr => by
    simp only [run, Outcome.ok.injEq, Prod.mk.injEq] at hr
    rw [← hr.2]; rfl
  | op :: ops, s, s', os, hI, hO, hS, hn, hr => by
    obtain ⟨s1, o, os', h1, h2, rfl⟩ := run_cons hr
    have hn1 := hn op (by simp)
    obtain ⟨p1, p2⟩ := silent_step hI hO hS hn1 h1
    have := silent_run (inv_step hI h1) (own_step hI hO (fun h => absurd h hn1) h1) p1
      (fun x hx => hn x (List.mem_cons_of_mem _ hx)) h2
    simp only [firings, List.countP_cons] at this ⊢
    rw [this]
    simp [p2]

/-! ### Absence of undefined behaviour -/

/-- What the callers must respect. -/
def SafeOp (s : State) : Op → Prop
  | .startSingleShot k _ _ => s.running ≠ some k
  | .startPeriodic k _ _ _ => s.running ≠ some k
  | .destroyMany ids timeout => timeout = 0 ∨ ∀ id ∈ ids, id < s.nextId
  | _ => True

/-- The callers respect `SafeOp` along a history. -/
def SafeRun : State → List Op → Prop
  | _, [] => True
  | s, op :: ops => SafeOp s op ∧ ∀ s' o, step s op = .ok (s', o) → SafeRun s' ops

theorem dropAll_nextId : ∀ {ids : List Nat} {s : State}, (dropAll s ids).1.nextId = s.nextId
  | [], _ => rfl
  | _ :: _, _ => by simp only [dropAll]; rw [dropAll_nextId, drop_nextId]

theorem safe_step {s : State} {op : Op} (hI : Inv s) (hO : ∀ id, Own s id) (h : SafeOp s op) :
    ∃ s' o, step s op = .ok (s', o) := by
  have hstart : ∀ j now delay period, ∃ s' o, start s j now delay period = .ok (s', o) := by
    intro j now delay period
    rcases ht : s.timers j with _ | t
    · unfold start
      simp only [ht]
      split <;> exact ⟨_, _, rfl⟩
    · rw [start_eq hI ht]; exact ⟨_, _, rfl⟩
  cases op with
  | create => exact ⟨_, _, rfl⟩
  | startSingleShot j now delay => exact hstart _ _ _ _
  | startPeriodic j now delay period =>
    simp only [step]
    split
    · exact hstart _ _ _ _
    · exact ⟨_, _, rfl⟩
  | startInHandler j => exact ⟨_, _, rfl⟩
  | disable j => exact ⟨_, _, rfl⟩
  | destroy j => exact ⟨_, _, rfl⟩
  | isActive j => exact ⟨_, _, rfl⟩
  | destroyMany js timeout =>
    simp only [step, destroyMany]
    rw [if_neg]
    · exact ⟨_, _, rfl⟩
    · rintro ⟨-, h2, h3⟩
      rcases h with h | h
      · omega
      · simp only [List.any_eq_true, Bool.and_eq_true, decide_eq_true_eq, dropAll_nextId] at h3
        obtain ⟨x, hx, -, hx2⟩ := h3
        have := h x hx
        omega
  | fire now =>
    simp only [step, fire]
    rcases hr : s.running with _ | r
    · rcases hq : s.queue with _ | ⟨k, rest⟩
      · exact ⟨_, _, rfl⟩
      · obtain ⟨t, ht, -⟩ := hI.entry k (by rw [hq]; simp)
        simp only [ht]
        split <;> exact ⟨_, _, rfl⟩
    · exact ⟨_, _, rfl⟩
  | finish =>
    simp only [step, finish]
    rcases hr : s.running with _ | r
    · exact ⟨_, _, rfl⟩
    · obtain ⟨t, ht, hx⟩ := hO r hr
      have hq : r ∉ s.queue := by
        intro hm
        obtain ⟨u, hu, hxu⟩ := hI.entry r hm
        rw [ht] at hu
        simp only [Option.some.injEq] at hu
        rw [hu, hxu] at hx; simp at hx
      simp only [ht, State.set, hq, if_false]
      split
      · exact ⟨_, _, rfl⟩
      · split
        · exact ⟨_, _, rfl⟩
        · split <;> exact ⟨_, _, rfl⟩

theorem safe_run : ∀ {ops : List Op} {s : State}, Inv s → (∀ id, Own s id) → SafeRun s ops →
    ∃ s' os, run s ops = .ok (s', os)
  | [], s, _, _, _ => ⟨s, [], rfl⟩
  | op :: ops, s, hI, hO, h => by
    obtain ⟨s1, o, h1⟩ := safe_step hI hO h.1
    have hO1 : ∀ id, Own s1 id := by
      intro id
      refine own_step hI (hO id) ?_ h1
      intro hst
      have := h.1
      cases op <;> simp only [Op.starts] at hst <;> first
        | exact absurd hst not_false
        | (rw [← hst]; exact this)
    obtain ⟨s2, os, h2⟩ := safe_run (inv_step hI h1) hO1 (h.2 s1 o h1)
    exact ⟨s2, o :: os, by simp [run, h1, h2]⟩

/-! ### Decision procedures for concrete histories -/

instance (s : State) (j id : Nat) : Decidable (Coincides s j id) :=
  match h : s.timers j with
  | none => .isFalse (by rintro ⟨-, -, t, ht, -⟩; rw [h] at ht; simp at ht)
  | some t =>
    decidable_of_iff (j ≠ id ∧ id ∈ s.queue ∧ t.next = s.key id) (by
      constructor
      · rintro ⟨h1, h2, h3⟩; exact ⟨h1, h2, t, h, h3⟩
      · rintro ⟨h1, h2, u, hu, h3⟩
        rw [h] at hu
        simp only [Option.some.injEq] at hu
        exact ⟨h1, h2, hu ▸ h3⟩)

instance (s : State) (j : Nat) : Decidable (∀ k, ¬ Coincides s j k) :=
  decidable_of_iff (∀ k ∈ s.queue, ¬ Coincides s j k) (by
    constructor
    · intro h k hc; exact h k hc.2.1 hc
    · intro h k _; exact h k)

instance (id : Nat) (s : State) (op : Op) : Decidable (QuietFor id s op) := by
  cases op <;> simp only [QuietFor] <;> infer_instance

instance (id : Nat) (op : Op) : Decidable (op.starts id) := by
  cases op <;> simp only [Op.starts] <;> infer_instance

instance (id : Nat) (op : Op) : Decidable (op.names id) := by
  cases op <;> simp only [Op.names] <;> infer_instance

instance (s : State) (op : Op) : Decidable (SafeOp s op) := by
  cases op <;> simp only [SafeOp] <;> infer_instance

theorem forall_step_iff {s : State} {op : Op} {P : State → Prop} :
    (∀ s' o, step s op = .ok (s', o) → P s') ↔
      match step s op with
      | .ok r => P r.1
      | _ => True := by
  rcases h : step s op with ⟨s1, o⟩ | _ | _
  · constructor
    · intro hp; exact hp s1 o rfl
    · intro hp s' o' he
      simp only [Outcome.ok.injEq, Prod.mk.injEq] at he
      rw [← he.1]; exact hp
  · simp
  · simp

instance decQuietRun (id : Nat) : (s : State) → (ops : List Op) → Decidable (QuietRun id s ops)
  | _, [] => .isTrue trivial
  | s, op :: ops =>
    have : Decidable (∀ s' o, step s op = .ok (s', o) → QuietRun id s' ops) :=
      match h : step s op with
      | .ok r =>
        have := decQuietRun id r.1 ops
        decidable_of_iff (QuietRun id r.1 ops) (by rw [← h, forall_step_iff, h])
      | .throws => .isTrue (by simp)
      | .ub => .isTrue (by simp)
    inferInstanceAs (Decidable (_ ∧ _))

instance decNoRestart (id : Nat) : (s : State) → (ops : List Op) → Decidable (NoRestart id s ops)
  | _, [] => .isTrue trivial
  | s, op :: ops =>
    have : Decidable (∀ s' o, step s op = .ok (s', o) → NoRestart id s' ops) :=
      match h : step s op with
      | .ok r =>
        have := decNoRestart id r.1 ops
        decidable_of_iff (NoRestart id r.1 ops) (by rw [← h, forall_step_iff, h])
      | .throws => .isTrue (by simp)
      | .ub => .isTrue (by simp)
    inferInstanceAs (Decidable (_ ∧ _))

instance decSafeRun : (s : State) → (ops : List Op) → Decidable (SafeRun s ops)
  | _, [] => .isTrue trivial
  | s, op :: ops =>
    have : Decidable (∀ s' o, step s op = .ok (s', o) → SafeRun s' ops) :=
      match h : step s op with
      | .ok r =>
        have := decSafeRun r.1 ops
        decidable_of_iff (SafeRun r.1 ops) (by rw [← h, forall_step_iff, h])
      | .throws => .isTrue (by simp)
      | .ub => .isTrue (by simp)
    inferInstanceAs (Decidable (_ ∧ _))

end Verif.Timer
