import Verif.Validator.TimerProps

/-!
Property C57: the validator does not leave requests lying.
-/

namespace Verif.Validator

/-- The front of the queue is in flight. -/
def BusyInv (f : Option Int) (s : State) : Prop := ∀ r l, s.pending = r :: l → f = some r.id

theorem busy_check {f : Option Int} {s s' s0 : State} {hd : Bool} {out : List Out} {i : In}
    (hc : Checked s hd s' out) (hp : s.pending = s0.pending) (hs : s.responseTimer = s0.responseTimer)
    (hl : landed f i out = f) (hb : BusyInv f s0) (hf : Front s0) : BusyInv (flight f i out) s' := by
  intro r l h
  rcases hc.out with ⟨rfl, -, -, hor⟩ | ⟨r', l', hp', rfl, -⟩
  · simp only [flight, published_nil, hl]
    rcases hsp : s0.pending with _ | ⟨r2, l2⟩
    · rw [hc.pending, hp, hsp] at h
      rcases hor with h1 | h1
      · rw [hs, hf.idle hsp] at h1; simp at h1
      · rw [h1] at h; simp at h
    · rw [hc.pending, hp, hsp] at h
      simp only [List.cons_append, List.cons.injEq] at h
      rw [← h.1]
      exact hb r2 l2 hsp
  · rw [hp'] at h
    simp only [List.cons.injEq] at h
    simp [flight, h.1]

theorem busy_sendNext {f : Option Int} {s s' : State} {hd : Bool} {out : List Out} {i : In}
    {k : Kind} {p : Plan} (hn : sendNext s hd = (s', out)) :
    BusyInv (flight f i (.answer k p :: out)) s' := by
  intro r l h
  obtain ⟨h1, -, -, -, ⟨hp, rfl, -⟩ | ⟨r', l', hp, rfl, -⟩⟩ := sendNext_shape hn
  · rw [h1, hp] at h; simp at h
  · rw [h1, hp] at h
    simp only [List.cons.injEq] at h
    simp [flight, h.1]

theorem busy_step {f : Option Int} {s s' : State} {i : In} {out : List Out}
    (hb : BusyInv f s) (hf : Front s)
    (hq : out = [] → ∀ r l c, s.pending = r :: l → i ≠ .response r.id c)
    (he : Effect s i s' out) (hta : i = .taskTimeout → answered out = []) :
    BusyInv (flight f i out) s' := by
  cases he with
  | quiet hqt hn =>
    intro r l hp
    rw [hqt.pending] at hp
    have h1 := hb r l hp
    have h2 := fun c => hq rfl r l c hp
    simp only [flight, published_nil, landed]
    split
    · rename_i id c
      rw [if_neg]
      · exact h1
      · rw [h1]
        intro e
        simp only [Option.some.injEq] at e
        exact h2 c (by rw [e])
    · simpa using h1
    · exact h1
  | initialised hc => exact busy_check (s0 := s) hc rfl rfl rfl hb hf
  | admitted _ hc => exact busy_check (s0 := s) hc rfl rfl rfl hb hf
  | rejected _ he =>
    subst he
    exact hb
  | accepted _ _ hn => exact busy_sendNext hn
  | idleTimeout _ hp he =>
    subst he
    intro r l h
    simp only [hp] at h
    simp at h
  | timeout _ _ hn => exact busy_sendNext hn
  | idleTaskTimeout _ hc => exact busy_check (s0 := s) hc rfl rfl rfl hb hf
  | taskTimeout _ hc =>
    have := hta rfl
    simp at this

/-- A response for the front of the queue is not ignored. -/
theorem response_not_ignored {h : List In} {s : State} {oss : List (List Out)} (hc : Core h s oss)
    {r : Req} {l : List Req} {c : Nat} (hp : s.pending = r :: l) : (step s (.response r.id c)).2 ≠ [] := by
  obtain ⟨k, hk, -⟩ := hc.known r (by rw [hp]; simp)
  simp [step, handleResponse, hp, hk, sendResponse]

/-- The first waiting request is not ready. -/
def WaitInv (s : State) : Prop := ∀ w ws, s.waiting = w :: ws → ready s.known w = false

theorem wait_check {s s' : State} {hd : Bool} {out : List Out} (hc : Checked s hd s' out) : WaitInv s' := by
  intro w ws h
  rw [hc.waiting] at h
  rw [hc.known]
  have hne : List.dropWhile (ready s.known) s.waiting ≠ [] := by rw [h]; simp
  have := List.head_dropWhile_not (ready s.known) hne
  have hw : (List.dropWhile (ready s.known) s.waiting).head hne = w := by simp [h]
  rw [hw] at this
  exact this

theorem ready_mono {k k' : Known} {r : Req} (h : ∀ x, x ∈ k'.initialized → x ∈ k.initialized)
    (hr : ready k r = false) : ready k' r = false := by
  rcases hx : ready k' r with _ | _
  · rfl
  · unfold ready at hx hr
    rw [List.all_eq_true] at hx
    have : (r.tasks.all fun id => k.initialized.contains id) = true := by
      rw [List.all_eq_true]
      intro id hid
      have := hx id hid
      rw [List.contains_iff_mem] at this ⊢
      exact h _ this
    rw [this] at hr; simp at hr

theorem wait_inv (h : List In) : WaitInv (run h).1 := by
  refine runM_induction (step := step) (s0 := {}) (P := fun _ s _ => WaitInv s) (by intro w ws h; simp at h)
    ?_ h
  intro is i ih
  generalize (runM step {} is).1 = s at ih
  cases i with
  | config | state | area | line | point | keepIn | keepOut | region => exact ih
  | task id n =>
    intro w ws hw
    exact ready_mono (fun x hx => (List.mem_filter.1 hx).1) (ih w ws hw)
  | removeTasks ids =>
    intro w ws hw
    exact ready_mono (fun x hx => (List.mem_filter.1 hx).1) (ih w ws hw)
  | taskInitialized id => exact wait_check (checkTasks_checked _ _)
  | request k r =>
    simp only [step, handleRequest]
    split
    · exact wait_check (checkTasks_checked _ _)
    · exact ih
  | response id c =>
    simp only [step, handleResponse]
    split
    · exact ih
    · split
      · intro w ws hw
        rw [(sendNext_taskTimer _ _).2] at hw
        rw [sendNext_known]
        exact ih w ws hw
      · exact ih
  | responseTimeout =>
    simp only [step]
    split
    · simp only [onResponseTimeout]
      split
      · intro w ws hw
        rw [(sendNext_taskTimer _ _).2] at hw
        rw [sendNext_known]
        exact ih w ws hw
      · intro w ws hw
        rw [(sendNext_taskTimer _ _).2] at hw
        rw [sendNext_known]
        exact ih w ws hw
    · exact ih
  | taskTimeout =>
    simp only [step]
    split
    · simp only [onTaskTimeout]
      split
      · exact wait_check (checkTasks_checked _ _)
      · exact wait_check (checkTasks_checked _ _)
    · exact ih

theorem inFlight_snoc (f : Option Int) : ∀ (is : List In) (oss : List (List Out)) (i : In) (os : List Out),
    oss.length = is.length → inFlight f (is ++ [i]) (oss ++ [os]) = flight (inFlight f is oss) i os := by
  intro is
  induction is generalizing f with
  | nil =>
    intro oss i os hl
    cases oss with
    | nil => rfl
    | cons a as => simp at hl
  | cons j is ih =>
    intro oss i os hl
    cases oss with
    | nil => simp at hl
    | cons a as => exact ih _ as i os (by simpa using hl)

theorem busy_inv (h : List In) (hd : ((arrivals h).map (·.2.id)).Nodup)
    (ht : NoTaskTimeoutAnswer h (run h).2) : BusyInv (inFlight none h (run h).2) (run h).1 := by
  have key := runM_induction (step := step) (s0 := {})
    (P := fun h s oss => oss.length = h.length → ((arrivals h).map (·.2.id)).Nodup →
      NoTaskTimeoutAnswer h oss → (Core h s oss ∧ Front s) ∧ BusyInv (inFlight none h oss) s)
    (fun _ _ _ => ⟨⟨⟨by simp, by simp, fun k => rfl⟩, ⟨by simp, fun _ => rfl⟩⟩, by intro r l h; simp at h⟩)
    (by
      intro is i ih hl hd ht
      have hl' := runM_length step is {}
      obtain ⟨ht1, ht2⟩ := noTaskTimeoutAnswer_snoc hl' ht
      rw [arrivals_append, List.map_append] at hd
      obtain ⟨hd1, -, hd3⟩ := List.nodup_append.1 hd
      obtain ⟨⟨h1, h2⟩, h3⟩ := ih hl' hd1 ht1
      refine ⟨answer_step h1 h2 (effect _ i) ?_ ht2, ?_⟩
      · rintro k r rfl p hp
        exact hd3 p.2.id (List.mem_map_of_mem hp) r.id (by simp [arrivals])
      · rw [inFlight_snoc _ _ _ _ _ hl']
        refine busy_step h3 h2 ?_ (effect _ i) ht2
        rintro ho r l c hp rfl
        exact response_not_ignored h1 hp ho)
  exact (key h (runM_length step h {}) hd ht).2

/-- **C57, partial.** In every history in which the requests have distinct ids and no error is sent
by the expiration of the task timer: when no request is in flight then no request is left to be
published, and requests wait only behind one of whose tasks some is not initialised.

Missing: after an error of the task timer the request in flight may block the queue
(`C57_blocked_violated`). -/
theorem C57_not_idle_partial (h : List In) (hd : ((arrivals h).map (·.2.id)).Nodup)
    (ht : NoTaskTimeoutAnswer h (run h).2) (hf : inFlight none h (run h).2 = none) :
    (run h).1.pending = [] ∧
    ∀ w ws, (run h).1.waiting = w :: ws → ∃ t ∈ w.tasks, ¬ TaskInitialised h t := by
  constructor
  · rcases hp : (run h).1.pending with _ | ⟨r, l⟩
    · rfl
    · have := busy_inv h hd ht r l hp
      rw [hf] at this
      simp at this
  · intro w ws hw
    have h1 := wait_inv h w ws hw
    have h2 := ready_iff (known_inv h) w
    rw [h1] at h2
    simp only [Bool.false_eq_true, false_iff, Classical.not_forall] at h2
    obtain ⟨t, ht, hn⟩ := h2
    exact ⟨t, ht, hn⟩

/-- **C57, partial.** Under the same conditions: if moreover every task of every request is
initialised, then every request that arrived was answered. -/
theorem C57_all_answered_partial (h : List In) (hd : ((arrivals h).map (·.2.id)).Nodup)
    (ht : NoTaskTimeoutAnswer h (run h).2) (hf : inFlight none h (run h).2 = none)
    (hi : ∀ p ∈ arrivals h, ∀ t ∈ p.2.tasks, TaskInitialised h t) (k : Kind) :
    answerCount k (run h).2 = requestCount k h := by
  obtain ⟨h1, h2⟩ := C57_not_idle_partial h hd ht hf
  refine (C22_exactly_once_partial h hd ht).2 h1 ?_ k
  rcases hw : (run h).1.waiting with _ | ⟨w, ws⟩
  · rfl
  · obtain ⟨t, htw, hn⟩ := h2 w ws hw
    obtain ⟨k', -, hm⟩ := (answer_inv h hd ht).known w (by rw [hw]; simp)
    exact absurd (hi (k', w) hm t htw) hn

example : inFlight none exTwo (run exTwo).2 = none ∧ (arrivals exTwo).length = 3 ∧
    (arrivals exTwo).all (fun p => p.2.tasks == [7]) = true := by decide +kernel

example : TaskInitialised exTwo 7 :=
  ⟨exTwo.take 3, exTwo.drop 4, rfl, by simp [exTwo, exKnow], by simp [exTwo, exKnow]⟩

/-- **C57 is violated.** After the error of the task timer the plan for request 10 is ignored
(`C22_task_timeout_violated`), and request 12 is not published. -/
theorem C57_blocked_violated :
    let h : List In := exSlow ++ [.response 10 5, .request (.task 12) (exReq 12)]
    (run h).2.flatten = [.publish (exReq 10), .answer (.task 10) .error] ∧
      (run h).1.pending = [exReq 10, exReq 12] := by
  decide +kernel

end Verif.Validator
