import Verif.Validator.AdmitProps

/-!
Property C56: requests do not wait for ever.
-/

namespace Verif.Validator

theorem sendNext_taskTimer (s : State) (hd : Bool) :
    (sendNext s hd).1.taskTimer = s.taskTimer ∧ (sendNext s hd).1.waiting = s.waiting := by
  rcases sendNext_cases s hd with ⟨-, he⟩ | ⟨r, l, -, he⟩ <;> rw [he] <;> exact ⟨rfl, rfl⟩

theorem sendNext_out (s : State) (hd : Bool) :
    answered (sendNext s hd).2 = [] ∧ published (sendNext s hd).2 = s.pending.take 1 := by
  rcases sendNext_cases s hd with ⟨hp, he⟩ | ⟨r, l, hp, he⟩ <;> rw [he, hp] <;> exact ⟨rfl, rfl⟩

theorem checkTasks_taskTimer (s : State) :
    (checkTasks s false).1.taskTimer = !(checkTasks s false).1.waiting.isEmpty := by
  rw [(checkTasks_checked s false).waiting]
  unfold checkTasks
  simp only []
  by_cases hr : (s.waiting.dropWhile (ready s.known)).isEmpty = true
  · simp only [hr, if_true, Bool.not_true]
  · have hr : (s.waiting.dropWhile (ready s.known)).isEmpty = false := by simpa using hr
    simp only [hr, Bool.false_eq_true, if_false, Bool.not_false, Bool.and_true, Bool.or_true]
    split
    · split
      · exact (sendNext_taskTimer _ _).1
      · rfl
    · split
      · rfl
      · rename_i h
        simpa using h

/-- The task timer is active exactly when requests wait for their tasks. -/
theorem taskTimer_inv (h : List In) (hn : .taskTimeout ∉ h) :
    (run h).1.taskTimer = !(run h).1.waiting.isEmpty := by
  refine runM_induction (step := step) (s0 := {})
    (P := fun h s _ => .taskTimeout ∉ h → s.taskTimer = !s.waiting.isEmpty) (fun _ => rfl) ?_ h hn
  intro is i ih hn
  have ih := ih fun hx => hn (List.mem_append_left _ hx)
  generalize (runM step {} is).1 = s at ih
  cases i with
  | config | state | task | removeTasks | area | line | point | keepIn | keepOut | region => exact ih
  | taskInitialized id => exact checkTasks_taskTimer _
  | request k r =>
    simp only [step, handleRequest]
    split
    · exact checkTasks_taskTimer _
    · exact ih
  | response id c =>
    simp only [step, handleResponse]
    split
    · exact ih
    · split
      · rw [(sendNext_taskTimer _ _).1, (sendNext_taskTimer _ _).2]; exact ih
      · exact ih
  | responseTimeout =>
    simp only [step]
    split
    · simp only [onResponseTimeout]
      split
      · rw [(sendNext_taskTimer _ _).1, (sendNext_taskTimer _ _).2]; exact ih
      · rw [(sendNext_taskTimer _ _).1, (sendNext_taskTimer _ _).2]; exact ih
    · exact ih
  | taskTimeout => exact absurd (List.mem_append_right _ (by simp)) hn

/-- **C56, partial.** In every history in which the task timer did not expire: its expiration makes
one waiting request leave the queue and sends an error if a request waits, and does nothing
otherwise.

Missing: the timer is not started again by its own handler, so the other waiting requests may wait
for ever (`C56_second_wait_violated`). -/
theorem C56_task_timer_partial (h : List In) (hn : .taskTimeout ∉ h) :
    ((run h).1.waiting = [] → step (run h).1 .taskTimeout = ((run h).1, [])) ∧
    (∀ w ws, (run h).1.waiting = w :: ws → ∃ k, answered (step (run h).1 .taskTimeout).2 = [(k, .error)] ∧
      ∀ r ∈ (step (run h).1 .taskTimeout).1.waiting, r ∈ ws) := by
  have ht := taskTimer_inv h hn
  generalize (run h).1 = s at ht
  constructor
  · intro hw
    rw [hw] at ht
    simp only [step, ht, List.isEmpty_nil, Bool.not_true, Bool.false_eq_true, if_false]
  · intro w ws hw
    have he := effect s .taskTimeout
    rw [hw] at ht
    have ht : s.taskTimer = true := by simpa using ht
    have hs : step s .taskTimeout = onTaskTimeout { s with taskTimer := false } := by
      simp only [step, ht, if_true]
    rw [hs]
    simp only [onTaskTimeout, hw, sendResponse_eq, List.singleton_append]
    have hc := checkTasks_checked { State.forget { s with taskTimer := false } s.errorId with waiting := ws } true
    refine ⟨State.kindFor { s with taskTimer := false } s.errorId, ?_, ?_⟩
    · rw [answered_answer]
      exact congrArg _ hc.published_le.1
    · intro r hr
      have hr' := hc.waiting ▸ hr
      exact (List.dropWhile_sublist _).subset hr'

example : .taskTimeout ∉ exSlow.dropLast ∧
    (run exSlow.dropLast).1.waiting = [{ id := 11, entities := [1], tasks := [8] }] := by decide +kernel

/-- **C56, partial.** In every history in which no request was published by a timer handler: if a
request is in flight then the expiration of the response timer sends exactly one error; the next
request of the queue is published, if there is one.

Missing: a request published by a handler has no timeout (`C21_no_second_timeout_violated`). -/
theorem C56_response_timer_partial (h : List In) (x : Int)
    (hn : NoTimeoutPublication h (run h).2) (hx : inFlight none h (run h).2 = some x) :
    (∃ k, answered (step (run h).1 .responseTimeout).2 = [(k, .error)]) ∧
    published (step (run h).1 .responseTimeout).2 = ((run h).1.pending.drop 1).take 1 := by
  have key : ∀ (h : List In) (s : State) (f : Option Int), FlightInv f s → TimerInv f s →
      NoTimeoutPublication h (runM step s h).2 →
      FlightInv (inFlight f h (runM step s h).2) (runM step s h).1 ∧
      TimerInv (inFlight f h (runM step s h).2) (runM step s h).1 := by
    intro h
    induction h with
    | nil => intro s f hf ht _; exact ⟨hf, ht⟩
    | cons i is ih =>
      intro s f hf ht hn
      rw [runM_cons] at hn ⊢
      exact ih _ _ (flight_step hf (effect s i)).2.2 (timer_step hf ht (effect s i) hn.1).2 hn.2
  obtain ⟨h1, h2⟩ := key h {} none (by intro y hy; simp at hy) (by intro hy; simp at hy) hn
  obtain ⟨r, l, hp, -⟩ := h1 x hx
  have ht := h2 (by rw [hx]; simp)
  have hp : (run h).1.pending = r :: l := hp
  have ht : (run h).1.responseTimer = true := ht
  generalize (run h).1 = s at hp ht
  simp only [step, ht, if_true, onResponseTimeout, hp, sendResponse_eq, List.singleton_append,
    answered_answer, published_answer, List.drop_succ_cons, List.drop_zero, (sendNext_out _ _).1,
    (sendNext_out _ _).2]
  exact ⟨⟨_, rfl⟩, trivial⟩

example : NoTimeoutPublication (exTwo.take 6) (run (exTwo.take 6)).2 ∧
    inFlight none (exTwo.take 6) (run (exTwo.take 6)).2 = some 10 ∧
    published (step (run (exTwo.take 6)).1 .responseTimeout).2 = [exReq 11] := by decide +kernel

/-- **C56 is violated.** Two requests wait for a task that is never initialised.  After the first
expiration the timer is off: however often the time passes, the second request is not answered. -/
theorem C56_second_wait_violated (n : Nat) :
    let h : List In := exKnow ++ [.task 8 .nothing,
      .request (.task 10) { id := 10, entities := [1], tasks := [8] },
      .request (.task 11) { id := 11, entities := [1], tasks := [8] }, .taskTimeout] ++
      List.replicate n .taskTimeout
    (run h).2.flatten = [.answer .plain .error] ∧
      (run h).1.waiting = [{ id := 11, entities := [1], tasks := [8] }] := by
  have hrep : ∀ (n : Nat) (s : State), s.taskTimer = false →
      (runM step s (List.replicate n In.taskTimeout)).1 = s ∧
      (runM step s (List.replicate n In.taskTimeout)).2.flatten = [] := by
    intro n
    induction n with
    | zero => intro s _; exact ⟨rfl, rfl⟩
    | succ n ih =>
      intro s hs
      have hst : step s .taskTimeout = (s, []) := by simp [step, hs]
      rw [List.replicate_succ, runM_cons, hst]
      exact ⟨(ih s hs).1, (ih s hs).2⟩
  simp only [run, runM_append step _ (List.replicate n .taskTimeout)]
  obtain ⟨h1, h2⟩ := hrep n (runM step {} (exKnow ++ [.task 8 .nothing,
      .request (.task 10) { id := 10, entities := [1], tasks := [8] },
      .request (.task 11) { id := 11, entities := [1], tasks := [8] }, .taskTimeout])).1 (by decide +kernel)
  rw [List.flatten_append, h2, h1, List.append_nil]
  decide +kernel

end Verif.Validator
