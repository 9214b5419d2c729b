import Verif.Validator.Spec

namespace Verif.Validator

@[simp] theorem published_nil : published [] = [] := rfl
@[simp] theorem answered_nil : answered [] = [] := rfl
@[simp] theorem published_publish (r : Req) (os : List Out) :
    published (.publish r :: os) = r :: published os := rfl
@[simp] theorem published_answer (k : Kind) (p : Plan) (os : List Out) :
    published (.answer k p :: os) = published os := rfl
@[simp] theorem answered_publish (r : Req) (os : List Out) :
    answered (.publish r :: os) = answered os := rfl
@[simp] theorem answered_answer (k : Kind) (p : Plan) (os : List Out) :
    answered (.answer k p :: os) = (k, p) :: answered os := rfl
theorem published_append (a b : List Out) : published (a ++ b) = published a ++ published b := by
  simp [published]
theorem answered_append (a b : List Out) : answered (a ++ b) = answered a ++ answered b := by
  simp [answered]
theorem arrivals_append (a b : List In) : arrivals (a ++ b) = arrivals a ++ arrivals b := by
  simp [arrivals]

/-- The kind under which a response is sent. -/
def State.kindFor (s : State) (id : Int) : Kind := (s.kinds id).getD .plain

theorem sendResponse_eq (s : State) (id : Int) (p : Plan) :
    sendResponse s id p = [.answer (s.kindFor id) p] := by
  unfold sendResponse State.kindFor
  cases s.kinds id <;> rfl

/-- The effect of sending the next request. -/
theorem sendNext_cases (s : State) (hd : Bool) :
    (s.pending = [] ∧ sendNext s hd = ({ s with responseTimer := false }, [])) ∨
    ∃ r l, s.pending = r :: l ∧
      sendNext s hd = ({ s with errorId := r.id, responseTimer := s.responseTimer || !hd }, [.publish r]) := by
  unfold sendNext
  rcases h : s.pending with _ | ⟨r, l⟩
  · exact .inl ⟨rfl, rfl⟩
  · exact .inr ⟨r, l, rfl, rfl⟩

/-- The requests released by a check of the tasks. -/
def released (s : State) : List Req := s.waiting.takeWhile (ready s.known)

/-- What stays the same or changes in a known way when the tasks are checked. -/
structure Checked (s : State) (hd : Bool) (s' : State) (out : List Out) : Prop where
  pending : s'.pending = s.pending ++ released s
  waiting : s'.waiting = s.waiting.dropWhile (ready s.known)
  kinds : s'.kinds = s.kinds
  known : s'.known = s.known
  out : (out = [] ∧ s'.errorId = s.errorId ∧ s'.responseTimer = s.responseTimer ∧
      (s.responseTimer = true ∨ released s = [])) ∨
    (∃ r l, s'.pending = r :: l ∧ out = [.publish r] ∧ s'.errorId = r.id ∧
      s.responseTimer = false ∧ released s ≠ [] ∧ s'.responseTimer = !hd)

theorem checkTasks_checked (s : State) (hd : Bool) :
    Checked s hd (checkTasks s hd).1 (checkTasks s hd).2 := by
  unfold checkTasks
  simp only []
  by_cases hm : s.waiting.takeWhile (ready s.known) = []
  · have hrel : released s = [] := hm
    simp only [hm, List.isEmpty_nil, Bool.not_true, Bool.false_eq_true, if_false]
    by_cases hr : (s.waiting.dropWhile (ready s.known)).isEmpty = true
    · simp only [hr, Bool.not_true, Bool.and_false, Bool.false_eq_true, if_false, if_true]
      exact ⟨by simp [hrel], rfl, rfl, rfl, .inl ⟨rfl, rfl, rfl, .inr hrel⟩⟩
    · simp only [hr, Bool.false_eq_true, if_false]
      split
      · exact ⟨by simp [hrel], rfl, rfl, rfl, .inl ⟨rfl, rfl, rfl, .inr hrel⟩⟩
      · exact ⟨by simp [hrel], rfl, rfl, rfl, .inl ⟨rfl, rfl, rfl, .inr hrel⟩⟩
  · have hrel : released s ≠ [] := hm
    have hme : (s.waiting.takeWhile (ready s.known)).isEmpty = false := by simpa using hm
    simp only [hme, Bool.not_false, if_true]
    by_cases ht : s.responseTimer = true
    · simp only [ht, Bool.not_true, Bool.false_eq_true, if_false]
      split
      · exact ⟨rfl, rfl, rfl, rfl, .inl ⟨rfl, rfl, ht.symm, .inl ht⟩⟩
      · exact ⟨rfl, rfl, rfl, rfl, .inl ⟨rfl, rfl, ht.symm, .inl ht⟩⟩
    · have ht' : s.responseTimer = false := by simpa using ht
      simp only [ht', Bool.not_false, if_true]
      have hne : s.pending ++ s.waiting.takeWhile (ready s.known) ≠ [] := by
        intro e; exact hm (List.append_eq_nil_iff.1 e).2
      rcases sendNext_cases { s with
          pending := s.pending ++ s.waiting.takeWhile (ready s.known),
          waiting := s.waiting.dropWhile (ready s.known),
          taskTimer := s.taskTimer || !hd } hd with ⟨h, -⟩ | ⟨r, l, h, he⟩
      · exact absurd h hne
      · simp only [] at h
        simp only [ht'] at he
        rw [he]
        split
        · exact ⟨rfl, rfl, rfl, rfl, .inr ⟨r, l, h, rfl, rfl, ht', hrel, by simp⟩⟩
        · exact ⟨rfl, rfl, rfl, rfl, .inr ⟨r, l, h, rfl, rfl, ht', hrel, by simp⟩⟩

/-- Nothing but the knowledge and the task timer changes. -/
structure Quiet (s s' : State) : Prop where
  pending : s'.pending = s.pending
  waiting : s'.waiting = s.waiting
  kinds : s'.kinds = s.kinds
  errorId : s'.errorId = s.errorId
  responseTimer : s'.responseTimer = s.responseTimer

/-- The possible effects of a step. -/
inductive Effect (s : State) : In → State → List Out → Prop
  | quiet {i s'} : Quiet s s' → (∀ k r, i ≠ .request k r) → Effect s i s' []
  | initialised {id s' out} :
      Checked { s with known.initialized := addId s.known.initialized id } false s' out →
      Effect s (.taskInitialized id) s' out
  | admitted {k r s' out} : check s.known r = true →
      Checked { s.remember r.id k with waiting := s.waiting ++ [r] } false s' out →
      Effect s (.request k r) s' out
  | rejected {k r s'} : check s.known r = false → s' = (s.remember r.id k).forget r.id →
      Effect s (.request k r) s' [.answer k .error]
  | accepted {c : Nat} {r : Req} {rest : List Req} {s' : State} {out : List Out} :
      s.pending = r :: rest → (s.kinds r.id).isSome = true →
      sendNext { s.forget r.id with pending := rest } false = (s', out) →
      Effect s (.response r.id c) s' (.answer (s.kindFor r.id) (.planned c) :: out)
  | idleTimeout {s'} : s.responseTimer = true → s.pending = [] →
      s' = { s with responseTimer := false } → Effect s .responseTimeout s' []
  | timeout {r : Req} {rest : List Req} {s' : State} {out : List Out} : s.responseTimer = true →
      s.pending = r :: rest →
      sendNext { s.forget s.errorId with pending := rest, responseTimer := false } true = (s', out) →
      Effect s .responseTimeout s' (.answer (s.kindFor s.errorId) .error :: out)
  | idleTaskTimeout {s' out} : s.waiting = [] → Checked { s with taskTimer := false } true s' out →
      Effect s .taskTimeout s' out
  | taskTimeout {w : Req} {ws : List Req} {s' : State} {out : List Out} : s.waiting = w :: ws →
      Checked { s.forget s.errorId with waiting := ws, taskTimer := false } true s' out →
      Effect s .taskTimeout s' (.answer (s.kindFor s.errorId) .error :: out)

theorem effect (s : State) (i : In) : Effect s i (step s i).1 (step s i).2 := by
  cases i with
  | config id => exact .quiet ⟨rfl, rfl, rfl, rfl, rfl⟩ (by simp)
  | state id => exact .quiet ⟨rfl, rfl, rfl, rfl, rfl⟩ (by simp)
  | task id n => exact .quiet ⟨rfl, rfl, rfl, rfl, rfl⟩ (by simp)
  | removeTasks ids => exact .quiet ⟨rfl, rfl, rfl, rfl, rfl⟩ (by simp)
  | area id => exact .quiet ⟨rfl, rfl, rfl, rfl, rfl⟩ (by simp)
  | line id => exact .quiet ⟨rfl, rfl, rfl, rfl, rfl⟩ (by simp)
  | point id => exact .quiet ⟨rfl, rfl, rfl, rfl, rfl⟩ (by simp)
  | keepIn id => exact .quiet ⟨rfl, rfl, rfl, rfl, rfl⟩ (by simp)
  | keepOut id => exact .quiet ⟨rfl, rfl, rfl, rfl, rfl⟩ (by simp)
  | region id a b => exact .quiet ⟨rfl, rfl, rfl, rfl, rfl⟩ (by simp)
  | taskInitialized id => exact .initialised (checkTasks_checked _ _)
  | request k r =>
    by_cases hc : check s.known r = true
    · have he : step s (.request k r) =
          checkTasks { s.remember r.id k with waiting := s.waiting ++ [r] } false := by
        simp only [step, handleRequest, State.remember, hc, if_true]
      rw [he]
      exact .admitted hc (checkTasks_checked _ _)
    · have hc' : check s.known r = false := by simpa using hc
      have he : step s (.request k r) = ((s.remember r.id k).forget r.id, [.answer k .error]) := by
        simp only [step, handleRequest]
        rw [show (s.remember r.id k).known = s.known from rfl, hc', sendResponse_eq]
        simp [State.kindFor, State.remember]
      rw [he]
      exact .rejected hc' rfl
  | response id c =>
    simp only [step, handleResponse]
    rcases hp : s.pending with _ | ⟨r, rest⟩
    · exact .quiet ⟨rfl, rfl, rfl, rfl, rfl⟩ (by simp)
    · simp only []
      by_cases hc : r.id = id ∧ (s.kinds id).isSome = true
      · rw [if_pos hc, sendResponse_eq]
        obtain ⟨rfl, hk⟩ := hc
        exact .accepted hp hk rfl
      · rw [if_neg hc]
        exact .quiet ⟨rfl, rfl, rfl, rfl, rfl⟩ (by simp)
  | responseTimeout =>
    simp only [step]
    by_cases ht : s.responseTimer = true
    · rw [if_pos ht]
      simp only [onResponseTimeout]
      rcases hp : s.pending with _ | ⟨r, rest⟩
      · simp only [sendNext]
        exact .idleTimeout ht hp (by rw [← hp])
      · simp only [sendResponse_eq]
        exact .timeout ht hp rfl
    · rw [if_neg ht]
      exact .quiet ⟨rfl, rfl, rfl, rfl, rfl⟩ (by simp)
  | taskTimeout =>
    simp only [step]
    by_cases ht : s.taskTimer = true
    · rw [if_pos ht]
      have hcase : s.waiting = [] ∨ ∃ w ws, s.waiting = w :: ws := by
        cases s.waiting with
        | nil => exact .inl rfl
        | cons w ws => exact .inr ⟨w, ws, rfl⟩
      rcases hcase with hw | ⟨w, ws, hw⟩
      · have he : onTaskTimeout { s with taskTimer := false } =
            checkTasks { s with taskTimer := false } true := by
          simp only [onTaskTimeout, hw]
        rw [he]
        exact .idleTaskTimeout hw (checkTasks_checked _ _)
      · have he : onTaskTimeout { s with taskTimer := false } =
            ((checkTasks { s.forget s.errorId with waiting := ws, taskTimer := false } true).1,
              .answer (s.kindFor s.errorId) .error ::
                (checkTasks { s.forget s.errorId with waiting := ws, taskTimer := false } true).2) := by
          simp only [onTaskTimeout, hw, sendResponse_eq]
          rfl
        rw [he]
        exact .taskTimeout hw (checkTasks_checked _ _)
    · rw [if_neg ht]
      exact .quiet ⟨rfl, rfl, rfl, rfl, rfl⟩ (by simp)

/-- What sending the next request changes. -/
theorem sendNext_shape {s s' : State} {hd : Bool} {out : List Out} (h : sendNext s hd = (s', out)) :
    s'.pending = s.pending ∧ s'.waiting = s.waiting ∧ s'.kinds = s.kinds ∧ s'.known = s.known ∧
    ((s.pending = [] ∧ out = [] ∧ s'.errorId = s.errorId ∧ s'.responseTimer = false) ∨
      ∃ r l, s.pending = r :: l ∧ out = [.publish r] ∧ s'.errorId = r.id ∧
        s'.responseTimer = (s.responseTimer || !hd)) := by
  rcases sendNext_cases s hd with ⟨hp, he⟩ | ⟨r, l, hp, he⟩
  · rw [he] at h
    simp only [Prod.mk.injEq] at h
    rw [← h.1, ← h.2]
    exact ⟨rfl, rfl, rfl, rfl, .inl ⟨hp, rfl, rfl, rfl⟩⟩
  · rw [he] at h
    simp only [Prod.mk.injEq] at h
    rw [← h.1, ← h.2]
    exact ⟨rfl, rfl, rfl, rfl, .inr ⟨r, l, hp, rfl, rfl, rfl⟩⟩

theorem Checked.published_le {s s' : State} {hd : Bool} {out : List Out} (h : Checked s hd s' out) :
    answered out = [] ∧ ∀ r ∈ published out, ∃ l, s'.pending = r :: l ∧ s.responseTimer = false ∧
      published out = [r] := by
  rcases h.out with ⟨rfl, -⟩ | ⟨r, l, hp, rfl, -, ht, -⟩
  · simp
  · simp [hp, ht]

/-! ### One request in flight -/

/-- The request in flight is the front of the queue. -/
def FlightInv (f : Option Int) (s : State) : Prop :=
  ∀ x, f = some x → ∃ r l, s.pending = r :: l ∧ r.id = x

theorem flight_check {s s' : State} {hd : Bool} {out : List Out} {f g : Option Int} {i : In} {s0 : State}
    (h : Checked s hd s' out) (hs : s.pending = s0.pending) (hl : landed f i out = g)
    (hg : FlightInv g s0) :
    (published out).length ≤ 1 ∧
    (∀ r ∈ published out, landed f i out = none ∨ landed f i out = some r.id) ∧
      FlightInv (flight f i out) s' := by
  have hkeep : ∀ x, g = some x → ∃ r l, s'.pending = r :: l ∧ r.id = x := by
    intro x hx
    obtain ⟨r, l, hp, hid⟩ := hg x hx
    exact ⟨r, l ++ released s, by rw [h.pending, hs, hp]; rfl, hid⟩
  rcases h.out with ⟨rfl, -⟩ | ⟨r, l, hp, rfl, -⟩
  · refine ⟨by simp, by simp, ?_⟩
    intro x hx
    simp only [flight, published_nil, hl] at hx
    exact hkeep x hx
  · refine ⟨by simp, ?_, ?_⟩
    · intro r' hr'
      simp only [published_publish, published_nil, List.mem_singleton] at hr'
      subst hr'
      rw [hl]
      rcases hgx : g with _ | x
      · exact .inl rfl
      · obtain ⟨r2, l2, h2, hid⟩ := hkeep x hgx
        rw [hp] at h2
        simp only [List.cons.injEq] at h2
        rw [h2.1, hid]; exact .inr rfl
    · intro x hx
      simp only [flight, published_publish, Option.some.injEq] at hx
      exact ⟨r, l, hp, hx⟩

theorem flight_step {f : Option Int} {s s' : State} {i : In} {out : List Out}
    (hf : FlightInv f s) (h : Effect s i s' out) :
    (published out).length ≤ 1 ∧
    (∀ r ∈ published out, landed f i out = none ∨ landed f i out = some r.id) ∧
      FlightInv (flight f i out) s' := by
  cases h with
  | quiet hq hi =>
    refine ⟨by simp, by simp, ?_⟩
    intro x hx
    have hfx : f = some x := by
      simp only [flight, published_nil] at hx
      unfold landed at hx
      split at hx
      · split at hx
        · simp at hx
        · exact hx
      · simpa using hx
      · exact hx
    obtain ⟨r, l, hp, hid⟩ := hf x hfx
    exact ⟨r, l, by rw [hq.pending, hp], hid⟩
  | initialised hc => exact flight_check (s0 := s) hc rfl rfl hf
  | admitted _ hc => exact flight_check (s0 := s) hc rfl rfl hf
  | rejected _ he =>
    refine ⟨by simp, by simp, ?_⟩
    subst he
    intro x hx
    exact hf x (by simpa [flight, landed] using hx)
  | @accepted c r rest _ o hp hk hn =>
    have hl : landed f (.response r.id c) (.answer (s.kindFor r.id) (.planned c) :: o) = none := by
      simp only [landed]
      rcases hfx : f with _ | x
      · simp
      · obtain ⟨r2, l2, h2, hid⟩ := hf x hfx
        rw [hp] at h2
        simp only [List.cons.injEq] at h2
        rw [← hid, ← h2.1]; simp
    obtain ⟨h1, -, -, -, h5⟩ := sendNext_shape hn
    rw [hl]
    refine ⟨?_, fun _ _ => .inl rfl, ?_⟩
    · rcases h5 with ⟨-, rfl, -⟩ | ⟨r', l', -, rfl, -⟩ <;> simp
    · intro x hx
      rcases h5 with ⟨-, rfl, -⟩ | ⟨r', l', hp', rfl, -⟩
      · simp only [flight, published_answer, published_nil, hl] at hx
        simp at hx
      · simp only [flight, published_answer, published_publish, Option.some.injEq] at hx
        exact ⟨r', l', by rw [h1]; exact hp', hx⟩
  | idleTimeout ht hp he =>
    refine ⟨by simp, by simp, ?_⟩
    subst he
    intro x hx
    exact hf x (by simpa [flight, landed] using hx)
  | @timeout r rest _ o ht hp hn =>
    have hl : landed f .responseTimeout (.answer (s.kindFor s.errorId) .error :: o) = none := by
      simp [landed]
    obtain ⟨h1, -, -, -, h5⟩ := sendNext_shape hn
    rw [hl]
    refine ⟨?_, fun _ _ => .inl rfl, ?_⟩
    · rcases h5 with ⟨-, rfl, -⟩ | ⟨r', l', -, rfl, -⟩ <;> simp
    · intro x hx
      rcases h5 with ⟨-, rfl, -⟩ | ⟨r', l', hp', rfl, -⟩
      · simp only [flight, published_answer, published_nil, hl] at hx
        simp at hx
      · simp only [flight, published_answer, published_publish, Option.some.injEq] at hx
        exact ⟨r', l', by rw [h1]; exact hp', hx⟩
  | idleTaskTimeout _ hc => exact flight_check (s0 := s) hc rfl rfl hf
  | taskTimeout _ hc =>
    have := flight_check (f := f) (i := .taskTimeout) (s0 := s) hc rfl rfl hf
    simpa [flight, landed] using this

end Verif.Validator
