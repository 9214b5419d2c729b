import Verif.Validator.Lemmas

/-!
Properties C21, C22 and C23 of the automation request validator.
-/

namespace Verif.Validator

/-! ### C21: one request in flight -/

/-- **C21.** In every history a request is published only when no *other* request is in flight
(published, not yet answered and not timed out). -/
theorem C21_one_distinct_in_flight (h : List In) : OneDistinctInFlight none h (run h).2 := by
  have key : ∀ (h : List In) (s : State) (f : Option Int), FlightInv f s →
      OneDistinctInFlight f h (runM step s h).2 := by
    intro h
    induction h with
    | nil => intro s f _; trivial
    | cons i is ih =>
      intro s f hf
      rw [runM_cons]
      obtain ⟨h1, h2, h3⟩ := flight_step hf (effect s i)
      exact ⟨⟨h1, h2⟩, ih _ _ h3⟩
  exact key h {} none (by intro x hx; simp at hx)

/-- While a request is in flight the response timer runs. -/
def TimerInv (f : Option Int) (s : State) : Prop := f ≠ none → s.responseTimer = true

theorem timer_check {s s' : State} {hd : Bool} {out : List Out} {f : Option Int} {i : In} {s0 : State}
    (h : Checked s hd s' out) (hs : s.responseTimer = s0.responseTimer) (hl : landed f i out = f)
    (hf : TimerInv f s0) (hp : hd = true → published out = []) :
    (published out ≠ [] → landed f i out = none) ∧ TimerInv (flight f i out) s' := by
  rcases h.out with ⟨rfl, -, ht, -⟩ | ⟨r, l, -, rfl, -, ht, -, ht'⟩
  · refine ⟨by simp, ?_⟩
    intro hx
    simp only [flight, published_nil, hl] at hx
    rw [ht, hs]; exact hf hx
  · have hhd : hd = false := by
      cases hd
      · rfl
      · exact absurd (hp rfl) (by simp)
    have hfn : f = none := by
      rcases f with _ | x
      · rfl
      · have := hf (by simp)
        rw [← hs, ht] at this; simp at this
    refine ⟨fun _ => by rw [hl, hfn], fun _ => by rw [ht', hhd]; rfl⟩

theorem timer_step {f : Option Int} {s s' : State} {i : In} {out : List Out} (hf : FlightInv f s)
    (ht : TimerInv f s) (h : Effect s i s' out)
    (hp : i = .taskTimeout ∨ i = .responseTimeout → published out = []) :
    (published out ≠ [] → landed f i out = none) ∧ TimerInv (flight f i out) s' := by
  cases h with
  | quiet hq hi =>
    refine ⟨by simp, ?_⟩
    intro hx
    rw [hq.responseTimer]
    refine ht fun hn => hx ?_
    simp only [flight, published_nil, landed, hn]
    split <;> simp
  | initialised hc => exact timer_check (s0 := s) hc rfl rfl ht (by simp)
  | admitted _ hc => exact timer_check (s0 := s) hc rfl rfl ht (by simp)
  | rejected _ he =>
    subst he
    exact ⟨by simp, fun hx => ht (by simpa [flight, landed] using hx)⟩
  | @accepted c r rest _ o hpe hk hn =>
    have hl : landed f (.response r.id c) (.answer (s.kindFor r.id) (.planned c) :: o) = none := by
      simp only [landed]
      rcases hfx : f with _ | x
      · simp
      · obtain ⟨r2, l2, h2, hid⟩ := hf x hfx
        rw [hpe] at h2
        simp only [List.cons.injEq] at h2
        rw [← hid, ← h2.1]; simp
    obtain ⟨-, -, -, -, h5⟩ := sendNext_shape hn
    refine ⟨fun _ => hl, ?_⟩
    intro hx
    rcases h5 with ⟨-, rfl, -⟩ | ⟨r', l', -, rfl, -, ht'⟩
    · simp only [flight, published_answer, published_nil, hl] at hx
      exact absurd rfl hx
    · rw [ht']; simp
  | idleTimeout _ hpe he =>
    refine ⟨by simp, ?_⟩
    intro hx
    exfalso
    rcases hfx : f with _ | x
    · rw [hfx] at hx; simp [flight, landed] at hx
    · obtain ⟨r, l, h2, -⟩ := hf x hfx
      rw [hpe] at h2; simp at h2
  | @timeout r rest _ o _ hpd hn =>
    have hl : landed f .responseTimeout (.answer (s.kindFor s.errorId) .error :: o) = none := by
      simp [landed]
    refine ⟨fun _ => hl, ?_⟩
    intro hx
    simp only [flight, hp (.inr rfl), hl] at hx
    exact absurd rfl hx
  | idleTaskTimeout _ hc => exact timer_check (s0 := s) hc rfl rfl ht (fun _ => hp (.inl rfl))
  | taskTimeout _ hc =>
    have := timer_check (i := .taskTimeout) (s0 := s) hc rfl rfl ht
      (fun _ => by simpa using hp (.inl rfl))
    simpa [flight, landed] using this

/-- **C21, partial.** In every history in which no request is published by a timer handler, a
request is published only when none is in flight.

Missing: after a request was published by a timer handler the response timer is not running, and
the request in flight is published a second time (`C21_published_twice_violated`). -/
theorem C21_one_in_flight_partial (h : List In) (hn : NoTimeoutPublication h (run h).2) :
    OneInFlight none h (run h).2 := by
  have key : ∀ (h : List In) (s : State) (f : Option Int), FlightInv f s → TimerInv f s →
      NoTimeoutPublication h (runM step s h).2 → OneInFlight f h (runM step s h).2 := by
    intro h
    induction h with
    | nil => intro s f _ _ _; trivial
    | cons i is ih =>
      intro s f hf ht hn
      rw [runM_cons] at hn ⊢
      obtain ⟨h1, -, h3⟩ := flight_step hf (effect s i)
      obtain ⟨h4, h5⟩ := timer_step hf ht (effect s i) hn.1
      exact ⟨⟨h1, h4⟩, ih _ _ h3 h5 hn.2⟩
  exact key h {} none (by intro x hx; simp at hx) (by intro hx; simp at hx) hn

/-- One vehicle, one task. -/
def exKnow : List In := [.config 1, .state 1, .task 7 .nothing, .taskInitialized 7]

/-- A request for it. -/
def exReq (id : Int) : Req := { id := id, entities := [1], tasks := [7] }

/-- Two requests, the second waits for the response to the first; a third, for which no response
arrives, times out. -/
def exTwo : List In := exKnow ++ [.request .plain (exReq 10), .request (.task 11) (exReq 11),
  .response 10 5, .response 11 6, .request (.impact 3 4) (exReq 12), .responseTimeout]

example : NoTimeoutPublication exTwo (run exTwo).2 := by decide +kernel

example : (run exTwo).2.flatten = [.publish (exReq 10), .answer .plain (.planned 5),
    .publish (exReq 11), .answer (.task 11) (.planned 6), .publish (exReq 12),
    .answer (.impact 3 4) .error] := by decide +kernel

/-- **C21 is violated.** The response to request 10 times out; the handler publishes request 11 but
cannot start the timer.  When request 12 arrives, request 11 is published again although it is in
flight. -/
theorem C21_published_twice_violated :
    let h : List In := exKnow ++ [.request .plain (exReq 10), .request (.task 11) (exReq 11),
      .responseTimeout, .request (.task 12) (exReq 12)]
    (run h).2.flatten = [.publish (exReq 10), .answer .plain .error, .publish (exReq 11),
      .publish (exReq 11)] ∧ ¬ OneInFlight none h (run h).2 := by
  decide +kernel

/-- After the same timeout the response timer is off although request 11 is in flight: further
expirations do nothing, so without a response the request stays in flight until another request
arrives. -/
theorem C21_no_second_timeout_violated (n : Nat) :
    let h : List In := exKnow ++ [.request .plain (exReq 10), .request (.task 11) (exReq 11),
      .responseTimeout] ++ List.replicate n .responseTimeout
    (run h).2.flatten = [.publish (exReq 10), .answer .plain .error, .publish (exReq 11)] ∧
      (run h).1.pending = [exReq 11] := by
  have hrep : ∀ (n : Nat) (s : State), s.responseTimer = false →
      (runM step s (List.replicate n In.responseTimeout)).1 = s ∧
      (runM step s (List.replicate n In.responseTimeout)).2.flatten = [] := by
    intro n
    induction n with
    | zero => intro s _; exact ⟨rfl, rfl⟩
    | succ n ih =>
      intro s hs
      have hst : step s .responseTimeout = (s, []) := by simp [step, hs]
      rw [List.replicate_succ, runM_cons, hst]
      exact ⟨(ih s hs).1, (ih s hs).2⟩
  simp only [run, runM_append step _ (List.replicate n .responseTimeout)]
  obtain ⟨h1, h2⟩ := hrep n (runM step {} (exKnow ++ [.request .plain (exReq 10),
    .request (.task 11) (exReq 11), .responseTimeout])).1 (by decide +kernel)
  rw [List.flatten_append, h2, h1, List.append_nil]
  decide +kernel

/-! ### C21: order -/

theorem collapse_snoc (r : Req) : ∀ l : List Req,
    collapse (l ++ [r]) = if l.getLast? = some r then collapse l else collapse l ++ [r]
  | [] => by simp [collapse]
  | [a] => by
    by_cases h : a = r <;> simp [collapse, h]
  | a :: b :: l => by
    have ih := collapse_snoc r (b :: l)
    simp only [List.cons_append] at ih ⊢
    rw [collapse, collapse]
    by_cases h : a = b
    · simp only [h, if_true, ih]
      simp
    · simp only [h, if_false, ih]
      by_cases hl : (b :: l).getLast? = some r
      · have : (a :: b :: l).getLast? = some r := by simpa using hl
        simp [hl, this]
      · have : ¬ (a :: b :: l).getLast? = some r := by simpa using hl
        simp [hl]

theorem collapse_getLast : ∀ l : List Req, (collapse l).getLast? = l.getLast?
  | [] => rfl
  | [a] => rfl
  | a :: b :: l => by
    have ih := collapse_getLast (b :: l)
    rw [collapse]
    by_cases h : a = b
    · simp only [h, if_true, ih]; simp
    · simp only [h, if_false]
      have hne : collapse (b :: l) ≠ [] := by
        intro e
        rw [e] at ih
        simp [List.getLast?_cons] at ih
      rcases hc : collapse (b :: l) with _ | ⟨x, xs⟩
      · exact absurd hc hne
      · rw [hc] at ih
        simp only [List.getLast?_cons_cons, ih]

/-- The published requests `P` and the queue `Q` follow the arrivals `A`. -/
def OrderInv (A P Q : List Req) : Prop :=
  ∃ Q', (collapse P ++ Q').Sublist A ∧ (Q' = Q ∨ ∃ r, Q = r :: Q' ∧ P.getLast? = some r)

theorem OrderInv.publish {A P Q : List Req} {r : Req} (h : OrderInv A P (r :: Q)) :
    OrderInv A (P ++ [r]) (r :: Q) := by
  obtain ⟨Q', h1, h2⟩ := h
  refine ⟨Q, ?_, .inr ⟨r, rfl, by simp⟩⟩
  rw [collapse_snoc]
  rcases h2 with rfl | ⟨r', h3, h4⟩
  · split
    · exact ((List.Sublist.refl _).append (List.sublist_cons_self _ _)).trans h1
    · simpa using h1
  · simp only [List.cons.injEq] at h3
    rw [← h3.1] at h4
    rw [if_pos h4, h3.2]
    exact h1

theorem OrderInv.pop {A P Q : List Req} {r : Req} (h : OrderInv A P (r :: Q)) : OrderInv A P Q := by
  obtain ⟨Q', h1, rfl | ⟨r', h3, h4⟩⟩ := h
  · exact ⟨Q, ((List.Sublist.refl _).append (List.sublist_cons_self _ _)).trans h1, .inl rfl⟩
  · simp only [List.cons.injEq] at h3
    exact ⟨Q, by rw [h3.2]; exact h1, .inl rfl⟩

theorem OrderInv.dropWaiting {A P ps ws : List Req} {w : Req} (h : OrderInv A P (ps ++ w :: ws)) :
    OrderInv A P (ps ++ ws) := by
  cases ps with
  | nil => exact h.pop
  | cons p ps =>
    obtain ⟨Q', h1, rfl | ⟨r', h3, h4⟩⟩ := h
    · refine ⟨p :: ps ++ ws, ?_, .inl rfl⟩
      refine List.Sublist.trans ?_ h1
      exact (List.Sublist.refl _).append ((List.Sublist.refl _).append (List.sublist_cons_self _ _))
    · simp only [List.cons_append, List.cons.injEq] at h3
      refine ⟨ps ++ ws, ?_, .inr ⟨r', by simp [h3.1], h4⟩⟩
      rw [← h3.2] at h1
      exact ((List.Sublist.refl _).append
        ((List.Sublist.refl _).append (List.sublist_cons_self _ _))).trans h1

theorem OrderInv.arrive {A P Q : List Req} (r : Req) (h : OrderInv A P Q) :
    OrderInv (A ++ [r]) P (Q ++ [r]) := by
  obtain ⟨Q', h1, h2⟩ := h
  refine ⟨Q' ++ [r], by rw [← List.append_assoc]; exact h1.append (List.Sublist.refl _), ?_⟩
  rcases h2 with rfl | ⟨r', rfl, h4⟩
  · exact .inl rfl
  · exact .inr ⟨r', rfl, h4⟩

theorem OrderInv.more {A P Q : List Req} (r : Req) (h : OrderInv A P Q) : OrderInv (A ++ [r]) P Q := by
  obtain ⟨Q', h1, h2⟩ := h
  exact ⟨Q', h1.trans (List.sublist_append_left _ _), h2⟩

theorem order_check {A P : List Req} {s s' : State} {hd : Bool} {out : List Out}
    (h : Checked s hd s' out) (hi : OrderInv A P (s.pending ++ s.waiting)) :
    OrderInv A (P ++ published out) (s'.pending ++ s'.waiting) := by
  have hq : s'.pending ++ s'.waiting = s.pending ++ s.waiting := by
    rw [h.pending, h.waiting, List.append_assoc]
    unfold released
    rw [List.takeWhile_append_dropWhile]
  rcases h.out with ⟨rfl, -⟩ | ⟨r, l, hp, rfl, -⟩
  · rw [hq]; simpa using hi
  · rw [← hq, hp] at hi
    rw [hp]
    simpa using hi.publish

theorem order_sendNext {A P : List Req} {s s' : State} {hd : Bool} {out : List Out}
    (h : sendNext s hd = (s', out)) (hi : OrderInv A P (s.pending ++ s.waiting)) :
    OrderInv A (P ++ published out) (s'.pending ++ s'.waiting) := by
  obtain ⟨h1, h2, -, -, ⟨hp, rfl, -⟩ | ⟨r, l, hp, rfl, -⟩⟩ := sendNext_shape h
  · rw [h1, h2]; simpa using hi
  · rw [h1, h2, hp]
    rw [hp] at hi
    simpa using hi.publish

theorem order_step {h : List In} {P : List Req} {s s' : State} {i : In} {out : List Out}
    (hi : OrderInv ((arrivals h).map (·.2)) P (s.pending ++ s.waiting)) (he : Effect s i s' out) :
    OrderInv ((arrivals (h ++ [i])).map (·.2)) (P ++ published out) (s'.pending ++ s'.waiting) := by
  rw [arrivals_append, List.map_append]
  cases he with
  | quiet hq hn =>
    have : arrivals [i] = [] := by
      cases i <;> first
        | rfl
        | exact absurd rfl (hn _ _)
    rw [this, hq.pending, hq.waiting]
    simpa using hi
  | initialised hc => simpa [arrivals] using order_check hc hi
  | @admitted k r _ _ _ hc =>
    refine order_check hc ?_
    have := hi.arrive r
    simpa [arrivals, State.remember] using this
  | @rejected k r _ _ he =>
    subst he
    have := hi.more r
    simpa [arrivals, State.remember, State.forget] using this
  | @accepted c r rest _ o hp hk hn =>
    rw [hp] at hi
    have := order_sendNext hn hi.pop
    simpa [arrivals] using this
  | idleTimeout _ _ he =>
    subst he
    simpa [arrivals] using hi
  | @timeout r rest _ o _ hp hn =>
    rw [hp] at hi
    have := order_sendNext hn hi.pop
    simpa [arrivals] using this
  | idleTaskTimeout _ hc => simpa [arrivals] using order_check hc hi
  | @taskTimeout w ws _ o hw hc =>
    rw [hw] at hi
    have := order_check hc hi.dropWaiting
    simpa [arrivals] using this

/-- **C21.** In every history the requests are published in the order of their arrival, except that
the request published last may be published again at once. -/
theorem C21_arrival_order (h : List In) :
    (collapse ((run h).2.flatMap published)).Sublist ((arrivals h).map (·.2)) := by
  have := runM_induction (step := step) (s0 := {})
    (P := fun h s os => OrderInv ((arrivals h).map (·.2)) (os.flatMap published) (s.pending ++ s.waiting))
    ⟨[], by simp [collapse], .inl rfl⟩
    (by
      intro is i hi
      have := order_step hi (effect _ i)
      simpa using this) h
  obtain ⟨Q', h1, -⟩ := this
  exact (List.sublist_append_left _ _).trans h1

/-- Request 21 waits for a task that is initialised late, and request 22 behind it does not
overtake it. -/
example :
    let h : List In := exKnow ++ [.task 8 .nothing,
      .request .plain { id := 21, entities := [1], tasks := [8] }, .request .plain (exReq 22),
      .taskInitialized 8, .response 21 0]
    (run h).2.flatMap published = [{ id := 21, entities := [1], tasks := [8] }, exReq 22] := by
  decide +kernel

end Verif.Validator
