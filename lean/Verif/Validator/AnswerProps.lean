import Verif.Validator.Props

/-!
Property C22: the validator answers each request exactly once.
-/

namespace Verif.Validator

theorem answerCount_snoc (k : Kind) (oss : List (List Out)) (os : List Out) :
    answerCount k (oss ++ [os]) = answerCount k oss + (answered os).countP fun p => p.1 == k := by
  simp [answerCount]

theorem requestCount_snoc (k : Kind) (h : List In) (i : In) :
    requestCount k (h ++ [i]) = requestCount k h + (arrivals [i]).countP fun p => p.1 == k := by
  simp [requestCount, arrivals_append]

/-- The outstanding requests, and the count of answers. -/
structure Core (h : List In) (s : State) (oss : List (List Out)) : Prop where
  nodup : ((s.pending ++ s.waiting).map (·.id)).Nodup
  known : ∀ r ∈ s.pending ++ s.waiting, ∃ k, s.kinds r.id = some k ∧ (k, r) ∈ arrivals h
  count : ∀ k, answerCount k oss + (s.pending ++ s.waiting).countP (fun r => s.kinds r.id == some k) =
    requestCount k h

/-- The error response is prepared for the front of the queue; the timer runs only when there is
one. -/
structure Front (s : State) : Prop where
  front : ∀ r l, s.pending = r :: l → s.errorId = r.id
  idle : s.pending = [] → s.responseTimer = false

theorem Core.congr {h h' : List In} {s s' : State} {oss oss' : List (List Out)} (hc : Core h s oss)
    (hq : s'.pending ++ s'.waiting = s.pending ++ s.waiting) (hk : s'.kinds = s.kinds)
    (ho : ∀ k, answerCount k oss' = answerCount k oss) (ha : arrivals h' = arrivals h) :
    Core h' s' oss' := by
  obtain ⟨h1, h2, h3⟩ := hc
  refine ⟨by rw [hq]; exact h1, by rw [hq, hk, ha]; exact h2, ?_⟩
  intro k
  rw [hq, hk, ho k, h3 k]
  simp [requestCount, ha]

theorem Core.drop {h h' : List In} {s s' : State} {oss : List (List Out)} {r : Req} {rest : List Req}
    {p : Plan} {o : List Out} (hc : Core h s oss) (hp : s.pending = r :: rest)
    (hp' : s'.pending = rest) (hw : s'.waiting = s.waiting)
    (hk : s'.kinds = fun i => if i = r.id then none else s.kinds i)
    (ho : answered o = []) (ha : arrivals h' = arrivals h) :
    Core h' s' (oss ++ [.answer (s.kindFor r.id) p :: o]) := by
  obtain ⟨h1, h2, h3⟩ := hc
  rw [hp] at h1 h2
  simp only [List.cons_append, List.map_cons, List.nodup_cons, List.mem_map, not_exists] at h1
  have hne : ∀ x ∈ rest ++ s.waiting, x.id ≠ r.id := fun x hx e => h1.1 x ⟨hx, e⟩
  have hkx : ∀ x ∈ rest ++ s.waiting, s'.kinds x.id = s.kinds x.id := by
    intro x hx
    rw [hk]; simp [hne x hx]
  refine ⟨by rw [hp', hw]; exact h1.2, ?_, ?_⟩
  · intro x hx
    rw [hp', hw] at hx
    rw [hkx x hx, ha]
    exact h2 x (List.mem_cons_of_mem _ hx)
  · intro k
    have h3' := h3 k
    rw [hp] at h3'
    obtain ⟨kr, hkr, -⟩ := h2 r (by simp)
    have hkf : s.kindFor r.id = kr := by simp [State.kindFor, hkr]
    have hcong : (rest ++ s.waiting).countP (fun x => s'.kinds x.id == some k) =
        (rest ++ s.waiting).countP (fun x => s.kinds x.id == some k) :=
      List.countP_congr fun x hx => by rw [hkx x hx]
    rw [hp', hw, hcong, answerCount_snoc]
    simp only [List.cons_append, List.countP_cons, hkr, answered_answer, ho, hkf, List.countP_nil] at h3' ⊢
    have hrc : requestCount k h' = requestCount k h := by simp [requestCount, ha]
    rw [hrc, ← h3']
    by_cases hkk : kr = k
    · simp [hkk]; omega
    · simp [hkk]

theorem check_core {h h' : List In} {s s' : State} {hd : Bool} {out : List Out} {oss : List (List Out)}
    (hc : Checked s hd s' out) (hi : Core h s oss) (hf : Front s) (ha : arrivals h' = arrivals h) :
    Core h' s' (oss ++ [out]) ∧ Front s' := by
  have hq : s'.pending ++ s'.waiting = s.pending ++ s.waiting := by
    rw [hc.pending, hc.waiting, List.append_assoc]
    unfold released
    rw [List.takeWhile_append_dropWhile]
  refine ⟨hi.congr hq hc.kinds (fun k => ?_) ha, ?_⟩
  · rw [answerCount_snoc, hc.published_le.1]; rfl
  · rcases hc.out with ⟨-, he, ht, hor⟩ | ⟨r, l, hp, -, he, -⟩
    · have hnil : s.pending = [] → s'.pending = [] := by
        intro hn
        rw [hc.pending, hn]
        rcases hor with h1 | h1
        · rw [hf.idle hn] at h1; simp at h1
        · simpa using h1
      constructor
      · intro r l hp
        rw [he]
        rcases hsp : s.pending with _ | ⟨r2, l2⟩
        · rw [hnil hsp] at hp; simp at hp
        · rw [hc.pending, hsp] at hp
          simp only [List.cons_append, List.cons.injEq] at hp
          rw [← hp.1]
          exact hf.front r2 l2 hsp
      · intro hp
        rw [ht]
        refine hf.idle ?_
        rw [hc.pending] at hp
        exact (List.append_eq_nil_iff.1 hp).1
    · constructor
      · intro r' l' hp'
        rw [hp] at hp'
        simp only [List.cons.injEq] at hp'
        rw [he, hp'.1]
      · intro hn
        rw [hp] at hn; simp at hn

theorem sendNext_front {s s' : State} {hd : Bool} {out : List Out} (h : sendNext s hd = (s', out)) :
    Front s' ∧ answered out = [] := by
  obtain ⟨h1, -, -, -, ⟨hp, rfl, -, ht⟩ | ⟨r, l, hp, rfl, he, -⟩⟩ := sendNext_shape h
  · refine ⟨⟨?_, fun _ => ht⟩, rfl⟩
    intro r l hpr
    rw [h1, hp] at hpr; simp at hpr
  · refine ⟨⟨?_, ?_⟩, rfl⟩
    · intro r' l' hp'
      rw [h1, hp] at hp'
      simp only [List.cons.injEq] at hp'
      rw [he, hp'.1]
    · intro hn
      rw [h1, hp] at hn; simp at hn

theorem Front.congr {s s' : State} (hf : Front s) (h1 : s'.pending = s.pending)
    (h2 : s'.errorId = s.errorId) (h3 : s'.responseTimer = s.responseTimer) : Front s' :=
  ⟨by rw [h1, h2]; exact hf.front, by rw [h1, h3]; exact hf.idle⟩

theorem answer_step {h : List In} {s s' : State} {i : In} {out : List Out} {oss : List (List Out)}
    (hi : Core h s oss) (hf : Front s) (he : Effect s i s' out)
    (hnew : ∀ k r, i = .request k r → ∀ p ∈ arrivals h, p.2.id ≠ r.id)
    (hta : i = .taskTimeout → answered out = []) :
    Core (h ++ [i]) s' (oss ++ [out]) ∧ Front s' := by
  cases he with
  | quiet hq hn =>
    have ha : arrivals (h ++ [i]) = arrivals h := by
      rw [arrivals_append]
      cases i <;> first
        | exact List.append_nil _
        | exact absurd rfl (hn _ _)
    refine ⟨hi.congr (by rw [hq.pending, hq.waiting]) hq.kinds (fun k => ?_) ha,
      hf.congr hq.pending hq.errorId hq.responseTimer⟩
    rw [answerCount_snoc]; rfl
  | initialised hc =>
    exact check_core hc (hi.congr rfl rfl (fun _ => rfl) rfl) (hf.congr rfl rfl rfl)
      (by rw [arrivals_append]; exact List.append_nil _)
  | @admitted k r _ _ _ hc =>
    have hne : ∀ x ∈ s.pending ++ s.waiting, x.id ≠ r.id := by
      intro x hx
      obtain ⟨k', -, hm⟩ := hi.known x hx
      exact hnew k r rfl _ hm
    refine check_core hc (h := h ++ [.request k r]) ?_ (hf.congr rfl rfl rfl) rfl
    refine ⟨?_, ?_, ?_⟩
    · simp only [State.remember]
      rw [← List.append_assoc, List.map_append]
      refine List.nodup_append.2 ⟨hi.nodup, by simp, ?_⟩
      intro a ha b hb
      simp only [List.map_cons, List.map_nil, List.mem_singleton] at hb
      obtain ⟨x, hx, rfl⟩ := List.mem_map.1 ha
      rw [hb]
      exact hne x hx
    · intro x hx
      simp only [State.remember] at hx ⊢
      rw [arrivals_append]
      rw [← List.append_assoc, List.mem_append] at hx
      rcases hx with hx | hx
      · obtain ⟨k', hk', hm⟩ := hi.known x hx
        exact ⟨k', by rw [if_neg (hne x hx)]; exact hk', List.mem_append_left _ hm⟩
      · simp only [List.mem_singleton] at hx
        subst hx
        exact ⟨k, by simp, List.mem_append_right _ (by simp [arrivals])⟩
    · intro k'
      simp only [State.remember]
      rw [← List.append_assoc, List.countP_append, requestCount_snoc, ← hi.count k']
      have hcong : (s.pending ++ s.waiting).countP
            (fun x => (if x.id = r.id then some k else s.kinds x.id) == some k') =
          (s.pending ++ s.waiting).countP (fun x => s.kinds x.id == some k') :=
        List.countP_congr fun x hx => by rw [if_neg (hne x hx)]
      rw [hcong]
      simp only [arrivals, List.filterMap_cons, List.filterMap_nil, List.countP_cons, List.countP_nil,
        if_true]
      have : (some k == some k') = (k == k') := by
        by_cases e : k = k' <;> simp [e]
      rw [this]
      omega
  | @rejected k r _ _ he =>
    subst he
    have hne : ∀ x ∈ s.pending ++ s.waiting, x.id ≠ r.id := by
      intro x hx
      obtain ⟨k', -, hm⟩ := hi.known x hx
      exact hnew k r rfl _ hm
    have hkx : ∀ x ∈ s.pending ++ s.waiting,
        ((s.remember r.id k).forget r.id).kinds x.id = s.kinds x.id := by
      intro x hx
      simp [State.remember, State.forget, hne x hx]
    refine ⟨⟨hi.nodup, ?_, ?_⟩, hf.congr rfl rfl rfl⟩
    · intro x hx
      rw [hkx x hx, arrivals_append]
      obtain ⟨k', hk', hm⟩ := hi.known x hx
      exact ⟨k', hk', List.mem_append_left _ hm⟩
    · intro k'
      have hcong : (s.pending ++ s.waiting).countP
            (fun x => ((s.remember r.id k).forget r.id).kinds x.id == some k') =
          (s.pending ++ s.waiting).countP (fun x => s.kinds x.id == some k') :=
        List.countP_congr fun x hx => by rw [hkx x hx]
      show _ + (s.pending ++ s.waiting).countP _ = _
      rw [hcong, requestCount_snoc, ← hi.count k', answerCount_snoc]
      simp only [arrivals, List.filterMap_cons, List.filterMap_nil, answered_answer, answered_nil,
        List.countP_cons, List.countP_nil]
      omega
  | @accepted c r rest _ o hp hk hn =>
    obtain ⟨h1, h2, h3, -⟩ := sendNext_shape hn
    obtain ⟨h5, h6⟩ := sendNext_front hn
    exact ⟨hi.drop hp h1 h2 h3 h6 (by rw [arrivals_append]; exact List.append_nil _), h5⟩
  | idleTimeout ht hp he =>
    rw [hf.idle hp] at ht; simp at ht
  | @timeout r rest _ o ht hp hn =>
    obtain ⟨h1, h2, h3, -⟩ := sendNext_shape hn
    obtain ⟨h5, h6⟩ := sendNext_front hn
    have hid := hf.front r rest hp
    rw [hid] at h3 ⊢
    exact ⟨hi.drop hp h1 h2 h3 h6 (by rw [arrivals_append]; exact List.append_nil _), h5⟩
  | idleTaskTimeout _ hc =>
    exact check_core hc (hi.congr rfl rfl (fun _ => rfl) rfl) (hf.congr rfl rfl rfl)
      (by rw [arrivals_append]; exact List.append_nil _)
  | taskTimeout _ hc =>
    have := hta rfl
    simp at this

theorem noTaskTimeoutAnswer_snoc {is : List In} {i : In} {oss : List (List Out)} {os : List Out}
    (hl : oss.length = is.length) (h : NoTaskTimeoutAnswer (is ++ [i]) (oss ++ [os])) :
    NoTaskTimeoutAnswer is oss ∧ (i = .taskTimeout → answered os = []) := by
  induction is generalizing oss with
  | nil =>
    cases oss with
    | nil => exact ⟨trivial, h.1⟩
    | cons a as => simp at hl
  | cons j is ih =>
    cases oss with
    | nil => simp at hl
    | cons a as =>
      obtain ⟨h1, h2⟩ := ih (by simpa using hl) h.2
      exact ⟨⟨h.1, h1⟩, h2⟩

theorem answer_inv (h : List In) (hd : ((arrivals h).map (·.2.id)).Nodup)
    (ht : NoTaskTimeoutAnswer h (run h).2) : Core h (run h).1 (run h).2 := by
  have key := runM_induction (step := step) (s0 := {})
    (P := fun h s oss => oss.length = h.length → ((arrivals h).map (·.2.id)).Nodup →
      NoTaskTimeoutAnswer h oss → Core h s oss ∧ Front s)
    (fun _ _ _ => ⟨⟨by simp, by simp, fun k => rfl⟩, ⟨by simp, fun _ => rfl⟩⟩)
    (by
      intro is i ih hl hd ht
      have hl' := runM_length step is {}
      obtain ⟨ht1, ht2⟩ := noTaskTimeoutAnswer_snoc hl' ht
      rw [arrivals_append, List.map_append] at hd
      obtain ⟨hd1, -, hd3⟩ := List.nodup_append.1 hd
      obtain ⟨h1, h2⟩ := ih hl' hd1 ht1
      refine answer_step h1 h2 (effect _ i) ?_ ht2
      rintro k r rfl p hp
      exact hd3 p.2.id (List.mem_map_of_mem hp) r.id (by simp [arrivals]))
  exact (key h (runM_length step h {}) hd ht).1

/-- **C22, partial.** In every history in which the requests have distinct ids and no error is sent
by the expiration of the task timer: for every kind (an impact request with its play and solution, a
task request with its id, a plain request) as many answers of this kind were sent as requests of
this kind arrived, apart from the requests that are still outstanding.

Missing: answers sent when a task is not initialised in time (`C22_task_timeout_violated`), and
requests with equal ids (`C22_id_collision_violated`). -/
theorem C22_answers_match_requests_partial (h : List In)
    (hd : ((arrivals h).map (·.2.id)).Nodup) (ht : NoTaskTimeoutAnswer h (run h).2) :
    ∃ outstanding : List (Kind × Req),
      (outstanding.map (·.2)) = (run h).1.pending ++ (run h).1.waiting ∧
      (∀ p ∈ outstanding, p ∈ arrivals h) ∧
      ∀ k, answerCount k (run h).2 + outstanding.countP (fun p => p.1 == k) = requestCount k h := by
  have h1 := answer_inv h hd ht
  refine ⟨((run h).1.pending ++ (run h).1.waiting).map fun r => ((run h).1.kindFor r.id, r), ?_, ?_, ?_⟩
  · rw [List.map_map]; exact List.map_id _
  · intro p hp
    obtain ⟨r, hr, rfl⟩ := List.mem_map.1 hp
    obtain ⟨k, hk, hm⟩ := h1.known r hr
    simpa [State.kindFor, hk] using hm
  · intro k
    rw [← h1.count k, List.countP_map]
    congr 1
    refine List.countP_congr fun r hr => ?_
    obtain ⟨k', hk', -⟩ := h1.known r hr
    simp [State.kindFor, hk']

/-- **C22, partial.** Under the same conditions no kind is answered more often than requested, and
once nothing is outstanding every request was answered exactly once. -/
theorem C22_exactly_once_partial (h : List In)
    (hd : ((arrivals h).map (·.2.id)).Nodup) (ht : NoTaskTimeoutAnswer h (run h).2) :
    (∀ k, answerCount k (run h).2 ≤ requestCount k h) ∧
    ((run h).1.pending = [] → (run h).1.waiting = [] →
      ∀ k, answerCount k (run h).2 = requestCount k h) := by
  obtain ⟨l, h1, -, h3⟩ := C22_answers_match_requests_partial h hd ht
  refine ⟨fun k => by have := h3 k; omega, ?_⟩
  intro hp hw k
  rw [hp, hw] at h1
  have : l = [] := by simpa using h1
  have := h3 k
  subst l
  simpa using this

example : ((arrivals exTwo).map (·.2.id)).Nodup ∧ NoTaskTimeoutAnswer exTwo (run exTwo).2 ∧
    (run exTwo).1.pending = [] ∧ (run exTwo).1.waiting = [] ∧
    answerCount (.impact 3 4) (run exTwo).2 = 1 := by decide +kernel

/-- A task that never becomes initialised. -/
def exSlow : List In := exKnow ++ [.task 8 .nothing, .request (.task 10) (exReq 10),
  .request (.task 11) { id := 11, entities := [1], tasks := [8] }, .taskTimeout]

/-- **C22 is violated.** Request 10 is in flight and request 11 waits for its task.  When the wait is
over the error is sent for request 10 instead; the plan for request 10 is then ignored, and request
11, which left the queue, is never answered. -/
theorem C22_task_timeout_violated :
    (run exSlow).2.flatten = [.publish (exReq 10), .answer (.task 10) .error] ∧
    (run exSlow).1.waiting = [] ∧
    (step (run exSlow).1 (.response 10 5)).2 = [] ∧
    (∀ c, (step (run exSlow).1 (.response 11 c)).2 = []) := by
  refine ⟨by decide +kernel, by decide +kernel, by decide +kernel, fun c => rfl⟩

/-- **C22 is violated.** The timeout of the response to request 10 then answers a second time, and
as a plain request that nobody made. -/
theorem C22_answered_twice_violated :
    (run (exSlow ++ [.responseTimeout])).2.flatten =
      [.publish (exReq 10), .answer (.task 10) .error, .answer .plain .error] ∧
    requestCount .plain (exSlow ++ [.responseTimeout]) = 0 := by
  decide +kernel

/-- **C22 is violated** for requests with equal ids: a task request with the id that was drawn for a
plain request takes over its identity.  The plain request is never answered, the task request
twice. -/
theorem C22_id_collision_violated :
    let h : List In := exKnow ++ [.request .plain (exReq 10), .request (.task 10) (exReq 10),
      .response 10 5, .responseTimeout, .responseTimeout]
    (run h).2.flatten = [.publish (exReq 10), .answer (.task 10) (.planned 5), .publish (exReq 10),
      .answer .plain .error] := by
  decide +kernel

/-! ### What an answer carries -/

/-- The kinds are those of the arrivals, the queue consists of arrivals, and its front was
published. -/
structure ContentInv (h : List In) (s : State) (pubs : List Req) : Prop where
  kinds : ∀ id k, s.kinds id = some k → ∃ r, r.id = id ∧ (k, r) ∈ arrivals h
  front : ∀ r l, s.pending = r :: l → r ∈ pubs
  idle : s.pending = [] → s.responseTimer = false

theorem content_check {h : List In} {s s' : State} {hd : Bool} {out : List Out} {pubs : List Req}
    (hc : Checked s hd s' out) (hi : ContentInv h s pubs) :
    ContentInv h s' (pubs ++ published out) := by
  refine ⟨by rw [hc.kinds]; exact hi.kinds, ?_, ?_⟩
  · intro r l hp
    rcases hc.out with ⟨-, -, -, hor⟩ | ⟨r', l', hp', ho, -⟩
    · rcases hsp : s.pending with _ | ⟨r2, l2⟩
      · rw [hc.pending, hsp] at hp
        rcases hor with h1 | h1
        · rw [hi.idle hsp] at h1; simp at h1
        · rw [h1] at hp; simp at hp
      · rw [hc.pending, hsp] at hp
        simp only [List.cons_append, List.cons.injEq] at hp
        rw [← hp.1]
        exact List.mem_append_left _ (hi.front r2 l2 hsp)
    · rw [hp] at hp'
      simp only [List.cons.injEq] at hp'
      rw [ho, hp'.1]
      exact List.mem_append_right _ (by simp)
  · intro hp
    have hsp : s.pending = [] := by
      rw [hc.pending] at hp
      exact (List.append_eq_nil_iff.1 hp).1
    rcases hc.out with ⟨-, -, ht, -⟩ | ⟨r', l', hp', -⟩
    · rw [ht]; exact hi.idle hsp
    · rw [hp] at hp'; simp at hp'

theorem content_sendNext {h : List In} {s s' : State} {hd : Bool} {out : List Out} {pubs : List Req}
    (hn : sendNext s hd = (s', out))
    (hk : ∀ id k, s.kinds id = some k → ∃ r, r.id = id ∧ (k, r) ∈ arrivals h) :
    ContentInv h s' (pubs ++ published out) := by
  obtain ⟨h1, -, h3, -, ⟨hp, rfl, -, ht⟩ | ⟨r, l, hp, rfl, he, -⟩⟩ := sendNext_shape hn
  · refine ⟨by rw [h3]; exact hk, ?_, fun _ => ht⟩
    intro r l hpr
    rw [h1, hp] at hpr; simp at hpr
  · refine ⟨by rw [h3]; exact hk, ?_, ?_⟩
    · intro r' l' hp'
      rw [h1, hp] at hp'
      simp only [List.cons.injEq] at hp'
      exact List.mem_append_right _ (by simp [hp'.1])
    · intro hn
      rw [h1, hp] at hn; simp at hn

theorem content_step {h : List In} {s s' : State} {i : In} {out : List Out} {pubs : List Req}
    (hi : ContentInv h s pubs) (he : Effect s i s' out) :
    ContentInv (h ++ [i]) s' (pubs ++ published out) := by
  have hmono : ∀ {s1 : State} {pb : List Req}, ContentInv h s1 pb → ContentInv (h ++ [i]) s1 pb := by
    intro s1 pb hx
    refine ⟨?_, hx.front, hx.idle⟩
    intro id k hk
    obtain ⟨r, h1, h2⟩ := hx.kinds id k hk
    exact ⟨r, h1, by rw [arrivals_append]; exact List.mem_append_left _ h2⟩
  have hforget : ∀ x id k, (s.forget x).kinds id = some k →
      ∃ r, r.id = id ∧ (k, r) ∈ arrivals (h ++ [i]) := by
    intro x id k hk
    simp only [State.forget] at hk
    split at hk
    · simp at hk
    · exact (hmono hi).kinds id k hk
  cases he with
  | quiet hq hn =>
    refine hmono ⟨by rw [hq.kinds]; exact hi.kinds, ?_, ?_⟩
    · rw [hq.pending]; simpa using hi.front
    · rw [hq.pending, hq.responseTimer]; exact hi.idle
  | initialised hc => exact hmono (content_check hc ⟨hi.kinds, hi.front, hi.idle⟩)
  | @admitted k r _ _ _ hc =>
    refine content_check hc ⟨?_, hi.front, hi.idle⟩
    intro id k' hk'
    simp only [State.remember] at hk'
    split at hk'
    · rename_i hid
      simp only [Option.some.injEq] at hk'
      exact ⟨r, hid.symm, by rw [arrivals_append, ← hk']; exact List.mem_append_right _ (by simp [arrivals])⟩
    · exact (hmono hi).kinds id k' hk'
  | @rejected k r _ _ he =>
    subst he
    refine ⟨?_, by simpa [State.remember, State.forget] using hi.front,
      by simpa [State.remember, State.forget] using hi.idle⟩
    intro id k' hk'
    simp only [State.remember, State.forget] at hk'
    split at hk'
    · simp at hk'
    · exact (hmono hi).kinds id k' hk'
  | accepted hp hk hn => simpa using content_sendNext (pubs := pubs) hn (hforget _)
  | idleTimeout _ hp he =>
    subst he
    exact hmono ⟨hi.kinds, by simpa using hi.front, fun _ => rfl⟩
  | timeout _ hp hn => simpa using content_sendNext (pubs := pubs) hn (hforget _)
  | idleTaskTimeout _ hc => exact hmono (content_check hc ⟨hi.kinds, hi.front, hi.idle⟩)
  | taskTimeout _ hc =>
    have := content_check (h := h ++ [In.taskTimeout]) (pubs := pubs) hc
      ⟨hforget _, hi.front, hi.idle⟩
    simpa using this

/-- **C22.** In every history an answer with a plan is sent only upon a response with this plan for
the request that was published, and has the kind of a request that arrived with this id. -/
theorem C22_plan_belongs_to_request (h : List In) (i : In) (k : Kind) (c : Nat)
    (ha : (k, Plan.planned c) ∈ answered (step (run h).1 i).2) :
    ∃ r r', i = .response r.id c ∧ r ∈ (run h).2.flatMap published ∧
      (k, r') ∈ arrivals h ∧ r'.id = r.id := by
  have key := runM_induction (step := step) (s0 := {})
    (P := fun h s oss => ContentInv h s (oss.flatMap published))
    ⟨by simp, by simp, fun _ => rfl⟩
    (by
      intro is i ih
      have := content_step ih (effect _ i)
      simpa using this) h
  have he := effect (run h).1 i
  generalize (step (run h).1 i).2 = out at he ha
  generalize (step (run h).1 i).1 = s' at he
  cases he with
  | quiet => simp at ha
  | initialised hc => rw [hc.published_le.1] at ha; simp at ha
  | admitted _ hc => rw [hc.published_le.1] at ha; simp at ha
  | rejected => simp at ha
  | @accepted c' r rest _ o hp hk hn =>
    rw [answered_answer, (sendNext_front hn).2] at ha
    simp only [List.mem_singleton, Prod.mk.injEq, Plan.planned.injEq] at ha
    obtain ⟨kr, hkr⟩ := Option.isSome_iff_exists.1 hk
    obtain ⟨r', h1, h2⟩ := key.kinds r.id kr hkr
    refine ⟨r, r', by rw [ha.2], key.front r rest hp, ?_, h1⟩
    rw [ha.1]
    simpa [State.kindFor, hkr] using h2
  | idleTimeout => simp at ha
  | timeout _ _ hn =>
    rw [answered_answer, (sendNext_front hn).2] at ha
    simp at ha
  | idleTaskTimeout _ hc => rw [hc.published_le.1] at ha; simp at ha
  | taskTimeout _ hc =>
    rw [answered_answer, hc.published_le.1] at ha
    simp at ha

example : (Kind.task 11, Plan.planned 6) ∈ answered (step (run (exTwo.take 7)).1 (.response 11 6)).2 := by
  decide +kernel

theorem inFlight_front : ∀ (h : List In) (s : State) (f : Option Int), FlightInv f s →
    FlightInv (inFlight f h (runM step s h).2) (runM step s h).1
  | [], _, _, hf => hf
  | i :: is, s, f, hf => by
    rw [runM_cons]
    exact inFlight_front is _ _ (flight_step hf (effect s i)).2.2

/-- **C22, partial.** In every history in which the requests have distinct ids and no error is sent
by the expiration of the task timer, a response to the request in flight is answered at once with
its plan and the kind of the request.  (Without the two conditions: see the violations above.) -/
theorem C22_response_answered_partial (h : List In) (x : Int) (c : Nat)
    (hd : ((arrivals h).map (·.2.id)).Nodup) (ht : NoTaskTimeoutAnswer h (run h).2)
    (hx : inFlight none h (run h).2 = some x) :
    ∃ k r, (k, r) ∈ arrivals h ∧ r.id = x ∧
      answered (step (run h).1 (.response x c)).2 = [(k, .planned c)] := by
  have hf := inFlight_front h {} none (by intro y hy; simp at hy)
  obtain ⟨r, l, hp, rfl⟩ := hf x hx
  have hp : (run h).1.pending = r :: l := hp
  obtain ⟨k, hk, hm⟩ := (answer_inv h hd ht).known r (by rw [hp]; simp)
  refine ⟨k, r, hm, rfl, ?_⟩
  have hans : ∀ s, answered (sendNext s false).2 = [] := fun s =>
    (sendNext_front (s := s) (hd := false) rfl).2
  simp only [step, handleResponse, hp, hk, Option.isSome_some, and_self, if_true, sendResponse]
  rw [answered_append, hans]
  rfl

example : inFlight none (exTwo.take 7) (run (exTwo.take 7)).2 = some 11 := by decide +kernel

end Verif.Validator
