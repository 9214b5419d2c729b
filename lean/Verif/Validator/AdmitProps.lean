import Verif.Validator.AnswerProps

/-!
Properties C23 and C54: what the validator checks before it publishes a request.
-/

namespace Verif.Validator

/-! ### The knowledge of the service and the history -/

/-- How a message changes what is known. -/
def learn (k : Known) : In → Known
  | .config id => { k with configs := addId k.configs id }
  | .state id => { k with states := addId k.states id }
  | .task id n => { k with initialized := k.initialized.filter (· != id), tasks := insert k.tasks id n }
  | .removeTasks ids => { k with tasks := k.tasks.filter (fun p => !ids.contains p.1),
                                 initialized := k.initialized.filter (fun i => !ids.contains i) }
  | .taskInitialized id => { k with initialized := addId k.initialized id }
  | .area id => { k with areas := addId k.areas id }
  | .line id => { k with lines := addId k.lines id }
  | .point id => { k with points := addId k.points id }
  | .keepIn id => { k with keepIns := addId k.keepIns id }
  | .keepOut id => { k with keepOuts := addId k.keepOuts id }
  | .region id ins outs => { k with regions := insert k.regions id (ins, outs) }
  | _ => k

theorem sendNext_known (s : State) (hd : Bool) : (sendNext s hd).1.known = s.known := by
  rcases sendNext_cases s hd with ⟨-, he⟩ | ⟨r, l, -, he⟩ <;> rw [he]

theorem step_known (s : State) (i : In) : (step s i).1.known = learn s.known i := by
  cases i with
  | config | state | task | removeTasks | area | line | point | keepIn | keepOut | region => rfl
  | taskInitialized id => exact (checkTasks_checked _ _).known
  | request k r =>
    simp only [step, handleRequest, learn]
    split
    · exact (checkTasks_checked _ _).known
    · rfl
  | response id c =>
    simp only [step, handleResponse, learn]
    split
    · rfl
    · split
      · exact sendNext_known _ _
      · rfl
  | responseTimeout =>
    simp only [step, learn]
    split
    · simp only [onResponseTimeout]
      split
      · exact sendNext_known _ _
      · exact sendNext_known _ _
    · rfl
  | taskTimeout =>
    simp only [step, learn]
    split
    · simp only [onTaskTimeout]
      split
      · exact (checkTasks_checked _ _).known
      · exact (checkTasks_checked _ _).known
    · rfl

theorem mem_addId {l : List Int} {a b : Int} : a ∈ addId l b ↔ a ∈ l ∨ a = b := by
  unfold addId
  split
  · rename_i h
    have h : b ∈ l := by simpa using h
    constructor
    · exact .inl
    · rintro (h1 | rfl)
      · exact h1
      · exact h
  · simp [or_comm]

theorem lookup_insert {α : Type} (l : List (Int × α)) (a b : Int) (x : α) :
    lookup (insert l a x) b = if a = b then some x else lookup l b := by
  unfold lookup insert
  by_cases h : a = b
  · simp [h]
  · rw [if_neg h, List.find?_cons_of_neg (by simpa using h)]
    congr 1
    induction l with
    | nil => rfl
    | cons p l ih =>
      simp only [List.filter_cons]
      by_cases hp : p.1 = a
      · have : (p.1 != a) = false := by simp [hp]
        rw [this]
        simp only [Bool.false_eq_true, if_false]
        rw [List.find?_cons_of_neg (by simpa [hp] using h)]
        exact ih
      · have : (p.1 != a) = true := by simp [hp]
        rw [this]
        simp only [if_true]
        rw [List.find?_cons, List.find?_cons, ih]

theorem lookup_filter {α : Type} (l : List (Int × α)) (ids : List Int) (b : Int) :
    lookup (l.filter fun p => !ids.contains p.1) b = if b ∈ ids then none else lookup l b := by
  unfold lookup
  induction l with
  | nil => simp
  | cons p l ih =>
    simp only [List.filter_cons]
    by_cases hp : p.1 ∈ ids
    · have : (!ids.contains p.1) = false := by simp [hp]
      rw [this]
      simp only [Bool.false_eq_true, if_false]
      rw [ih]
      by_cases hb : b ∈ ids
      · simp [hb]
      · rw [if_neg hb, if_neg hb, List.find?_cons_of_neg]
        intro e
        have e : p.1 = b := by simpa using e
        rw [e] at hp; exact hb hp
    · have : (!ids.contains p.1) = true := by simp [hp]
      rw [this]
      simp only [if_true]
      by_cases hpb : p.1 = b
      · rw [List.find?_cons_of_pos (by simpa using hpb), List.find?_cons_of_pos (by simpa using hpb)]
        rw [if_neg (by rw [← hpb]; exact hp)]
      · rw [List.find?_cons_of_neg (by simpa using hpb), List.find?_cons_of_neg (by simpa using hpb)]
        exact ih

/-- Something that happened, with a condition on what followed. -/
theorem since_snoc {P : List In → Prop} {K : In → Prop} {h : List In} {i a : In} (h0 : P [])
    (hs : ∀ l j, P (l ++ [j]) ↔ P l ∧ K j) :
    (∃ h1 h2, h ++ [i] = h1 ++ a :: h2 ∧ P h2) ↔ i = a ∨ ((∃ h1 h2, h = h1 ++ a :: h2 ∧ P h2) ∧ K i) := by
  constructor
  · rintro ⟨h1, h2, he, hp⟩
    rcases List.eq_nil_or_concat h2 with rfl | ⟨h3, j, rfl⟩
    · have := List.append_inj_right' he rfl
      simp only [List.cons.injEq, and_true] at this
      exact .inl this
    · rw [List.concat_eq_append] at he hp
      rw [show h1 ++ a :: (h3 ++ [j]) = (h1 ++ a :: h3) ++ [j] by simp] at he
      have e1 := List.append_inj_left' he rfl
      have e2 := List.append_inj_right' he rfl
      simp only [List.cons.injEq, and_true] at e2
      subst e2
      obtain ⟨p1, p2⟩ := (hs h3 i).1 hp
      exact .inr ⟨⟨h1, h3, e1, p1⟩, p2⟩
  · rintro (rfl | ⟨⟨h1, h2, rfl, hp⟩, hk⟩)
    · exact ⟨h, [], rfl, h0⟩
    · exact ⟨h1, h2 ++ [i], by simp, (hs _ _).2 ⟨hp, hk⟩⟩

theorem taskKnown_snoc (h : List In) (i : In) (id : Int) (n : Needs) :
    TaskKnown (h ++ [i]) id n ↔ i = .task id n ∨
      (TaskKnown h id n ∧ (∀ n', i ≠ .task id n') ∧ ∀ ids, i = .removeTasks ids → id ∉ ids) := by
  refine since_snoc (P := fun h2 => (∀ n', .task id n' ∉ h2) ∧
    ∀ ids, .removeTasks ids ∈ h2 → id ∉ ids)
    (K := fun i => (∀ n', i ≠ .task id n') ∧ ∀ ids, i = .removeTasks ids → id ∉ ids)
    ⟨by simp, by simp⟩ ?_
  intro l j
  simp only [List.mem_append, List.mem_singleton, not_or]
  grind

theorem taskInitialised_snoc (h : List In) (i : In) (id : Int) :
    TaskInitialised (h ++ [i]) id ↔ i = .taskInitialized id ∨
      (TaskInitialised h id ∧ (∀ n', i ≠ .task id n') ∧ ∀ ids, i = .removeTasks ids → id ∉ ids) := by
  refine since_snoc (P := fun h2 => (∀ n', .task id n' ∉ h2) ∧
    ∀ ids, .removeTasks ids ∈ h2 → id ∉ ids)
    (K := fun i => (∀ n', i ≠ .task id n') ∧ ∀ ids, i = .removeTasks ids → id ∉ ids)
    ⟨by simp, by simp⟩ ?_
  intro l j
  simp only [List.mem_append, List.mem_singleton, not_or]
  grind

theorem regionKnown_snoc (h : List In) (i : In) (id : Int) (a b : List Int) :
    RegionKnown (h ++ [i]) id a b ↔ i = .region id a b ∨
      (RegionKnown h id a b ∧ ∀ a' b', i ≠ .region id a' b') := by
  refine since_snoc (P := fun h2 => ∀ a b, .region id a b ∉ h2)
    (K := fun i => ∀ a' b', i ≠ .region id a' b') (by simp) ?_
  intro l j
  simp only [List.mem_append, List.mem_singleton, not_or]
  grind

/-- What the service knows is what the history says. -/
structure KnownInv (h : List In) (k : Known) : Prop where
  configs : ∀ id, id ∈ k.configs ↔ .config id ∈ h
  states : ∀ id, id ∈ k.states ↔ .state id ∈ h
  areas : ∀ id, id ∈ k.areas ↔ .area id ∈ h
  lines : ∀ id, id ∈ k.lines ↔ .line id ∈ h
  points : ∀ id, id ∈ k.points ↔ .point id ∈ h
  keepIns : ∀ id, id ∈ k.keepIns ↔ .keepIn id ∈ h
  keepOuts : ∀ id, id ∈ k.keepOuts ↔ .keepOut id ∈ h
  regions : ∀ id a b, lookup k.regions id = some (a, b) ↔ RegionKnown h id a b
  tasks : ∀ id n, lookup k.tasks id = some n ↔ TaskKnown h id n
  initialized : ∀ id, id ∈ k.initialized ↔ TaskInitialised h id

theorem knownInv_nil : KnownInv [] {} := by
  constructor <;> simp [lookup, RegionKnown, TaskKnown, TaskInitialised]

theorem knownInv_step {h : List In} {k : Known} (hi : KnownInv h k) (i : In) :
    KnownInv (h ++ [i]) (learn k i) := by
  obtain ⟨h1, h2, h3, h4, h5, h6, h7, h8, h9, h10⟩ := hi
  constructor
  · intro id; cases i <;> simp [learn, h1, mem_addId]
  · intro id; cases i <;> simp [learn, h2, mem_addId]
  · intro id; cases i <;> simp [learn, h3, mem_addId]
  · intro id; cases i <;> simp [learn, h4, mem_addId]
  · intro id; cases i <;> simp [learn, h5, mem_addId]
  · intro id; cases i <;> simp [learn, h6, mem_addId]
  · intro id; cases i <;> simp [learn, h7, mem_addId]
  · intro id a b
    rw [regionKnown_snoc, ← h8]
    cases i <;> simp only [learn] <;> first
      | (simp; done)
      | skip
    rw [lookup_insert]
    grind
  · intro id n
    rw [taskKnown_snoc, ← h9]
    cases i <;> simp only [learn] <;> first
      | (simp; done)
      | skip
    · rw [lookup_insert]; grind
    · rw [lookup_filter]; grind
  · intro id
    rw [taskInitialised_snoc, ← h10]
    cases i <;> simp only [learn] <;> first
      | (simp; done)
      | skip
    · simp only [List.mem_filter, In.task.injEq, ne_eq]; grind
    · rw [mem_addId]; grind

theorem known_inv (h : List In) : KnownInv h (run h).1.known :=
  runM_induction (step := step) (s0 := {}) (P := fun h s _ => KnownInv h s.known) knownInv_nil
    (fun is i ih => by rw [step_known]; exact knownInv_step ih i) h

/-! ### The check -/

theorem needsOk_iff {h : List In} {k : Known} (hi : KnownInv h k) (n : Needs) :
    needsOk k n = true ↔ NeedsKnown h n := by
  cases n <;> simp [needsOk, NeedsKnown, hi.areas, hi.lines, hi.points]

theorem tasksOk_iff {h : List In} {k : Known} (hi : KnownInv h k) (r : Req) :
    tasksOk k r = true ↔ ∀ id ∈ r.tasks, ∃ n, TaskKnown h id n ∧ NeedsKnown h n := by
  unfold tasksOk
  rw [List.all_eq_true]
  refine forall_congr' fun id => forall_congr' fun _ => ?_
  cases hl : lookup k.tasks id with
  | none =>
    simp only [Bool.false_eq_true, false_iff, not_exists]
    rintro n ⟨hn, -⟩
    rw [(hi.tasks id n).2 hn] at hl
    simp at hl
  | some n =>
    simp only [needsOk_iff hi]
    constructor
    · exact fun hn => ⟨n, (hi.tasks id n).1 hl, hn⟩
    · rintro ⟨n', h1, h2⟩
      have := (hi.tasks id n').2 h1
      rw [hl] at this
      simp only [Option.some.injEq] at this
      rw [this]; exact h2

theorem regionOk_iff {h : List In} {k : Known} (hi : KnownInv h k) (r : Req) :
    regionOk k r = true ↔ (r.region ≠ 0 → ∃ ins outs, RegionKnown h r.region ins outs ∧
      (∀ z ∈ ins, .keepIn z ∈ h) ∧ ∀ z ∈ outs, .keepOut z ∈ h) := by
  unfold regionOk
  by_cases hr : r.region = 0
  · simp [hr]
  · have : (r.region != 0) = true := by simp [hr]
    rw [this]
    simp only [if_true, hr, ne_eq, not_false_eq_true, forall_const]
    cases hl : lookup k.regions r.region with
    | none =>
      simp only [Bool.false_eq_true, false_iff, not_exists]
      rintro a b ⟨hn, -⟩
      rw [(hi.regions _ _ _).2 hn] at hl
      simp at hl
    | some p =>
      obtain ⟨a, b⟩ := p
      simp only [Bool.and_eq_true, List.all_eq_true, List.contains_iff_mem, hi.keepIns, hi.keepOuts]
      constructor
      · exact fun hn => ⟨a, b, (hi.regions _ _ _).1 hl, hn.1, hn.2⟩
      · rintro ⟨a', b', h1, h2⟩
        have := (hi.regions _ _ _).2 h1
        rw [hl] at this
        simp only [Option.some.injEq, Prod.mk.injEq] at this
        rw [this.1, this.2]; exact h2

theorem exists_mem_iff {l : List Int} {p : Int → Prop} (h : ∀ x, x ∈ l ↔ p x) :
    l.isEmpty = false ↔ ∃ x, p x := by
  cases l with
  | nil => simp [← h]
  | cons a l => simp only [List.isEmpty_cons, true_iff]; exact ⟨a, (h a).1 (by simp)⟩

/-- The check in terms of the history. -/
theorem check_iff {h : List In} {k : Known} (hi : KnownInv h k) (r : Req) :
    check k r = true ↔ Admissible h r ∧ (∃ id, .config id ∈ h) ∧ ∃ id, .state id ∈ h := by
  unfold check
  simp only [Bool.and_eq_true, tasksOk_iff hi, regionOk_iff hi]
  have hcfg := exists_mem_iff hi.configs
  have hst := exists_mem_iff hi.states
  by_cases he : r.entities = []
  · have : r.entities.isEmpty = true := by simp [he]
    rw [this]
    simp only [if_true, anyVehicleOk, Bool.and_eq_true, Bool.not_eq_eq_eq_not, Bool.not_true, hcfg, hst]
    constructor
    · rintro ⟨⟨⟨⟨h1, h2⟩, -⟩, h3⟩, h4⟩
      exact ⟨⟨by simp [he], by simp [he], h3, h4⟩, h1, h2⟩
    · rintro ⟨⟨-, -, h3, h4⟩, h1, h2⟩
      refine ⟨⟨⟨⟨h1, h2⟩, ?_⟩, h3⟩, h4⟩
      obtain ⟨id, hid⟩ := h1
      rw [List.any_eq_true]
      refine ⟨id, (hi.configs id).2 hid, ?_⟩
      rw [List.any_eq_true]
      exact ⟨id, (hi.configs id).2 hid, by simp⟩
  · have : r.entities.isEmpty = false := by simp [he]
    rw [this]
    simp only [Bool.false_eq_true, if_false, vehiclesOk, Bool.and_eq_true, Bool.not_eq_eq_eq_not,
      Bool.not_true, hcfg, hst, List.all_eq_true, Bool.or_eq_true, List.contains_iff_mem, hi.configs,
      hi.states]
    constructor
    · rintro ⟨⟨⟨⟨h1, h1'⟩, h2, h2'⟩, h3⟩, h4⟩
      exact ⟨⟨h1', h2', h3, h4⟩, h1, h2⟩
    · rintro ⟨⟨h1', h2', h3, h4⟩, h1, h2⟩
      exact ⟨⟨⟨⟨h1, h1'⟩, h2, h2'⟩, h3⟩, h4⟩

theorem ready_iff {h : List In} {k : Known} (hi : KnownInv h k) (r : Req) :
    ready k r = true ↔ ∀ t ∈ r.tasks, TaskInitialised h t := by
  unfold ready
  simp only [List.all_eq_true, List.contains_iff_mem, hi.initialized]

/-! ### Publication -/

/-- The request arrived, and everything it refers to was known then. -/
def Admitted (h : List In) (r : Req) : Prop :=
  ∃ h1 k h2, h = h1 ++ .request k r :: h2 ∧ Admissible h1 r ∧
    (∃ id, .config id ∈ h1) ∧ ∃ id, .state id ∈ h1

/-- Moreover at some time since then all its tasks were initialised. -/
def Released (h : List In) (r : Req) : Prop :=
  ∃ h1 k h2 h3, h = h1 ++ .request k r :: (h2 ++ h3) ∧ Admissible h1 r ∧
    ((∃ id, .config id ∈ h1) ∧ ∃ id, .state id ∈ h1) ∧
    ∀ t ∈ r.tasks, TaskInitialised (h1 ++ .request k r :: h2) t

theorem Admitted.mono {h : List In} {r : Req} (hr : Admitted h r) (i : In) : Admitted (h ++ [i]) r := by
  obtain ⟨h1, k, h2, rfl, h3⟩ := hr
  exact ⟨h1, k, h2 ++ [i], by simp, h3⟩

theorem Released.mono {h : List In} {r : Req} (hr : Released h r) (i : In) : Released (h ++ [i]) r := by
  obtain ⟨h1, k, h2, h3, rfl, h4⟩ := hr
  exact ⟨h1, k, h2, h3 ++ [i], by simp, h4⟩

theorem Admitted.released {h : List In} {r : Req} (hr : Admitted h r)
    (ht : ∀ t ∈ r.tasks, TaskInitialised h t) : Released h r := by
  obtain ⟨h1, k, h2, rfl, h3, h4⟩ := hr
  exact ⟨h1, k, h2, [], by simp, h3, h4, ht⟩

/-- Not in the code: the invariant of the validator. -/
structure AdmitInv (h : List In) (s : State) : Prop where
  waiting : ∀ r ∈ s.waiting, Admitted h r
  pending : ∀ r ∈ s.pending, Released h r

theorem admit_check {h : List In} {s s' : State} {hd : Bool} {out : List Out}
    (hc : Checked s hd s' out) (hk : KnownInv h s.known) (hi : AdmitInv h s) :
    AdmitInv h s' ∧ ∀ r ∈ published out, Released h r := by
  have hp : ∀ r ∈ s'.pending, Released h r := by
    intro r hr
    rw [hc.pending, List.mem_append] at hr
    rcases hr with hr | hr
    · exact hi.pending r hr
    · have h1 : ready s.known r = true := List.all_eq_true.1 List.all_takeWhile r hr
      exact (hi.waiting r ((List.takeWhile_sublist _).subset hr)).released ((ready_iff hk r).1 h1)
  refine ⟨⟨?_, hp⟩, ?_⟩
  · intro r hr
    rw [hc.waiting] at hr
    exact hi.waiting r ((List.dropWhile_sublist _).subset hr)
  · intro r hr
    obtain ⟨l, h1, -⟩ := hc.published_le.2 r hr
    exact hp r (by rw [h1]; simp)

theorem admit_sendNext {h : List In} {s s' : State} {hd : Bool} {out : List Out}
    (hn : sendNext s hd = (s', out)) (hi : AdmitInv h s) :
    AdmitInv h s' ∧ ∀ r ∈ published out, Released h r := by
  obtain ⟨h1, h2, -, -, h5⟩ := sendNext_shape hn
  refine ⟨⟨by rw [h2]; exact hi.waiting, by rw [h1]; exact hi.pending⟩, ?_⟩
  rcases h5 with ⟨-, rfl, -⟩ | ⟨r, l, hp, rfl, -⟩
  · simp
  · intro r' hr'
    simp only [published_publish, published_nil, List.mem_singleton] at hr'
    subst hr'
    exact hi.pending r' (by rw [hp]; simp)

theorem admit_step {h : List In} {s s' : State} {i : In} {out : List Out} (hk : KnownInv h s.known)
    (hi : AdmitInv h s) (he : Effect s i s' out) :
    AdmitInv (h ++ [i]) s' ∧ ∀ r ∈ published out, Released (h ++ [i]) r := by
  have hmono : ∀ {s1 : State}, AdmitInv h s1 → AdmitInv (h ++ [i]) s1 := fun hx =>
    ⟨fun r hr => (hx.waiting r hr).mono i, fun r hr => (hx.pending r hr).mono i⟩
  have hk' := knownInv_step hk i
  cases he with
  | quiet hq hn =>
    exact ⟨hmono ⟨by rw [hq.waiting]; exact hi.waiting, by rw [hq.pending]; exact hi.pending⟩, by simp⟩
  | initialised hc => exact admit_check hc hk' (hmono ⟨hi.waiting, hi.pending⟩)
  | @admitted k r _ _ hok hc =>
    refine admit_check hc hk' ⟨?_, (hmono hi).pending⟩
    intro x hx
    simp only [List.mem_append, List.mem_singleton] at hx
    rcases hx with hx | rfl
    · exact (hmono hi).waiting x hx
    · obtain ⟨h1, h2⟩ := (check_iff hk x).1 hok
      exact ⟨h, k, [], rfl, h1, h2⟩
  | rejected _ he =>
    subst he
    exact ⟨hmono ⟨hi.waiting, hi.pending⟩, by simp⟩
  | accepted hp _ hn =>
    have := admit_sendNext hn (hmono (s1 := { s.forget _ with pending := _ })
      ⟨hi.waiting, fun x hx => hi.pending x (by rw [hp]; exact List.mem_cons_of_mem _ hx)⟩)
    simpa using this
  | idleTimeout _ _ he =>
    subst he
    exact ⟨hmono ⟨hi.waiting, hi.pending⟩, by simp⟩
  | timeout _ hp hn =>
    have := admit_sendNext hn (hmono (s1 := { s.forget _ with pending := _, responseTimer := false })
      ⟨hi.waiting, fun x hx => hi.pending x (by rw [hp]; exact List.mem_cons_of_mem _ hx)⟩)
    simpa using this
  | idleTaskTimeout _ hc => exact admit_check hc hk' (hmono ⟨hi.waiting, hi.pending⟩)
  | taskTimeout hw hc =>
    have := admit_check hc hk' (hmono ⟨fun x hx => hi.waiting x (by rw [hw]; exact List.mem_cons_of_mem _ hx),
      hi.pending⟩)
    simpa using this

theorem released_of_published (h : List In) (i : In) (r : Req)
    (hr : r ∈ published (step (run h).1 i).2) : Released (h ++ [i]) r := by
  have key := runM_induction (step := step) (s0 := {})
    (P := fun h s _ => AdmitInv h s) ⟨by simp, by simp⟩
    (fun is i ih => (admit_step (known_inv is) ih (effect _ i)).1) h
  exact (admit_step (known_inv h) key (effect _ i)).2 r hr

/-- **C23.** In every history: if a request is published at a step then it arrived at some earlier
step (or this one); everything it refers to was known when it arrived: configurations and states (or
planning states) of its vehicles, the region and its zones, the tasks and what these refer to; and
at some time since its arrival all its tasks were initialised. -/
theorem C23_admission_sound (h : List In) (i : In) (r : Req)
    (hr : r ∈ published (step (run h).1 i).2) :
    ∃ h1 k h2 h3, h ++ [i] = h1 ++ .request k r :: (h2 ++ h3) ∧ Admissible h1 r ∧
      ∀ t ∈ r.tasks, TaskInitialised (h1 ++ .request k r :: h2) t := by
  obtain ⟨h1, k, h2, h3, h4, h5, -, h7⟩ := released_of_published h i r hr
  exact ⟨h1, k, h2, h3, h4, h5, h7⟩

/-- A region with two zones and a task with an area. -/
def exWorld : List In := [.config 1, .state 1, .config 2, .keepIn 5, .keepOut 6, .region 9 [5] [6],
  .area 3, .task 7 (.area 3)]

/-- Not in the code: an example. -/
def exWorldReq : Req := { id := 10, entities := [1, 2], tasks := [7], region := 9, planning := [2] }

example : exWorldReq ∈ published (step (run (exWorld ++ [.request .plain exWorldReq])).1
    (.taskInitialized 7)).2 := by decide +kernel

/-- **C23 is violated** at the time of publication: request 11 is published although its task was
removed while it waited for the response to request 10. -/
theorem C23_removed_task_violated :
    let h : List In := exKnow ++ [.request .plain (exReq 10), .request (.task 11) (exReq 11),
      .removeTasks [7]]
    published (step (run h).1 (.response 10 0)).2 = [exReq 11] ∧
      ¬ (∃ n, TaskKnown (h ++ [.response 10 0]) 7 n) ∧
      ¬ TaskInitialised (h ++ [.response 10 0]) 7 := by
  refine ⟨by decide +kernel, ?_, ?_⟩
  · rintro ⟨n, hn⟩
    rw [taskKnown_snoc, List.append_cons, List.append_cons, taskKnown_snoc] at hn
    have h1 := hn.resolve_left (by simp)
    have h2 := h1.1.resolve_left (by simp)
    exact h2.2.2 [7] rfl (by simp)
  · intro hn
    rw [taskInitialised_snoc, List.append_cons, List.append_cons, taskInitialised_snoc] at hn
    have h1 := hn.resolve_left (by simp)
    have h2 := h1.1.resolve_left (by simp)
    exact h2.2.2 [7] rfl (by simp)

/-- **C54, partial.** In every history a request all of whose references are known is not refused
when it arrives, provided that a configuration and a state of some entity arrived before.

Missing: without any entity state a request is refused even if it carries planning states for all
its vehicles (`C54_planning_states_violated`). -/
theorem C54_admission_complete_partial (h : List In) (k : Kind) (r : Req) (ha : Admissible h r)
    (hc : ∃ id, .config id ∈ h) (hs : ∃ id, .state id ∈ h) :
    answered (step (run h).1 (.request k r)).2 = [] := by
  have hok := (check_iff (known_inv h) r).2 ⟨ha, hc, hs⟩
  have he := effect (run h).1 (.request k r)
  generalize (step (run h).1 (.request k r)).2 = out at he
  generalize (step (run h).1 (.request k r)).1 = s' at he
  cases he with
  | quiet _ hn => rfl
  | admitted _ hc => exact hc.published_le.1
  | rejected hno => rw [hok] at hno; simp at hno

example : Admissible exWorld exWorldReq := by
  refine ⟨by decide +kernel, by decide +kernel, fun _ => ⟨[5], [6], ?_, by decide +kernel,
    by decide +kernel⟩, ?_⟩
  · exact ⟨[.config 1, .state 1, .config 2, .keepIn 5, .keepOut 6], [.area 3, .task 7 (.area 3)], rfl,
      by simp⟩
  · intro id hid
    have : id = 7 := by simpa [exWorldReq] using hid
    subst this
    exact ⟨.area 3, ⟨exWorld.take 7, [], rfl, by simp, by simp⟩, .inr (by decide +kernel)⟩

/-- **C54 is violated** without entity states. -/
theorem C54_planning_states_violated :
    let h : List In := [.config 1, .task 7 .nothing, .taskInitialized 7]
    let r : Req := { id := 10, entities := [1], tasks := [7], planning := [1] }
    Admissible h r ∧ (step (run h).1 (.request .plain r)).2 = [.answer .plain .error] := by
  refine ⟨⟨by simp, by simp, by simp, ?_⟩, by decide +kernel⟩
  intro id hid
  have : id = 7 := by simpa using hid
  subst this
  exact ⟨.nothing, ⟨[.config 1], [.taskInitialized 7], rfl, by simp, by simp⟩, trivial⟩

/-- **C54.** In every history a request that refers to something unknown is refused at once, with
an error of its own kind. -/
theorem C54_refused_with_error (h : List In) (k : Kind) (r : Req) (ha : ¬ Admissible h r) :
    (step (run h).1 (.request k r)).2 = [.answer k .error] := by
  have he := effect (run h).1 (.request k r)
  generalize (step (run h).1 (.request k r)).2 = out at he
  generalize (step (run h).1 (.request k r)).1 = s' at he
  cases he with
  | quiet _ hn => exact absurd rfl (hn k r)
  | admitted hok hc => exact absurd ((check_iff (known_inv h) r).1 hok).1 ha
  | rejected hno => rfl

example : ¬ Admissible exKnow { id := 10, entities := [2], tasks := [7] } := by
  intro h
  have := h.configs 2 (by simp)
  simp [exKnow] at this

/-- **C55, partial.** A request that names no vehicle is published only if some configuration and
some state were known when it arrived.

Missing: the configuration and the state need not be of the same vehicle
(`C55_no_complete_vehicle_violated`). -/
theorem C55_some_vehicle_partial (h : List In) (i : In) (r : Req)
    (hr : r ∈ published (step (run h).1 i).2) :
    ∃ h1 k h2, h ++ [i] = h1 ++ .request k r :: h2 ∧
      (∃ id, .config id ∈ h1) ∧ ∃ id, .state id ∈ h1 := by
  obtain ⟨h1, k, h2, h3, h4, -, h6, -⟩ := released_of_published h i r hr
  exact ⟨h1, k, _, h4, h6⟩

/-- **C55 is violated.** With the configuration of vehicle 1 and the state of vehicle 2 a request
for all vehicles is published, though no vehicle has both. -/
theorem C55_no_complete_vehicle_violated :
    let h : List In := [.config 1, .state 2]
    (step (run h).1 (.request .plain { id := 10 })).2 = [.publish { id := 10 }] ∧
      ¬ ∃ v, In.config v ∈ h ∧ In.state v ∈ h := by
  refine ⟨by decide +kernel, ?_⟩
  rintro ⟨v, h1, h2⟩
  simp at h1 h2
  omega

end Verif.Validator
