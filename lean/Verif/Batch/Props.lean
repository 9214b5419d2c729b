import Verif.Batch.Follow
import Verif.Options.Text

/-!
C103–C104: each request for summaries is split into automation requests and answered once.
-/

namespace Verif.Batch

open Verif Verif.Algebra

/-- What is sent in reaction to `o` after the messages `h`. -/
def sent (e : Env) (h : List Op) (o : Op) : List Out := ((runM (St.step e) {} h).1.step e o).2

/-- The ids of the automation requests that were sent for the request `r` after the messages `h`. -/
def asked (e : Env) (h : List Op) (r : Req) : List Int := askIds (sent e h (.request r))

/-- `id` is the last of the automation requests `ids` without a response in `h`. -/
def LastOf (ids : List Int) (h : List Op) (id : Int) : Prop :=
  id ∈ ids ∧ id ∉ received h ∧ ∀ i ∈ ids, i ≠ id → i ∈ received h

theorem left_last {ids : List Int} {h : List Op} {id : Int} (hl : LastOf ids h id) :
    id ∈ left ids h ∧ ((left ids h).filter fun x => !(x == id)) = [] := by
  refine ⟨List.mem_filter.mpr ⟨hl.1, by simpa using hl.2.1⟩, ?_⟩
  rw [List.filter_eq_nil_iff]
  intro x hx
  obtain ⟨h₁, h₂⟩ := List.mem_filter.mp hx
  by_cases hxe : x = id
  · simp [hxe]
  · have := hl.2.2 x h₁ hxe
    simp [this] at h₂

theorem addPerf_tasks (v : VSum) : ∀ sums : List TSum, (addPerf sums v).map (·.task) = sums.map (·.task)
  | [] => rfl
  | T :: sums => by
    rw [addPerf]
    split
    · rfl
    · simp [addPerf_tasks v sums]

theorem start_tasks (r : Req) : (start r).sums.map (·.task) = r.tasks := by
  have : ∀ (vs : List VSum) (sums : List TSum), (vs.foldl addPerf sums).map (·.task) = sums.map (·.task) := by
    intro vs
    induction vs with
    | nil => intro sums; rfl
    | cons v vs ih => intro sums; rw [List.foldl_cons, ih, addPerf_tasks]
  unfold start
  rw [this]
  simp [Function.comp_def]

theorem request_state {s : St} {r : Req} (h : asks r ≠ []) :
    (s.request r).1.pend.get s.nextResp = some (askIds (s.request r).2) ∧
    (s.request r).1.working.get s.nextResp = some (start r) := by
  rw [askIds_request]
  have hE : ¬(number s.nextReq (asks r)).isEmpty = true := by
    intro hh
    have := congrArg List.length (List.isEmpty_iff.mp hh)
    rw [number_length] at this
    exact h (List.length_eq_zero_iff.mp this)
  unfold St.request
  simp only
  rw [if_neg hE]
  simp only [Map.get_put, if_true, and_self]

theorem asked_nil {e : Env} {h : List Op} {r : Req} : asked e h r = [] ↔ asks r = [] := by
  show askIds (St.request _ r).2 = [] ↔ _
  rw [askIds_request]
  constructor
  · intro hh
    have := congrArg List.length hh
    rw [List.length_map, number_length] at this
    exact List.length_eq_zero_iff.mp this
  · intro hh; rw [hh]; rfl

/-- The state when the last response comes. -/
theorem at_last (e : Env) {pre : List Op} {r : Req} {mid : List Op} {id : Int} (hl : LastOf (asked e pre r) mid id) :
    ∃ k r', (runM (St.step e) {} (pre ++ .request r :: mid)).1.pend.get k = some (left (asked e pre r) mid) ∧
      (runM (St.step e) {} (pre ++ .request r :: mid)).1.working.get k = some r' ∧ r'.id = r.id ∧
      r'.sums.map (·.task) = r.tasks ∧
      (Shape (start r).sums → Evolves e (usedLegs (asked e pre r) mid) (start r).sums r'.sums) := by
  have hne : asks r ≠ [] := by
    intro hh
    have := hl.1
    rw [asked_nil.mpr hh] at this
    cases this
  have hi : Inv (runM (St.step e) {} pre).1 := inv_run e pre inv_init
  obtain ⟨hg, hw⟩ := request_state (s := (runM (St.step e) {} pre).1) hne
  have hll := (left_last hl).1
  obtain ⟨h₁, r', h₂, h₃, h₄, h₅⟩ := follow e mid (inv_step (e := e) hi (.request r)) hg hw
    (fun hh => by change left (asked e pre r) mid = [] at hh; rw [hh] at hll; cases hll) (fun _ => evolves_nil e (start r).sums)
  have hrun : (runM (St.step e) {} (pre ++ .request r :: mid)).1 =
      (runM (St.step e) ((runM (St.step e) {} pre).1.step e (.request r)).1 mid).1 := by
    rw [runM_append, runM_cons]
  refine ⟨(runM (St.step e) {} pre).1.nextResp, r', ?_, ?_, h₃, h₄.trans (start_tasks r), fun hs => by have := h₅ hs; rw [List.nil_append] at this; exact this⟩
  · rw [hrun]; exact h₁
  · rw [hrun]; exact h₂

/-- **C103** When the last of the automation requests for a request is answered, exactly one answer is sent, with the id of the
request and one summary for each of its tasks. -/
theorem C103_last (e : Env) (pre : List Op) (r : Req) (mid : List Op) (id : Int) (ms : List Mission)
    (hl : LastOf (asked e pre r) mid id) :
    ∃ a, sent e (pre ++ .request r :: mid) (.response id ms) = [.answer a] ∧ a.id = r.id ∧ a.sums.map (·.task) = r.tasks := by
  obtain ⟨k, r', hg, hw, hid, ht, _⟩ := at_last e hl
  have hi := inv_run e (pre ++ .request r :: mid) inv_init
  refine ⟨plansIn e (runM (St.step e) {} (pre ++ .request r :: mid)).1 ms r', ?_, hid, (plansIn_tasks ..).trans ht⟩
  show (St.response e _ id ms).2 = _
  rw [response_last hi hg (left_last hl).1 hw (left_last hl).2]

/-- **C103** A request that gives no automation requests is answered at once. -/
theorem C103_at_once (e : Env) (h : List Op) (r : Req) (hr : asked e h r = []) :
    ∃ a, sent e h (.request r) = [.answer a] ∧ a.id = r.id ∧ a.sums.map (·.task) = r.tasks := by
  refine ⟨start r, ?_, rfl, start_tasks r⟩
  show (St.request _ r).2 = _
  unfold St.request
  simp only
  rw [asked_nil.mp hr]
  rfl

/-- **C103** An answer is sent only for a request without automation requests or with the response to the last one, and then
nothing else is sent. -/
theorem C103_only (e : Env) (h : List Op) (o : Op) (a : Resp) (ha : .answer a ∈ sent e h o) :
    sent e h o = [.answer a] ∧
    ((∃ r, o = .request r ∧ asked e h r = [] ∧ a.id = r.id) ∨
      ∃ pre r mid id ms, h = pre ++ .request r :: mid ∧ o = .response id ms ∧ LastOf (asked e pre r) mid id ∧ a.id = r.id) := by
  have hi := inv_run e h inv_init
  cases o with
  | request r =>
    by_cases hr : asked e h r = []
    · obtain ⟨a', h₁, h₂, _⟩ := C103_at_once e h r hr
      rw [h₁] at ha
      simp only [List.mem_singleton, Out.answer.injEq] at ha
      subst ha
      exact ⟨h₁, .inl ⟨r, rfl, hr, h₂⟩⟩
    · exfalso
      have hE : ¬(number (runM (St.step e) {} h).1.nextReq (asks r)).isEmpty = true := by
        intro hh
        have := congrArg List.length (List.isEmpty_iff.mp hh)
        rw [number_length] at this
        exact hr (asked_nil.mpr (List.length_eq_zero_iff.mp this))
      change Out.answer a ∈ (St.request _ r).2 at ha
      unfold St.request at ha
      simp only at ha
      rw [if_neg hE] at ha
      simp at ha
  | response id ms =>
    change Out.answer a ∈ (St.response e _ id ms).2 at ha
    cases hf : (runM (St.step e) {} h).1.pend.find? (fun p => p.2.contains id) with
    | none => rw [response_none hf] at ha; cases ha
    | some p =>
      obtain ⟨k, ids⟩ := p
      obtain ⟨hg, hm⟩ := found hi hf
      obtain ⟨_, _, _, _, r', hw⟩ := hi.each k ids hg
      by_cases hl : (ids.filter fun x => !(x == id)) = []
      · obtain ⟨pre, r, mid, rfl, _, _, hids⟩ := origin e h hg
        have hlast : LastOf (asked e pre r) mid id := by
          change ids = left (asked e pre r) mid at hids
          rw [hids] at hm hl
          obtain ⟨hm₁, hm₂⟩ := List.mem_filter.mp hm
          refine ⟨hm₁, by simpa using hm₂, fun i hi' hne => ?_⟩
          apply Classical.byContradiction
          intro hn
          have : i ∈ ((left (asked e pre r) mid).filter fun x => !(x == id)) :=
            List.mem_filter.mpr ⟨List.mem_filter.mpr ⟨hi', by simpa using hn⟩, by simpa using hne⟩
          rw [hl] at this; cases this
        obtain ⟨a', h₁, h₂, _⟩ := C103_last e pre r mid id ms hlast
        have ha' : Out.answer a ∈ sent e (pre ++ .request r :: mid) (.response id ms) := ha
        rw [h₁] at ha'
        simp only [List.mem_singleton, Out.answer.injEq] at ha'
        subst ha'
        exact ⟨h₁, .inr ⟨pre, r, mid, id, ms, rfl, rfl, hlast, h₂⟩⟩
      · rw [response_more hi hg hm hw hl] at ha; cases ha
  | config | tower | state | towerState | zone => cases ha

/-- **C103** The answer to one request is sent once: the conditions of `C103_only` hold once after it. -/
theorem C103_once {ids : List Int} {mid rest : List Op} {id id' : Int} {ms : List Mission} (h : LastOf ids mid id) :
    ¬LastOf ids (mid ++ .response id ms :: rest) id' := by
  rintro ⟨h₁, h₂, _⟩
  have hr : ∀ i, i ∈ received mid ∨ i = id → i ∈ received (mid ++ .response id ms :: rest) := by
    intro i hi
    unfold received
    rw [List.filterMap_append, List.mem_append]
    rcases hi with hi | rfl
    · exact .inl hi
    · exact .inr (by simp)
  by_cases hid : id' = id
  · exact h₂ (hr _ (.inr hid))
  · exact h₂ (hr _ (.inl (h.2.2 id' h₁ hid)))

/-- The last response after which all of `ids` have one. -/
theorem exists_last {ids : List Int} (hne : ids ≠ []) : ∀ {h : List Op}, (∀ i ∈ ids, i ∈ received h) →
    ∃ mid id ms rest, h = mid ++ .response id ms :: rest ∧ LastOf ids mid id := by
  intro h
  induction h using snocRec with
  | nil =>
    intro hh
    obtain ⟨i, hi⟩ := List.exists_mem_of_ne_nil ids hne
    have := hh i hi
    simp [received] at this
  | append_singleton h o ih =>
    intro hh
    by_cases hall : ∀ i ∈ ids, i ∈ received h
    · obtain ⟨mid, id, ms, rest, rfl, hl⟩ := ih hall
      exact ⟨mid, id, ms, rest ++ [o], by simp, hl⟩
    · have : ∃ i ∈ ids, i ∉ received h := by
        apply Classical.byContradiction
        intro hn
        exact hall fun i hi => Classical.byContradiction fun hi' => hn ⟨i, hi, hi'⟩
      obtain ⟨i, hi, hi'⟩ := this
      have hsplit : ∀ j, j ∈ received (h ++ [o]) ↔ j ∈ received h ∨ j ∈ received [o] := by
        intro j; unfold received; rw [List.filterMap_append, List.mem_append]
      cases o with
      | response id ms =>
        have hone : received [.response id ms] = [id] := rfl
        have hii : i = id := by
          rcases (hsplit i).mp (hh i hi) with h₁ | h₁
          · exact absurd h₁ hi'
          · simpa [hone] using h₁
        subst hii
        refine ⟨h, i, ms, [], rfl, hi, hi', fun j hj hne' => ?_⟩
        rcases (hsplit j).mp (hh j hj) with h₁ | h₁
        · exact h₁
        · exact absurd (by simpa [hone] using h₁) hne'
      | _ =>
        rcases (hsplit i).mp (hh i hi) with h₁ | h₁
        · exact absurd h₁ hi'
        · cases h₁

/-- **C103** When all the automation requests for a request have been answered, so has the request. -/
theorem C103_complete (e : Env) (pre : List Op) (r : Req) (post : List Op)
    (hall : ∀ i ∈ asked e pre r, i ∈ received post) :
    ∃ a, .answer a ∈ ((runM (St.step e) {} (pre ++ .request r :: post)).2.drop pre.length).flatten ∧ a.id = r.id := by
  have hpre : (runM (St.step e) {} pre).2.length = pre.length := runM_length ..
  by_cases hr : asked e pre r = []
  · obtain ⟨a, h₁, h₂, _⟩ := C103_at_once e pre r hr
    refine ⟨a, ?_, h₂⟩
    rw [runM_append, ← hpre, List.drop_left, runM_cons]
    change ((runM (St.step e) {} pre).1.step e (.request r)).2 = _ at h₁
    simp [h₁]
  · obtain ⟨mid, id, ms, rest, rfl, hl⟩ := exists_last hr hall
    obtain ⟨a, h₁, h₂, _⟩ := C103_last e pre r mid id ms hl
    refine ⟨a, ?_, h₂⟩
    have : pre ++ .request r :: (mid ++ .response id ms :: rest) = pre ++ ((.request r :: mid) ++ (.response id ms :: rest)) := by
      simp
    rw [this, runM_append, ← hpre, List.drop_left, runM_append, List.flatten_append, List.mem_append]
    refine .inr ?_
    rw [runM_cons, List.flatten_cons, List.mem_append]
    refine .inl ?_
    rw [show (runM (St.step e) (runM (St.step e) {} pre).1 (.request r :: mid)).1 =
      (runM (St.step e) {} (pre ++ .request r :: mid)).1 from by rw [runM_append]]
    change sent e (pre ++ .request r :: mid) (.response id ms) = _ at h₁
    rw [show (St.step e (runM (St.step e) {} (pre ++ .request r :: mid)).1 (.response id ms)).2 = _ from h₁]
    simp

/-- Two vehicles and one task: two automation requests, answered in the other order. -/
def exReq : Req := ⟨7, [1, 2], [10], false, 3⟩

/-- Not in the code: an example. -/
def exEnv : Env := ⟨fun _ _ => 5, fun a b => (a - b).natAbs, fun _ _ => false⟩

example : LastOf (asked exEnv [] exReq) [.response 2 []] 1 := by
  refine ⟨by decide +kernel, by decide +kernel, ?_⟩
  have : asked exEnv [] exReq = [1, 2] := by decide +kernel
  rw [this]
  intro i hi hne
  simp only [List.mem_cons, List.not_mem_nil, or_false] at hi
  rcases hi with rfl | rfl
  · exact absurd rfl hne
  · decide

example : ∃ a, sent exEnv [.request exReq, .response 2 []] (.response 1 []) = [.answer a] ∧ a.id = 7 :=
  ⟨_, rfl, rfl⟩

/-! ### The automation requests -/

/-- **C104** Without relationships there is one automation request for each task and vehicle. -/
theorem C104_pairs (r : Req) (hr : r.related = false) (a : Ask) :
    a ∈ asks r ↔ ∃ t ∈ r.tasks, ∃ v ∈ r.vehicles, a.tasks = [t] ∧ a.vehicle = v ∧ a.relationships = [] ∧ a.region = 0 := by
  obtain ⟨ts, v, rel, reg⟩ := a
  unfold asks parts
  simp only [hr, Bool.not_false, if_true, List.mem_filterMap, List.mem_flatMap, List.mem_map]
  constructor
  · rintro ⟨p, ⟨t, ht, w, hw, rfl⟩, hp⟩
    simp only [Option.some.injEq, Ask.mk.injEq] at hp
    obtain ⟨rfl, rfl, rfl, rfl⟩ := hp
    exact ⟨t, ht, _, hw, rfl, rfl, rfl, rfl⟩
  · rintro ⟨t, ht, w, hw, rfl, rfl, rfl, rfl⟩
    exact ⟨_, ⟨t, ht, _, hw, rfl⟩, rfl⟩

/-- **C104** With relationships there is one automation request for each vehicle and two different tasks in order, and its
text reads: first the one, then the other. -/
theorem C104_orders (r : Req) (hr : r.related = true) (a : Ask) :
    (a ∈ asks r ↔ ∃ v ∈ r.vehicles, ∃ i ∈ r.tasks, ∃ j ∈ r.tasks, i ≠ j ∧
      a = ⟨[i, j], v, ['.', '(', 'p'] ++ idText i ++ [' ', 'p'] ++ idText j ++ [')'], 0⟩) ∧
    (a ∈ asks r → ∃ i j, a.tasks = [i, j] ∧ Options.Means a.relationships [i, j] (fun w => w = [i, j])) := by
  have hmem : a ∈ asks r ↔ ∃ v ∈ r.vehicles, ∃ i ∈ r.tasks, ∃ j ∈ r.tasks, i ≠ j ∧
      a = ⟨[i, j], v, ['.', '(', 'p'] ++ idText i ++ [' ', 'p'] ++ idText j ++ [')'], 0⟩ := by
    unfold asks parts
    simp only [hr, Bool.not_true, Bool.false_eq_true, if_false, List.mem_filterMap, List.mem_flatMap, List.mem_cons, List.mem_map,
      List.mem_filter]
    constructor
    · rintro ⟨p, ⟨v, hv, i, hi, rfl | ⟨j, ⟨hj, hij⟩, rfl⟩⟩, hp⟩
      · cases hp
      · refine ⟨v, hv, i, hi, j, hj, by simpa using hij, ?_⟩
        simp only [Option.some.injEq] at hp
        rw [← hp]
        simp [inOrder, Options.toString_idText]
    · rintro ⟨v, hv, i, hi, j, hj, hij, rfl⟩
      refine ⟨_, ⟨v, hv, i, hi, .inr ⟨j, ⟨hj, by simpa using hij⟩, rfl⟩⟩, ?_⟩
      simp [inOrder, Options.toString_idText]
  refine ⟨hmem, fun ha => ?_⟩
  obtain ⟨v, _, i, _, j, _, _, rfl⟩ := hmem.mp ha
  refine ⟨i, j, rfl, ?_⟩
  have hb : WrittenBody [.action i, .action j] ('p' :: idText i ++ (' ' :: 'p' :: idText j)) := by
    have h₂ : WrittenBody [.action j] ([' '] ++ ('p' :: idText j) ++ []) :=
      .cons Options.blanks_one (.action j) Options.body_nil (fun _ => .inl rfl)
    have h₁ := WrittenBody.cons (b := []) Options.blanks_nil (Written.action i) h₂ (fun _ => .inr ⟨_, rfl⟩)
    simpa using h₁
  have hw := Options.written_op .seq hb
  refine ⟨_, _, [], ?_, Options.blanks_nil, hw, ⟨_, _, rfl⟩, ?_, ?_⟩
  · simp [opText]
  · intro b
    have := Options.objectives_actions .seq [i, j]
    simp only [List.map_cons, List.map_nil] at this
    rw [this]
  · intro w
    exact Options.word_seq_actions (ids := [i, j])

/-- **C104** No automation request is sent twice when tasks and vehicles are listed once. -/
theorem C104_distinct (r : Req) (ht : r.tasks.Nodup) (hv : r.vehicles.Nodup) : (asks r).Nodup := by
  have hfm : ∀ {α β γ : Type} (l : List α) (f : α → List β) (g : β → Option γ),
      (l.flatMap f).filterMap g = l.flatMap fun a => (f a).filterMap g := by
    intro α β γ l f g
    induction l with
    | nil => rfl
    | cons a l ih => simp [List.filterMap_append, ih]
  unfold asks parts
  split
  · rw [hfm]
    refine nodup_flatMap ht (fun t _ => ?_) ?_
    · rw [List.filterMap_map]
      have : (r.vehicles.filterMap ((fun p : Option Ask × VSum => p.1) ∘ fun v => (some ⟨[t], v, [], 0⟩, { vehicle := v, initial := 0, dest := t }))) =
          r.vehicles.map fun v => (⟨[t], v, [], 0⟩ : Ask) := by
        rw [← List.filterMap_eq_map]; rfl
      rw [this]
      exact nodup_map hv (by intro a _ b _ hab; simpa using hab)
    · intro a _ b _ x hx hy
      simp only [List.mem_filterMap, List.mem_map] at hx hy
      obtain ⟨p, ⟨v, _, rfl⟩, hp⟩ := hx
      obtain ⟨q, ⟨w, _, rfl⟩, hq⟩ := hy
      simp only [Option.some.injEq] at hp hq
      rw [← hp] at hq
      simp only [Ask.mk.injEq, List.cons.injEq, and_true] at hq
      exact hq.1.symm
  · rw [hfm]
    refine nodup_flatMap hv (fun v _ => ?_) ?_
    · rw [hfm]
      refine nodup_flatMap ht (fun i _ => ?_) ?_
      · rw [List.filterMap_cons_none rfl, List.filterMap_map]
        have : ∀ l : List Int, (l.filterMap ((fun p : Option Ask × VSum => p.1) ∘ fun j =>
            (some ⟨[i, j], v, inOrder i j, 0⟩, { vehicle := v, initial := i, dest := j }))) =
            l.map fun j => (⟨[i, j], v, inOrder i j, 0⟩ : Ask) := by
          intro l
          rw [← List.filterMap_eq_map]; rfl
        rw [this]
        refine nodup_map (ht.sublist List.filter_sublist) ?_
        intro a _ b _ hab
        simp only [Ask.mk.injEq, List.cons.injEq, and_true, true_and] at hab
        exact hab.1
      · intro a _ b _ x hx hy
        simp only [List.mem_filterMap, List.mem_map, List.mem_cons] at hx hy
        obtain ⟨p, rfl | ⟨j, _, rfl⟩, hp⟩ := hx
        · cases hp
        obtain ⟨q, rfl | ⟨k, _, rfl⟩, hq⟩ := hy
        · cases hq
        simp only [Option.some.injEq] at hp hq
        rw [← hp] at hq
        simp only [Ask.mk.injEq, List.cons.injEq, and_true] at hq
        exact hq.1.1.symm
    · intro a _ b _ x hx hy
      simp only [List.mem_filterMap, List.mem_map, List.mem_cons, List.mem_flatMap] at hx hy
      obtain ⟨p, ⟨i, _, rfl | ⟨j, _, rfl⟩⟩, hp⟩ := hx
      · cases hp
      obtain ⟨q, ⟨i', _, rfl | ⟨k, _, rfl⟩⟩, hq⟩ := hy
      · cases hq
      simp only [Option.some.injEq] at hp hq
      rw [← hp] at hq
      simp only [Ask.mk.injEq] at hq
      exact hq.2.1.symm

theorem nextReq_mono (e : Env) : ∀ (h : List Op) (s : St), s.nextReq ≤ (runM (St.step e) s h).1.nextReq
  | [], _ => Int.le_refl _
  | o :: h, s => by
    rw [runM_cons]
    refine Int.le_trans ?_ (nextReq_mono e h _)
    cases o with
    | request r =>
      show _ ≤ (s.request r).1.nextReq
      unfold St.request
      simp only
      split <;> (simp only; omega)
    | response id ms =>
      show _ ≤ (s.response e id ms).1.nextReq
      unfold St.response
      split
      · exact Int.le_refl _
      · simp only; split <;> exact Int.le_refl _
    | _ => exact Int.le_refl _

/-- **C104** The automation requests are sent in order, each with an id that no automation request before had. -/
theorem C104_sent (e : Env) (h : List Op) (r : Req) (hr : asks r ≠ []) :
    (∃ ids : List Int, ids.Nodup ∧ ids.length = (asks r).length ∧
      sent e h (.request r) = List.zipWith Out.ask ids (asks r)) ∧
    ∀ pre q mid, h = pre ++ .request q :: mid → ∀ i ∈ asked e pre q, i ∉ asked e h r := by
  have hz : ∀ (as : List Ask) (n : Int), (number n as).map (fun p => Out.ask p.1 p.2) =
      List.zipWith Out.ask ((number n as).map (·.1)) as := by
    intro as
    induction as with
    | nil => intro n; rfl
    | cons a as ih => intro n; simp [number, ih]
  constructor
  · refine ⟨(number (runM (St.step e) {} h).1.nextReq (asks r)).map (·.1), number_nodup .., by rw [List.length_map, number_length], ?_⟩
    show (St.request _ r).2 = _
    have hE : ¬(number (runM (St.step e) {} h).1.nextReq (asks r)).isEmpty = true := by
      intro hh
      have := congrArg List.length (List.isEmpty_iff.mp hh)
      rw [number_length] at this
      exact hr (List.length_eq_zero_iff.mp this)
    unfold St.request
    simp only
    rw [if_neg hE]
    exact hz _ _
  · rintro pre q mid rfl i hi hi'
    change i ∈ askIds (St.request _ _).2 at hi
    change i ∈ askIds (St.request _ _).2 at hi'
    rw [askIds_request, number_fst] at hi hi'
    have h₁ := nextReq_mono e mid ((runM (St.step e) {} pre).1.step e (.request q)).1
    have h₂ : ((runM (St.step e) {} pre).1.step e (.request q)).1.nextReq =
        (runM (St.step e) {} pre).1.nextReq + (asks q).length := by
      show (St.request _ q).1.nextReq = _
      unfold St.request
      simp only
      split <;> simp only [number_length]
    rw [runM_append, runM_cons] at hi'
    simp only at hi'
    omega

/-- Two tasks in relation, for one vehicle. -/
def exRelated : Req := ⟨8, [1], [10, 20], true, 3⟩

example : asks exRelated = [⟨[10, 20], 1, ".(p10 p20)".toList, 0⟩, ⟨[20, 10], 1, ".(p20 p10)".toList, 0⟩] := by
  decide +kernel

/-- **C104** is violated for the operating region: no automation request has the region of the request. -/
theorem C104_violated_region (r : Req) : ∀ a ∈ asks r, a.region = 0 := by
  intro a ha
  cases hr : r.related with
  | false =>
    obtain ⟨_, _, _, _, _, _, _, h⟩ := (C104_pairs r hr a).mp ha
    exact h
  | true =>
    obtain ⟨_, _, _, _, _, _, _, rfl⟩ := (C104_orders r hr a).1.mp ha
    rfl

example : asks exReq ≠ [] ∧ exReq.region = 3 := by decide +kernel

/-- **C104** is violated for a single task with relationships: nothing is planned, and the summary says so by times of -1. -/
theorem C104_violated_single (e : Env) (h : List Op) (id v t region : Int) :
    sent e h (.request ⟨id, [v], [t], true, region⟩) =
      [.answer ⟨id, [⟨t, [{ vehicle := v, initial := 0, dest := t, onTask := -1, arrive := -1 }]⟩]⟩] := by
  show (St.request _ _).2 = _
  simp [St.request, asks, parts, number, start, addPerf]

end Verif.Batch
