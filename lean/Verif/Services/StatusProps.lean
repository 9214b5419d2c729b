import Verif.Services.Status

/-!
# Properties of status reports (C126)
-/

namespace Verif.Status

open Verif

/-! ### Specification -/

/-- Specification: the last step that says something of a kind. -/
def lastOf {α : Type} (f : Nat × Ev → Option α) (h : List (Nat × Ev)) : Option α := (h.filterMap f).getLast?

/-- Specification: when a state of the vehicle is received, and what it says. -/
def ownState (v : Int) (e : Nat × Ev) : Option (Nat × Int × List Int) :=
  match e.2 with
  | .recv (.state id t ts) => if v = id then some (e.1, t, ts) else none
  | _ => none

/-- Specification: when a keep-alive message is received, and what it says. -/
def aliveMsg (e : Nat × Ev) : Option (Nat × Bool × Bool × Bool) :=
  match e.2 with
  | .recv (.keepAlive a s g) => some (e.1, a, s, g)
  | _ => none

/-- Specification: an entity joins or exits. -/
def joins (x : Int) (e : Nat × Ev) : Option Bool :=
  match e.2 with
  | .recv (.join y) => if x = y then some true else none
  | .recv (.exit y) => if x = y then some false else none
  | _ => none

/-- Specification: a history of the service. -/
def run (c : Cfg) (h : List (Nat × Ev)) : State := (runM (step c) (init c) h).1

/-- Specification: how many reports were sent. -/
def sent (c : Cfg) (h : List (Nat × Ev)) : Nat := ((runM (step c) (init c) h).2.filterMap id).length

/-- Specification: a queued timer is never more than `L` overdue, nor is a handler still being called. -/
def Timely (c : Cfg) (L : Nat) (h : List (Nat × Ev)) : Prop :=
  ∀ p e q, h = p ++ e :: q → (∀ k d, (run c p).due k = some d → e.1 ≤ d + L) ∧
    ∀ k d b, (run c p).running = some (k, d, b) → e.1 ≤ d + L

/-- Specification: time does not go back. -/
def Mono (h : List (Nat × Ev)) : Prop := h.Pairwise fun a b => a.1 ≤ b.1

/-! ### Lemmas -/

theorem lastOf_snoc {α : Type} (f : Nat × Ev → Option α) (h : List (Nat × Ev)) (e : Nat × Ev) :
    lastOf f (h ++ [e]) = (f e).or (lastOf f h) := by
  unfold lastOf
  rw [List.filterMap_append]
  cases hf : f e with
  | none => simp [hf]
  | some x => simp [hf]

theorem run_snoc (c : Cfg) (h : List (Nat × Ev)) (e : Nat × Ev) : run c (h ++ [e]) = (step c (run c h) e).1 := by
  unfold run; rw [runM_snoc]

theorem sent_snoc (c : Cfg) (h : List (Nat × Ev)) (e : Nat × Ev) :
    sent c (h ++ [e]) = sent c h + (if (step c (run c h) e).2.isSome then 1 else 0) := by
  unfold sent run
  rw [runM_snoc, List.filterMap_append, List.length_append]
  cases (step c (runM (step c) (init c) h).1 e).2 <;> simp

theorem mem_insertId {x y : Int} : ∀ {l : List Int}, y ∈ insertId x l ↔ y = x ∨ y ∈ l
  | [] => by simp [insertId]
  | z :: l => by
    unfold insertId
    split
    · simp
    · split
      · rename_i h; subst h; simp
      · simp only [List.mem_cons, mem_insertId (l := l)]; grind

theorem insertId_sorted {x : Int} : ∀ {l : List Int}, l.Pairwise (· < ·) → (insertId x l).Pairwise (· < ·)
  | [], _ => by simp [insertId]
  | z :: l, h => by
    unfold insertId
    rw [List.pairwise_cons] at h
    split
    · rename_i hx
      refine List.pairwise_cons.mpr ⟨?_, List.pairwise_cons.mpr h⟩
      intro w hw
      rcases List.mem_cons.mp hw with rfl | hw
      · exact hx
      · have := h.1 w hw; omega
    · split
      · exact List.pairwise_cons.mpr h
      · refine List.pairwise_cons.mpr ⟨?_, insertId_sorted h.2⟩
        intro w hw
        rcases mem_insertId.mp hw with rfl | hw
        · omega
        · exact h.1 w hw

theorem fire_rep (s : State) (now : Nat) (k : Kind) :
    (fire s now k).rep = s.rep ∧ (fire s now k).conns = s.conns ∧ (fire s now k).ub = s.ub := by
  unfold fire
  split
  · split <;> exact ⟨rfl, rfl, rfl⟩
  · exact ⟨rfl, rfl, rfl⟩

theorem finish_rep (c : Cfg) (s : State) : (finish c s).rep = s.rep ∧ (finish c s).conns = s.conns := by
  unfold finish
  split
  · split <;> exact ⟨rfl, rfl⟩
  · exact ⟨rfl, rfl⟩
  · exact ⟨rfl, rfl⟩

theorem step_ok {c : Cfg} {s : State} {e : Nat × Ev} (hu : s.ub = false) :
    step c s e = match e.2 with
      | .recv m => (recv c s e.1 m, none)
      | .fire k => (fire s e.1 k, none)
      | .body => body s
      | .finish => (finish c s, none) := by
  unfold step
  rw [if_neg (by rw [hu]; simp)]
  obtain ⟨n, ev⟩ := e
  cases ev <;> rfl

/-- What the report says of vehicle, tasks and connections after a history. -/
structure Contents (c : Cfg) (h : List (Nat × Ev)) (s : State) : Prop where
  vehicle : s.rep.vehicle = c.vehicle
  state : (s.rep.time, s.rep.tasks) = ((lastOf (ownState c.vehicle) h).map (·.2)).getD (0, [])
  same : s.rep.connected = s.conns
  sorted : s.conns.Pairwise (· < ·)
  mem : ∀ x, x ∈ s.conns ↔ lastOf (joins x) h = some true

theorem contents (c : Cfg) (h : List (Nat × Ev)) : (run c h).ub = false → Contents c h (run c h) := by
  induction h using snocRec with
  | nil => intro _; exact ⟨rfl, rfl, rfl, List.Pairwise.nil, fun x => by simp [run, init, lastOf]⟩
  | append_singleton h e ih =>
    intro hub
    rw [run_snoc] at hub ⊢
    cases hu : (run c h).ub with
    | true => rw [step, if_pos hu] at hub; rw [hu] at hub; cases hub
    | false =>
      have I := ih hu
      obtain ⟨now, ev⟩ := e
      unfold step
      rw [if_neg (by rw [hu]; simp)]
      have plain : ∀ s' : State, s'.rep.vehicle = (run c h).rep.vehicle → s'.rep.time = (run c h).rep.time →
          s'.rep.tasks = (run c h).rep.tasks → s'.rep.connected = (run c h).rep.connected → s'.conns = (run c h).conns →
          (ownState c.vehicle (now, ev) = none) → (∀ x, joins x (now, ev) = none) → Contents c (h ++ [(now, ev)]) s' := by
        intro s' e1 e2 e3 e4 e5 e6 e7
        refine ⟨e1.trans I.vehicle, ?_, by rw [e4, e5]; exact I.same, by rw [e5]; exact I.sorted, fun x => ?_⟩
        · rw [e2, e3, lastOf_snoc, e6]; exact I.state
        · rw [e5, lastOf_snoc, e7]; exact I.mem x
      cases ev with
      | fire k =>
        have := fire_rep (run c h) now k
        exact plain _ (by rw [this.1]) (by rw [this.1]) (by rw [this.1]) (by rw [this.1]) this.2.1 rfl fun _ => rfl
      | finish =>
        have := finish_rep c (run c h)
        exact plain _ (by rw [this.1]) (by rw [this.1]) (by rw [this.1]) (by rw [this.1]) this.2 rfl fun _ => rfl
      | body =>
        show Contents c _ (body (run c h)).1
        unfold body
        split <;> exact plain _ rfl rfl rfl rfl rfl rfl fun _ => rfl
      | recv m =>
        show Contents c _ (recv c (run c h) now m)
        cases m with
        | other => exact plain _ rfl rfl rfl rfl rfl rfl fun _ => rfl
        | keepAlive a sp g => exact plain _ rfl rfl rfl rfl rfl rfl fun _ => rfl
        | state id t ts =>
          unfold recv
          dsimp only
          by_cases hv : c.vehicle = id
          · rw [if_pos hv]
            refine ⟨I.vehicle, ?_, I.same, I.sorted, fun x => ?_⟩
            · rw [lastOf_snoc]; simp [ownState, hv]
            · rw [lastOf_snoc]; exact I.mem x
          · rw [if_neg hv]
            exact plain _ rfl rfl rfl rfl rfl (by simp [ownState, hv]) fun _ => rfl
        | join id =>
          refine ⟨I.vehicle, by rw [lastOf_snoc]; exact I.state, rfl, insertId_sorted I.sorted, fun x => ?_⟩
          show x ∈ insertId id _ ↔ _
          rw [lastOf_snoc, mem_insertId, I.mem x]
          simp only [joins]
          by_cases hx : x = id
          · simp [hx]
          · simp [hx]
        | exit id =>
          refine ⟨I.vehicle, by rw [lastOf_snoc]; exact I.state, rfl, I.sorted.filter _, fun x => ?_⟩
          show x ∈ List.filter _ _ ↔ _
          rw [lastOf_snoc, List.mem_filter, I.mem x]
          simp only [joins]
          by_cases hx : x = id
          · simp [hx]
          · simp [hx]

/-- A report is sent by the handler of the report timer. -/
theorem step_some {c : Cfg} {s : State} {e : Nat × Ev} {r : Report} (h : (step c s e).2 = some r) :
    s.ub = false ∧ e.2 = .body ∧ r = s.rep ∧ ∃ d, s.running = some (.report, d, false) := by
  unfold step at h
  cases hu : s.ub with
  | true => rw [if_pos hu] at h; cases h
  | false =>
    rw [if_neg (by rw [hu]; simp)] at h
    refine ⟨rfl, ?_⟩
    split at h
    · cases h
    · cases h
    · rename_i he
      refine ⟨he, ?_⟩
      unfold body at h
      split at h
      · rename_i d hr
        injection h with h
        exact ⟨h.symm, d, hr⟩
      · cases h
      · cases h
      · cases h
    · cases h

/-! ### Theorems -/

/-- **C126.**  A report names the vehicle, the time and the tasks of the last state received of the vehicle, and exactly the
entities that joined and did not exit since. -/
theorem C126_contents {c : Cfg} {h : List (Nat × Ev)} {e : Nat × Ev} {r : Report} (hr : (step c (run c h) e).2 = some r) :
    r.vehicle = c.vehicle ∧ (r.time, r.tasks) = ((lastOf (ownState c.vehicle) h).map (·.2)).getD (0, []) ∧
      r.connected.Pairwise (· < ·) ∧ ∀ x, x ∈ r.connected ↔ lastOf (joins x) h = some true := by
  obtain ⟨hu, -, rfl, -⟩ := step_some hr
  have I := contents c h hu
  exact ⟨I.vehicle, I.state, by rw [I.same]; exact I.sorted, fun x => by rw [I.same]; exact I.mem x⟩

/-- The flags of the report are those of the last messages, whose timers are still queued. -/
structure Flags (c : Cfg) (h : List (Nat × Ev)) (s : State) : Prop where
  stale : s.rep.validState = true → ∃ x, lastOf (ownState c.vehicle) h = some x ∧
    (s.due .stale = some (x.1 + c.staleTime) ∨ ∃ d, s.running = some (.stale, d, false))
  alive : (s.rep.auth || s.rep.speed || s.rep.gimbal) = true → ∃ x, lastOf aliveMsg h = some x ∧
    x.2 = (s.rep.auth, s.rep.speed, s.rep.gimbal) ∧
    (s.due .alive = some (x.1 + c.aliveTime) ∨ ∃ d, s.running = some (.alive, d, false))

theorem flags (c : Cfg) (h : List (Nat × Ev)) : (run c h).ub = false → Flags c h (run c h) := by
  induction h using snocRec with
  | nil => intro _; exact ⟨fun h => by simp [run, init] at h, fun h => by simp [run, init] at h⟩
  | append_singleton h e ih =>
    intro hub
    rw [run_snoc] at hub ⊢
    cases hu : (run c h).ub with
    | true => rw [step, if_pos hu] at hub; rw [hu] at hub; cases hub
    | false =>
      have I := ih hu
      generalize run c h = s at *
      obtain ⟨now, ev⟩ := e
      unfold step
      rw [if_neg (by rw [hu]; simp)]
      cases ev with
      | fire k =>
        show Flags c _ (fire s now k)
        have hrep := (fire_rep s now k).1
        have key : ∀ k' : Kind, ∀ D : Nat, (s.due k' = some D ∨ ∃ d, s.running = some (k', d, false)) →
            ((fire s now k).due k' = some D ∨ ∃ d, (fire s now k).running = some (k', d, false)) := by
          intro k' D hd
          unfold fire
          split
          · rename_i d hrun hdue
            split
            · rcases hd with hd | ⟨d', hd⟩
              · by_cases hk : k' = k
                · subst hk; right; exact ⟨d, rfl⟩
                · left; simp [arm, hk, hd]
              · rw [hrun] at hd; cases hd
            · exact hd
          · exact hd
        refine ⟨fun hv => ?_, fun hv => ?_⟩
        · rw [hrep] at hv
          obtain ⟨x, hx, hd⟩ := I.stale hv
          exact ⟨x, by rw [lastOf_snoc]; exact hx, key _ _ hd⟩
        · rw [hrep] at hv ⊢
          obtain ⟨x, hx, h2, hd⟩ := I.alive hv
          exact ⟨x, by rw [lastOf_snoc]; exact hx, h2, key _ _ hd⟩
      | finish =>
        show Flags c _ (finish c s)
        have hrep := (finish_rep c s).1
        have key : ∀ k' : Kind, k' ≠ .report → ∀ D : Nat, (s.due k' = some D ∨ ∃ d, s.running = some (k', d, false)) →
            ((finish c s).due k' = some D ∨ ∃ d, (finish c s).running = some (k', d, false)) := by
          intro k' hk D hd
          unfold finish
          split
          · rename_i d hrun
            rcases hd with hd | ⟨d', hd⟩
            · left; split <;> simp [arm, hk, hd]
            · rw [hrun] at hd; simp at hd
          · rename_i hrun
            rcases hd with hd | ⟨d', hd⟩
            · left; exact hd
            · rw [hrun] at hd; simp at hd
          · exact hd
        refine ⟨fun hv => ?_, fun hv => ?_⟩
        · rw [hrep] at hv
          obtain ⟨x, hx, hd⟩ := I.stale hv
          exact ⟨x, by rw [lastOf_snoc]; exact hx, key _ (by simp) _ hd⟩
        · rw [hrep] at hv ⊢
          obtain ⟨x, hx, h2, hd⟩ := I.alive hv
          exact ⟨x, by rw [lastOf_snoc]; exact hx, h2, key _ (by simp) _ hd⟩
      | body =>
        show Flags c _ (body s).1
        unfold body
        split
        · rename_i d hrun
          refine ⟨fun hv => ?_, fun hv => ?_⟩
          · obtain ⟨x, hx, hd⟩ := I.stale hv
            refine ⟨x, by rw [lastOf_snoc]; exact hx, ?_⟩
            rcases hd with hd | ⟨d', hd⟩
            · exact .inl hd
            · rw [hrun] at hd; simp at hd
          · obtain ⟨x, hx, h2, hd⟩ := I.alive hv
            refine ⟨x, by rw [lastOf_snoc]; exact hx, h2, ?_⟩
            rcases hd with hd | ⟨d', hd⟩
            · exact .inl hd
            · rw [hrun] at hd; simp at hd
        · rename_i d hrun
          refine ⟨fun hv => ?_, fun hv => by simp at hv⟩
          obtain ⟨x, hx, hd⟩ := I.stale hv
          refine ⟨x, by rw [lastOf_snoc]; exact hx, ?_⟩
          rcases hd with hd | ⟨d', hd⟩
          · exact .inl hd
          · rw [hrun] at hd; simp at hd
        · rename_i d hrun
          refine ⟨fun hv => by simp at hv, fun hv => ?_⟩
          obtain ⟨x, hx, h2, hd⟩ := I.alive hv
          refine ⟨x, by rw [lastOf_snoc]; exact hx, h2, ?_⟩
          rcases hd with hd | ⟨d', hd⟩
          · exact .inl hd
          · rw [hrun] at hd; simp at hd
        · refine ⟨fun hv => ?_, fun hv => ?_⟩
          · obtain ⟨x, hx, hd⟩ := I.stale hv
            exact ⟨x, by rw [lastOf_snoc]; exact hx, hd⟩
          · obtain ⟨x, hx, h2, hd⟩ := I.alive hv
            exact ⟨x, by rw [lastOf_snoc]; exact hx, h2, hd⟩
      | recv m =>
        show Flags c _ (recv c s now m)
        have same : ∀ s' : State, s'.rep.validState = s.rep.validState → s'.rep.auth = s.rep.auth → s'.rep.speed = s.rep.speed →
            s'.rep.gimbal = s.rep.gimbal → s'.due = s.due → s'.running = s.running → ownState c.vehicle (now, .recv m) = none →
            aliveMsg (now, .recv m) = none → Flags c (h ++ [(now, .recv m)]) s' := by
          intro s' e1 e2 e3 e4 e5 e6 e7 e8
          refine ⟨fun hv => ?_, fun hv => ?_⟩
          · rw [e1] at hv
            obtain ⟨x, hx, hd⟩ := I.stale hv
            exact ⟨x, by rw [lastOf_snoc, e7]; exact hx, by rw [e5, e6]; exact hd⟩
          · rw [e2, e3, e4] at hv
            obtain ⟨x, hx, h2, hd⟩ := I.alive hv
            exact ⟨x, by rw [lastOf_snoc, e8]; exact hx, by rw [e2, e3, e4]; exact h2, by rw [e5, e6]; exact hd⟩
        cases m with
        | other => exact same _ rfl rfl rfl rfl rfl rfl rfl rfl
        | join id => exact same _ rfl rfl rfl rfl rfl rfl rfl rfl
        | exit id => exact same _ rfl rfl rfl rfl rfl rfl rfl rfl
        | keepAlive a sp g =>
          refine ⟨fun hv => ?_, fun hv => ?_⟩
          · obtain ⟨x, hx, hd⟩ := I.stale hv
            exact ⟨x, by rw [lastOf_snoc]; exact hx, by simpa [recv, arm] using hd⟩
          · exact ⟨(now, a, sp, g), by rw [lastOf_snoc]; rfl, rfl, by left; simp [recv, arm]⟩
        | state id t ts =>
          unfold recv
          dsimp only
          by_cases hv : c.vehicle = id
          · rw [if_pos hv]
            refine ⟨fun _ => ⟨(now, t, ts), by rw [lastOf_snoc]; simp [ownState, hv], ?_⟩, fun h2 => ?_⟩
            · left
              split <;> simp [arm]
            · obtain ⟨x, hx, h3, hd⟩ := I.alive h2
              refine ⟨x, by rw [lastOf_snoc]; exact hx, h3, ?_⟩
              rcases hd with hd | hd
              · left
                split <;> simp [arm, hd]
              · exact .inr hd
          · rw [if_neg hv]
            exact same _ rfl rfl rfl rfl rfl rfl (by simp [ownState, hv]) rfl

/-- **C126.**  A report that says that the state is valid is sent no later after the last state received of the vehicle than the
time configured, up to the delay of the timers. -/
theorem C126_stale {c : Cfg} {L : Nat} {h : List (Nat × Ev)} {e : Nat × Ev} {r : Report} (ht : Timely c L (h ++ [e]))
    (hr : (step c (run c h) e).2 = some r) (hv : r.validState = true) :
    ∃ x, lastOf (ownState c.vehicle) h = some x ∧ e.1 ≤ x.1 + c.staleTime + L := by
  obtain ⟨hu, -, rfl, d, hd⟩ := step_some hr
  obtain ⟨x, hx, hq⟩ := (flags c h hu).stale hv
  refine ⟨x, hx, ?_⟩
  rcases hq with hq | ⟨d', hq⟩
  · exact (ht h e [] rfl).1 _ _ hq
  · rw [hd] at hq; simp at hq

/-- **C126.**  The authorisations of a report are all withheld, or are those of the last keep-alive message, which was received no
longer ago than the time configured, up to the delay of the timers. -/
theorem C126_authorised {c : Cfg} {L : Nat} {h : List (Nat × Ev)} {e : Nat × Ev} {r : Report} (ht : Timely c L (h ++ [e]))
    (hr : (step c (run c h) e).2 = some r) :
    (r.auth = false ∧ r.speed = false ∧ r.gimbal = false) ∨
      ∃ x, lastOf aliveMsg h = some x ∧ x.2 = (r.auth, r.speed, r.gimbal) ∧ e.1 ≤ x.1 + c.aliveTime + L := by
  obtain ⟨hu, -, rfl, d, hd⟩ := step_some hr
  cases hv : ((run c h).rep.auth || (run c h).rep.speed || (run c h).rep.gimbal) with
  | false => left; simpa [and_assoc] using hv
  | true =>
    right
    obtain ⟨x, hx, h2, hq⟩ := (flags c h hu).alive hv
    refine ⟨x, hx, h2, ?_⟩
    rcases hq with hq | ⟨d', hq⟩
    · exact (ht h e [] rfl).1 _ _ hq
    · rw [hd] at hq; simp at hq

/-- The state is fresh: its timer is queued and its handler is not about to be called. -/
structure Fresh (D : Nat) (s : State) : Prop where
  valid : s.rep.validState = true
  due : s.due .stale = some D
  notRunning : ∀ d, s.running ≠ some (.stale, d, false)

theorem fresh_step {c : Cfg} {D : Nat} {s : State} (I : Fresh D s) {e : Nat × Ev} (he : e.1 < D)
    (ho : ownState c.vehicle e = none) : Fresh D (step c s e).1 := by
  unfold step
  split
  · exact I
  obtain ⟨now, ev⟩ := e
  cases ev with
  | recv m =>
    cases m with
    | other => exact ⟨I.valid, I.due, I.notRunning⟩
    | join id => exact ⟨I.valid, I.due, I.notRunning⟩
    | exit id => exact ⟨I.valid, I.due, I.notRunning⟩
    | keepAlive a sp g => exact ⟨I.valid, by simpa [recv, arm] using I.due, I.notRunning⟩
    | state id t ts =>
      have hv : c.vehicle ≠ id := by
        intro hv; simp [ownState, hv] at ho
      show Fresh D (if c.vehicle = id then _ else s)
      rw [if_neg hv]; exact I
  | fire k =>
    show Fresh D (fire s now k)
    unfold fire
    split
    · rename_i d hrun hdue
      split
      · rename_i hc
        have hk : k ≠ .stale := by
          rintro rfl
          rw [I.due] at hdue; injection hdue with hdue
          have := hc.1
          simp only at he
          omega
        refine ⟨I.valid, by simp [arm, I.due, hk.symm], fun d' h' => ?_⟩
        injection h' with h'
        injection h' with h'
        exact hk h'
      · exact I
    · exact I
  | body =>
    show Fresh D (body s).1
    unfold body
    split
    · exact ⟨I.valid, I.due, by simp⟩
    · exact ⟨I.valid, I.due, by simp⟩
    · rename_i d hrun; exact absurd hrun (I.notRunning d)
    · exact I
  | finish =>
    show Fresh D (finish c s)
    unfold finish
    split
    · split
      · exact ⟨I.valid, I.due, by simp⟩
      · exact ⟨I.valid, by simp [arm, I.due], by simp⟩
    · exact ⟨I.valid, I.due, by simp⟩
    · exact I

theorem fresh_run {c : Cfg} {D : Nat} : ∀ (q : List (Nat × Ev)) {s : State}, Fresh D s → (∀ e ∈ q, e.1 < D) →
    (∀ e ∈ q, ownState c.vehicle e = none) → Fresh D (runM (step c) s q).1
  | [], _, I, _, _ => I
  | e :: q, s, I, h1, h2 => by
    rw [runM_cons]
    exact fresh_run q (fresh_step I (h1 e (.head _)) (h2 e (.head _))) (fun x hx => h1 x (.tail _ hx)) fun x hx => h2 x (.tail _ hx)

/-- **C126.**  A report that is sent before the time configured has passed since a state of the vehicle was received says that the
state is valid, if the handler of the stale timer was not being called when that state arrived. -/
theorem C126_fresh_partial {c : Cfg} {p q : List (Nat × Ev)} {t : Nat} {time : Int} {tasks : List Int} {e : Nat × Ev} {r : Report}
    (hr : (step c (run c (p ++ (t, .recv (.state c.vehicle time tasks)) :: q)) e).2 = some r)
    (hrun : ∀ d, (run c p).running ≠ some (.stale, d, false)) (ht : ∀ x ∈ q, x.1 < t + c.staleTime)
    (hno : ∀ x ∈ q, ownState c.vehicle x = none) : r.validState = true := by
  obtain ⟨hu, -, rfl, d, hd⟩ := step_some hr
  have hu' : (run c p).ub = false := by
    cases hb : (run c p).ub with
    | false => rfl
    | true =>
      have key : ∀ (l : List (Nat × Ev)) (s : State), s.ub = true → (runM (step c) s l).1.ub = true := by
        intro l
        induction l with
        | nil => intro s h; exact h
        | cons x l ih =>
          intro s h
          rw [runM_cons]
          exact ih _ (by unfold step; rw [if_pos h]; exact h)
      unfold run at hu hb
      rw [runM_append] at hu
      rw [key _ _ hb] at hu
      cases hu
  have e1 : run c (p ++ (t, .recv (.state c.vehicle time tasks)) :: q) =
      (runM (step c) (recv c (run c p) t (.state c.vehicle time tasks)) q).1 := by
    unfold run
    rw [runM_append, runM_cons]
    have : (step c (run c p) (t, .recv (.state c.vehicle time tasks))).1 = recv c (run c p) t (.state c.vehicle time tasks) := by
      rw [step_ok hu']
    show (runM (step c) (step c (run c p) (t, .recv (.state c.vehicle time tasks))).1 q).1 = _
    rw [this]
    rfl
  rw [e1]
  refine (fresh_run (D := t + c.staleTime) q ?_ ht hno).valid
  simp only [recv, if_pos]
  refine ⟨rfl, ?_, hrun⟩
  dsimp only
  split <;> simp [arm]

/-- Where the report timer is after `n` reports. -/
structure Periodic (c : Cfg) (h : List (Nat × Ev)) (n : Nat) (s : State) : Prop where
  queued : (∀ d b, s.running ≠ some (.report, d, b)) → s.due .report = some ((n + 1) * c.period)
  before : ∀ d, s.running = some (.report, d, false) → d = (n + 1) * c.period ∧ ∃ e ∈ h, d ≤ e.1
  after : ∀ d, s.running = some (.report, d, true) → d = n * c.period
  past : n * c.period = 0 ∨ ∃ e ∈ h, n * c.period ≤ e.1

theorem periodic (c : Cfg) (h : List (Nat × Ev)) : (run c h).ub = false → Periodic c h (sent c h) (run c h) := by
  induction h using snocRec with
  | nil =>
    intro _
    refine ⟨fun _ => ?_, fun d hd => ?_, fun d hd => ?_, .inl ?_⟩
    · simp [run, init, arm, sent]
    · simp [run, init] at hd
    · simp [run, init] at hd
    · simp [sent]
  | append_singleton h e ih =>
    intro hub
    rw [run_snoc] at hub ⊢
    rw [sent_snoc]
    cases hu : (run c h).ub with
    | true => rw [step, if_pos hu] at hub; rw [hu] at hub; cases hub
    | false =>
      have I := ih hu
      generalize run c h = s at *
      generalize sent c h = n at *
      have wide : ∀ {m : Nat}, (∃ e ∈ h, m ≤ e.1) → ∃ x ∈ h ++ [e], m ≤ x.1 := by
        rintro m ⟨x, hx, hm⟩; exact ⟨x, List.mem_append_left _ hx, hm⟩
      have past : n * c.period = 0 ∨ ∃ x ∈ h ++ [e], n * c.period ≤ x.1 := I.past.imp_right wide
      obtain ⟨now, ev⟩ := e
      rw [step_ok hu] at hub ⊢
      cases ev with
      | recv m =>
        show Periodic c _ (n + 0) (recv c s now m)
        rw [Nat.add_zero]
        have hrun : (recv c s now m).running = s.running := by
          cases m <;> try rfl
          simp only [recv]; split <;> rfl
        have hdue : (s.due .report).isSome → (recv c s now m).due .report = s.due .report := by
          intro hs
          cases m with
          | state id t ts =>
            simp only [recv]
            split
            · have : (arm s.due .stale (some (now + c.staleTime)) .report).isSome = true := by simpa [arm] using hs
              simp only [this, if_true]
              simp [arm]
            · rfl
          | keepAlive a sp g => simp [recv, arm]
          | join id => rfl
          | exit id => rfl
          | other => rfl
        refine ⟨fun hq => ?_, fun d hd => ?_, fun d hd => ?_, past⟩
        · rw [hrun] at hq
          have := I.queued hq
          rw [hdue (by rw [this]; rfl), this]
        · rw [hrun] at hd
          exact ⟨(I.before d hd).1, wide (I.before d hd).2⟩
        · rw [hrun] at hd; exact I.after d hd
      | fire k =>
        show Periodic c _ (n + 0) (fire s now k)
        rw [Nat.add_zero]
        unfold fire
        split
        · rename_i d hrun hdue
          split
          · rename_i hc
            have hq := I.queued (by rw [hrun]; simp)
            refine ⟨fun hn => ?_, fun d' hd' => ?_, fun d' hd' => by simp at hd', past⟩
            · have hk : Kind.report ≠ k := by
                rintro rfl; exact hn d false rfl
              simp [arm, hk, hq]
            · simp only [Option.some.injEq, Prod.mk.injEq, and_true] at hd'
              obtain ⟨rfl, rfl⟩ := hd'
              rw [hdue] at hq; injection hq with hq
              exact ⟨hq, (now, .fire .report), by simp, hc.1⟩
          · exact ⟨I.queued, fun d hd => ⟨(I.before d hd).1, wide (I.before d hd).2⟩, I.after, past⟩
        · exact ⟨I.queued, fun d hd => ⟨(I.before d hd).1, wide (I.before d hd).2⟩, I.after, past⟩
      | body =>
        show Periodic c _ (n + if (body s).2.isSome = true then 1 else 0) (body s).1
        unfold body
        split
        · rename_i d hrun
          obtain ⟨h1, h2⟩ := I.before d hrun
          simp only [Option.isSome_some, if_true]
          refine ⟨fun hn => absurd rfl (hn d true), fun d' hd' => by simp at hd', fun d' hd' => ?_, .inr ?_⟩
          · simp only [Option.some.injEq, Prod.mk.injEq, and_true, true_and] at hd'
            rw [← hd', h1]
          · rw [← h1]; exact wide h2
        · rename_i d hrun
          have hq := I.queued (by rw [hrun]; simp)
          simp only [Option.isSome_none, Bool.false_eq_true, if_false, Nat.add_zero]
          exact ⟨fun _ => hq, fun d' hd' => by simp at hd', fun d' hd' => by simp at hd', past⟩
        · rename_i d hrun
          have hq := I.queued (by rw [hrun]; simp)
          simp only [Option.isSome_none, Bool.false_eq_true, if_false, Nat.add_zero]
          exact ⟨fun _ => hq, fun d' hd' => by simp at hd', fun d' hd' => by simp at hd', past⟩
        · simp only [Option.isSome_none, Bool.false_eq_true, if_false, Nat.add_zero]
          exact ⟨I.queued, fun d hd => ⟨(I.before d hd).1, wide (I.before d hd).2⟩, I.after, past⟩
      | finish =>
        show Periodic c _ (n + 0) (finish c s)
        rw [Nat.add_zero]
        have hub' : (finish c s).ub = false := hub
        unfold finish at hub' ⊢
        split
        · rename_i d hrun
          split
          · rename_i hs
            simp only [hrun, hs, if_true] at hub'
            cases hub'
          · have := I.after d hrun
            refine ⟨fun _ => ?_, fun d' hd' => by simp at hd', fun d' hd' => by simp at hd', past⟩
            simp only [arm, if_true]
            rw [this, Nat.succ_mul]
        · rename_i k d hk hrun
          have hq := I.queued (by
            intro d' b' h'
            rw [hrun] at h'
            simp only [Option.some.injEq, Prod.mk.injEq] at h'
            exact hk h'.1)
          exact ⟨fun _ => hq, fun d' hd' => by simp at hd', fun d' hd' => by simp at hd', past⟩
        · exact ⟨I.queued, fun d hd => ⟨(I.before d hd).1, wide (I.before d hd).2⟩, I.after, past⟩

/-- **C126.**  Reports are sent at the period configured: at any time no more reports were sent than periods have passed and, with
timers that are no more than `L` late, no more than one is missing.  Partial: as long as the queue of the timers is in order. -/
theorem C126_period_partial {c : Cfg} {L : Nat} {h : List (Nat × Ev)} {e : Nat × Ev} (hu : (run c h).ub = false)
    (hm : ∀ x ∈ h, x.1 ≤ e.1) (ht : Timely c L (h ++ [e])) :
    sent c h * c.period ≤ e.1 ∧ e.1 ≤ (sent c h + 1) * c.period + L := by
  have I := periodic c h hu
  obtain ⟨h1, h2⟩ := ht h e [] rfl
  constructor
  · rcases I.past with h0 | ⟨x, hx, h0⟩
    · omega
    · have := hm x hx; omega
  · cases hrun : (run c h).running with
    | none => exact h1 _ _ (I.queued (by rw [hrun]; simp))
    | some y =>
      obtain ⟨k, d, b⟩ := y
      by_cases hk : k = .report
      · subst hk
        have := h2 _ _ _ hrun
        cases b with
        | false => rw [(I.before d hrun).1] at this; exact this
        | true =>
          rw [I.after d hrun] at this
          have e1 := Nat.succ_mul (sent c h) c.period
          have e2 : sent c h + 1 = (sent c h).succ := rfl
          rw [e2, e1]
          omega
      · refine h1 _ _ (I.queued ?_)
        intro d' b' h'
        rw [hrun] at h'
        simp only [Option.some.injEq, Prod.mk.injEq] at h'
        exact hk h'.1

/-- **C126.**  The configured times are never below their minima, and are otherwise those given. -/
theorem C126_configure (entity : Int) (vehicle : Option Int) (period stale alive : Option Nat) :
    let c := configure entity vehicle period stale alive
    100 ≤ c.period ∧ 10 ≤ c.staleTime ∧ 1000 ≤ c.aliveTime ∧ (∀ x, vehicle = some x → c.vehicle = x) ∧
      (vehicle = none → c.vehicle = entity) ∧ (∀ x, period = some x → 100 ≤ x → c.period = x) ∧
      (∀ x, stale = some x → 10 ≤ x → c.staleTime = x) ∧ (∀ x, alive = some x → 1000 ≤ x → c.aliveTime = x) := by
  simp only [configure]
  refine ⟨?_, ?_, ?_, ?_, ?_, ?_, ?_, ?_⟩
  · split <;> omega
  · split <;> omega
  · split <;> omega
  · rintro x rfl; rfl
  · rintro rfl; rfl
  · rintro x rfl hx
    rw [Option.getD_some, if_neg (by omega)]
  · rintro x rfl hx
    rw [Option.getD_some, if_neg (by omega)]
  · rintro x rfl hx
    rw [Option.getD_some, if_neg (by omega)]

/-- **C126.**  A state of the vehicle that arrives while a report is being sent starts the report timer again, although it runs:
when the report has been sent, the timer is in the queue twice and out of order. -/
theorem C126_restart_violated {c : Cfg} {h : List (Nat × Ev)} {d t t' : Nat} {time : Int} {tasks : List Int}
    (hu : (run c h).ub = false) (hr : (run c h).running = some (.report, d, true)) :
    (run c (h ++ [(t, .recv (.state c.vehicle time tasks))] ++ [(t', .finish)])).ub = true := by
  rw [run_snoc, run_snoc]
  have e1 : (step c (run c h) (t, .recv (.state c.vehicle time tasks))).1 = recv c (run c h) t (.state c.vehicle time tasks) := by
    unfold step; rw [if_neg (by rw [hu]; simp)]
  rw [e1]
  have e2 : (recv c (run c h) t (.state c.vehicle time tasks)).ub = false := by simp [recv, hu]
  have e3 : (recv c (run c h) t (.state c.vehicle time tasks)).running = some (.report, d, true) := by simp [recv, hr]
  have e4 : ((recv c (run c h) t (.state c.vehicle time tasks)).due .report).isSome = true := by
    simp only [recv, if_true]
    split
    · assumption
    · simp [arm]
  unfold step
  rw [if_neg (by rw [e2]; simp)]
  show (finish c _).ub = true
  unfold finish
  rw [e3]
  simp only [e4, if_true]

end Verif.Status
