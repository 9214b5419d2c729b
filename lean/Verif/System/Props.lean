import Mathlib.Data.List.Nodup
import Verif.System.Model

/-! From a request of an operator to its plan, over the four services. -/

namespace Verif.System

open Verif

variable {S : Setup} {n : Net}

/-! ### What was received was sent -/

theorem requested_snoc (n : Net) (i : Validator.In) {r : Validator.Req} (h : r ∈ n.requested) :
    r ∈ ({ n with v := n.v ++ [i] } : Net).requested := by
  unfold Net.requested at h ⊢
  dsimp only
  rw [show Validator.run (n.v ++ [i]) = _ from runM_snoc _ _ _ _, List.flatMap_append]
  exact List.mem_append_left _ h

theorem receiveAll_append : ∀ (l l' : List Assign.Msg) (s : Assign.Pending), (Assign.receiveAll s (l ++ l')).2 =
    (Assign.receiveAll s l).2 ++ (Assign.receiveAll (Assign.receiveAll s l).1 l').2
  | [], l', s => by simp [Assign.receiveAll]
  | x :: l, l', s => by simp [Assign.receiveAll, receiveAll_append l l']

theorem started_snoc (n : Net) (i : Assign.Msg) {x : Assign.Prereq} (h : x ∈ n.started) :
    x ∈ ({ n with a := n.a ++ [i] } : Net).started := by
  unfold Net.started at h ⊢
  dsimp only
  rw [receiveAll_append]
  exact List.mem_append_left _ h

theorem sent_snoc (n : Net) (i : PlanBuilder.In) {x : PlanBuilder.Out} (h : x ∈ n.sent S) :
    x ∈ ({ n with p := n.p ++ [i] } : Net).sent S := by
  unfold Net.sent PlanBuilder.sentIn at h ⊢
  dsimp only
  rw [PlanBuilder.events_snoc, PlanBuilder.sent_append]
  exact List.mem_append_left _ h

theorem costed_snoc (n : Net) (i : Routes.In) {x : Routes.Out} (h : x ∈ n.costed S) : x ∈ ({ n with r := n.r ++ [i] } : Net).costed S := by
  unfold Net.costed at h ⊢
  dsimp only
  rw [Routes.sent_snoc]
  exact List.mem_append_left _ h

/-- Everything received from one of the four services was sent by it. -/
structure Sent (S : Setup) (n : Net) : Prop where
  v : ∀ i ∈ n.v, n.mayV S i
  r : ∀ i ∈ n.r, n.mayR i
  a : ∀ i ∈ n.a, n.mayA S i
  p : ∀ i ∈ n.p, n.mayP S i

/-- More has been sent. -/
structure More (S : Setup) (n n' : Net) : Prop where
  requested : ∀ {x}, x ∈ n.requested → x ∈ n'.requested
  costed : ∀ {x}, x ∈ n.costed S → x ∈ n'.costed S
  started : ∀ {x}, x ∈ n.started → x ∈ n'.started
  sent : ∀ {x}, x ∈ n.sent S → x ∈ n'.sent S

theorem More.mayV {n' : Net} (h : More S n n') {i : Validator.In} (hi : n.mayV S i) : n'.mayV S i := by
  cases i with
  | response id c => obtain ⟨p, hp, hs⟩ := hi; exact ⟨p, h.sent hp, hs⟩
  | _ => trivial

theorem More.mayR {n' : Net} (h : More S n n') {i : Routes.In} (hi : n.mayR i) : n'.mayR i := by
  cases i with
  | request q => obtain ⟨r, hr, hs⟩ := hi; exact ⟨r, h.requested hr, hs⟩
  | _ => trivial

theorem More.mayA {n' : Net} (h : More S n n') {i : Assign.Msg} (hi : n.mayA S i) : n'.mayA S i := by
  cases i with
  | request q => obtain ⟨r, hr, hs⟩ := hi; exact ⟨r, h.requested hr, hs⟩
  | matrix mx => obtain ⟨k, g, ts, es, hm, hs⟩ := hi; exact ⟨k, g, ts, es, h.costed hm, hs⟩
  | _ => trivial

theorem More.mayP {n' : Net} (h : More S n n') {i : PlanBuilder.In} (hi : n.mayP S i) : n'.mayP S i := by
  cases i with
  | request q => obtain ⟨r, hr, hs⟩ := hi; exact ⟨r, h.requested hr, hs⟩
  | summary m => obtain ⟨x, hx, rest⟩ := hi; exact ⟨x, h.started hx, rest⟩
  | _ => trivial

theorem snoc_all {α : Type} {P Q : α → Prop} {l : List α} {i : α} (h : ∀ j ∈ l, P j) (hi : P i) (hpq : ∀ j, P j → Q j) :
    ∀ j ∈ l ++ [i], Q j := by
  intro j hj
  rcases List.mem_append.1 hj with hj | hj
  · exact hpq j (h j hj)
  · rw [List.mem_singleton.1 hj]; exact hpq i hi

theorem sent (h : Reach S n) : Sent S n := by
  induction h with
  | start => exact ⟨by simp, by simp, by simp, by simp⟩
  | @v n i h hi ih =>
    have hm : More S n { n with v := n.v ++ [i] } := ⟨requested_snoc n i, id, id, id⟩
    exact ⟨snoc_all ih.v hi fun _ => hm.mayV, fun j hj => hm.mayR (ih.r j hj), fun j hj => hm.mayA (ih.a j hj), fun j hj => hm.mayP (ih.p j hj)⟩
  | @r n i h hi ih =>
    have hm : More S n { n with r := n.r ++ [i] } := ⟨id, costed_snoc n i, id, id⟩
    exact ⟨fun j hj => hm.mayV (ih.v j hj), snoc_all ih.r hi fun _ => hm.mayR, fun j hj => hm.mayA (ih.a j hj), fun j hj => hm.mayP (ih.p j hj)⟩
  | @a n i h hi ih =>
    have hm : More S n { n with a := n.a ++ [i] } := ⟨id, id, started_snoc n i, id⟩
    exact ⟨fun j hj => hm.mayV (ih.v j hj), fun j hj => hm.mayR (ih.r j hj), snoc_all ih.a hi fun _ => hm.mayA, fun j hj => hm.mayP (ih.p j hj)⟩
  | @p n i h hi ih =>
    have hm : More S n { n with p := n.p ++ [i] } := ⟨id, id, id, sent_snoc n i⟩
    exact ⟨fun j hj => hm.mayV (ih.v j hj), fun j hj => hm.mayR (ih.r j hj), fun j hj => hm.mayA (ih.a j hj), snoc_all ih.p hi fun _ => hm.mayP⟩

/-! ### What was calculated was received -/

/-- What has been stored for a request was received with its id. -/
structure Stored (l : List Assign.Msg) (k : Int) (x : Assign.Prereq) : Prop where
  request : ∀ q, x.request = some q → .request q ∈ l ∧ q.requestId = k
  matrix : ∀ mx, x.matrix = some mx → .matrix mx ∈ l ∧ mx.requestId = k
  plans : ∀ y ∈ x.plans, y.1 = y.2.taskId ∧ .options y.2 ∈ l ∧ y.2.requestId = k

theorem setPlan_mem {k : Int} {o : Assign.PlanOptions} : ∀ {l : List (Int × Assign.PlanOptions)} {y}, y ∈ Assign.setPlan k o l →
    y = (k, o) ∨ y ∈ l
  | [], y, h => by simpa [Assign.setPlan] using h
  | (k', o') :: l, y, h => by
    unfold Assign.setPlan at h
    split at h
    · rcases List.mem_cons.1 h with h | h
      · exact .inl h
      · exact .inr (List.mem_cons_of_mem _ h)
    · rcases List.mem_cons.1 h with h | h
      · exact .inr (by simp [h])
      · rcases setPlan_mem h with h | h
        · exact .inl h
        · exact .inr (List.mem_cons_of_mem _ h)

theorem Stored.store {l : List Assign.Msg} {x : Assign.Prereq} {i : Assign.Msg} (h : Stored l i.requestId x) (hi : i ∈ l) :
    Stored l i.requestId (x.store i) := by
  obtain ⟨h1, h2, h3⟩ := h
  cases i with
  | request q => exact ⟨fun q' e => by simp only [Assign.Prereq.store, Option.some.injEq] at e; subst e; exact ⟨hi, rfl⟩, h2, h3⟩
  | matrix mx => exact ⟨h1, fun q' e => by simp only [Assign.Prereq.store, Option.some.injEq] at e; subst e; exact ⟨hi, rfl⟩, h3⟩
  | options o =>
    refine ⟨h1, h2, fun k hk => ?_⟩
    rcases setPlan_mem hk with rfl | hk
    · exact ⟨rfl, hi, rfl⟩
    · exact h3 k hk

/-- A calculation is ready and uses what was received. -/
theorem started_stored (l : List Assign.Msg) : ∀ x ∈ (Assign.receiveAll (fun _ => none) l).2, x.ready = true ∧ ∃ k, Stored l k x := by
  suffices h : ∀ (l : List Assign.Msg) (s : Assign.Pending) (L : List Assign.Msg), (∀ k x, s k = some x → Stored L k x) →
      (∀ y ∈ l, y ∈ L) → ∀ x ∈ (Assign.receiveAll s l).2, x.ready = true ∧ ∃ k, Stored L k x from h l _ l (by simp) (fun _ h => h)
  intro l
  induction l with
  | nil => intro s L _ _ x hx; simp [Assign.receiveAll] at hx
  | cons i l ih =>
    intro s L hs hl x hx
    have hnew : Stored L i.requestId (((s i.requestId).getD {}).store i) := by
      refine Stored.store ?_ (hl i (by simp))
      cases e : s i.requestId with
      | none => exact ⟨by simp, by simp, by simp⟩
      | some y => exact hs _ _ e
    simp only [Assign.receiveAll, List.mem_append] at hx
    unfold Assign.receive at hx
    dsimp only at hx
    split at hx
    · rename_i hr
      rcases hx with hx | hx
      · simp only [Option.toList_some, List.mem_singleton] at hx
        subst hx
        exact ⟨hr, _, hnew⟩
      · refine ih _ L ?_ (fun y hy => hl y (by simp [hy])) x hx
        intro k y hy
        dsimp only at hy
        split at hy
        · simp at hy
        · exact hs k y hy
    · rcases hx with hx | hx
      · simp at hx
      · refine ih _ L ?_ (fun y hy => hl y (by simp [hy])) x hx
        intro k y hy
        dsimp only at hy
        split at hy
        · rename_i e
          simp only [Option.some.injEq] at hy; subst hy; subst e; exact hnew
        · exact hs k y hy

/-- A summary names its request. -/
theorem result_id {x : Assign.Prereq} {q : Assign.Request} {mx : Assign.CostMatrix} {id : Int} {tasks : List Assign.Assignment}
    (h : Result S x q mx id tasks) : id = q.requestId := by
  obtain ⟨-, -, order, pub, rs, region, -, hr, hm⟩ := h
  unfold Assign.calculateAssignment at hr
  cases e : Assign.initializeAlgebra q.relationships x.plans with
  | ok t =>
    rw [e] at hr
    simp only [Outcome.bind_ok] at hr
    cases t with
    | none => simp only [Outcome.ok.injEq] at hr; subst hr; simp at hm
    | some t =>
      simp only [Outcome.ok.injEq] at hr
      subst hr
      unfold Assign.replies at hm
      grind
  | _ => rw [e] at hr; simp [Outcome.bind] at hr

/-! ### What was published arrived -/

/-- A published request arrived, was admissible then, and its tasks were initialised later. -/
theorem requested_arrived (h : List Validator.In) {r : Validator.Req} (hr : r ∈ (Validator.run h).2.flatMap Validator.published) :
    ∃ h₁ k h₂ h₃, h = h₁ ++ .request k r :: (h₂ ++ h₃) ∧ Validator.Admissible h₁ r ∧
      ∀ t ∈ r.tasks, Validator.TaskInitialised (h₁ ++ .request k r :: h₂) t := by
  induction h using snocRec with
  | nil => simp [Validator.run] at hr
  | append_singleton h i ih =>
    rw [show Validator.run (h ++ [i]) = _ from runM_snoc _ _ _ _, List.flatMap_append, List.mem_append] at hr
    rcases hr with hr | hr
    · obtain ⟨h₁, k, h₂, h₃, e, a, b⟩ := ih hr
      exact ⟨h₁, k, h₂, h₃ ++ [i], by rw [e]; simp, a, b⟩
    · obtain ⟨h₁, k, h₂, h₃, e, a, b⟩ := Validator.C23_admission_sound h i r (by simpa using hr)
      exact ⟨h₁, k, h₂, h₃, e, a, b⟩

theorem mem_arrivals {h h₁ h₂ : List Validator.In} {k : Validator.Kind} {r : Validator.Req} (e : h = h₁ ++ .request k r :: h₂) :
    (k, r) ∈ Validator.arrivals h := by
  unfold Validator.arrivals
  rw [e]
  exact List.mem_filterMap.2 ⟨.request k r, by simp, rfl⟩

/-- With different ids, arrivals with the same id are the same. -/
theorem arrivals_inj {h : List Validator.In} (hd : ((Validator.arrivals h).map (·.2.id)).Nodup) {x y : Validator.Kind × Validator.Req}
    (hx : x ∈ Validator.arrivals h) (hy : y ∈ Validator.arrivals h) (e : x.2.id = y.2.id) : x = y :=
  List.inj_on_of_nodup_map hd hx hy e

/-! ### C194 -/

/-- How the plan `p` for the request `r` came about: at the plan builder by the assignment `m`, which the assignment service
calculated in `x` from the request `q` and the matrix `mx`. -/
structure Origin (S : Setup) (n : Net) (r : Validator.Req) (p : PlanBuilder.Plan) (hp A : List PlanBuilder.In) (m : PlanBuilder.Summary)
    (B : List PlanBuilder.In) (x : Assign.Prereq) (q : Assign.Request) (mx : Assign.CostMatrix) (tasks : List Assign.Assignment) : Prop where
  /-- The plan builder got the assignment, then asked for its tasks one after the other in the operating region and with the vehicles of
  the request, and sent this plan only. -/
  prefixed : hp <+: n.p
  received : hp = A ++ .summary m :: B
  planned : p.req = r.id
  asked : (PlanBuilder.asked S.p A m B).map (fun a => (a.key.vehicle, a.key.task, a.key.option, a.key.threshold)) =
      tasks.map fun x => (x.vehicle, x.taskId, x.optionId, x.timeThreshold)
  asks : ∀ a ∈ PlanBuilder.asked S.p A m B, a.region = r.region ∧ (r.entities ≠ [] → a.vehicle ∈ r.entities)
  sent : PlanBuilder.published S.p A m B = [p]
  /-- The assignment was calculated for the tasks and the operating region of the request, from options of every task. -/
  started : x ∈ n.started
  result : Result S x q mx r.id tasks
  same : sameA r q
  matrix : .matrix mx ∈ n.a ∧ mx.requestId = r.id
  /-- Each cost is of a vehicle of the request, if it names some, to an option of one of its tasks for which the vehicle is eligible, and
  was reported by a planner. -/
  costs : ∀ e ∈ mx.entries, (r.entities ≠ [] → e.vehicle ∈ r.entities) ∧
    (∃ t ∈ r.tasks, ∃ os o, .options t os ∈ n.r ∧ o ∈ os ∧ (o.eligible = [] ∨ e.vehicle ∈ o.eligible) ∧ e.toTask = o.task ∧
      e.toOption = o.option) ∧ ∃ y id, .response y ∈ n.r ∧ (id, e.time) ∈ y.routes
  options : ∀ t ∈ r.tasks, ∃ o, (t, o) ∈ x.plans ∧ o.taskId = t
  only : ∀ y ∈ x.plans, y.1 = y.2.taskId ∧ .options y.2 ∈ n.a ∧ y.2.requestId = r.id

theorem lastRequest_mem {q : Int} {A : List PlanBuilder.In} {g : PlanBuilder.Request} (h : PlanBuilder.lastRequest q A = some g) :
    .request g ∈ A ∧ g.id = q := by
  unfold PlanBuilder.lastRequest at h
  obtain ⟨i, hi, e⟩ := List.mem_filterMap.1 (List.mem_of_getLast? h)
  cases i <;> simp only [reduceCtorEq] at e
  split at e
  · simp only [Option.some.injEq] at e; subst e; exact ⟨hi, ‹_›⟩
  · simp at e

/-- **C194, partial.** However messages are delayed, lost, repeated and reordered, a plan with which the validator answers a request was
made for that request: the request arrived under the kind of the answer, was admissible then and all its tasks were initialised before it
was published; the plan builder was given an assignment for it, asked for exactly the assigned tasks, in their order, in the operating
region of the request and with its vehicles only if it names some, and sent this plan only; and the assignment was calculated for the
tasks and the region of the request, with options of every one of its tasks, from options and costs that were sent for it; and the costs
are of vehicles of the request to options for which they are eligible, and were reported by a planner.

Missing: requests with the same id, for which it fails (`C194_late_violated`). -/
theorem C194_traceable_partial (hR : Reach S n) (hd : ((Validator.arrivals n.v).map (·.2.id)).Nodup) {h h' : List Validator.In}
    {i : Validator.In} (hv : n.v = h ++ i :: h') {k : Validator.Kind} {c : Nat}
    (ha : (k, .planned c) ∈ Validator.answered (Validator.step (Validator.run h).1 i).2) :
    ∃ r h₁ h₂ h₃ p, h = h₁ ++ .request k r :: (h₂ ++ h₃) ∧ Validator.Admissible h₁ r ∧
      (∀ t ∈ r.tasks, Validator.TaskInitialised (h₁ ++ .request k r :: h₂) t) ∧ S.code p = c ∧
      ∃ hp A m B x q mx tasks, Origin S n r p hp A m B x q mx tasks := by
  have hs := sent hR
  obtain ⟨r, r', rfl, hr, hk, hid⟩ := Validator.C22_plan_belongs_to_request h i k c ha
  obtain ⟨h₁, k', h₂, h₃, e, had, hin⟩ := requested_arrived h hr
  have up : ∀ {x}, x ∈ Validator.arrivals h → x ∈ Validator.arrivals n.v := by
    intro x hx
    rw [hv, Validator.arrivals_append]
    exact List.mem_append_left _ hx
  have hme : (k', r) ∈ Validator.arrivals n.v := up (mem_arrivals e)
  have huniq : ∀ {r₁}, r₁ ∈ n.requested → r₁.id = r.id → r₁ = r := by
    intro r₁ h1 h2
    obtain ⟨g₁, k₁, g₂, g₃, e₁, -, -⟩ := requested_arrived n.v h1
    have := arrivals_inj hd (mem_arrivals e₁) hme h2
    simpa using congrArg Prod.snd this
  have hkk : (k, r') = (k', r) := arrivals_inj hd (up hk) hme hid
  obtain ⟨rfl, rfl⟩ := Prod.mk.inj hkk
  obtain ⟨p, hp, hreq, hc⟩ : ∃ p : PlanBuilder.Plan, PlanBuilder.Out.plan p ∈ n.sent S ∧ p.req = r'.id ∧ S.code p = c :=
    hs.v (.response r'.id c) (by rw [hv]; simp)
  obtain ⟨g₁, g₂, A, m, B, g, e₁, hb⟩ := PlanBuilder.built S.p n.p p hp
  have hmr : m.req = r'.id := hb.traced.req.trans hreq
  obtain ⟨x, hx, q, mx, tasks, hres, hmt⟩ : Calculated S n m := hs.p (.summary m) (by rw [e₁, hb.split]; simp)
  obtain ⟨hready, key, hst⟩ := started_stored n.a x hx
  have hq := result_id hres
  obtain ⟨hqm, hqk⟩ := hst.request q hres.1
  obtain ⟨hmm, hmk⟩ := hst.matrix mx hres.2.1
  have hkey : key = r'.id := by rw [← hqk, ← hq, hmr]
  obtain ⟨r₁, h1, hsame⟩ := hs.a _ hqm
  have hr₁ : r₁ = r' := huniq h1 (by rw [← hsame.1, ← hq, hmr])
  subst hr₁
  obtain ⟨hgA, hgid⟩ := lastRequest_mem hb.traced.known
  obtain ⟨r₂, h2, hsame2⟩ := hs.p (.request g) (by rw [e₁, hb.split]; simp [hgA])
  have hr₂ : r₂ = r₁ := huniq h2 (by rw [← hsame2.1, hgid, hreq])
  subst hr₂
  refine ⟨r₂, h₁, h₂, h₃, p, e, had, hin, hc, g₁, A, m, B, x, q, mx, tasks, ?_⟩
  refine ⟨⟨g₂, e₁.symm⟩, hb.split, hreq, ?_, ?_, hb.plan, hx, by rw [← hmr]; exact hres, hsame, ⟨hmm, by rw [hmk, hkey]⟩, ?_, ?_,
    fun y hy => by rw [← hkey]; exact hst.plans y hy⟩
  · have hall := (hb.all.trans hmt)
    have := congrArg (List.map fun y : PlanBuilder.Assign => (y.vehicle, y.task, y.option, y.threshold)) hall
    rw [List.map_map, List.map_map] at this
    exact this
  · intro a ha
    have := hb.traced.asks a ha
    rw [hsame2.2.1, hsame2.2.2.1] at this
    exact this
  · intro e he
    obtain ⟨k₁, g', ts, es, hm', hes⟩ := hs.a (.matrix mx) hmm
    obtain ⟨q', hq', e1, -, -, hall⟩ := Routes.matrix_leg S.dist n.r _ _ _ _ _ hm'
    obtain ⟨r₃, h3, hsame3⟩ := hs.r (.request q') hq'
    have hr₃ : r₃ = r₂ := huniq h3 (by rw [← hsame3.1, ← e1, hmk, hkey])
    subst hr₃
    rw [hes] at he
    obtain ⟨y, hy, rfl⟩ := List.mem_map.1 he
    obtain ⟨c1, c2, c3⟩ := hall y hy
    rw [hsame3.2.2.1] at c1
    rw [hsame3.2.1] at c2
    exact ⟨c1, c2, c3⟩
  · intro t ht
    unfold Assign.Prereq.ready at hready
    rw [hres.1, hres.2.1] at hready
    simp only [Bool.and_eq_true, List.all_eq_true, List.any_eq_true, beq_iff_eq] at hready
    rw [hsame.2.1] at hready
    obtain ⟨y, hy, rfl⟩ := hready.2 t ht
    exact ⟨y.2, hy, (hst.plans y hy).1.symm⟩

/-- The tasks send the same options to everyone each time, as far as their names and vehicles go, and list the vehicles. -/
structure Steady (n : Net) : Prop where
  same : ∀ t os o, .options t os ∈ n.r → .options o ∈ n.a → o.taskId = t →
    os.map (fun x => (x.task, x.option, x.eligible)) = o.options.map (fun x => (x.taskId, x.optionId, x.eligible))
  listed : ∀ t os, .options t os ∈ n.r → ∀ o ∈ os, o.eligible ≠ []

/-- **C194, partial.** If tasks send the same options each time and list the vehicles, and the composition of the options is sound (see
C33), the tasks that the plan builder asked for are those of a feasible schedule, in its order: a complete allowed order in which every
vehicle is eligible for and can reach what it is given.  Missing: for options that change or without a list of vehicles it fails in the
route aggregator and the assignment (`C26_stale_options_violated`, `C34_open_option_cost_ignored`). -/
theorem C194_feasible_partial {r : Validator.Req} {p : PlanBuilder.Plan} {hp A B : List PlanBuilder.In} {m : PlanBuilder.Summary}
    {x : Assign.Prereq} {q : Assign.Request} {mx : Assign.CostMatrix} {tasks : List Assign.Assignment}
    (ho : Origin S n r p hp A m B x q mx tasks) (hst : Steady n) {t : Algebra.Tree}
    (ht : Assign.initializeAlgebra q.relationships x.plans = .ok (some t)) (hd : Algebra.Distinct t) (hn : Algebra.NonEmptyOps t) :
    ∃ s, Assign.Feasible (Assign.problemOf t (Assign.allOptions x.plans) mx.entries) s ∧
      Assign.Publishes (Assign.problemOf t (Assign.allOptions x.plans) mx.entries) s tasks ∧
      (PlanBuilder.asked S.p A m B).map (fun a => (a.key.vehicle, a.key.task, a.key.option, a.key.threshold)) =
      tasks.map fun x => (x.vehicle, x.taskId, x.optionId, x.timeThreshold) := by
  obtain ⟨-, -, order, pub, rs, region, hor, hr, hm⟩ := ho.result
  have he : Assign.MatrixEligible (Assign.allOptions x.plans) mx.entries := by
    intro e he
    obtain ⟨-, ⟨t, ht, os, o, h1, h2, h3, h4, h5⟩, -⟩ := ho.costs e he
    obtain ⟨o', h6, h7⟩ := ho.options t ht
    obtain ⟨-, h8, -⟩ := ho.only _ h6
    have hmem : (o.task, o.option, o.eligible) ∈ o'.options.map (fun x => (x.taskId, x.optionId, x.eligible)) := by
      rw [← hst.same t os o' h1 h8 h7]
      exact List.mem_map.2 ⟨o, h2, rfl⟩
    obtain ⟨y, hy, e1⟩ := List.mem_map.1 hmem
    simp only [Prod.mk.injEq] at e1
    refine ⟨y, List.mem_flatMap.2 ⟨_, h6, hy⟩, by rw [h4, h5, e1.1, e1.2.1], ?_⟩
    rw [e1.2.2]
    exact h3.resolve_left (hst.listed t os h1 o h2)
  obtain ⟨-, -, s, h1, h2⟩ := Assign.C34_feasible_partial hor he ht hd hn hr hm
  exact ⟨s, h1, h2, ho.asked⟩

/-- **C194, partial.** A plan for the request in flight that the plan builder has sent can reach the validator, and is then answered at
once, with the kind under which the request arrived.  Missing: that the plan builder sends one, for which tasks and planners must
answer. -/
theorem C194_answered_partial (hR : Reach S n) (hd : ((Validator.arrivals n.v).map (·.2.id)).Nodup)
    (ht : Validator.NoTaskTimeoutAnswer n.v (Validator.run n.v).2) {p : PlanBuilder.Plan} (hp : .plan p ∈ n.sent S)
    (hx : Validator.inFlight none n.v (Validator.run n.v).2 = some p.req) :
    Reach S { n with v := n.v ++ [.response p.req (S.code p)] } ∧ ∃ k r, (k, r) ∈ Validator.arrivals n.v ∧ r.id = p.req ∧
      Validator.answered (Validator.step (Validator.run n.v).1 (.response p.req (S.code p))).2 = [(k, .planned (S.code p))] :=
  ⟨.v hR ⟨p, hp, rfl, rfl⟩, Validator.C22_response_answered_partial n.v p.req (S.code p) hd ht hx⟩

end Verif.System
