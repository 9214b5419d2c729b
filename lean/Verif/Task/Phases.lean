import Verif.Task.Options

/-! From the request to the options. -/

namespace Verif.Task

open Verif

theorem core_step_of {s : St} {i : In} (h1 : ∀ v, i ≠ .state v) (h2 : ∀ r b, i ≠ .request r b)
    (h3 : ∀ id ms, i ≠ .response id ms) : (step s i).1.core = s.core := by
  cases hu : s.ub with
  | true => rw [ub_step i hu]
  | false =>
    have hst : ∀ x : St × List Out, (if s.ub = true then (s, []) else x) = x := fun x =>
      if_neg (by rw [hu]; exact Bool.false_ne_true)
    cases i with
    | state v => exact absurd rfl (h1 v)
    | request q b => exact absurd rfl (h2 q b)
    | response id ms => exact absurd rfl (h3 id ms)
    | config v => rw [step, hst]; exact core_config _ _
    | own b => rw [step, hst]; exact core_build _ _
    | implement q => rw [step, hst]; exact core_implement _ _
    | route rr => exact core_route _ _

theorem lastWp_nil {c : Config} {h : List In} (hn : ∀ v, .state v ∉ h) : (after c h).lastWp = [] := by
  induction h using snocRec with
  | nil => rfl
  | append_singleton h i ih =>
    have ih' := ih (fun v hv => hn v (List.mem_append_left _ hv))
    rw [after_snoc]
    have hl : ∀ {a b : St}, a.core = b.core → a.lastWp = b.lastWp := fun h => congrArg Core.lastWp h
    cases hu : (after c h).ub with
    | true => rw [ub_step i hu]; exact ih'
    | false =>
      have hst : ∀ x : St × List Out, (if (after c h).ub = true then (after c h, []) else x) = x := fun x =>
        if_neg (by rw [hu]; exact Bool.false_ne_true)
      cases i with
      | state v => exact absurd (List.mem_append_right _ (List.mem_singleton.mpr rfl)) (hn v)
      | request q b =>
        rw [step, hst]
        exact (congrArg Core.lastWp (core_request (after c h) q b)).trans ih'
      | response id ms =>
        rw [step, hst]
        have : ((after c h).autoResponse id ms).lastWp = (after c h).lastWp := by
          rw [St.autoResponse]
          split
          · rfl
          · dsimp only
            split <;> rfl
        exact this.trans ih'
      | config v => exact (hl (core_step_of (by simp) (by simp) (by simp))).trans ih'
      | own b => exact (hl (core_step_of (by simp) (by simp) (by simp))).trans ih'
      | implement q => exact (hl (core_step_of (by simp) (by simp) (by simp))).trans ih'
      | route rr => exact (hl (core_step_of (by simp) (by simp) (by simp))).trans ih'

/-- The task is not taken up again: the request says so, or no vehicle has reported its state. -/
def Anew (r : Request) (h : List In) : Prop := r.redo = true ∨ ∀ v, .state v ∉ h

theorem restart_none {c : Config} {h : List In} {r : Request} (ha : Anew r h) {s : St}
    (hs : s.lastWp = (after c h).lastWp) : s.restart? r = none := by
  rw [St.restart?]
  rcases ha with ha | ha
  · rw [if_pos ha]
  · rw [hs, lastWp_nil ha]
    split <;> rfl

/-- The options while they are made. -/
structure Asking (c : Config) (req : Int) (T : List Entry) (rem : List (Opt × Ask)) (s : St) : Prop where
  cfg : s.cfg = c
  fine : s.ub = false
  nodup : (s.opts.map (·.1)).Nodup
  opts : ∀ o x, s.opts.get o = some x ↔ (∃ e ∈ T, e.opt.id = o ∧ x = e.class) ∨ (∃ e ∈ rem, e.1.id = o ∧ x = { opt := e.1 })
  pend : ∀ k, k ∈ s.pendingOpt ↔ ∃ e ∈ T, e.rid = k
  impl : s.pendingImpl = []
  kind : ∀ e ∈ T, s.routeKind.get e.rid = some .option
  option : ∀ e ∈ T, s.routeOption.get e.rid = some e.opt.id
  list : s.planOptions = some { req := req }
  below : ∀ e ∈ T, e.rid < s.nextRoute

/-- The request for the routes of an option. -/
def Entry.request (t : Int) (e : Entry) : RouteReq :=
  { id := e.rid, task := t, costOnly := true, region := e.ask.region, vehicle := e.ask.vehicle, routes := e.ask.routes }

theorem foldl_addTo_nodup (ks l : List Int) (h : (l ++ ks).Nodup) : ks.foldl addTo l = l ++ ks := by
  induction ks generalizing l with
  | nil => simp
  | cons k ks ih =>
    have hk : k ∉ l := by
      intro hk
      have := (List.nodup_append.mp h).2.2 k hk k List.mem_cons_self
      exact this rfl
    have e : addTo l k = l ++ [k] := by
      rw [addTo, if_neg (fun hc => hk (List.contains_iff_mem.mp hc))]
    rw [List.foldl_cons, e, ih _ (by simpa using h)]
    simp

theorem Asking.ask {c : Config} {req : Int} {T : List Entry} {e : Opt × Ask} {rem : List (Opt × Ask)} {s : St}
    (h : Asking c req T (e :: rem) s) (h1 : e.2.option = e.1.id) (h3 : (e.2.routes.map (·.id)).Nodup)
    (hn : ((T.map (·.opt.id)) ++ ((e :: rem).map (·.1.id))).Nodup) :
    Asking c req (T ++ [⟨s.nextRoute, e.1, e.2⟩]) rem (s.askRoutes e.2).1 ∧
    (s.askRoutes e.2).2 = [.ask (Entry.request c.task ⟨s.nextRoute, e.1, e.2⟩)] ∧
    (s.askRoutes e.2).1.nextRoute = s.nextRoute + 1 := by
  have hg : s.opts.get e.2.option = some { opt := e.1 } := by
    rw [h1]; exact (h.opts _ _).mpr (Or.inr ⟨e, List.mem_cons_self, rfl, rfl⟩)
  have hpend : (e.2.routes.map (·.id)).foldl addTo [] = e.2.routes.map (·.id) := by
    rw [foldl_addTo_nodup _ _ (by simpa using h3)]; rfl
  have hask : s.askRoutes e.2 =
      ({ s with
         nextRoute := s.nextRoute + 1
         routeKind := s.routeKind.put s.nextRoute .option
         routeOption := s.routeOption.put s.nextRoute e.2.option
         opts := s.opts.put e.2.option (Entry.class ⟨s.nextRoute, e.1, e.2⟩)
         pendingOpt := addTo s.pendingOpt s.nextRoute },
       [.ask (Entry.request c.task ⟨s.nextRoute, e.1, e.2⟩)]) := by
    rw [St.askRoutes]
    dsimp only
    rw [hg, h.cfg]
    dsimp only
    rw [hpend]
    rfl
  have hni : ∀ e' ∈ T, e'.opt.id ≠ e.1.id := by
    intro e' he' hc
    have := (List.nodup_append.mp hn).2.2 e'.opt.id (List.mem_map.mpr ⟨e', he', rfl⟩) e.1.id (by simp)
    exact this hc
  have hnr : ∀ e' ∈ rem, e'.1.id ≠ e.1.id := by
    intro e' he' hc
    have := (List.nodup_append.mp hn).2.1
    rw [List.map_cons, List.nodup_cons] at this
    exact this.1 (hc ▸ List.mem_map.mpr ⟨e', he', rfl⟩)
  rw [hask]
  refine ⟨⟨h.cfg, h.fine, Map.nodup_put h.nodup _ _, ?_, ?_, h.impl, ?_, ?_, h.list, ?_⟩, rfl, rfl⟩
  · intro o x
    dsimp only
    rw [Map.get_put, h1]
    by_cases ho : o = e.1.id
    · rw [if_pos ho]
      subst ho
      constructor
      · intro hx; cases hx
        exact Or.inl ⟨_, List.mem_append_right _ (List.mem_singleton.mpr rfl), rfl, rfl⟩
      · rintro (⟨e', he', hi, rfl⟩ | ⟨e', he', hi, _⟩)
        · rcases List.mem_append.mp he' with he' | he'
          · exact absurd hi (hni e' he')
          · rw [List.mem_singleton.mp he']
        · exact absurd hi (hnr e' he')
    · rw [if_neg ho]
      refine (h.opts o x).trans ?_
      constructor
      · rintro (⟨e', he', hi⟩ | ⟨e', he', hi, hx⟩)
        · exact Or.inl ⟨e', List.mem_append_left _ he', hi⟩
        · rcases List.mem_cons.mp he' with rfl | he'
          · exact absurd hi.symm ho
          · exact Or.inr ⟨e', he', hi, hx⟩
      · rintro (⟨e', he', hi, hx⟩ | ⟨e', he', hi⟩)
        · rcases List.mem_append.mp he' with he' | he'
          · exact Or.inl ⟨e', he', hi, hx⟩
          · rw [List.mem_singleton.mp he'] at hi
            exact absurd hi.symm ho
        · exact Or.inr ⟨e', List.mem_cons_of_mem _ he', hi⟩
  · intro k
    dsimp only
    rw [addTo_mem, h.pend]
    constructor
    · rintro (⟨e', he', hk⟩ | rfl)
      · exact ⟨e', List.mem_append_left _ he', hk⟩
      · exact ⟨_, List.mem_append_right _ (List.mem_singleton.mpr rfl), rfl⟩
    · rintro ⟨e', he', hk⟩
      rcases List.mem_append.mp he' with he' | he'
      · exact Or.inl ⟨e', he', hk⟩
      · rw [List.mem_singleton.mp he'] at hk; exact Or.inr hk.symm
  · intro e' he'
    dsimp only
    rw [Map.get_put]
    rcases List.mem_append.mp he' with he' | he'
    · rw [if_neg (by have := h.below e' he'; omega)]; exact h.kind e' he'
    · rw [List.mem_singleton.mp he', if_pos rfl]
  · intro e' he'
    dsimp only
    rw [Map.get_put]
    rcases List.mem_append.mp he' with he' | he'
    · rw [if_neg (by have := h.below e' he'; omega)]; exact h.option e' he'
    · rw [List.mem_singleton.mp he', if_pos rfl, h1]
  · intro e' he'
    dsimp only
    rcases List.mem_append.mp he' with he' | he'
    · have := h.below e' he'; omega
    · rw [List.mem_singleton.mp he']; dsimp only; omega

theorem Asking.askAll {c : Config} {req : Int} : ∀ {rem : List (Opt × Ask)} {T : List Entry} {s : St},
    Asking c req T rem s → (∀ e ∈ rem, e.2.option = e.1.id) → (∀ e ∈ rem, (e.2.routes.map (·.id)).Nodup) →
    ((T.map (·.opt.id)) ++ (rem.map (·.1.id))).Nodup →
    Asking c req (T ++ number s.nextRoute rem) [] (s.askAll (rem.map Prod.snd)).1 ∧
    (s.askAll (rem.map Prod.snd)).2 = (number s.nextRoute rem).map (fun e => .ask (e.request c.task))
  | [], T, s, h, _, _, _ => by
    refine ⟨?_, rfl⟩
    rw [number, List.append_nil]
    exact h
  | e :: rem, T, s, h, h1, h3, hn => by
    obtain ⟨ha, ho, hx⟩ := h.ask (h1 e List.mem_cons_self) (h3 e List.mem_cons_self) hn
    have := Asking.askAll (rem := rem) ha (fun e he => h1 e (List.mem_cons_of_mem _ he))
      (fun e he => h3 e (List.mem_cons_of_mem _ he)) (by simpa using hn)
    rw [hx] at this
    rw [List.map_cons, St.askAll]
    dsimp only
    rw [number, this.2, ho]
    refine ⟨?_, rfl⟩
    have h' := this.1
    rw [List.append_assoc] at h'
    exact h'

theorem Asking.phase {c : Config} {req : Int} {T : List Entry} {s : St} (h : Asking c req T [] s) : Phase c req T [] s := by
  refine ⟨h.cfg, h.fine, h.nodup, ?_, ?_, h.impl, h.kind, h.option, h.list⟩
  · intro o x
    refine (h.opts o x).trans ?_
    constructor
    · rintro (⟨e, he, hi, hx⟩ | ⟨e, he, _⟩)
      · exact ⟨e, he, hi, Or.inr ⟨fun _ hy => (by cases hy), hx⟩⟩
      · cases he
    · rintro ⟨e, he, hi, hor⟩
      rcases hor with ⟨r, hr, _⟩ | ⟨_, hx⟩
      · cases hr
      · exact Or.inl ⟨e, he, hi, hx⟩
  · intro k
    refine (h.pend k).trans ?_
    constructor
    · rintro ⟨e, he, hk⟩; exact ⟨e, he, hk, fun _ hy => (by cases hy)⟩
    · rintro ⟨e, he, hk, _⟩; exact ⟨e, he, hk⟩

theorem Asking.perm {c : Config} {req : Int} {T : List Entry} {rem rem' : List (Opt × Ask)} {s : St}
    (h : Asking c req T rem s) (hp : rem'.Perm rem) : Asking c req T rem' s := by
  refine ⟨h.cfg, h.fine, h.nodup, ?_, h.pend, h.impl, h.kind, h.option, h.list, h.below⟩
  intro o x
  refine (h.opts o x).trans ?_
  constructor
  · rintro (h | ⟨e, he, hr⟩)
    · exact Or.inl h
    · exact Or.inr ⟨e, hp.mem_iff.mpr he, hr⟩
  · rintro (h | ⟨e, he, hr⟩)
    · exact Or.inl h
    · exact Or.inr ⟨e, hp.mem_iff.mp he, hr⟩

/-- The options that a task makes for its routes. -/
def draftsOf (es : List (Opt × Ask)) : List Draft := es.map (fun e => { opt := e.1 })

theorem drafts_asking {c : Config} {req : Int} {s : St} (h : Asking c req [] [] s) (es : List (Opt × Ask))
    (hn : (es.map (·.1.id)).Nodup) : Asking c req [] es ((draftsOf es).foldl St.draft s) := by
  induction es using snocRec with
  | nil => exact h
  | append_singleton es e ih =>
    rw [List.map_append] at hn
    have hi := ih (List.nodup_append.mp hn).1
    rw [draftsOf, List.map_append, List.foldl_append]
    have hno : ((draftsOf es).foldl St.draft s).opts.get e.1.id = none := by
      cases hg : ((draftsOf es).foldl St.draft s).opts.get e.1.id with
      | none => rfl
      | some x =>
        rcases (hi.opts _ _).mp hg with ⟨e', he', _⟩ | ⟨e', he', hx, _⟩
        · cases he'
        · exfalso
          exact (List.nodup_append.mp hn).2.2 e'.1.id (List.mem_map.mpr ⟨e', he', rfl⟩) e.1.id (by simp) hx
    have e0 : List.foldl St.draft ((draftsOf es).foldl St.draft s) (List.map (fun e => ({ opt := e.1 } : Draft)) [e]) =
        { (draftsOf es).foldl St.draft s with
          opts := ((draftsOf es).foldl St.draft s).opts.put e.1.id { opt := e.1 } } := by
      rw [List.map_singleton, List.foldl_cons, List.foldl_nil, St.draft]
      dsimp only
      rw [hno]
      rfl
    rw [draftsOf] at e0
    rw [e0]
    refine ⟨hi.cfg, hi.fine, Map.nodup_put hi.nodup _ _, ?_, hi.pend, hi.impl, hi.kind, hi.option, hi.list, hi.below⟩
    intro o x
    dsimp only
    rw [Map.get_put]
    by_cases ho : o = e.1.id
    · rw [if_pos ho]
      subst ho
      constructor
      · intro hx; cases hx
        exact Or.inr ⟨e, List.mem_append_right _ (List.mem_singleton.mpr rfl), rfl, rfl⟩
      · rintro (⟨e', he', _⟩ | ⟨e', he', hi', rfl⟩)
        · cases he'
        · rcases List.mem_append.mp he' with he' | he'
          · exact absurd hi' ((List.nodup_append.mp hn).2.2 e'.1.id (List.mem_map.mpr ⟨e', he', rfl⟩) e.1.id (by simp))
          · rw [List.mem_singleton.mp he']
    · rw [if_neg ho]
      refine (hi.opts o x).trans ?_
      constructor
      · rintro (⟨e', he', _⟩ | ⟨e', he', hr⟩)
        · cases he'
        · exact Or.inr ⟨e', List.mem_append_left _ he', hr⟩
      · rintro (⟨e', he', _⟩ | ⟨e', he', hi', hx⟩)
        · cases he'
        · rcases List.mem_append.mp he' with he' | he'
          · exact Or.inr ⟨e', he', hi', hx⟩
          · rw [List.mem_singleton.mp he'] at hi'
            exact absurd hi'.symm ho

theorem number_rid_ge (n : Int) (es : List (Opt × Ask)) : ∀ e ∈ number n es, n ≤ e.rid ∧ (e.opt, e.ask) ∈ es := by
  induction es generalizing n with
  | nil => intro e he; cases he
  | cons x es ih =>
    intro e he
    rcases List.mem_cons.mp he with rfl | he
    · exact ⟨Int.le_refl _, List.mem_cons_self⟩
    · have := ih (n + 1) e he
      exact ⟨by omega, List.mem_cons_of_mem _ this.2⟩

theorem table_number (n : Int) {es : List (Opt × Ask)} (h : Regular es) : Table (number n es) := by
  have h1 : ∀ n, ((number n es).map (·.rid)).Nodup := by
    clear h
    induction es with
    | nil => intro n; exact List.nodup_nil
    | cons x es ih =>
      intro n
      rw [number, List.map_cons, List.nodup_cons]
      refine ⟨?_, ih (n + 1)⟩
      intro hm
      obtain ⟨e, he, hr⟩ := List.mem_map.mp hm
      have := (number_rid_ge _ _ e he).1
      dsimp only at hr
      omega
  have h2 : ∀ n, (number n es).map (·.opt.id) = es.map (·.1.id) := by
    clear h h1
    induction es with
    | nil => intro n; rfl
    | cons x es ih => intro n; rw [number, List.map_cons, ih]; rfl
  exact ⟨h1 n, by rw [h2]; exact h.nodup, fun e he => h.some _ (number_rid_ge n es e he).2,
    fun e he => h.routes _ (number_rid_ge n es e he).2⟩

theorem Regular.perm {es es' : List (Opt × Ask)} (h : Regular es) (hp : es'.Perm es) : Regular es' :=
  ⟨(hp.map _).nodup_iff.mpr h.nodup, fun e he => h.own e (hp.mem_iff.mp he), fun e he => h.some e (hp.mem_iff.mp he),
    fun e he => h.routes e (hp.mem_iff.mp he)⟩

/-- The history of a request and the routes asked for. -/
def opened (h : List In) (r : Request) (es es' : List (Opt × Ask)) : List In :=
  h ++ [.request r { drafts := draftsOf es }] ++ [.own { asks := es'.map Prod.snd }]

theorem phase_opened {c : Config} {h : List In} (hf : Fine c h) {r : Request} (ht : c.task ∈ r.tasks) (ha : Anew r h)
    {es es' : List (Opt × Ask)} (hr : Regular es) (hp : es'.Perm es) :
    ∃ n, sends c (h ++ [.request r { drafts := draftsOf es }]) (.own { asks := es'.map Prod.snd }) =
        (number n es').map (fun e => .ask (e.request c.task)) ∧
      Phase c r.id (number n es') [] (after c (opened h r es es')) ∧
      (after c (opened h r es es')).latest = r.id ∧
      (after c (opened h r es es')).requests.get r.id = some r := by
  have hst : ∀ x : St × List Out, (if (after c h).ub = true then (after c h, []) else x) = x := fun x =>
    if_neg (by rw [hf]; exact Bool.false_ne_true)
  have hcfg := cfg_after c h
  have hin : r.tasks.contains (after c h).cfg.task = true := by rw [hcfg]; exact List.contains_iff_mem.mpr ht
  have hre : ({ after c h with latest := r.id, requests := (after c h).requests.put r.id r } : St).restart? r = none :=
    restart_none ha rfl
  have e1 : after c (h ++ [.request r { drafts := draftsOf es }]) =
      (draftsOf es).foldl St.draft
        { after c h with
          latest := r.id
          requests := (after c h).requests.put r.id r
          planOptions := some { req := r.id }
          opts := []
          implReqs := []
          pendingOpt := []
          pendingImpl := [] } := by
    rw [after_snoc, step, hst, St.request]
    dsimp only
    rw [if_pos hin, hre]
    rfl
  have h0 : Asking c r.id [] []
      { after c h with
        latest := r.id
        requests := (after c h).requests.put r.id r
        planOptions := some { req := r.id }
        opts := []
        implReqs := []
        pendingOpt := []
        pendingImpl := [] } := by
    refine ⟨hcfg, hf, List.nodup_nil, ?_, ?_, rfl, fun _ h => (by cases h), fun _ h => (by cases h), rfl,
      fun _ h => (by cases h)⟩
    · intro o x
      constructor
      · intro h; cases h
      · rintro (⟨_, h, _⟩ | ⟨_, h, _⟩) <;> cases h
    · intro k
      constructor
      · intro h; cases h
      · rintro ⟨_, h, _⟩; cases h
  have h1 := (drafts_asking h0 es hr.nodup).perm hp
  have hr' := hr.perm hp
  obtain ⟨h2, h3⟩ := h1.askAll hr'.own hr'.routes (by simpa using hr'.nodup)
  have hub : (after c (h ++ [.request r { drafts := draftsOf es }])).ub = false := by rw [e1]; exact h1.fine
  have hst' : ∀ x : St × List Out, (if (after c (h ++ [.request r { drafts := draftsOf es }])).ub = true then
      (after c (h ++ [.request r { drafts := draftsOf es }]), []) else x) = x := fun x =>
    if_neg (by rw [hub]; exact Bool.false_ne_true)
  have hcore : (after c (opened h r es es')).core = (after c (h ++ [.request r { drafts := draftsOf es }])).core := by
    rw [opened, after_snoc]
    exact core_step_of (by simp) (by simp) (by simp)
  have hcore' : (after c (h ++ [.request r { drafts := draftsOf es }])).core =
      { (after c h).core with requests := (after c h).requests.put r.id r, latest := r.id } := by
    rw [after_snoc, step, hst, core_request]
  refine ⟨(after c (h ++ [.request r { drafts := draftsOf es }])).nextRoute, ?_, ?_, ?_, ?_⟩
  · rw [sends, step, hst', e1, St.build]
    dsimp only
    rw [List.foldl_nil, h3]
    simp
  · have e2 : after c (opened h r es es') = (step (after c (h ++ [.request r { drafts := draftsOf es }]))
        (.own { asks := es'.map Prod.snd })).1 := after_snoc _ _ _
    rw [e2, step, hst', e1, St.build]
    dsimp only
    rw [List.foldl_nil]
    exact h2.phase
  · exact congrArg Core.latest (hcore.trans hcore')
  · have : (after c (opened h r es es')).requests = (after c h).requests.put r.id r :=
      congrArg Core.requests (hcore.trans hcore')
    rw [this, Map.get_put, if_pos rfl]

theorem optionsOf_append (l m : List Out) : optionsOf (l ++ m) = optionsOf l ++ optionsOf m := by
  induction l with
  | nil => rfl
  | cons o l ih => cases o <;> simp [optionsOf, ih]

/-- The options are sent when the last answer comes, and only then. -/
theorem phase_run {c : Config} {req : Int} {T : List Entry} (hT : Table T) (hne : T ≠ []) {s : St}
    (h : Phase c req T [] s) (g : List In) (hg : ∀ i ∈ g, Calm c.task T i) :
    Phase c req T (arrivals c.task T g) (runM step s g).1 ∧
    (AllDone T (arrivals c.task T g) → optionsOf (runM step s g).2.flatten =
      [{ req := req, opts := (arrivals c.task T g).map (fun x => x.1.priced x.2.plans) }]) ∧
    (¬ AllDone T (arrivals c.task T g) → optionsOf (runM step s g).2.flatten = []) := by
  induction g using snocRec with
  | nil =>
    refine ⟨h, ?_, fun _ => rfl⟩
    intro hall
    cases T with
    | nil => exact absurd rfl hne
    | cons e T =>
      obtain ⟨y, hy, _⟩ := hall e List.mem_cons_self
      cases hy
  | append_singleton g i ih =>
    obtain ⟨h1, h2, h3⟩ := ih (fun j hj => hg j (List.mem_append_left _ hj))
    obtain ⟨k1, k2, k3⟩ := h1.step hT (hg i (List.mem_append_right _ (List.mem_singleton.mpr rfl)))
    rw [runM_snoc]
    dsimp only
    rw [List.flatten_append, optionsOf_append]
    simp only [List.flatten_cons, List.flatten_nil, List.append_nil]
    refine ⟨k1, ?_, ?_⟩
    · intro hall
      by_cases hold : AllDone T (arrivals c.task T g)
      · have same : arrivals c.task T (g ++ [i]) = arrivals c.task T g := by
          rw [arrivals_snoc]
          split
          · rename_i rr
            split
            · split
              · rename_i e he
                split
                · rfl
                · rename_i hany
                  exfalso
                  obtain ⟨y, hy, hye⟩ := hold e (List.mem_of_find?_eq_some he)
                  refine hany (List.any_eq_true.mpr ⟨y, hy, ?_⟩)
                  have hf := List.find?_some he
                  rw [hye]; exact hf
              · rfl
            · rfl
          · rfl
        rw [k3 (fun h => h.2 hold), h2 hold, same]
        rfl
      · rw [k2 hall hold, h3 hold]; rfl
    · intro hnall
      have hold : ¬ AllDone T (arrivals c.task T g) := by
        intro hold
        refine hnall (fun e he => ?_)
        obtain ⟨y, hy, hye⟩ := hold e he
        refine ⟨y, ?_, hye⟩
        rw [arrivals_snoc]
        split
        · split
          · split
            · split
              · exact hy
              · exact List.mem_append_left _ hy
            · exact hy
          · exact hy
        · exact hy
      rw [k3 (fun h => hnall h.1), h3 hold]; rfl

/-- All requests for routes have been answered. -/
def Answered (t : Int) (T : List Entry) (g : List In) : Prop :=
  ∀ e ∈ T, ∃ rr, .route rr ∈ g ∧ rr.task = t ∧ rr.id = e.rid

theorem allDone_iff {t : Int} {T : List Entry} (hT : Table T) (g : List In) :
    AllDone T (arrivals t T g) ↔ Answered t T g := by
  constructor
  · intro h e he
    obtain ⟨y, hy, rfl⟩ := h e he
    have := arrivals_mem t T g y hy
    exact ⟨y.2, this.2.2.2, this.2.2.1, this.2.1⟩
  · intro h e he
    obtain ⟨rr, hr, ht, hid⟩ := h e he
    clear h
    induction g using snocRec with
    | nil => cases hr
    | append_singleton g i ih =>
      have mono : ∀ y ∈ arrivals t T g, y ∈ arrivals t T (g ++ [i]) := by
        intro y hy
        rw [arrivals_snoc]
        split
        · split
          · split
            · split
              · exact hy
              · exact List.mem_append_left _ hy
            · exact hy
          · exact hy
        · exact hy
      rcases List.mem_append.mp hr with hr | hr
      · obtain ⟨y, hy, hye⟩ := ih hr
        exact ⟨y, mono y hy, hye⟩
      · have hi := List.mem_singleton.mp hr
        subst hi
        have hfind : T.find? (·.rid == rr.id) = some e := by
          cases hf : T.find? (·.rid == rr.id) with
          | none =>
            have := List.find?_eq_none.mp hf e he
            simp [hid] at this
          | some e' =>
            have h1 := List.find?_some hf
            have h2 := List.mem_of_find?_eq_some hf
            rw [eq_of_nodup_map hT.rids h2 he (by rw [← hid]; simpa using h1)]
        have harr := arrivals_snoc t T g (.route rr)
        simp only [if_pos ht, hfind] at harr
        rw [harr]
        split
        · rename_i hany
          obtain ⟨y, hy, hye⟩ := List.any_eq_true.mp hany
          exact ⟨y, hy, eq_of_nodup_map hT.rids (arrivals_mem t T g y hy).1 he (by rw [← hid]; simpa using hye)⟩
        · exact ⟨(e, rr), List.mem_append_right _ (List.mem_singleton.mpr rfl), rfl⟩

/-! ### The total cost -/

theorem total_pos {k : Int} {ps : List RoutePlan} (h : ∀ p ∈ ps, 0 < p.cost) : total k ps = k + (ps.map (·.cost)).sum := by
  induction ps generalizing k with
  | nil => simp [total]
  | cons p ps ih =>
    rw [total, List.foldl_cons, if_pos (h p List.mem_cons_self)]
    have := ih (k := k + p.cost) (fun q hq => h q (List.mem_cons_of_mem _ hq))
    rw [total] at this
    rw [this, List.map_cons, List.sum_cons]
    omega

theorem total_ge {k : Int} {ps : List RoutePlan} (hk : maxCost ≤ k) : maxCost ≤ total k ps := by
  induction ps generalizing k with
  | nil => exact hk
  | cons p ps ih =>
    rw [total, List.foldl_cons]
    refine ih ?_
    split
    · omega
    · exact Int.le_refl _

theorem total_bad {k : Int} {ps : List RoutePlan} (h : ∃ p ∈ ps, p.cost ≤ 0) : maxCost ≤ total k ps := by
  induction ps generalizing k with
  | nil => obtain ⟨_, h, _⟩ := h; cases h
  | cons p ps ih =>
    rw [total, List.foldl_cons]
    by_cases hp : 0 < p.cost
    · obtain ⟨q, hq, hc⟩ := h
      rcases List.mem_cons.mp hq with rfl | hq
      · omega
      · exact ih ⟨q, hq, hc⟩
    · rw [if_neg hp]
      exact total_ge (Int.le_refl _)

end Verif.Task
