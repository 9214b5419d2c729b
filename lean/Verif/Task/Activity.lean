import Verif.Task.Spec

/-! Who is assigned and who is active. -/

namespace Verif.Task

open Verif

/-- What the reports of activity depend on. -/
structure Core where
  cfg : Config
  assigned : List Int
  activeOn : List Int
  requests : Map Request
  latest : Int
  lastWp : Map Int

/-- Not in the code: the part of the state that matters here. -/
def St.core (s : St) : Core := ⟨s.cfg, s.assigned, s.activeOn, s.requests, s.latest, s.lastWp⟩

theorem core_draft (s : St) (d : Draft) : (s.draft d).core = s.core := rfl

theorem core_drafts (ds : List Draft) (s : St) : (ds.foldl St.draft s).core = s.core := by
  induction ds generalizing s with
  | nil => rfl
  | cons d ds ih => rw [List.foldl_cons, ih]; rfl

theorem core_askRoutes (s : St) (a : Ask) : (s.askRoutes a).1.core = s.core := by
  rw [St.askRoutes]; split <;> rfl

theorem core_askAll (as : List Ask) (s : St) : (s.askAll as).1.core = s.core := by
  induction as generalizing s with
  | nil => rfl
  | cons a as ih => rw [St.askAll]; rw [ih, core_askRoutes]

theorem core_build (s : St) (b : Build) : (s.build b).1.core = s.core := by
  rw [St.build]; rw [core_askAll, core_drafts]

theorem core_implement (s : St) (q : ImplReq) : (s.implement q).1.core = s.core := by
  rw [St.implement]
  split
  · rfl
  · split <;> rfl

theorem core_optionRoute (s : St) (o : Int) (p : RoutePlan) : (s.optionRoute o p).1.core = s.core := by
  rw [St.optionRoute]
  split
  · rfl
  · dsimp only
    rw [St.takeRoute]
    split <;> rfl

theorem core_optionRoutes (o : Int) (ps : List RoutePlan) (s : St) : (s.optionRoutes o ps).1.core = s.core := by
  induction ps generalizing s with
  | nil => rfl
  | cons p ps ih => rw [St.optionRoutes]; rw [ih, core_optionRoute]

theorem core_optionResponse (s : St) (r : RouteResp) : (s.optionResponse r).1.core = s.core := by
  rw [St.optionResponse]
  split
  · rw [core_optionRoutes]; rfl
  · rfl

theorem core_conclude (s : St) (b : Bool) (o v : Int) (q : ImplReq) (c : OptClass) :
    (s.conclude b o v q c).1.core = s.core := by
  rw [St.conclude]
  split
  · dsimp only
    split
    · rfl
    · split <;> rfl
  · rfl

theorem core_implRoute (s : St) (b : Bool) (o v : Int) (q : ImplReq) (p : RoutePlan) :
    (s.implRoute b o v q p).1.core = s.core := by
  rw [St.implRoute]
  repeat' split
  · rfl
  · rfl
  · exact core_conclude _ _ _ _ _ _
  · rfl
  · rfl

theorem core_implRoutes (b : Bool) (o v : Int) (q : ImplReq) (ps : List RoutePlan) (s : St) :
    (s.implRoutes b o v q ps).1.core = s.core := by
  induction ps generalizing s with
  | nil => rfl
  | cons p ps ih => rw [St.implRoutes]; rw [ih, core_implRoute]

theorem core_implResponse (s : St) (r : RouteResp) : (s.implResponse r).1.core = s.core := by
  rw [St.implResponse]
  split
  · rfl
  · split
    · dsimp only
      split
      · exact core_implRoutes _ _ _ _ _ _
      · rfl
    · rfl

theorem core_request (s : St) (r : Request) (b : Build) :
    (s.request r b).1.core = { s.core with requests := s.requests.put r.id r, latest := r.id } := by
  rw [St.request]
  dsimp only
  split
  · split
    · split <;> rfl
    · rw [core_build]; rfl
  · rfl

theorem core_route (s : St) (r : RouteResp) : (step s (.route r)).1.core = s.core := by
  rw [step]
  repeat' split
  · rfl
  · rfl
  · rfl
  · exact core_optionResponse _ _
  · exact core_implResponse _ _

theorem core_config (s : St) (v : VConfig) : (s.entityConfig v).core = s.core := by
  rw [St.entityConfig]; repeat' split
  all_goals rfl

theorem ub_step {s : St} (i : In) (h : s.ub = true) : step s i = (s, []) := by
  simp only [step, h, if_true]

theorem Fine.prefix {c : Config} {h g : List In} (hf : Fine c (h ++ g)) : Fine c h := by
  induction g using snocRec with
  | nil => simpa using hf
  | append_singleton g i ih =>
    apply ih
    cases hu : (after c (h ++ g)).ub with
    | false => exact hu
    | true =>
      rw [Fine, after, ← List.append_assoc, runM_snoc] at hf
      dsimp only at hf
      rw [ub_step i hu, hu] at hf
      cases hf

theorem after_snoc (c : Config) (h : List In) (i : In) : after c (h ++ [i]) = (step (after c h) i).1 := by
  rw [after, runM_snoc]

/-! ### The specification, one input at a time -/

theorem openRequest_snoc (h : List In) (i : In) (id : Int) :
    openRequest (h ++ [i]) id = if i.concerns id then (match i with | .request r _ => some r | _ => none)
      else openRequest h id := by
  rw [openRequest, List.reverse_append, List.reverse_singleton, List.singleton_append, List.find?_cons]
  cases hc : i.concerns id with
  | true =>
    simp only [if_true]
    cases i <;> rfl
  | false =>
    simp only [Bool.false_eq_true, if_false]
    rfl

theorem snoc_split {α : Type} {h h₁ h₂ : List α} {i j : α} (e : h ++ [i] = h₁ ++ j :: h₂) :
    (h₂ = [] ∧ j = i ∧ h₁ = h) ∨ ∃ k, h₂ = k ++ [i] ∧ h = h₁ ++ j :: k := by
  induction h₂ using snocRec with
  | nil =>
    have := List.append_inj' e rfl
    exact Or.inl ⟨rfl, by simpa using this.2.symm, this.1.symm⟩
  | append_singleton k x _ =>
    have e' : h ++ [i] = (h₁ ++ j :: k) ++ [x] := by rw [e]; simp
    have := List.append_inj' e' rfl
    exact Or.inr ⟨k, by simpa using this.2.symm, this.1⟩

theorem Assigned.snoc_iff {t : Int} {h : List In} {w : Int} (i : In) : Assigned t (h ++ [i]) w ↔
    (Commands h i w ∧ ∃ id ms, i = .response id ms ∧ HasTask t w ms) ∨ (¬ Commands h i w ∧ Assigned t h w) := by
  constructor
  · rintro ⟨h₁, id, ms, h₂, e, hc, ht, hq⟩
    rcases snoc_split e with ⟨_, rfl, rfl⟩ | ⟨k, rfl, rfl⟩
    · exact Or.inl ⟨hc, id, ms, rfl, ht⟩
    · refine Or.inr ⟨?_, h₁, id, ms, k, rfl, hc, ht, ?_⟩
      · exact hq k i [] rfl
      · intro g j l e
        exact hq g j (l ++ [i]) (by rw [e]; simp)
  · rintro (⟨hc, id, ms, rfl, ht⟩ | ⟨hc, h₁, id, ms, h₂, rfl, hc', ht, hq⟩)
    · refine ⟨h, id, ms, [], rfl, hc, ht, ?_⟩
      intro g j k e
      cases g <;> cases e
    · refine ⟨h₁, id, ms, h₂ ++ [i], by simp, hc', ht, ?_⟩
      intro g j k e
      rcases snoc_split e with ⟨_, rfl, rfl⟩ | ⟨k', _, e'⟩
      · exact hc
      · exact hq g j k' e'

theorem OnTask.snoc_iff {t : Int} {h : List In} {w : Int} (i : In) : OnTask t (h ++ [i]) w ↔
    (∃ v, i = .state v ∧ v.id = w ∧ t ∈ v.tasks) ∨
      ((∀ v, i = .state v → v.id ≠ w) ∧ ¬ Commands h i w ∧ OnTask t h w) := by
  constructor
  · rintro ⟨h₁, v, h₂, e, hv, ht, hn, hq⟩
    rcases snoc_split e with ⟨_, rfl, rfl⟩ | ⟨k, rfl, rfl⟩
    · exact Or.inl ⟨v, rfl, hv, ht⟩
    · refine Or.inr ⟨?_, hq k i [] rfl, h₁, v, k, rfl, hv, ht, ?_, ?_⟩
      · rintro u rfl; exact hn u (List.mem_append_right _ (List.mem_singleton.mpr rfl))
      · intro u hu; exact hn u (List.mem_append_left _ hu)
      · intro g j l e; exact hq g j (l ++ [i]) (by rw [e]; simp)
  · rintro (⟨v, rfl, hv, ht⟩ | ⟨hs, hc, h₁, v, h₂, rfl, hv, ht, hn, hq⟩)
    · refine ⟨h, v, [], rfl, hv, ht, (by simp), ?_⟩
      intro g j k e
      cases g <;> cases e
    · refine ⟨h₁, v, h₂ ++ [i], by simp, hv, ht, ?_, ?_⟩
      · intro u hu
        rcases List.mem_append.mp hu with hu | hu
        · exact hn u hu
        · exact hs u (List.mem_singleton.mp hu).symm
      · intro g j k e
        rcases snoc_split e with ⟨_, rfl, rfl⟩ | ⟨k', _, e'⟩
        · exact hc
        · exact hq g j k' e'

/-! ### The state knows it -/

/-- The state agrees with the history. -/
structure Knows (c : Config) (h : List In) (k : Core) : Prop where
  cfg : k.cfg = c
  req : ∀ id, k.requests.get id = openRequest h id
  assigned : ∀ w, k.assigned.contains w = true ↔ Assigned c.task h w
  active : ∀ w, k.activeOn.contains w = true ↔ Assigned c.task h w ∧ OnTask c.task h w

theorem addTo_mem (l : List Int) (k x : Int) : x ∈ addTo l k ↔ x ∈ l ∨ x = k := by
  rw [addTo]
  split
  · rename_i h
    have := List.contains_iff_mem.mp h
    constructor
    · exact Or.inl
    · rintro (h | rfl) <;> assumption
  · simp

theorem foldl_addTo_mem (ks : List Int) (l : List Int) (x : Int) : x ∈ ks.foldl addTo l ↔ x ∈ l ∨ x ∈ ks := by
  induction ks generalizing l with
  | nil => simp
  | cons k ks ih => rw [List.foldl_cons, ih, addTo_mem, List.mem_cons]; grind

theorem dropFrom_mem (l : List Int) (k x : Int) : x ∈ dropFrom l k ↔ x ∈ l ∧ x ≠ k := by
  simp [dropFrom, List.mem_filter]

/-- An input that is no request, answer or state changes nothing of it. -/
theorem Knows.quiet {c : Config} {h : List In} {k : Core} (hk : Knows c h k) {i : In}
    (h1 : ∀ v, i ≠ .state v) (h2 : ∀ r b, i ≠ .request r b) (h3 : ∀ id ms, i ≠ .response id ms) :
    Knows c (h ++ [i]) k := by
  have hc : ∀ w, ¬ Commands h i w := by
    rintro w ⟨id, ms, r, e, _⟩; exact h3 id ms e
  refine ⟨hk.cfg, ?_, ?_, ?_⟩
  · intro id
    rw [openRequest_snoc, hk.req]
    have : i.concerns id = false := by
      cases i with
      | request r b => exact absurd rfl (h2 r b)
      | response id ms => exact absurd rfl (h3 id ms)
      | _ => rfl
    rw [this]; rfl
  · intro w
    rw [Assigned.snoc_iff, hk.assigned]
    constructor
    · intro h; exact Or.inr ⟨hc w, h⟩
    · rintro (⟨h, _⟩ | ⟨_, h⟩)
      · exact absurd h (hc w)
      · exact h
  · intro w
    rw [Assigned.snoc_iff, OnTask.snoc_iff, hk.active]
    constructor
    · rintro ⟨ha, ho⟩
      exact ⟨Or.inr ⟨hc w, ha⟩, Or.inr ⟨fun v e => absurd e (h1 v), hc w, ho⟩⟩
    · rintro ⟨ha, ho⟩
      refine ⟨?_, ?_⟩
      · rcases ha with ⟨h, _⟩ | ⟨_, h⟩
        · exact absurd h (hc w)
        · exact h
      · rcases ho with ⟨v, e, _⟩ | ⟨_, _, h⟩
        · exact absurd e (h1 v)
        · exact h

theorem Knows.state {c : Config} {h : List In} {s : St} (hk : Knows c h s.core) (v : VState) :
    Knows c (h ++ [.state v]) (s.entityState v).1.core := by
  have hc : ∀ w, ¬ Commands h (.state v) w := by
    rintro w ⟨id, ms, r, e, _⟩; cases e
  have hA : ∀ w, Assigned c.task (h ++ [.state v]) w ↔ Assigned c.task h w := by
    intro w
    rw [Assigned.snoc_iff]
    constructor
    · rintro (⟨h, _⟩ | ⟨_, h⟩)
      · exact absurd h (hc w)
      · exact h
    · intro h; exact Or.inr ⟨hc w, h⟩
  have hO : ∀ w, OnTask c.task (h ++ [.state v]) w ↔
      (v.id = w ∧ c.task ∈ v.tasks) ∨ (v.id ≠ w ∧ OnTask c.task h w) := by
    intro w
    rw [OnTask.snoc_iff]
    constructor
    · rintro (⟨u, e, h⟩ | ⟨h1, _, h2⟩)
      · cases e; exact Or.inl h
      · exact Or.inr ⟨h1 v rfl, h2⟩
    · rintro (h | ⟨h1, h2⟩)
      · exact Or.inl ⟨v, rfl, h⟩
      · refine Or.inr ⟨?_, hc w, h2⟩
        rintro u e; cases e; exact h1
  have hcfg : s.cfg = c := hk.cfg
  have ha : ∀ w, w ∈ s.assigned ↔ Assigned c.task h w := fun w =>
    List.contains_iff_mem.symm.trans (hk.assigned w)
  have hb : ∀ w, w ∈ s.activeOn ↔ Assigned c.task h w ∧ OnTask c.task h w := fun w =>
    List.contains_iff_mem.symm.trans (hk.active w)
  have hreq : ∀ id, s.requests.get id = openRequest (h ++ [.state v]) id := by
    intro id
    rw [openRequest_snoc]; exact hk.req id
  have main : ∀ (act : List Int) (lw : Map Int), (∀ w, w ∈ act ↔ Assigned c.task (h ++ [.state v]) w ∧ OnTask c.task (h ++ [.state v]) w) →
      Knows c (h ++ [.state v]) ⟨s.cfg, s.assigned, act, s.requests, s.latest, lw⟩ := by
    intro act lw hact
    refine ⟨hcfg, hreq, ?_, ?_⟩
    · intro w; rw [hA]; exact hk.assigned w
    · intro w; exact List.contains_iff_mem.trans (hact w)
  rw [St.entityState]
  split
  · rename_i hin
    have hin' := (ha v.id).mp (List.contains_iff_mem.mp hin)
    split
    · rename_i hon
      rw [hcfg] at hon
      have hon' := List.contains_iff_mem.mp hon
      dsimp only
      split
      · rename_i hact
        refine main s.activeOn _ ?_
        intro w
        rw [hA, hO, hb]
        have := (hb v.id).mp (List.contains_iff_mem.mp hact)
        grind
      · rename_i hact
        refine main (addTo s.activeOn v.id) _ ?_
        intro w
        rw [hA, hO, addTo_mem, hb]
        grind
    · rename_i hon
      rw [hcfg] at hon
      have hon' : c.task ∉ v.tasks := fun h => hon (List.contains_iff_mem.mpr h)
      split
      · refine main (dropFrom s.activeOn v.id) _ ?_
        intro w
        rw [hA, hO, dropFrom_mem, hb]
        grind
      · rename_i hact
        have hact' : v.id ∉ s.activeOn := fun h => hact (List.contains_iff_mem.mpr h)
        refine main s.activeOn _ ?_
        intro w
        rw [hA, hO]
        have := hb w
        grind
  · rename_i hin
    have hin' : ¬ Assigned c.task h v.id := fun h => hin (List.contains_iff_mem.mpr ((ha _).mpr h))
    refine main s.activeOn _ ?_
    intro w
    rw [hA, hO]
    have := hb w
    grind

theorem Knows.request {c : Config} {h : List In} {s : St} (hk : Knows c h s.core) (r : Request) (b : Build) :
    Knows c (h ++ [.request r b]) (s.request r b).1.core := by
  rw [core_request]
  have hc : ∀ w, ¬ Commands h (.request r b) w := by
    rintro w ⟨id, ms, r, e, _⟩; cases e
  refine ⟨hk.cfg, ?_, ?_, ?_⟩
  · intro id
    rw [openRequest_snoc]
    dsimp only [In.concerns]
    rw [Map.get_put, ← hk.req]
    by_cases e : id = r.id
    · subst e; simp
    · have : ¬ r.id = id := fun h => e h.symm
      simp only [beq_iff_eq, if_neg e, if_neg this]; rfl
  · intro w
    rw [Assigned.snoc_iff]
    refine (hk.assigned w).trans ?_
    constructor
    · intro h; exact Or.inr ⟨hc w, h⟩
    · rintro (⟨h, _⟩ | ⟨_, h⟩)
      · exact absurd h (hc w)
      · exact h
  · intro w
    rw [Assigned.snoc_iff, OnTask.snoc_iff]
    refine (hk.active w).trans ?_
    constructor
    · rintro ⟨ha, ho⟩
      exact ⟨Or.inr ⟨hc w, ha⟩, Or.inr ⟨fun v e => (by cases e), hc w, ho⟩⟩
    · rintro ⟨ha, ho⟩
      refine ⟨?_, ?_⟩
      · rcases ha with ⟨h, _⟩ | ⟨_, h⟩
        · exact absurd h (hc w)
        · exact h
      · rcases ho with ⟨v, e, _⟩ | ⟨_, _, h⟩
        · cases e
        · exact h

theorem hasTask_iff (t w : Int) (ms : List (Int × List (List Int))) :
    w ∈ (ms.filter fun m => m.2.any (·.contains t)).map Prod.fst ↔ HasTask t w ms := by
  simp only [HasTask, List.mem_map, List.mem_filter, List.any_eq_true, List.contains_iff_mem]
  constructor
  · rintro ⟨m, ⟨h1, h2⟩, h3⟩; exact ⟨m, h1, h3, h2⟩
  · rintro ⟨m, h1, h3, h2⟩; exact ⟨m, ⟨h1, h2⟩, h3⟩

theorem Knows.response {c : Config} {h : List In} {s : St} (hk : Knows c h s.core) (id : Int)
    (ms : List (Int × List (List Int))) : Knows c (h ++ [.response id ms]) (s.autoResponse id ms).core := by
  have hcfg : s.cfg = c := hk.cfg
  have hC : ∀ w, Commands h (.response id ms) w ↔
      ∃ r, openRequest h id = some r ∧ r.sandbox = false ∧ w ∈ ms.map Prod.fst := by
    intro w
    constructor
    · rintro ⟨id', ms', r, e, h⟩; cases e; exact ⟨r, h⟩
    · rintro ⟨r, h⟩; exact ⟨id, ms, r, rfl, h⟩
  have hA : ∀ w, Assigned c.task (h ++ [.response id ms]) w ↔
      (Commands h (.response id ms) w ∧ HasTask c.task w ms) ∨
        (¬ Commands h (.response id ms) w ∧ Assigned c.task h w) := by
    intro w
    rw [Assigned.snoc_iff]
    constructor
    · rintro (⟨h, _, _, e, ht⟩ | h)
      · cases e; exact Or.inl ⟨h, ht⟩
      · exact Or.inr h
    · rintro (⟨h, ht⟩ | h)
      · exact Or.inl ⟨h, _, _, rfl, ht⟩
      · exact Or.inr h
  have hO : ∀ w, OnTask c.task (h ++ [.response id ms]) w ↔ ¬ Commands h (.response id ms) w ∧ OnTask c.task h w := by
    intro w
    rw [OnTask.snoc_iff]
    constructor
    · rintro (⟨_, e, _⟩ | ⟨_, h⟩)
      · cases e
      · exact h
    · intro h; exact Or.inr ⟨fun _ e => (by cases e), h⟩
  have ha : ∀ w, w ∈ s.assigned ↔ Assigned c.task h w := fun w =>
    List.contains_iff_mem.symm.trans (hk.assigned w)
  have hb : ∀ w, w ∈ s.activeOn ↔ Assigned c.task h w ∧ OnTask c.task h w := fun w =>
    List.contains_iff_mem.symm.trans (hk.active w)
  have hr := hk.req id
  have hdel : ∀ m : Map Request, (∀ k, m.get k = openRequest h k) →
      ∀ k, (m.del id).get k = openRequest (h ++ [.response id ms]) k := by
    intro m hm k
    rw [openRequest_snoc, Map.get_del, hm]
    dsimp only [In.concerns]
    by_cases e : k = id
    · subst e; simp
    · have : ¬ id = k := fun h => e h.symm
      simp only [beq_iff_eq, if_neg e, if_neg this]
  rw [St.autoResponse]
  split
  · rename_i hn
    have hn' : openRequest h id = none := by rw [← hr]; exact hn
    have hc : ∀ w, ¬ Commands h (.response id ms) w := by
      intro w h'
      obtain ⟨r, e, _⟩ := (hC w).mp h'
      rw [hn'] at e; cases e
    refine ⟨hcfg, ?_, ?_, ?_⟩
    · intro k
      have := hdel s.requests hk.req k
      rw [Map.del_of_none hn] at this
      exact this
    · intro w
      rw [hA]
      refine (hk.assigned w).trans ?_
      have := hc w
      grind
    · intro w
      rw [hA, hO]
      refine (hk.active w).trans ?_
      have := hc w
      grind
  · rename_i r hn
    have hn' : openRequest h id = some r := by rw [← hr]; exact hn
    dsimp only
    split
    · rename_i hsb
      have hc : ∀ w, ¬ Commands h (.response id ms) w := by
        intro w h'
        obtain ⟨r', e, hs, _⟩ := (hC w).mp h'
        rw [hn'] at e; cases e
        rw [hsb] at hs; cases hs
      refine ⟨hcfg, hdel s.requests hk.req, ?_, ?_⟩
      · intro w
        rw [hA]
        refine (hk.assigned w).trans ?_
        have := hc w
        grind
      · intro w
        rw [hA, hO]
        refine (hk.active w).trans ?_
        have := hc w
        grind
    · rename_i hsb
      have hsb' : r.sandbox = false := by simpa using hsb
      have hc : ∀ w, Commands h (.response id ms) w ↔ w ∈ ms.map Prod.fst := by
        intro w
        rw [hC]
        constructor
        · rintro ⟨_, _, _, h⟩; exact h
        · intro h; exact ⟨r, hn', hsb', h⟩
      have hsub : ∀ w, HasTask c.task w ms → w ∈ ms.map Prod.fst := by
        rintro w ⟨m, hm, rfl, _⟩; exact List.mem_map.mpr ⟨m, hm, rfl⟩
      refine ⟨hcfg, hdel s.requests hk.req, ?_, ?_⟩
      · intro w
        rw [hA, hc]
        refine List.contains_iff_mem.trans ?_
        rw [show (∀ (x : St), x.core.assigned = x.assigned) from fun _ => rfl]
        dsimp only
        rw [foldl_addTo_mem, hcfg, hasTask_iff, List.mem_filter, ha]
        have := hsub w
        simp only [Bool.not_eq_true', List.contains_eq_mem, decide_eq_false_iff_not]
        grind
      · intro w
        rw [hA, hO, hc]
        refine List.contains_iff_mem.trans ?_
        rw [show (∀ (x : St), x.core.activeOn = x.activeOn) from fun _ => rfl]
        dsimp only
        rw [List.mem_filter, hb]
        simp only [Bool.not_eq_true', List.contains_eq_mem, decide_eq_false_iff_not]
        grind

theorem knows (c : Config) (h : List In) (hf : Fine c h) : Knows c h (after c h).core := by
  induction h using snocRec with
  | nil =>
    refine ⟨rfl, fun _ => rfl, ?_, ?_⟩
    · intro w
      refine ⟨fun h => (by cases h), ?_⟩
      rintro ⟨h₁, id, ms, h₂, e, _⟩
      cases h₁ <;> cases e
    · intro w
      refine ⟨fun h => (by cases h), ?_⟩
      rintro ⟨⟨h₁, id, ms, h₂, e, _⟩, _⟩
      cases h₁ <;> cases e
  | append_singleton h i ih =>
    have hf' : Fine c h := hf.prefix
    have hk := ih hf'
    have hst : ∀ x : St × List Out, (if (after c h).ub = true then (after c h, []) else x) = x := fun x =>
      if_neg (by rw [hf']; exact Bool.false_ne_true)
    rw [after_snoc]
    cases i with
    | state v => rw [step, hst]; exact hk.state v
    | request r b => rw [step, hst]; exact hk.request r b
    | response id ms => rw [step, hst]; exact hk.response id ms
    | config v =>
      rw [step, hst, core_config]
      exact hk.quiet (fun _ e => by cases e) (fun _ _ e => by cases e) (fun _ _ e => by cases e)
    | own b =>
      rw [step, hst, core_build]
      exact hk.quiet (fun _ e => by cases e) (fun _ _ e => by cases e) (fun _ _ e => by cases e)
    | implement q =>
      rw [step, hst, core_implement]
      exact hk.quiet (fun _ e => by cases e) (fun _ _ e => by cases e) (fun _ _ e => by cases e)
    | route r =>
      rw [core_route]
      exact hk.quiet (fun _ e => by cases e) (fun _ _ e => by cases e) (fun _ _ e => by cases e)

end Verif.Task
