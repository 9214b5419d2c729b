import Verif.Task.Reports
import Verif.Task.Waypoints

/-! What the implementations are made of. -/

namespace Verif.Task

open Verif

/-- A property of the waypoints of a plan that does not depend on the numbers and that parts taken up again keep. -/
structure Stable (W : List Wp → Prop) : Prop where
  nil : W []
  same : ∀ {ws ws'}, SameBut ws ws' → W ws → W ws'
  restart : ∀ {ws} n, W ws → W (restartFrom n none false ws)

theorem stable_true : Stable (fun _ => True) := ⟨trivial, fun _ _ => trivial, fun _ _ => trivial⟩

theorem stable_endsWell (near : Place → Place → Bool) : Stable (EndsWell near) :=
  ⟨Or.inl rfl, fun h hw => hw.sameBut h, fun n h => h.restart n⟩

/-- Not in the code: all routes of the option satisfy `W`. -/
def OptClass.Ok (W : List Wp → Prop) (x : OptClass) : Prop :=
  (∀ p ∈ x.plans, W p.2.wps) ∧ ∀ ws, x.restartPlan = some ws → W ws

/-- What is known of the state. -/
structure Sound (c : Config) (H : ImplReq → Prop) (cf : Int → Option VConfig) (W : List Wp → Prop) (s : St) : Prop where
  cfg : s.cfg = c
  impl : ∀ k q, s.implReqs.get k = some q → H q
  conf : ∀ k, s.configs.get k = cf k
  plans : ∀ o x, s.opts.get o = some x → x.Ok W

variable {c : Config} {H : ImplReq → Prop} {cf : Int → Option VConfig} {W : List Wp → Prop}

theorem Sound.congr {s s' : St} (h : Sound c H cf W s) (h1 : s'.cfg = s.cfg) (h2 : s'.implReqs = s.implReqs)
    (h3 : s'.configs = s.configs) (h4 : s'.opts = s.opts) : Sound c H cf W s' :=
  ⟨h1.trans h.cfg, by rw [h2]; exact h.impl, by rw [h3]; exact h.conf, by rw [h4]; exact h.plans⟩

theorem ok_put {m : Map OptClass} (h : ∀ o x, m.get o = some x → x.Ok W) {k : Int} {y : OptClass} (hy : y.Ok W) :
    ∀ o x, (m.put k y).get o = some x → x.Ok W := by
  intro o x e
  rw [Map.get_put] at e
  split at e
  · cases e; exact hy
  · exact h o x e

theorem Sound.draft {s : St} (h : Sound c H cf W s) (d : Draft) : Sound c H cf W (s.draft d) := by
  refine ⟨h.cfg, h.impl, h.conf, ?_⟩
  intro o x e
  rw [St.draft] at e
  dsimp only at e
  split at e
  · exact h.plans o x e
  · exact ok_put h.plans (y := { opt := d.opt }) ⟨fun _ h => (by cases h), fun _ h => (by cases h)⟩ o x e

theorem Sound.drafts (ds : List Draft) {s : St} (h : Sound c H cf W s) : Sound c H cf W (ds.foldl St.draft s) := by
  induction ds generalizing s with
  | nil => exact h
  | cons d ds ih => exact ih (h.draft d)

theorem Sound.askRoutes {s : St} (h : Sound c H cf W s) (a : Ask) : Sound c H cf W (s.askRoutes a).1 := by
  rw [St.askRoutes]
  split
  · exact h.congr rfl rfl rfl rfl
  · rename_i o ho
    exact ⟨h.cfg, h.impl, h.conf, ok_put h.plans (h.plans _ o ho)⟩

theorem Sound.askAll (as : List Ask) {s : St} (h : Sound c H cf W s) : Sound c H cf W (s.askAll as).1 := by
  induction as generalizing s with
  | nil => exact h
  | cons a as ih => exact ih (h.askRoutes a)

theorem Sound.build {s : St} (h : Sound c H cf W s) (b : Build) : Sound c H cf W (s.build b).1 :=
  (h.drafts b.drafts).askAll b.asks

theorem Sound.request (hw : Stable W) {s : St} (h : Sound c H cf W s) (r : Request) (b : Build) :
    Sound c H cf W (s.request r b).1 := by
  rw [St.request]
  dsimp only
  split
  · split
    · rename_i v n o x hr
      have hx : x.Ok W := by
        rw [St.restart?] at hr
        split at hr
        · cases hr
        · split at hr
          · cases hr
          · dsimp only at hr
            split at hr
            · cases hr
            · rename_i hg
              split at hr
              · cases hr; exact h.plans _ _ hg
              · cases hr
      have hws : ∀ ws, ws = (match x.plans.find? (·.1 == firstImplId) with
          | none => []
          | some p => restartFrom n none false p.2.wps) → W ws := by
        rintro ws rfl
        split
        · exact hw.nil
        · rename_i p hp
          exact hw.restart n (hx.1 p (List.mem_of_find?_eq_some hp))
      split
      · refine ⟨h.cfg, h.impl, h.conf, ok_put h.plans ⟨hx.1, ?_⟩⟩
        intro ws e; cases e; exact hws _ rfl
      · refine ⟨h.cfg, h.impl, h.conf, ok_put h.plans ⟨hx.1, ?_⟩⟩
        intro ws e; cases e; exact hws _ rfl
    · refine Sound.build ?_ b
      refine ⟨h.cfg, ?_, h.conf, ?_⟩
      · intro k q e; cases e
      · intro o x e; cases e
  · exact h.congr rfl rfl rfl rfl

theorem Sound.response {s : St} (h : Sound c H cf W s) (id : Int) (ms : List (Int × List (List Int))) :
    Sound c H cf W (s.autoResponse id ms) := by
  rw [St.autoResponse]
  split
  · exact h
  · dsimp only
    split
    · exact h.congr rfl rfl rfl rfl
    · exact h.congr rfl rfl rfl rfl

theorem Sound.state {s : St} (h : Sound c H cf W s) (v : VState) : Sound c H cf W (s.entityState v).1 := by
  rw [St.entityState]
  split
  · split
    · dsimp only
      split
      · exact h.congr rfl rfl rfl rfl
      · exact h.congr rfl rfl rfl rfl
    · split
      · exact h.congr rfl rfl rfl rfl
      · exact h
  · exact h

theorem Sound.implement {s : St} (h : Sound c H cf W s) {q : ImplReq} (hq : q.task = c.task → H q) :
    Sound c H cf W (s.implement q).1 := by
  rw [St.implement]
  split
  · exact h
  · rename_i ht
    have ht' : q.task = c.task := by rw [← h.cfg]; exact Decidable.of_not_not ht
    split
    · exact h
    · rename_i x hx
      refine ⟨h.cfg, ?_, h.conf, ok_put h.plans (h.plans _ x hx)⟩
      intro k y e
      dsimp only at e
      rw [Map.get_put] at e
      split at e
      · cases e; exact hq ht'
      · exact h.impl k y e

theorem Sound.optionRoute {s : St} (h : Sound c H cf W s) (o : Int) (p : RoutePlan) :
    Sound c H cf W (s.optionRoute o p).1 := by
  rw [St.optionRoute]
  split
  · exact h
  · rename_i x hx
    dsimp only
    rw [St.takeRoute]
    split
    · exact ⟨h.cfg, h.impl, h.conf, ok_put h.plans (h.plans o x hx)⟩
    · exact h

theorem Sound.optionRoutes (o : Int) (ps : List RoutePlan) {s : St} (h : Sound c H cf W s) :
    Sound c H cf W (s.optionRoutes o ps).1 := by
  induction ps generalizing s with
  | nil => exact h
  | cons p ps ih => exact ih (h.optionRoute o p)

theorem mem_insertSorted (k : Int) (p : RoutePlan) (l : List (Int × RoutePlan)) (x : Int × RoutePlan)
    (h : x ∈ insertSorted k p l) : x = (k, p) ∨ x ∈ l := by
  induction l with
  | nil => exact Or.inl (List.mem_singleton.mp h)
  | cons y l ih =>
    obtain ⟨k', p'⟩ := y
    rw [insertSorted] at h
    split at h
    · exact List.mem_cons.mp h
    · split at h
      · rcases List.mem_cons.mp h with h | h
        · exact Or.inl h
        · exact Or.inr (List.mem_cons_of_mem _ h)
      · rcases List.mem_cons.mp h with h | h
        · exact Or.inr (h ▸ List.mem_cons_self)
        · rcases ih h with h | h
          · exact Or.inl h
          · exact Or.inr (List.mem_cons_of_mem _ h)

theorem Ok.receive {x : OptClass} (h : x.Ok W) (t : Int) {p : RoutePlan} (hp : W p.wps) : (x.receive t p).Ok W := by
  refine ⟨?_, h.2⟩
  intro y hy
  rcases mem_insertSorted _ _ _ _ hy with rfl | hy
  · exact hp
  · exact h.1 y hy

theorem ok_plans (hw : Stable W) (v : VConfig) (sb : Bool) (tr : Int) (rs : Option (List Wp))
    {l : List (Int × RoutePlan)} (hl : ∀ p ∈ l, W p.2.wps) (f : Bool) (a : Acc) :
    ∀ p ∈ (a.plans c v sb tr rs f l).2, W p.2.wps := by
  induction l generalizing f a with
  | nil => intro p hp; cases hp
  | cons x l ih =>
    obtain ⟨k, p⟩ := x
    have hl' : ∀ p ∈ l, W p.2.wps := fun p hp => hl p (List.mem_cons_of_mem _ hp)
    rw [Acc.plans]
    dsimp only
    split
    · intro y hy
      rcases List.mem_cons.mp hy with rfl | hy
      · exact hl (k, p) List.mem_cons_self
      · exact ih hl' _ _ y hy
    · intro y hy
      rcases List.mem_cons.mp hy with rfl | hy
      · exact hw.same (sameBut_addAll _ _ _ _ _ _) (hl (k, p) List.mem_cons_self)
      · exact ih hl' _ _ y hy

theorem Sound.conclude (hw : Stable W) {s : St} (h : Sound c H cf W s) (sb : Bool) (o v : Int) (q : ImplReq)
    {x : OptClass} (hx : x.Ok W) : Sound c H cf W (s.conclude sb o v q x).1 := by
  rw [St.conclude]
  split
  · rename_i vc _
    dsimp only
    split
    · exact h.congr rfl rfl rfl rfl
    · have hp := ok_plans (c := s.cfg) hw vc sb s.transition x.restartPlan hx.1 false
        { next := q.start, firstActive := x.firstActive }
      split
      · refine ⟨h.cfg, h.impl, h.conf, ok_put h.plans ⟨hp, ?_⟩⟩
        intro ws e; cases e
      · refine ⟨h.cfg, h.impl, h.conf, ok_put h.plans ⟨hp, ?_⟩⟩
        intro ws e; cases e
  · exact ⟨h.cfg, h.impl, h.conf, ok_put h.plans hx⟩

theorem Sound.implRoute (hw : Stable W) {s : St} (h : Sound c H cf W s) (sb : Bool) (o v : Int) (q : ImplReq)
    {p : RoutePlan} (hp : W p.wps) : Sound c H cf W (s.implRoute sb o v q p).1 := by
  rw [St.implRoute]
  split
  · exact h
  · split
    · exact h
    · rename_i x hx
      have hr := Ok.receive (h.plans _ x hx) s.transition hp
      split
      · split
        · exact h.conclude hw sb o v q hr
        · exact ⟨h.cfg, h.impl, h.conf, ok_put h.plans hr⟩
      · exact h

theorem Sound.implRoutes (hw : Stable W) (sb : Bool) (o v : Int) (q : ImplReq) {ps : List RoutePlan}
    (hp : ∀ p ∈ ps, W p.wps) {s : St} (h : Sound c H cf W s) : Sound c H cf W (s.implRoutes sb o v q ps).1 := by
  induction ps generalizing s with
  | nil => exact h
  | cons p ps ih =>
    exact ih (fun p hp' => hp p (List.mem_cons_of_mem _ hp')) (h.implRoute hw sb o v q (hp p List.mem_cons_self))

theorem Sound.implResponse (hw : Stable W) {s : St} (h : Sound c H cf W s) {r : RouteResp} (hp : ∀ p ∈ r.plans, W p.wps) :
    Sound c H cf W (s.implResponse r).1 := by
  rw [St.implResponse]
  split
  · exact h
  · rename_i rq _
    split
    · dsimp only
      split
      · rename_i x q hx hq
        have h' : Sound c H cf W { s with
            pendingImpl := dropFrom s.pendingImpl r.id
            opts := s.opts.put ((s.routeOption.get r.id).getD 0) { x with firstActive := -1 } } :=
          ⟨h.cfg, h.impl, h.conf, ok_put h.plans (h.plans _ x hx)⟩
        have := h'.implRoutes hw (sb := rq.sandbox) (o := (s.routeOption.get r.id).getD 0) (v := r.vehicle) (q := q) hp
        refine ⟨this.cfg, ?_, this.conf, this.plans⟩
        intro k y e
        dsimp only at e
        rw [Map.get_del] at e
        split at e
        · cases e
        · exact this.impl k y e
      · exact h.congr rfl rfl rfl rfl
    · exact h

/-! ### The implementations sent -/

/-- Where an implementation comes from. -/
structure From (c : Config) (H : ImplReq → Prop) (cf : Int → Option VConfig) (W : List Wp → Prop) (i : In) (r : ImplResp) where
  s : St
  sound : Sound c H cf W s
  sb : Bool
  rr : RouteResp
  o : Int
  q : ImplReq
  x : OptClass
  input : i = .route rr
  hq : H q
  hx : x.Ok W
  mem : .implemented r ∈ (s.conclude sb o rr.vehicle q x).2

/-- No implementation among the messages. -/
def NoImpl (l : List Out) : Prop := ∀ r, .implemented r ∉ l

theorem NoImpl.nil : NoImpl [] := fun _ h => (by cases h)

theorem NoImpl.append {l m : List Out} (h1 : NoImpl l) (h2 : NoImpl m) : NoImpl (l ++ m) := by
  intro r h
  rcases List.mem_append.mp h with h | h
  · exact h1 r h
  · exact h2 r h

theorem noImpl_options (o : Option Options) : NoImpl (o.toList.map .options) := by
  intro x h
  obtain ⟨y, _, h⟩ := List.mem_map.mp h
  cases h

theorem NoImpl.singleton {o : Out} (h : ∀ r, o ≠ .implemented r) : NoImpl [o] := by
  intro r hx
  exact h r (List.mem_singleton.mp hx).symm

theorem noImpl_askAll (as : List Ask) (s : St) : NoImpl (s.askAll as).2 := by
  induction as generalizing s with
  | nil => exact .nil
  | cons a as ih =>
    refine NoImpl.append ?_ (ih _)
    rw [St.askRoutes]; split
    · exact .nil
    · exact .singleton (fun _ h => by cases h)

theorem noImpl_build (s : St) (b : Build) : NoImpl (s.build b).2 := by
  rw [St.build]
  refine (noImpl_askAll _ _).append ?_
  split
  · exact noImpl_options _
  · exact .nil

theorem noImpl_request (s : St) (r : Request) (b : Build) : NoImpl (s.request r b).2 := by
  rw [St.request]
  dsimp only
  split
  · split
    · split
      · exact .singleton (fun _ h => by cases h)
      · exact .nil
    · exact noImpl_build _ _
  · exact .nil

theorem noImpl_state (s : St) (v : VState) : NoImpl (s.entityState v).2 := by
  rw [St.entityState]
  split
  · split
    · dsimp only
      split
      · exact .nil
      · exact .singleton (fun _ h => by cases h)
    · split
      · exact .singleton (fun _ h => by cases h)
      · exact .nil
  · exact .nil

theorem noImpl_implement (s : St) (q : ImplReq) : NoImpl (s.implement q).2 := by
  rw [St.implement]
  split
  · exact .nil
  · split
    · exact .nil
    · exact .singleton (fun _ h => by cases h)

theorem noImpl_optionRoutes (o : Int) (ps : List RoutePlan) (s : St) : NoImpl (s.optionRoutes o ps).2 := by
  induction ps generalizing s with
  | nil => exact .nil
  | cons p ps ih =>
    refine NoImpl.append ?_ (ih _)
    rw [St.optionRoute]
    split
    · exact .nil
    · dsimp only
      rw [St.sendIfDone]
      split
      · exact noImpl_options _
      · exact .nil

theorem noImpl_optionResponse (s : St) (r : RouteResp) : NoImpl (s.optionResponse r).2 := by
  rw [St.optionResponse]
  split
  · exact noImpl_optionRoutes _ _ _
  · exact .nil

theorem from_implRoutes (hw : Stable W) {i : In} {rr : RouteResp} (hi : i = .route rr) (sb : Bool) (o : Int) {q : ImplReq}
    (hq : H q) {ps : List RoutePlan} (hp : ∀ p ∈ ps, W p.wps) {s : St} (h : Sound c H cf W s) {r : ImplResp}
    (hr : .implemented r ∈ (s.implRoutes sb o rr.vehicle q ps).2) : Nonempty (From c H cf W i r) := by
  induction ps generalizing s with
  | nil => cases hr
  | cons p ps ih =>
    rw [St.implRoutes] at hr
    have hp' : ∀ p ∈ ps, W p.wps := fun p hp' => hp p (List.mem_cons_of_mem _ hp')
    rcases List.mem_append.mp hr with hr | hr
    · rw [St.implRoute] at hr
      split at hr
      · cases hr
      · split at hr
        · cases hr
        · rename_i x hx
          split at hr
          · split at hr
            · exact ⟨⟨s, h, sb, rr, o, q, _, hi, hq, Ok.receive (h.plans _ x hx) s.transition (hp p List.mem_cons_self), hr⟩⟩
            · cases hr
          · cases hr
    · exact ih hp' (h.implRoute hw sb o rr.vehicle q (hp p List.mem_cons_self)) hr

theorem from_step (hw : Stable W) {i : In} {s : St} (h : Sound c H cf W s) (hp : ∀ p ∈ i.plans, W p.wps) {r : ImplResp}
    (hr : .implemented r ∈ (step s i).2) : Nonempty (From c H cf W i r) := by
  cases hu : s.ub with
  | true => rw [ub_step i hu] at hr; cases hr
  | false =>
    have hst : ∀ x : St × List Out, (if s.ub = true then (s, []) else x) = x := fun x =>
      if_neg (by rw [hu]; exact Bool.false_ne_true)
    cases i with
    | state v => rw [step, hst] at hr; exact absurd hr (noImpl_state _ _ _)
    | request q b => rw [step, hst] at hr; exact absurd hr (noImpl_request _ _ _ _)
    | response id ms => rw [step, hst] at hr; cases hr
    | config v => rw [step, hst] at hr; cases hr
    | own b => rw [step, hst] at hr; exact absurd hr (noImpl_build _ _ _)
    | implement q => rw [step, hst] at hr; exact absurd hr (noImpl_implement _ _ _)
    | route rr =>
      rw [step, hst] at hr
      split at hr
      · cases hr
      · split at hr
        · cases hr
        · exact absurd hr (noImpl_optionResponse _ _ _)
        · rw [St.implResponse] at hr
          split at hr
          · cases hr
          · split at hr
            · dsimp only at hr
              split at hr
              · rename_i x q hx hq
                have h' : Sound c H cf W { s with
                    pendingImpl := dropFrom s.pendingImpl rr.id
                    opts := s.opts.put ((s.routeOption.get rr.id).getD 0) { x with firstActive := -1 } } :=
                  ⟨h.cfg, h.impl, h.conf, ok_put h.plans (h.plans _ x hx)⟩
                exact from_implRoutes hw rfl _ _ (h.impl _ _ hq) hp h' hr
              · cases hr
            · cases hr

/-- The configuration of a vehicle that the service uses: the first one it gets, if the vehicle is eligible. -/
def In.config? : In → Option VConfig
  | .config v => some v
  | _ => none

/-- Not in the code: the first configuration of a vehicle in a history. -/
def firstConfig (c : Config) (h : List In) (k : Int) : Option VConfig :=
  if c.eligible.isEmpty || c.eligible.contains k then (h.filterMap In.config?).find? (·.id == k) else none

/-- The implementation request has been received and is for the task. -/
def Asked (c : Config) (h : List In) (q : ImplReq) : Prop := .implement q ∈ h ∧ q.task = c.task

theorem Sound.mono {H' : ImplReq → Prop} {cf' : Int → Option VConfig} {s : St} (h : Sound c H cf W s)
    (h1 : ∀ q, H q → H' q) (h2 : cf' = cf) : Sound c H' cf' W s :=
  ⟨h.cfg, fun k q e => h1 q (h.impl k q e), by rw [h2]; exact h.conf, h.plans⟩

theorem firstConfig_snoc (c : Config) (h : List In) (i : In) (hi : i.config? = none) :
    firstConfig c (h ++ [i]) = firstConfig c h := by
  funext k
  rw [firstConfig, firstConfig, List.filterMap_append, List.filterMap_cons, hi]
  simp

theorem firstConfig_config (c : Config) (h : List In) (v : VConfig) (k : Int) :
    firstConfig c (h ++ [.config v]) k =
      if (c.eligible.isEmpty || c.eligible.contains k) = true ∧ k = v.id ∧ firstConfig c h k = none then some v
      else firstConfig c h k := by
  rw [firstConfig, firstConfig, List.filterMap_append, List.find?_append]
  by_cases he : (c.eligible.isEmpty || c.eligible.contains k) = true
  · simp only [he, if_true, true_and]
    cases hf : List.find? (fun x => x.id == k) (List.filterMap In.config? h) with
    | some u => simp
    | none =>
      by_cases e : k = v.id
      · subst e; simp [In.config?]
      · have : ¬ v.id = k := fun h => e h.symm
        simp [In.config?, this, e]
  · rw [if_neg he, if_neg he, if_neg (fun h => he h.1)]

theorem Sound.config {s : St} {h : List In} (hs : Sound c H (firstConfig c h) W s) (v : VConfig) :
    Sound c H (firstConfig c (h ++ [.config v])) W (s.entityConfig v) := by
  have hconf : ∀ k, (s.entityConfig v).configs.get k = firstConfig c (h ++ [.config v]) k := by
    intro k
    rw [firstConfig_config, St.entityConfig, hs.cfg]
    by_cases he : (c.eligible.isEmpty || c.eligible.contains v.id) = true
    · rw [if_pos he]
      by_cases hs' : (s.configs.get v.id).isSome = true
      · rw [if_pos hs', hs.conf, if_neg]
        rintro ⟨_, rfl, h⟩
        rw [hs.conf, h] at hs'; cases hs'
      · rw [if_neg hs']
        dsimp only
        rw [Map.get_put, hs.conf]
        by_cases e : k = v.id
        · subst e
          have : firstConfig c h v.id = none := by
            rw [← hs.conf]; simpa using hs'
          rw [if_pos rfl, if_pos ⟨he, rfl, this⟩]
        · rw [if_neg e, if_neg (fun h => e h.2.1)]
    · rw [if_neg he, hs.conf, if_neg]
      rintro ⟨h1, rfl, _⟩; exact he h1
  refine ⟨?_, ?_, hconf, ?_⟩
  · rw [St.entityConfig]; repeat' split
    all_goals exact hs.cfg
  · rw [St.entityConfig]; repeat' split
    all_goals exact hs.impl
  · rw [St.entityConfig]; repeat' split
    all_goals exact hs.plans

theorem sound (hw : Stable W) (h : List In) (hf : Fine c h) (hp : ∀ i ∈ h, ∀ p ∈ i.plans, W p.wps) :
    Sound c (Asked c h) (firstConfig c h) W (after c h) := by
  induction h using snocRec with
  | nil =>
    refine ⟨rfl, fun _ _ e => (by cases e), ?_, fun _ _ e => (by cases e)⟩
    intro k
    rw [firstConfig]; split <;> rfl
  | append_singleton h i ih =>
    have hf' : Fine c h := hf.prefix
    have hs := ih hf' (fun j hj => hp j (List.mem_append_left _ hj))
    have hpi := hp i (List.mem_append_right _ (List.mem_singleton.mpr rfl))
    rw [after_snoc]
    have hA : ∀ q, Asked c h q → Asked c (h ++ [i]) q := fun q hq => ⟨List.mem_append_left _ hq.1, hq.2⟩
    have hst : ∀ x : St × List Out, (if (after c h).ub = true then (after c h, []) else x) = x := fun x =>
      if_neg (by rw [hf']; exact Bool.false_ne_true)
    cases i with
    | state v => rw [step, hst]; exact (hs.state v).mono hA (firstConfig_snoc _ _ _ rfl)
    | request r b => rw [step, hst]; exact (hs.request hw r b).mono hA (firstConfig_snoc _ _ _ rfl)
    | response id ms => rw [step, hst]; exact (hs.response id ms).mono hA (firstConfig_snoc _ _ _ rfl)
    | config v => rw [step, hst]; exact (hs.config v).mono hA rfl
    | own b => rw [step, hst]; exact (hs.build b).mono hA (firstConfig_snoc _ _ _ rfl)
    | implement q =>
      rw [step, hst]
      exact (hs.mono hA (firstConfig_snoc _ _ _ rfl)).implement
        (fun e => ⟨List.mem_append_right _ (List.mem_singleton.mpr rfl), e⟩)
    | route r =>
      rw [step, hst]
      have hm := hs.mono hA (firstConfig_snoc c h (.route r) rfl)
      split
      · exact hm
      · split
        · exact hm
        · rw [St.optionResponse]
          split
          · exact Sound.optionRoutes _ _ (hm.congr rfl rfl rfl rfl)
          · exact hm
        · exact hm.implResponse hw hpi

/-- What is sent when all routes are there. -/
theorem conclude_mem {s : St} {sb : Bool} {o v : Int} {q : ImplReq} {x : OptClass} {r : ImplResp}
    (h : .implemented r ∈ (s.conclude sb o v q x).2) :
    (s.configs.get v = none ∧ r = { id := q.id, req := q.req, task := s.cfg.task, option := o, vehicle := v,
                                    place := q.place, heading := q.heading, time := 0, wps := [] }) ∨
    ∃ vc ws, s.configs.get v = some vc ∧ s.cfg.finish (s.assemble sb vc q x).1.rev.reverse = some ws ∧ ws ≠ [] ∧
      r = { id := q.id, req := q.req, task := s.cfg.task, option := o, vehicle := v, place := x.opt.stop,
            heading := x.opt.stopHeading, time := q.time + x.opt.cost, wps := terminal s.cfg.task ws } := by
  rw [St.conclude] at h
  split at h
  · rename_i vc hv
    dsimp only at h
    split at h
    · cases h
    · rename_i ws hf
      split at h
      · cases h
      · rename_i hne
        have := List.mem_singleton.mp h
        cases this
        exact Or.inr ⟨vc, ws, hv, hf, hne, rfl⟩
  · rename_i hv
    have := List.mem_singleton.mp h
    cases this
    exact Or.inl ⟨hv, rfl⟩

/-! ### The vehicle's nominal altitude and speed -/

/-- The waypoint has the nominal altitude and speed. -/
def Nominal (v : VConfig) (w : Wp) : Prop := w.alt = v.alt ∧ w.altType = v.altType ∧ w.speed = v.speed

theorem nominal_add {v : VConfig} {a : Acc} (h : ∀ w ∈ a.rev, Nominal v w) (c : Config) (sb tr : Bool) (u : Wp) :
    ∀ w ∈ (a.add c v sb tr u).rev, Nominal v w := by
  rw [Acc.add]
  dsimp only
  cases hr : a.rev with
  | nil =>
    intro w hw
    rw [List.mem_singleton.mp hw]; exact ⟨rfl, rfl, rfl⟩
  | cons b bs =>
    rw [hr] at h
    dsimp only
    split
    · intro w hw
      rcases List.mem_cons.mp hw with rfl | hw
      · exact ⟨rfl, rfl, rfl⟩
      · exact h w (List.mem_cons_of_mem _ hw)
    · intro w hw
      rcases List.mem_cons.mp hw with rfl | hw
      · exact ⟨rfl, rfl, rfl⟩
      · rcases List.mem_cons.mp hw with rfl | hw
        · exact h b List.mem_cons_self
        · exact h w (List.mem_cons_of_mem _ hw)

theorem nominal_addAll (c : Config) {v : VConfig} (sb tr : Bool) (us : List Wp) {a : Acc}
    (h : ∀ w ∈ a.rev, Nominal v w) : ∀ w ∈ (a.addAll c v sb tr us).1.rev, Nominal v w := by
  induction us generalizing a with
  | nil => exact h
  | cons u us ih => exact ih (nominal_add h c sb tr u)

theorem nominal_plans (c : Config) {v : VConfig} (sb : Bool) (tr : Int) (rs : Option (List Wp))
    (l : List (Int × RoutePlan)) {f : Bool} {a : Acc} (h : ∀ w ∈ a.rev, Nominal v w) :
    ∀ w ∈ (a.plans c v sb tr rs f l).1.rev, Nominal v w := by
  induction l generalizing f a with
  | nil => exact h
  | cons x l ih =>
    obtain ⟨k, p⟩ := x
    rw [Acc.plans]
    dsimp only
    split
    · exact ih (nominal_addAll c sb _ _ h)
    · exact ih (nominal_addAll c sb _ _ h)

theorem nominal_terminal (t : Int) {v : VConfig} {ws : List Wp} (h : ∀ w ∈ ws, Nominal v w) :
    ∀ w ∈ terminal t ws, Nominal v w := by
  induction ws using snocRec with
  | nil => exact h
  | append_singleton l w _ =>
    rw [terminal_snoc, terminal]
    have hw := h w (List.mem_append_right _ (List.mem_singleton.mpr rfl))
    intro u hu
    rcases List.mem_append.mp hu with hu | hu
    · exact h u (List.mem_append_left _ hu)
    · split at hu
      · rcases List.mem_cons.mp hu with rfl | hu
        · exact hw
        · rw [List.mem_singleton.mp hu]; exact hw
      · rw [List.mem_singleton.mp hu]; exact hw

/-! ### The tasks of the waypoints -/

/-- None of the waypoints is for a task. -/
def Untasked (ws : List Wp) : Prop := ∀ w ∈ ws, w.tasks = []

theorem restartFrom_mem (n : Int) (ws : List Wp) (last : Option Wp) (f : Bool) :
    ∀ w ∈ restartFrom n last f ws, w ∈ last.toList ++ ws := by
  induction ws generalizing last f with
  | nil => intro w hw; cases hw
  | cons u us ih =>
    intro w hw
    rw [restartFrom] at hw
    split at hw
    · rcases List.mem_append.mp hw with hw | hw
      · exact List.mem_append_left _ hw
      · rcases List.mem_cons.mp hw with rfl | hw
        · exact List.mem_append_right _ List.mem_cons_self
        · exact List.mem_append_right _ (ih (some u) true w hw)
    · split at hw
      · rcases List.mem_cons.mp hw with rfl | hw
        · exact List.mem_append_right _ List.mem_cons_self
        · exact List.mem_append_right _ (ih (some u) true w hw)
      · exact List.mem_append_right _ (ih (some u) false w hw)

theorem stable_untasked : Stable Untasked := by
  refine ⟨fun _ h => (by cases h), ?_, ?_⟩
  · intro ws ws' h hu w hw
    have hm : { w with number := 0 } ∈ ws'.map (fun w => { w with number := 0 }) := List.mem_map.mpr ⟨w, hw, rfl⟩
    rw [← h] at hm
    obtain ⟨u, hu', e⟩ := List.mem_map.mp hm
    have : u.tasks = w.tasks := by
      have := congrArg Wp.tasks e
      exact this
    rw [← this]; exact hu u hu'
  · intro ws n hu w hw
    exact hu w (restartFrom_mem n ws none false w hw)

/-- The waypoint is for no task or for this one. -/
def OnlyFor (t : Int) (w : Wp) : Prop := w.tasks = [] ∨ w.tasks = [t]

theorem onlyFor_add {c : Config} {v : VConfig} {a : Acc} (h : ∀ w ∈ a.rev, OnlyFor c.task w) (sb tr : Bool) {u : Wp}
    (hu : u.tasks = []) : ∀ w ∈ (a.add c v sb tr u).rev, OnlyFor c.task w := by
  have hnew : ((if (! tr || c.transitActive) = true then u.tasks ++ [c.task] else u.tasks) = []) ∨
      ((if (! tr || c.transitActive) = true then u.tasks ++ [c.task] else u.tasks) = [c.task]) := by
    rw [hu]; split
    · exact Or.inr rfl
    · exact Or.inl rfl
  rw [Acc.add]
  dsimp only
  cases hr : a.rev with
  | nil =>
    intro w hw
    rw [List.mem_singleton.mp hw]; exact hnew
  | cons b bs =>
    rw [hr] at h
    dsimp only
    split
    · intro w hw
      rcases List.mem_cons.mp hw with rfl | hw
      · exact hnew
      · exact h w (List.mem_cons_of_mem _ hw)
    · intro w hw
      rcases List.mem_cons.mp hw with rfl | hw
      · exact hnew
      · rcases List.mem_cons.mp hw with rfl | hw
        · exact h b List.mem_cons_self
        · exact h w (List.mem_cons_of_mem _ hw)

theorem onlyFor_addAll {c : Config} (v : VConfig) (sb tr : Bool) {us : List Wp} (hu : Untasked us) {a : Acc}
    (h : ∀ w ∈ a.rev, OnlyFor c.task w) : ∀ w ∈ (a.addAll c v sb tr us).1.rev, OnlyFor c.task w := by
  induction us generalizing a with
  | nil => exact h
  | cons u us ih =>
    exact ih (fun w hw => hu w (List.mem_cons_of_mem _ hw)) (onlyFor_add h sb tr (hu u List.mem_cons_self))

theorem onlyFor_plans {c : Config} (v : VConfig) (sb : Bool) (tr : Int) (rs : Option (List Wp))
    (hr : ∀ ws, rs = some ws → Untasked ws) {l : List (Int × RoutePlan)} (hl : ∀ p ∈ l, Untasked p.2.wps) {f : Bool}
    {a : Acc} (h : ∀ w ∈ a.rev, OnlyFor c.task w) : ∀ w ∈ (a.plans c v sb tr rs f l).1.rev, OnlyFor c.task w := by
  induction l generalizing f a with
  | nil => exact h
  | cons x l ih =>
    obtain ⟨k, p⟩ := x
    have hl' : ∀ p ∈ l, Untasked p.2.wps := fun p hp => hl p (List.mem_cons_of_mem _ hp)
    rw [Acc.plans]
    dsimp only
    split
    · rename_i heq
      refine ih hl' (onlyFor_addAll v sb _ ?_ h)
      split
      · exact fun _ h => (by cases h)
      · split at heq
        · cases heq
        · exact hr _ heq
    · exact ih hl' (onlyFor_addAll v sb _ (hl (k, p) List.mem_cons_self) h)

theorem onlyFor_terminal {t : Int} {ws : List Wp} (h : ∀ w ∈ ws, OnlyFor t w) (hne : ws ≠ []) :
    (∀ w ∈ terminal t ws, OnlyFor t w) ∧ ∃ w ∈ terminal t ws, w.tasks = [t] := by
  induction ws using snocRec with
  | nil => exact absurd rfl hne
  | append_singleton l w _ =>
    rw [terminal_snoc, terminal]
    have hw := h w (List.mem_append_right _ (List.mem_singleton.mpr rfl))
    have ht : (if w.tasks = [] then [t] else w.tasks) = [t] := by
      split
      · rfl
      · rcases hw with hw | hw
        · contradiction
        · exact hw
    rw [ht]
    refine ⟨?_, ?_⟩
    · intro u hu
      rcases List.mem_append.mp hu with hu | hu
      · exact h u (List.mem_append_left _ hu)
      · split at hu
        · rcases List.mem_cons.mp hu with rfl | hu
          · exact Or.inr rfl
          · rw [List.mem_singleton.mp hu]; exact Or.inl rfl
        · rw [List.mem_singleton.mp hu]; exact Or.inr rfl
    · split
      · exact ⟨_, List.mem_append_right _ List.mem_cons_self, rfl⟩
      · exact ⟨_, List.mem_append_right _ List.mem_cons_self, rfl⟩

end Verif.Task
