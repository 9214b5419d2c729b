import Verif.Task.Phases

/-! A task that is taken up again. -/

namespace Verif.Task

open Verif

/-! ### The waypoints last seen -/

theorem lastWp_mem (c : Config) (h : List In) :
    ∀ p ∈ (after c h).lastWp, ∃ u, .state u ∈ h ∧ u.id = p.1 ∧ u.waypoint = p.2 ∧ c.task ∈ u.tasks := by
  induction h using snocRec with
  | nil => intro p hp; cases hp
  | append_singleton h i ih =>
    have keep : ∀ s : St, s.lastWp = (after c h).lastWp →
        ∀ p ∈ s.lastWp, ∃ u, .state u ∈ h ++ [i] ∧ u.id = p.1 ∧ u.waypoint = p.2 ∧ c.task ∈ u.tasks := by
      intro s e p hp
      rw [e] at hp
      obtain ⟨u, hu, h⟩ := ih p hp
      exact ⟨u, List.mem_append_left _ hu, h⟩
    rw [after_snoc]
    cases hu : (after c h).ub with
    | true => rw [ub_step i hu]; exact keep _ rfl
    | false =>
      have hst : ∀ x : St × List Out, (if (after c h).ub = true then (after c h, []) else x) = x := fun x =>
        if_neg (by rw [hu]; exact Bool.false_ne_true)
      cases i with
      | state v =>
        rw [step, hst, St.entityState]
        split
        · split
          · rename_i ht
            rw [cfg_after] at ht
            dsimp only
            have hl : (if (after c h).activeOn.contains v.id then (after c h, ([] : List Out))
                else ({ after c h with activeOn := addTo (after c h).activeOn v.id }, [.active v.id])).1.lastWp =
                (after c h).lastWp := by split <;> rfl
            rw [hl]
            intro p hp
            rcases List.mem_cons.mp hp with rfl | hp
            · exact ⟨v, List.mem_append_right _ (List.mem_singleton.mpr rfl), rfl, rfl, List.contains_iff_mem.mp ht⟩
            · exact keep _ rfl p (List.mem_filter.mp hp).1
          · split
            · intro p hp
              exact keep _ rfl p (List.mem_filter.mp hp).1
            · exact keep _ rfl
        · exact keep _ rfl
      | request q b =>
        rw [step, hst]
        exact keep _ (congrArg Core.lastWp (core_request (after c h) q b))
      | response id ms =>
        rw [step, hst]
        have : ((after c h).autoResponse id ms).lastWp = (after c h).lastWp := by
          rw [St.autoResponse]
          split
          · rfl
          · dsimp only
            split <;> rfl
        exact keep _ this
      | config v => exact keep _ (congrArg Core.lastWp (core_step_of (by simp) (by simp) (by simp)))
      | own b => exact keep _ (congrArg Core.lastWp (core_step_of (by simp) (by simp) (by simp)))
      | implement q => exact keep _ (congrArg Core.lastWp (core_step_of (by simp) (by simp) (by simp)))
      | route rr => exact keep _ (congrArg Core.lastWp (core_step_of (by simp) (by simp) (by simp)))

/-! ### The options implemented -/

/-- Options are filed under their ids, and `A` holds for the options taken for implemented. -/
structure Filed (A : Int → Int → Prop) (s : St) : Prop where
  ids : ∀ o x, s.opts.get o = some x → x.opt.id = o
  asg : ∀ v o, s.assignedOpt.get v = some o → A v o

variable {A : Int → Int → Prop}

theorem Filed.congr {s s' : St} (h : Filed A s) (h1 : s'.opts = s.opts) (h2 : s'.assignedOpt = s.assignedOpt) :
    Filed A s' := ⟨by rw [h1]; exact h.ids, by rw [h2]; exact h.asg⟩

theorem Filed.mono {A' : Int → Int → Prop} {s : St} (h : Filed A s) (hm : ∀ v o, A v o → A' v o) : Filed A' s :=
  ⟨h.ids, fun v o e => hm v o (h.asg v o e)⟩

theorem Filed.put {s s' : St} (h : Filed A s) {o : Int} {x : OptClass} (h1 : s'.opts = s.opts.put o x)
    (h2 : s'.assignedOpt = s.assignedOpt) (hx : x.opt.id = o) : Filed A s' := by
  refine ⟨?_, by rw [h2]; exact h.asg⟩
  intro k y e
  rw [h1, Map.get_put] at e
  split at e
  · rename_i hk
    cases e; rw [hk, hx]
  · exact h.ids k y e

theorem Filed.draft {s : St} (h : Filed A s) (d : Draft) : Filed A (s.draft d) := by
  by_cases hs : (s.opts.get d.opt.id).isSome
  · exact h.congr (by rw [St.draft]; exact if_pos hs) rfl
  · exact h.put (o := d.opt.id) (x := { opt := d.opt }) (by rw [St.draft]; exact if_neg hs) rfl rfl

theorem Filed.drafts (ds : List Draft) {s : St} (h : Filed A s) : Filed A (ds.foldl St.draft s) := by
  induction ds generalizing s with
  | nil => exact h
  | cons d ds ih => exact ih (h.draft d)

theorem Filed.askRoutes {s : St} (h : Filed A s) (a : Ask) : Filed A (s.askRoutes a).1 := by
  rw [St.askRoutes]
  split
  · exact h.congr rfl rfl
  · rename_i o ho
    refine h.put (o := a.option) rfl rfl ?_
    dsimp only
    have := h.ids _ _ ho
    split <;> exact this

theorem Filed.askAll (as : List Ask) {s : St} (h : Filed A s) : Filed A (s.askAll as).1 := by
  induction as generalizing s with
  | nil => exact h
  | cons a as ih => exact ih (h.askRoutes a)

theorem Filed.build {s : St} (h : Filed A s) (b : Build) : Filed A (s.build b).1 := (h.drafts b.drafts).askAll b.asks

theorem restart_some {s : St} {r : Request} {v n o : Int} {x : OptClass} (h : s.restart? r = some (v, n, o, x)) :
    r.redo = false ∧ (v, n) ∈ s.lastWp ∧ v ∈ r.entities ∧ s.assignedOpt.get v = some o ∧ s.opts.get o = some x ∧
      x.firstActive ≤ n := by
  rw [St.restart?] at h
  split at h
  · cases h
  · rename_i hr
    split at h
    · cases h
    · rename_i v' n' hf
      dsimp only at h
      split at h
      · cases h
      · rename_i x' hx
        split at h
        · rename_i hc
          injection h with h
          injection h with h1 h
          injection h with h2 h
          injection h with h3 h4
          subst h1; subst h2; subst h4
          have hm := List.mem_of_find?_eq_some hf
          have he := List.find?_some hf
          refine ⟨Bool.eq_false_iff.mpr hr, hm, List.contains_iff_mem.mp he, ?_, by rw [← h3]; exact hx,
            Int.not_lt.mp hc.2.1⟩
          cases hg : s.assignedOpt.get v' with
          | none =>
            rw [hg, Option.getD_none] at hc
            omega
          | some k => rw [hg, Option.getD_some] at h3; rw [h3]
        · cases h

theorem Filed.request {s : St} (h : Filed A s) (r : Request) (b : Build) : Filed A (s.request r b).1 := by
  rw [St.request]
  dsimp only
  split
  · split
    · rename_i v n o x hr
      have hx := (restart_some hr).2.2.2.2.1
      split
      · exact h.put (o := o) rfl rfl (h.ids o x hx)
      · exact h.put (o := o) rfl rfl (h.ids o x hx)
    · refine Filed.build ?_ b
      exact ⟨fun _ _ e => (by cases e), h.asg⟩
  · exact h.congr rfl rfl

theorem Filed.response {s : St} (h : Filed A s) (id : Int) (ms : List (Int × List (List Int))) :
    Filed A (s.autoResponse id ms) := by
  rw [St.autoResponse]
  split
  · exact h
  · dsimp only
    split
    · exact h.congr rfl rfl
    · exact h.congr rfl rfl

theorem Filed.state {s : St} (h : Filed A s) (v : VState) : Filed A (s.entityState v).1 := by
  rw [St.entityState]
  split
  · split
    · dsimp only
      split
      · exact h.congr rfl rfl
      · exact h.congr rfl rfl
    · split
      · exact h.congr rfl rfl
      · exact h
  · exact h

theorem Filed.implement {s : St} (h : Filed A s) (q : ImplReq) : Filed A (s.implement q).1 := by
  rw [St.implement]
  split
  · exact h
  · split
    · exact h
    · rename_i x hx
      exact h.put (o := q.option) rfl rfl (h.ids _ x hx)

theorem Filed.optionRoutes (o : Int) (ps : List RoutePlan) {s : St} (h : Filed A s) : Filed A (s.optionRoutes o ps).1 := by
  induction ps generalizing s with
  | nil => exact h
  | cons p ps ih =>
    refine ih ?_
    rw [St.optionRoute]
    split
    · exact h
    · rename_i x hx
      dsimp only
      rw [St.takeRoute]
      split
      · exact h.put (o := o) rfl rfl (h.ids o x hx)
      · exact h

theorem Filed.conclude {s : St} (h : Filed A s) (sb : Bool) (o v : Int) (q : ImplReq) {x : OptClass} (hx : x.opt.id = o)
    (hA : ∀ r, .implemented r ∈ (s.conclude sb o v q x).2 → A r.vehicle r.option) : Filed A (s.conclude sb o v q x).1 := by
  rw [St.conclude] at hA ⊢
  split
  · rename_i vc hv
    rw [hv] at hA
    dsimp only at hA ⊢
    split
    · exact h.congr rfl rfl
    · rename_i ws hf
      rw [hf] at hA
      dsimp only at hA
      split
      · exact h.put (o := o) rfl rfl hx
      · rename_i hne
        rw [if_neg hne] at hA
        have hnew := hA _ (List.mem_singleton.mpr rfl)
        have h1 : Filed A { s with
            opts := s.opts.put o
              { x with
                plans := (s.assemble sb vc q x).2
                firstActive := (s.assemble sb vc q x).1.firstActive
                restartPlan := none } } := h.put (o := o) rfl rfl hx
        refine ⟨h1.ids, ?_⟩
        intro v' o' e
        dsimp only at e
        rw [Map.get_put] at e
        split at e
        · rename_i hv'
          cases e; rw [hv']; exact hnew
        · exact h.asg v' o' e
  · exact h.put (o := o) rfl rfl hx

theorem Filed.implRoutes (sb : Bool) (o v : Int) (q : ImplReq) (ps : List RoutePlan) {s : St} (h : Filed A s)
    (hA : ∀ r, .implemented r ∈ (s.implRoutes sb o v q ps).2 → A r.vehicle r.option) :
    Filed A (s.implRoutes sb o v q ps).1 := by
  induction ps generalizing s with
  | nil => exact h
  | cons p ps ih =>
    rw [St.implRoutes] at hA
    refine ih ?_ (fun r hr => hA r (List.mem_append_right _ hr))
    have hA' : ∀ r, .implemented r ∈ (s.implRoute sb o v q p).2 → A r.vehicle r.option :=
      fun r hr => hA r (List.mem_append_left _ hr)
    clear hA
    rw [St.implRoute] at hA' ⊢
    split
    · exact h
    · rename_i hu
      rw [if_neg hu] at hA'
      split
      · exact h
      · rename_i x hx
        rw [hx] at hA'
        dsimp only at hA'
        split
        · rename_i hin
          rw [if_pos hin] at hA'
          split
          · rename_i hp
            rw [if_pos hp] at hA'
            exact h.conclude sb o v q (h.ids o x hx) hA'
          · exact h.put (o := o) rfl rfl (h.ids o x hx)
        · exact h

theorem Filed.implResponse {s : St} (h : Filed A s) (r : RouteResp)
    (hA : ∀ x, .implemented x ∈ (s.implResponse r).2 → A x.vehicle x.option) : Filed A (s.implResponse r).1 := by
  rw [St.implResponse] at hA ⊢
  split
  · exact h
  · rename_i rq hq
    rw [hq] at hA
    dsimp only at hA
    split
    · rename_i hin
      rw [if_pos hin] at hA
      dsimp only at hA ⊢
      split
      · rename_i x q hx hq'
        rw [hx, hq'] at hA
        dsimp only at hA
        have h' : Filed A { s with
            pendingImpl := dropFrom s.pendingImpl r.id
            opts := s.opts.put ((s.routeOption.get r.id).getD 0) { x with firstActive := -1 } } :=
          h.put rfl rfl (h.ids _ x hx)
        have := h'.implRoutes rq.sandbox ((s.routeOption.get r.id).getD 0) r.vehicle q r.plans hA
        exact this.congr rfl rfl
      · exact h.congr rfl rfl
    · exact h

theorem Filed.step {s : St} (h : Filed A s) (i : In)
    (hA : ∀ x, .implemented x ∈ (step s i).2 → A x.vehicle x.option) : Filed A (step s i).1 := by
  cases hu : s.ub with
  | true => rw [ub_step i hu]; exact h
  | false =>
    have hst : ∀ x : St × List Out, (if s.ub = true then (s, []) else x) = x := fun x =>
      if_neg (by rw [hu]; exact Bool.false_ne_true)
    cases i with
    | state v => rw [Verif.Task.step, hst]; exact h.state v
    | request q b => rw [Verif.Task.step, hst]; exact h.request q b
    | response id ms => rw [Verif.Task.step, hst]; exact h.response id ms
    | config v =>
      rw [Verif.Task.step, hst]
      dsimp only
      rw [St.entityConfig]
      split
      · split
        · exact h
        · exact h.congr rfl rfl
      · exact h
    | own b => rw [Verif.Task.step, hst]; exact h.build b
    | implement q => rw [Verif.Task.step, hst]; exact h.implement q
    | route rr =>
      rw [Verif.Task.step, hst] at hA ⊢
      split
      · exact h
      · rename_i ht
        rw [if_neg ht] at hA
        split
        · exact h
        · rw [St.optionResponse]
          split
          · exact Filed.optionRoutes _ _ (h.congr rfl rfl)
          · exact h
        · rename_i hk
          rw [hk] at hA
          exact h.implResponse rr hA

/-- An implementation was sent. -/
def Implemented (c : Config) (h : List In) (v o : Int) : Prop :=
  ∃ r, .implemented r ∈ (sent c h).flatten ∧ r.vehicle = v ∧ r.option = o

theorem filed (c : Config) (h : List In) : Filed (Implemented c h) (after c h) := by
  induction h using snocRec with
  | nil => exact ⟨fun _ _ e => (by cases e), fun _ _ e => (by cases e)⟩
  | append_singleton h i ih =>
    rw [after_snoc]
    have hf : (sent c (h ++ [i])).flatten = (sent c h).flatten ++ sends c h i := by
      rw [sent_snoc]; simp
    refine Filed.step (ih.mono ?_) i ?_
    · rintro v o ⟨r, hr, h1, h2⟩
      exact ⟨r, by rw [hf]; exact List.mem_append_left _ hr, h1, h2⟩
    · intro x hx
      exact ⟨x, by rw [hf]; exact List.mem_append_right _ hx, rfl, rfl⟩

end Verif.Task
