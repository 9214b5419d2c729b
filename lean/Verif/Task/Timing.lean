import Verif.Task.Phases

/-! The implementation of an option whose costs have been found. -/

namespace Verif.Task

open Verif

/-! ### All the routes of an answer -/

theorem perm_dropFrom {p : Int} {ps l : List Int} (hp : (p :: ps).Perm l) (hd : l.Nodup) : ps.Perm (dropFrom l p) := by
  have h1 : (dropFrom (p :: ps) p).Perm (dropFrom l p) := hp.filter _
  refine List.Perm.trans ?_ h1
  have hnd : (p :: ps).Nodup := hp.nodup_iff.mpr hd
  rw [List.nodup_cons] at hnd
  have : dropFrom (p :: ps) p = ps := by
    rw [dropFrom, List.filter_cons]
    simp only [bne_self_eq_false, Bool.false_eq_true, if_false]
    refine List.filter_eq_self.mpr ?_
    intro x hx
    simp only [bne_iff_ne, ne_eq]
    rintro rfl
    exact hnd.1 hx
  rw [this]

theorem implRoutes_done {o : Int} (sb : Bool) (v : Int) (q : ImplReq) (ps : List RoutePlan) {s : St}
    (h : Idle s o) : s.implRoutes sb o v q ps = (s, []) := by
  induction ps with
  | nil => rfl
  | cons p ps ih =>
    rw [St.implRoutes]
    simp only [implRoute_idle h, ih]
    rfl

theorem implRoutes_all {o : Int} (sb : Bool) (v : Int) (q : ImplReq) : ∀ {ps : List RoutePlan} {s : St} {c : OptClass},
    s.ub = false → s.opts.get o = some c → c.pending.Nodup → (ps.map (·.id)).Perm c.pending → ps ≠ [] →
    ∃ m, s.implRoutes sb o v q ps =
      ({ s with opts := m } : St).conclude sb o v q (ps.foldl (OptClass.receive s.transition) c)
  | [], _, _, _, _, _, _, hne => absurd rfl hne
  | p :: ps, s, c, hu, hg, hd, hp, _ => by
    have hin : c.pending.contains p.id = true := List.contains_iff_mem.mpr (hp.mem_iff.mp (by simp))
    have hpd : (ps.map (·.id)).Perm (c.receive s.transition p).pending := perm_dropFrom (by simpa using hp) hd
    cases ps with
    | nil =>
      have he : (c.receive s.transition p).pending = [] := List.eq_nil_of_length_eq_zero hpd.length_eq.symm
      refine ⟨s.opts, ?_⟩
      rw [St.implRoutes, St.implRoute, if_neg (by rw [hu]; exact Bool.false_ne_true), hg]
      dsimp only
      rw [if_pos hin, if_pos he, St.implRoutes]
      simp
    | cons p' ps =>
      have hne : (c.receive s.transition p).pending ≠ [] := by
        intro h
        rw [h] at hpd
        have := hpd.length_eq
        simp at this
      obtain ⟨m, h1⟩ := implRoutes_all sb v q (ps := p' :: ps)
        (s := { s with opts := s.opts.put o (c.receive s.transition p) }) (c := c.receive s.transition p) hu
        (by rw [Map.get_put, if_pos rfl]) (hd.filter _) hpd (by simp)
      refine ⟨m, ?_⟩
      rw [St.implRoutes, St.implRoute, if_neg (by rw [hu]; exact Bool.false_ne_true), hg]
      dsimp only
      rw [if_pos hin, if_neg hne]
      dsimp only
      rw [h1]
      rfl

/-- The cost with that of the way to the task. -/
def withTransit (k : Int) (p : RoutePlan) : Int := if 0 < p.cost then k + p.cost else maxCost

theorem receive_other (tr : Int) (ps : List RoutePlan) (c : OptClass) (h : ∀ p ∈ ps, p.id ≠ tr) :
    (ps.foldl (OptClass.receive tr) c).opt = c.opt := by
  induction ps generalizing c with
  | nil => rfl
  | cons p ps ih =>
    rw [List.foldl_cons, ih _ (fun q hq => h q (List.mem_cons_of_mem _ hq))]
    rw [OptClass.receive]
    simp only [if_neg (h p List.mem_cons_self)]

theorem receive_opt (tr : Int) {ps : List RoutePlan} (c : OptClass) {p : RoutePlan} (hp : p ∈ ps) (hid : p.id = tr)
    (hn : (ps.map (·.id)).Nodup) :
    (ps.foldl (OptClass.receive tr) c).opt = { c.opt with cost := withTransit c.opt.cost p } := by
  induction ps generalizing c with
  | nil => cases hp
  | cons p' ps ih =>
    rw [List.map_cons, List.nodup_cons] at hn
    rw [List.foldl_cons]
    rcases List.mem_cons.mp hp with rfl | hp
    · rw [receive_other]
      · rw [OptClass.receive]
        simp only [if_pos hid]
        rfl
      · intro x hx e
        exact hn.1 (List.mem_map.mpr ⟨x, hx, e.trans hid.symm⟩)
    · have hne : p'.id ≠ tr := by
        intro e
        exact hn.1 (List.mem_map.mpr ⟨p, hp, hid.trans e.symm⟩)
      rw [ih _ hp hn.2, OptClass.receive]
      simp only [if_neg hne]

theorem receive_restart (tr : Int) (ps : List RoutePlan) (c : OptClass) :
    (ps.foldl (OptClass.receive tr) c).restartPlan = c.restartPlan := by
  induction ps generalizing c with
  | nil => rfl
  | cons p ps ih => rw [List.foldl_cons, ih]; rfl

theorem mem_insertSorted_self (k : Int) (p : RoutePlan) (l : List (Int × RoutePlan)) : (k, p) ∈ insertSorted k p l := by
  induction l with
  | nil => exact List.mem_singleton.mpr rfl
  | cons x l ih =>
    obtain ⟨k', p'⟩ := x
    rw [insertSorted]
    split
    · exact List.mem_cons_self
    · split
      · exact List.mem_cons_self
      · exact List.mem_cons_of_mem _ ih

theorem mem_insertSorted_of_ne (k : Int) (p : RoutePlan) (l : List (Int × RoutePlan)) {x : Int × RoutePlan} (hx : x ∈ l)
    (hne : x.1 ≠ k) : x ∈ insertSorted k p l := by
  induction l with
  | nil => cases hx
  | cons y l ih =>
    obtain ⟨k', p'⟩ := y
    rw [insertSorted]
    split
    · exact List.mem_cons_of_mem _ hx
    · split
      · rename_i _ e
        rcases List.mem_cons.mp hx with rfl | hx
        · exact absurd e.symm hne
        · exact List.mem_cons_of_mem _ hx
      · rcases List.mem_cons.mp hx with rfl | hx
        · exact List.mem_cons_self
        · exact List.mem_cons_of_mem _ (ih hx)

theorem receive_keeps (tr : Int) (ps : List RoutePlan) (c : OptClass) {x : Int × RoutePlan} (hx : x ∈ c.plans)
    (hn : ∀ p ∈ ps, p.id ≠ x.1) : x ∈ (ps.foldl (OptClass.receive tr) c).plans := by
  induction ps generalizing c with
  | nil => exact hx
  | cons p ps ih =>
    refine ih _ ?_ (fun q hq => hn q (List.mem_cons_of_mem _ hq))
    exact mem_insertSorted_of_ne _ _ _ hx (fun e => hn p List.mem_cons_self e.symm)

theorem receive_plans (tr : Int) {ps : List RoutePlan} (c : OptClass) {p : RoutePlan} (hp : p ∈ ps)
    (hn : (ps.map (·.id)).Nodup) : (p.id, p) ∈ (ps.foldl (OptClass.receive tr) c).plans := by
  induction ps generalizing c with
  | nil => cases hp
  | cons p' ps ih =>
    rw [List.map_cons, List.nodup_cons] at hn
    rw [List.foldl_cons]
    rcases List.mem_cons.mp hp with rfl | hp
    · refine receive_keeps _ _ _ (mem_insertSorted_self _ _ _) ?_
      intro x hx e
      exact hn.1 (List.mem_map.mpr ⟨x, hx, e⟩)
    · exact ih _ hp hn.2

/-! ### Some waypoint remains -/

theorem add_ne_nil (c : Config) (v : VConfig) (sb tr : Bool) (a : Acc) (w : Wp) : (a.add c v sb tr w).rev ≠ [] := by
  obtain ⟨b, bs, h, _⟩ := add_place c v sb tr a w
  rw [h]; exact List.cons_ne_nil _ _

theorem addAll_ne_nil (c : Config) (v : VConfig) (sb tr : Bool) (ws : List Wp) {a : Acc} (h : a.rev ≠ [] ∨ ws ≠ []) :
    (a.addAll c v sb tr ws).1.rev ≠ [] := by
  induction ws generalizing a with
  | nil =>
    rcases h with h | h
    · exact h
    · exact absurd rfl h
  | cons w ws ih => exact ih (Or.inl (add_ne_nil _ _ _ _ _ _))

theorem plans_ne_nil (c : Config) (v : VConfig) (sb : Bool) (tr : Int) {l : List (Int × RoutePlan)} {f : Bool} {a : Acc}
    (h : a.rev ≠ [] ∨ ∃ x ∈ l, x.2.wps ≠ []) : (a.plans c v sb tr none f l).1.rev ≠ [] := by
  induction l generalizing f a with
  | nil =>
    rcases h with h | ⟨_, h, _⟩
    · exact h
    · cases h
  | cons x l ih =>
    obtain ⟨k, p⟩ := x
    rw [Acc.plans]
    simp only [ite_self]
    refine ih ?_
    rcases h with h | ⟨y, hy, hw⟩
    · exact Or.inl (addAll_ne_nil _ _ _ _ _ (Or.inl h))
    · rcases List.mem_cons.mp hy with rfl | hy
      · exact Or.inl (addAll_ne_nil _ _ _ _ _ (Or.inr hw))
      · exact Or.inr ⟨y, hy, hw⟩

/-! ### The request and the answer -/

/-- What states and configurations of vehicles leave as it is. -/
structure Hold where
  cfg : Config
  ub : Bool
  opts : Map OptClass
  requests : Map Request
  latest : Int
  routeOption : Map Int
  routeKind : Map RouteKind
  implReqs : Map ImplReq
  pendingImpl : List Int
  transition : Int

/-- Not in the code: the part of the state that times depend on. -/
def St.hold (s : St) : Hold :=
  ⟨s.cfg, s.ub, s.opts, s.requests, s.latest, s.routeOption, s.routeKind, s.implReqs, s.pendingImpl, s.transition⟩

/-- A report of a vehicle. -/
def In.vehicle : In → Bool
  | .state _ => true
  | .config _ => true
  | _ => false

theorem hold_step {s : St} {i : In} (h : i.vehicle = true) : (step s i).1.hold = s.hold := by
  cases hu : s.ub with
  | true => rw [ub_step i hu]
  | false =>
    have hst : ∀ x : St × List Out, (if s.ub = true then (s, []) else x) = x := fun x =>
      if_neg (by rw [hu]; exact Bool.false_ne_true)
    cases i with
    | state v =>
      rw [step, hst, St.entityState]
      split
      · split
        · dsimp only
          split <;> rfl
        · split <;> rfl
      · rfl
    | config v =>
      rw [step, hst]
      dsimp only
      rw [St.entityConfig]
      split
      · split <;> rfl
      · rfl
    | request q b => cases h
    | response id ms => cases h
    | own b => cases h
    | implement q => cases h
    | route rr => cases h

theorem hold_run (g : List In) (hg : ∀ i ∈ g, i.vehicle = true) (c : Config) (h : List In) :
    (after c (h ++ g)).hold = (after c h).hold := by
  induction g using snocRec with
  | nil => rw [List.append_nil]
  | append_singleton g i ih =>
    rw [← List.append_assoc, after_snoc, hold_step (hg i (List.mem_append_right _ (List.mem_singleton.mpr rfl)))]
    exact ih (fun j hj => hg j (List.mem_append_left _ hj))

/-- The request that is worked on stays so. -/
def In.keeps : In → Bool
  | .request _ _ => false
  | .response _ _ => false
  | _ => true

theorem latest_step {s : St} {i : In} (h : i.keeps = true) :
    (step s i).1.latest = s.latest ∧ (step s i).1.requests = s.requests := by
  by_cases hs : ∃ v, i = .state v
  · obtain ⟨v, rfl⟩ := hs
    have := hold_step (s := s) (i := .state v) rfl
    exact ⟨congrArg Hold.latest this, congrArg Hold.requests this⟩
  · have := core_step_of (s := s) (i := i) (fun v e => hs ⟨v, e⟩) (by rintro r b rfl; cases h) (by rintro r b rfl; cases h)
    exact ⟨congrArg Core.latest this, congrArg Core.requests this⟩

theorem latest_run (g : List In) (hg : ∀ i ∈ g, i.keeps = true) (s : St) :
    (runM step s g).1.latest = s.latest ∧ (runM step s g).1.requests = s.requests := by
  induction g using snocRec with
  | nil => exact ⟨rfl, rfl⟩
  | append_singleton g i ih =>
    rw [runM_snoc]
    have h1 := ih (fun j hj => hg j (List.mem_append_left _ hj))
    have h2 := latest_step (s := (runM step s g).1) (hg i (List.mem_append_right _ (List.mem_singleton.mpr rfl)))
    exact ⟨h2.1.trans h1.1, h2.2.trans h1.2⟩

/-- The routes of an implementation: those of the option, numbered from 2 on, and the way to the task. -/
def implRoutesOf (q : ImplReq) (o : Opt) (rs : List Route) : List Route :=
  renumber 2 rs ++ [{ id := 1, start := q.place, startHeading := q.heading, stop := o.start, stopHeading := o.startHeading }]

theorem renumber_ids (n : Int) (rs : List Route) :
    ((renumber n rs).map (·.id)).Nodup ∧ ∀ k ∈ (renumber n rs).map (·.id), n ≤ k := by
  induction rs generalizing n with
  | nil => exact ⟨List.nodup_nil, fun _ h => (by cases h)⟩
  | cons r rs ih =>
    rw [renumber, List.map_cons, List.nodup_cons]
    have := ih (n + 1)
    refine ⟨⟨fun h => ?_, this.1⟩, ?_⟩
    · have := this.2 _ h
      dsimp only at this
      omega
    · intro k hk
      rcases List.mem_cons.mp hk with rfl | hk
      · exact Int.le_refl _
      · have := this.2 k hk
        omega

/-- An option whose routes are there is implemented. -/
theorem implemented_once {c : Config} {h : List In} {req : Request} {T : List Entry} {done : List (Entry × RouteResp)}
    (hph : Phase c req.id T done (after c h))
    (hl : (after c h).latest = req.id) (hrq : (after c h).requests.get req.id = some req)
    {e : Entry} {a : RouteResp} (he : e ∈ T) (hdone : (e, a) ∈ done)
    {q : ImplReq} (hq : q.task = c.task) (ho : q.option = e.opt.id) :
    ∃ n, sends c h (.implement q) = [.ask
        { id := n, task := c.task, costOnly := false, region := q.region, vehicle := q.vehicle,
          routes := implRoutesOf q (e.priced a.plans) e.ask.routes }] ∧
      ∀ g, (∀ i ∈ g, i.vehicle = true) → ∀ rr : RouteResp, rr.id = n → rr.task = c.task →
        (rr.plans.map (·.id)).Perm ((implRoutesOf q (e.priced a.plans) e.ask.routes).map (·.id)) →
        (firstConfig c (h ++ [.implement q] ++ g) rr.vehicle).isSome = true →
        (∃ p ∈ rr.plans, p.wps ≠ []) → (∀ ws, ws ≠ [] → ∃ ws', c.finish ws = some ws' ∧ ws' ≠ []) →
        ∃ p ∈ rr.plans, p.id = 1 ∧ ∃ ws, ws ≠ [] ∧ sends c (h ++ [.implement q] ++ g) (.route rr) = [.implemented
          { id := q.id, req := q.req, task := c.task, option := q.option, vehicle := rr.vehicle,
            place := (e.priced a.plans).stop, heading := (e.priced a.plans).stopHeading,
            time := q.time + withTransit (e.priced a.plans).cost p, wps := ws }] := by
  have hst : ∀ x : St × List Out, (if (after c h).ub = true then (after c h, []) else x) = x := fun x =>
    if_neg (by rw [hph.fine]; exact Bool.false_ne_true)
  have hg : (after c h).opts.get q.option = some (e.class' a.plans) :=
    (hph.opts _ _).mpr ⟨e, he, ho.symm, Or.inl ⟨a, hdone, rfl⟩⟩
  have hids : (transitId :: (renumber firstImplId e.ask.routes).map (·.id)).Nodup := by
    rw [List.nodup_cons]
    have := renumber_ids firstImplId e.ask.routes
    refine ⟨fun h => ?_, this.1⟩
    have := this.2 _ h
    simp [transitId, firstImplId] at this
  have hfold : (transitId :: (renumber firstImplId e.ask.routes).map (·.id)).foldl addTo [] =
      transitId :: (renumber firstImplId e.ask.routes).map (·.id) := by
    rw [foldl_addTo_nodup _ _ (by simpa using hids)]; rfl
  have himp : (step (after c h) (.implement q)) =
      ({ after c h with
         nextRoute := (after c h).nextRoute + 1
         routeKind := (after c h).routeKind.put (after c h).nextRoute .implementation
         routeOption := (after c h).routeOption.put (after c h).nextRoute q.option
         pendingImpl := [(after c h).nextRoute]
         transition := transitId
         opts := (after c h).opts.put q.option
           { e.class' a.plans with pending := transitId :: (renumber firstImplId e.ask.routes).map (·.id) }
         implReqs := (after c h).implReqs.put (after c h).nextRoute q },
       [.ask { id := (after c h).nextRoute, task := c.task, costOnly := false, region := q.region, vehicle := q.vehicle,
               routes := implRoutesOf q (e.priced a.plans) e.ask.routes }]) := by
    rw [step, hst]
    dsimp only
    rw [St.implement, hph.cfg, if_neg (fun h => h hq), hg]
    dsimp only
    rw [hph.impl]
    have e1 : (e.class' a.plans).routes.getD [] = e.ask.routes := rfl
    have e2 : (e.class' a.plans).pending = [] := rfl
    rw [e1, e2, hfold]
    rfl
  refine ⟨(after c h).nextRoute, by rw [sends, himp], ?_⟩
  intro g hgv rr hid htask hperm hcf hw hfin
  have hhold := hold_run g hgv c (h ++ [.implement q])
  rw [after_snoc, himp] at hhold
  generalize hs : after c (h ++ [.implement q] ++ g) = s at hhold
  have e_cfg : s.cfg = c := (congrArg Hold.cfg hhold).trans hph.cfg
  have e_ub : s.ub = false := (congrArg Hold.ub hhold).trans hph.fine
  have e_opts : s.opts.get q.option = some
      { e.class' a.plans with pending := transitId :: (renumber firstImplId e.ask.routes).map (·.id) } := by
    have : s.opts = _ := congrArg Hold.opts hhold
    rw [this]
    exact (Map.get_put _ _ _ _).trans (if_pos rfl)
  have e_req : s.requests.get s.latest = some req := by
    have h1 : s.requests = (after c h).requests := congrArg Hold.requests hhold
    have h2 : s.latest = (after c h).latest := congrArg Hold.latest hhold
    rw [h1, h2, hl, hrq]
  have e_ro : s.routeOption.get rr.id = some q.option := by
    have : s.routeOption = _ := congrArg Hold.routeOption hhold
    rw [this, hid]
    exact (Map.get_put _ _ _ _).trans (if_pos rfl)
  have e_rk : s.routeKind.get rr.id = some .implementation := by
    have : s.routeKind = _ := congrArg Hold.routeKind hhold
    rw [this, hid]
    exact (Map.get_put _ _ _ _).trans (if_pos rfl)
  have e_ir : s.implReqs.get rr.id = some q := by
    have : s.implReqs = _ := congrArg Hold.implReqs hhold
    rw [this, hid]
    exact (Map.get_put _ _ _ _).trans (if_pos rfl)
  have e_pi : s.pendingImpl = [(after c h).nextRoute] := congrArg Hold.pendingImpl hhold
  have e_tr : s.transition = transitId := congrArg Hold.transition hhold
  have hfine : Fine c (h ++ [.implement q] ++ g) := by rw [Fine, hs]; exact e_ub
  have hsound := sound stable_true (h ++ [.implement q] ++ g) hfine (fun _ _ _ _ => trivial)
  have e_conf : s.configs.get rr.vehicle = firstConfig c (h ++ [.implement q] ++ g) rr.vehicle := by
    rw [← hs]; exact hsound.conf rr.vehicle
  obtain ⟨vc, hvc⟩ := Option.isSome_iff_exists.mp hcf
  rw [hvc] at e_conf
  have hidsl : (implRoutesOf q (e.priced a.plans) e.ask.routes).map (·.id) =
      (renumber firstImplId e.ask.routes).map (·.id) ++ [transitId] := by
    rw [implRoutesOf, List.map_append]; rfl
  have hperm' : (rr.plans.map (·.id)).Perm (transitId :: (renumber firstImplId e.ask.routes).map (·.id)) := by
    rw [hidsl] at hperm
    exact hperm.trans (List.perm_append_singleton _ _)
  have hnd : (rr.plans.map (·.id)).Nodup := hperm'.nodup_iff.mpr hids
  obtain ⟨p, hp, hpid⟩ := List.mem_map.mp (hperm'.mem_iff.mpr (List.mem_cons_self (a := transitId)))
  refine ⟨p, hp, hpid, ?_⟩
  have hne : rr.plans ≠ [] := by rintro h; rw [h] at hp; cases hp
  rw [sends, hs, step, if_neg (by rw [e_ub]; exact Bool.false_ne_true)]
  rw [if_neg (by rw [e_cfg]; exact fun h => h htask), e_rk]
  dsimp only
  rw [St.implResponse, e_req]
  dsimp only
  rw [if_pos (by rw [e_pi, hid]; simp), e_ro, Option.getD_some, e_opts, e_ir]
  dsimp only
  obtain ⟨m, hm⟩ := implRoutes_all (o := q.option) req.sandbox rr.vehicle q (ps := rr.plans)
    (s := { s with
      pendingImpl := dropFrom s.pendingImpl rr.id
      opts := s.opts.put q.option
        { ({ e.class' a.plans with pending := transitId :: (renumber firstImplId e.ask.routes).map (·.id) } : OptClass) with
          firstActive := -1 } })
    (c := { ({ e.class' a.plans with pending := transitId :: (renumber firstImplId e.ask.routes).map (·.id) } : OptClass) with
          firstActive := -1 })
    e_ub ((Map.get_put _ _ _ _).trans (if_pos rfl)) hids hperm' hne
  rw [hm]
  have hopt := receive_opt transitId
    ({ ({ e.class' a.plans with pending := transitId :: (renumber firstImplId e.ask.routes).map (·.id) } : OptClass) with
          firstActive := -1 }) hp hpid hnd
  have hres := receive_restart transitId rr.plans
    ({ ({ e.class' a.plans with pending := transitId :: (renumber firstImplId e.ask.routes).map (·.id) } : OptClass) with
          firstActive := -1 })
  have hpl : ∃ x ∈ (rr.plans.foldl (OptClass.receive transitId)
      ({ ({ e.class' a.plans with pending := transitId :: (renumber firstImplId e.ask.routes).map (·.id) } : OptClass) with
          firstActive := -1 })).plans, x.2.wps ≠ [] := by
    obtain ⟨p', hp', hw'⟩ := hw
    exact ⟨(p'.id, p'), receive_plans transitId _ hp' hnd, hw'⟩
  dsimp only at hm ⊢
  rw [e_tr]
  generalize rr.plans.foldl (OptClass.receive transitId) _ = x at hopt hres hpl ⊢
  rw [St.conclude]
  dsimp only
  rw [e_conf]
  dsimp only
  have hass : ∀ s' : St, s'.cfg = c → (s'.assemble req.sandbox vc q x).1.rev.reverse ≠ [] := by
    intro s' _ h0
    rw [List.reverse_eq_nil_iff, St.assemble, hres] at h0
    exact plans_ne_nil _ _ _ _ (Or.inr hpl) h0
  obtain ⟨ws, hws, hwne⟩ := hfin _ (hass { s with
    cfg := c, pendingImpl := dropFrom s.pendingImpl rr.id, opts := m, transition := transitId } rfl)
  refine ⟨terminal c.task ws, terminal_ne_nil _ hwne, ?_⟩
  rw [e_cfg]
  rw [hws]
  dsimp only
  rw [if_neg hwne]
  dsimp only
  rw [hopt]
  rfl

end Verif.Task
