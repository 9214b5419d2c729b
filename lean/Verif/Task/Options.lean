import Verif.Task.Answers

/-! The options of a task that asks for routes to find their costs. -/

namespace Verif.Task

open Verif

/-- An option with the routes asked for it, and the id of the request for the routes. -/
structure Entry where
  rid : Int
  opt : Opt
  ask : Ask
deriving DecidableEq, Repr

/-- The options with their routes, the requests numbered from `n` on. -/
def number (n : Int) : List (Opt × Ask) → List Entry
  | [] => []
  | e :: es => ⟨n, e.1, e.2⟩ :: number (n + 1) es

/-- An option starts where its first route does and ends where its last route does. -/
def Opt.prepared (o : Opt) (rs : List Route) : Opt :=
  match rs.head?, rs.getLast? with
  | some f, some l => { o with start := f.start, startHeading := f.startHeading, stop := l.stop, stopHeading := l.stopHeading }
  | _, _ => o

/-- The cost with the costs of the routes: a cost that is not positive stands for no route. -/
def total (k : Int) (ps : List RoutePlan) : Int := ps.foldl (fun k p => if 0 < p.cost then k + p.cost else maxCost) k

/-- The option with the costs of its routes. -/
def Entry.priced (e : Entry) (ps : List RoutePlan) : Opt :=
  let o := e.opt.prepared e.ask.routes
  { o with cost := total o.cost ps }

/-- The first answers to the requests for routes, in the order in which they arrive. -/
def arrivals (t : Int) (T : List Entry) : List In → List (Entry × RouteResp) :=
  List.foldl (fun acc i =>
    match i with
    | .route rr =>
      if rr.task = t then
        match T.find? (·.rid == rr.id) with
        | some e => if acc.any (fun x => x.1.rid == rr.id) then acc else acc ++ [(e, rr)]
        | none => acc
      else acc
    | _ => acc) []

/-- The options of a task, each with its routes. -/
structure Regular (es : List (Opt × Ask)) : Prop where
  nodup : (es.map (·.1.id)).Nodup
  own : ∀ e ∈ es, e.2.option = e.1.id
  some : ∀ e ∈ es, e.2.routes ≠ []
  routes : ∀ e ∈ es, (e.2.routes.map (·.id)).Nodup

/-- While the costs are found: no other request for the task, no other options and no implementation, and the answers to
the requests for routes have exactly the routes asked for. -/
def Calm (t : Int) (T : List Entry) : In → Prop
  | .request r _ => t ∉ r.tasks
  | .own _ => False
  | .implement q => q.task ≠ t
  | .route rr => rr.task = t → ∀ e ∈ T, e.rid = rr.id → (rr.plans.map (·.id)).Perm (e.ask.routes.map (·.id))
  | _ => True

/-! ### The routes of one answer -/

/-- All but the options and the list. -/
structure Rest where
  cfg : Config
  ub : Bool
  pendingOpt : List Int
  pendingImpl : List Int
  routeKind : Map RouteKind
  routeOption : Map Int

/-- Not in the code: the part of the state that options do not change. -/
def St.rest (s : St) : Rest := ⟨s.cfg, s.ub, s.pendingOpt, s.pendingImpl, s.routeKind, s.routeOption⟩

theorem price_fold (ps : List RoutePlan) (c : OptClass) :
    ps.foldl OptClass.price c =
      { c with
        pending := ps.foldl (fun l p => dropFrom l p.id) c.pending
        opt := { c.opt with cost := total c.opt.cost ps } } := by
  induction ps generalizing c with
  | nil => rfl
  | cons p ps ih => rw [List.foldl_cons, ih]; rfl

theorem dropFrom_fold (ps : List RoutePlan) (l : List Int) (h : ∀ x ∈ l, x ∈ ps.map (·.id)) :
    ps.foldl (fun l p => dropFrom l p.id) l = [] := by
  induction ps generalizing l with
  | nil =>
    cases l with
    | nil => rfl
    | cons x l => exact absurd (h x List.mem_cons_self) (by simp)
  | cons p ps ih =>
    rw [List.foldl_cons]
    refine ih _ ?_
    intro x hx
    have := (dropFrom_mem _ _ _).mp hx
    rcases List.mem_cons.mp (h x this.1) with e | e
    · exact absurd e this.2
    · exact e

theorem sendIfDone_nil {s : St} {o : Int} {c : OptClass} (hn : (s.opts.map (·.1)).Nodup) (h : s.opts.get o = some c)
    (hp : c.pending ≠ []) : s.sendIfDone = [] := by
  rw [St.sendIfDone, if_neg]
  intro hall
  have := List.all_eq_true.mp hall (o, c) ((Map.mem_iff_get hn o c).mpr h)
  exact hp (List.isEmpty_iff.mp this)

theorem optionRoutes_all {o : Int} : ∀ {ps : List RoutePlan} {s : St} {c : OptClass}, s.opts.get o = some c →
    (s.opts.map (·.1)).Nodup → c.pending.Nodup → (ps.map (·.id)).Perm c.pending → ps ≠ [] →
    ∃ s', s.optionRoutes o ps = (s', s'.sendIfDone) ∧ s'.rest = s.rest ∧ (s'.opts.map (·.1)).Nodup ∧
      (∀ k, s'.opts.get k = if k = o then some (ps.foldl OptClass.price c) else s.opts.get k) ∧
      s'.planOptions = s.planOptions.map (fun x => x.push (ps.foldl OptClass.price c).opt)
  | [], _, _, _, _, _, _, hne => absurd rfl hne
  | p :: ps, s, c, hg, hn, hd, hp, _ => by
    have hin : c.pending.contains p.id = true :=
      List.contains_iff_mem.mpr (hp.mem_iff.mp (by simp))
    have hpd : (c.price p).pending.Perm (ps.map (·.id)) := by
      show (dropFrom c.pending p.id).Perm _
      have h1 : (dropFrom c.pending p.id).Perm (dropFrom ((p :: ps).map (·.id)) p.id) := hp.symm.filter _
      refine h1.trans ?_
      have hnd : ((p :: ps).map (·.id)).Nodup := hp.nodup_iff.mpr hd
      rw [List.map_cons, List.nodup_cons] at hnd
      have : dropFrom ((p :: ps).map (·.id)) p.id = ps.map (·.id) := by
        rw [dropFrom, List.map_cons, List.filter_cons]
        simp only [bne_self_eq_false, Bool.false_eq_true, if_false]
        refine List.filter_eq_self.mpr ?_
        intro x hx
        simp only [bne_iff_ne, ne_eq]
        rintro rfl
        exact hnd.1 hx
      rw [this]
    have hs1 : ∀ k, (s.takeRoute o c p).opts.get k = if k = o then some (c.price p) else s.opts.get k := by
      intro k
      rw [St.takeRoute, if_pos hin]
      exact Map.get_put _ _ _ _
    have hn1 : ((s.takeRoute o c p).opts.map (·.1)).Nodup := by
      rw [St.takeRoute, if_pos hin]
      exact Map.nodup_put hn _ _
    have hr1 : (s.takeRoute o c p).rest = s.rest := by
      rw [St.takeRoute, if_pos hin]; rfl
    have hp1 : (s.takeRoute o c p).planOptions = if (c.price p).pending = [] then
        s.planOptions.map (fun x => x.push (c.price p).opt) else s.planOptions := by
      rw [St.takeRoute, if_pos hin]
    cases ps with
    | nil =>
      have he : (c.price p).pending = [] := by
        have := hpd.length_eq
        exact List.eq_nil_of_length_eq_zero this
      refine ⟨s.takeRoute o c p, ?_, hr1, hn1, hs1, ?_⟩
      · rw [St.optionRoutes, St.optionRoute, hg, St.optionRoutes]
        simp only [List.append_nil]
      · rw [hp1, if_pos he]; rfl
    | cons p' ps =>
      have hne : (c.price p).pending ≠ [] := by
        intro h
        rw [h] at hpd
        have := hpd.length_eq
        simp at this
      obtain ⟨s', h1, h2, h3, h4, h5⟩ := optionRoutes_all (ps := p' :: ps) (s := s.takeRoute o c p) (c := c.price p)
        (by rw [hs1, if_pos rfl]) hn1 (hd.filter _) hpd.symm (by simp)
      refine ⟨s', ?_, h2.trans hr1, h3, ?_, ?_⟩
      · rw [St.optionRoutes, St.optionRoute, hg]
        simp only [h1]
        rw [sendIfDone_nil hn1 (by rw [hs1, if_pos rfl]) hne]
        rfl
      · intro k
        rw [h4, hs1]
        split <;> rfl
      · rw [h5, hp1, if_neg hne]; rfl

/-! ### The phase -/

/-- The option while its routes are awaited, and when they are there. -/
def Entry.class (e : Entry) : OptClass :=
  { opt := e.opt.prepared e.ask.routes, routes := some e.ask.routes, pending := e.ask.routes.map (·.id) }

/-- Not in the code: the option with its routes. -/
def Entry.class' (e : Entry) (ps : List RoutePlan) : OptClass :=
  { opt := e.priced ps, routes := some e.ask.routes, pending := [] }

/-- The state while the costs are found; `done` has the answers so far. -/
structure Phase (c : Config) (req : Int) (T : List Entry) (done : List (Entry × RouteResp)) (s : St) : Prop where
  cfg : s.cfg = c
  fine : s.ub = false
  nodup : (s.opts.map (·.1)).Nodup
  opts : ∀ o x, s.opts.get o = some x ↔ ∃ e ∈ T, e.opt.id = o ∧
    ((∃ r, (e, r) ∈ done ∧ x = e.class' r.plans) ∨ ((∀ y ∈ done, y.1 ≠ e) ∧ x = e.class))
  pend : ∀ k, k ∈ s.pendingOpt ↔ ∃ e ∈ T, e.rid = k ∧ ∀ y ∈ done, y.1 ≠ e
  impl : s.pendingImpl = []
  kind : ∀ e ∈ T, s.routeKind.get e.rid = some .option
  option : ∀ e ∈ T, s.routeOption.get e.rid = some e.opt.id
  list : s.planOptions = some { req := req, opts := done.map (fun x => x.1.priced x.2.plans) }

/-- The table. -/
structure Table (T : List Entry) : Prop where
  rids : (T.map (·.rid)).Nodup
  ids : (T.map (·.opt.id)).Nodup
  some : ∀ e ∈ T, e.ask.routes ≠ []
  routes : ∀ e ∈ T, (e.ask.routes.map (·.id)).Nodup

theorem eq_of_nodup_map {α : Type} {l : List α} {f : α → Int} (h : (l.map f).Nodup) {a b : α} (ha : a ∈ l) (hb : b ∈ l)
    (e : f a = f b) : a = b := by
  induction l with
  | nil => cases ha
  | cons x l ih =>
    rw [List.map_cons, List.nodup_cons] at h
    rcases List.mem_cons.mp ha with ha | ha
    · rcases List.mem_cons.mp hb with hb | hb
      · rw [ha, hb]
      · exfalso
        refine h.1 ?_
        rw [← ha, e]; exact List.mem_map.mpr ⟨b, hb, rfl⟩
    · rcases List.mem_cons.mp hb with hb | hb
      · exfalso
        refine h.1 ?_
        rw [← hb, ← e]; exact List.mem_map.mpr ⟨a, ha, rfl⟩
      · exact ih h.2 ha hb

/-- All the answers are there. -/
def AllDone (T : List Entry) (done : List (Entry × RouteResp)) : Prop := ∀ e ∈ T, ∃ y ∈ done, y.1 = e

theorem Phase.send {c : Config} {req : Int} {T : List Entry} {done : List (Entry × RouteResp)} {s : St}
    (hT : Table T) (h : Phase c req T done s) :
    (AllDone T done → s.sendIfDone = [.options { req := req, opts := done.map (fun x => x.1.priced x.2.plans) }]) ∧
    (¬ AllDone T done → s.sendIfDone = []) := by
  constructor
  · intro hall
    rw [St.sendIfDone, if_pos, h.list]
    · rfl
    · refine List.all_eq_true.mpr ?_
      rintro ⟨o, x⟩ hx
      have hg := (Map.mem_iff_get h.nodup o x).mp hx
      obtain ⟨e, he, _, hor⟩ := (h.opts o x).mp hg
      rcases hor with ⟨r, _, rfl⟩ | ⟨hn, _⟩
      · rfl
      · obtain ⟨y, hy, hye⟩ := hall e he
        exact absurd hye (hn y hy)
  · intro hall
    have : ∃ e ∈ T, ∀ y ∈ done, y.1 ≠ e := by
      by_cases hc : ∃ e ∈ T, ∀ y ∈ done, y.1 ≠ e
      · exact hc
      · exfalso
        refine hall (fun e he => ?_)
        by_cases hd : ∃ y ∈ done, y.1 = e
        · exact hd
        · exact absurd ⟨e, he, fun y hy hye => hd ⟨y, hy, hye⟩⟩ hc
    obtain ⟨e, he, hn⟩ := this
    refine sendIfDone_nil h.nodup ((h.opts e.opt.id e.class).mpr ⟨e, he, rfl, Or.inr ⟨hn, rfl⟩⟩) ?_
    intro hnil
    exact hT.some e he (List.map_eq_nil_iff.mp hnil)

/-- Another input leaves the phase as it is. -/
theorem Phase.frame {c : Config} {req : Int} {T : List Entry} {done : List (Entry × RouteResp)} {s s' : St}
    (h : Phase c req T done s) (h1 : s'.rest = s.rest) (h2 : s'.opts = s.opts) (h3 : s'.planOptions = s.planOptions) :
    Phase c req T done s' := by
  have e1 : s'.cfg = s.cfg := congrArg Rest.cfg h1
  have e2 : s'.ub = s.ub := congrArg Rest.ub h1
  have e3 : s'.pendingOpt = s.pendingOpt := congrArg Rest.pendingOpt h1
  have e4 : s'.pendingImpl = s.pendingImpl := congrArg Rest.pendingImpl h1
  have e5 : s'.routeKind = s.routeKind := congrArg Rest.routeKind h1
  have e6 : s'.routeOption = s.routeOption := congrArg Rest.routeOption h1
  exact ⟨e1.trans h.cfg, e2.trans h.fine, by rw [h2]; exact h.nodup, by rw [h2]; exact h.opts, by rw [e3]; exact h.pend,
    e4.trans h.impl, by rw [e5]; exact h.kind, by rw [e6]; exact h.option, h3.trans h.list⟩

/-- An answer that is awaited. -/
theorem Phase.answer {c : Config} {req : Int} {T : List Entry} {done : List (Entry × RouteResp)} {s : St}
    (hT : Table T) (h : Phase c req T done s) {e : Entry} (he : e ∈ T) (hn : ∀ y ∈ done, y.1 ≠ e) {rr : RouteResp}
    (hid : rr.id = e.rid) (hp : (rr.plans.map (·.id)).Perm (e.ask.routes.map (·.id))) :
    ∃ s', s.optionResponse rr = (s', s'.sendIfDone) ∧ Phase c req T (done ++ [(e, rr)]) s' := by
  have hin : s.pendingOpt.contains rr.id = true := List.contains_iff_mem.mpr ((h.pend _).mpr ⟨e, he, hid.symm, hn⟩)
  have ho : (s.routeOption.get rr.id).getD 0 = e.opt.id := by rw [hid, h.option e he]; rfl
  have hg : s.opts.get e.opt.id = some e.class := (h.opts _ _).mpr ⟨e, he, rfl, Or.inr ⟨hn, rfl⟩⟩
  have hne : rr.plans ≠ [] := by
    intro hnil
    rw [hnil] at hp
    have := hp.length_eq
    rw [List.map_nil, List.length_nil, List.length_map] at this
    exact hT.some e he (List.eq_nil_of_length_eq_zero this.symm)
  obtain ⟨s', h1, h2, h3, h4, h5⟩ := optionRoutes_all (o := e.opt.id) (ps := rr.plans)
    (s := { s with pendingOpt := dropFrom s.pendingOpt rr.id }) (c := e.class) hg h.nodup (hT.routes e he) hp hne
  have hfold : rr.plans.foldl OptClass.price e.class = e.class' rr.plans := by
    rw [price_fold, dropFrom_fold]
    · rfl
    · intro x hx
      exact hp.symm.mem_iff.mp hx
  rw [hfold] at h4 h5
  refine ⟨s', ?_, ?_⟩
  · rw [St.optionResponse, if_pos hin, ho]; exact h1
  · have e1 : s'.cfg = s.cfg := congrArg Rest.cfg h2
    have e2 : s'.ub = s.ub := congrArg Rest.ub h2
    have e3 : s'.pendingOpt = dropFrom s.pendingOpt rr.id := congrArg Rest.pendingOpt h2
    have e4 : s'.pendingImpl = s.pendingImpl := congrArg Rest.pendingImpl h2
    have e5 : s'.routeKind = s.routeKind := congrArg Rest.routeKind h2
    have e6 : s'.routeOption = s.routeOption := congrArg Rest.routeOption h2
    refine ⟨e1.trans h.cfg, e2.trans h.fine, h3, ?_, ?_, e4.trans h.impl, by rw [e5]; exact h.kind,
      by rw [e6]; exact h.option, ?_⟩
    · intro o x
      rw [h4]
      by_cases hoe : o = e.opt.id
      · subst hoe
        rw [if_pos rfl]
        constructor
        · intro hx; cases hx
          exact ⟨e, he, rfl, Or.inl ⟨rr, List.mem_append_right _ (List.mem_singleton.mpr rfl), rfl⟩⟩
        · rintro ⟨e', he', hi, hor⟩
          have : e' = e := eq_of_nodup_map hT.ids he' he hi
          subst this
          rcases hor with ⟨r, hr, rfl⟩ | ⟨hn', _⟩
          · rcases List.mem_append.mp hr with hr | hr
            · exact absurd rfl (hn _ hr)
            · cases List.mem_singleton.mp hr; rfl
          · exact absurd rfl (hn' (e', rr) (List.mem_append_right _ (List.mem_singleton.mpr rfl)))
      · rw [if_neg hoe]
        refine (h.opts o x).trans ?_
        constructor
        · rintro ⟨e', he', hi, hor⟩
          refine ⟨e', he', hi, ?_⟩
          rcases hor with ⟨r, hr, hx⟩ | ⟨hn', hx⟩
          · exact Or.inl ⟨r, List.mem_append_left _ hr, hx⟩
          · refine Or.inr ⟨?_, hx⟩
            intro y hy hye
            rcases List.mem_append.mp hy with hy | hy
            · exact hn' y hy hye
            · rw [List.mem_singleton.mp hy] at hye
              rw [← hye] at hi; exact hoe hi.symm
        · rintro ⟨e', he', hi, hor⟩
          refine ⟨e', he', hi, ?_⟩
          rcases hor with ⟨r, hr, hx⟩ | ⟨hn', hx⟩
          · rcases List.mem_append.mp hr with hr | hr
            · exact Or.inl ⟨r, hr, hx⟩
            · exfalso
              have := List.mem_singleton.mp hr
              have : e' = e := congrArg Prod.fst this
              rw [this] at hi; exact hoe hi.symm
          · exact Or.inr ⟨fun y hy => hn' y (List.mem_append_left _ hy), hx⟩
    · intro k
      rw [e3, dropFrom_mem, h.pend]
      constructor
      · rintro ⟨⟨e', he', hk, hn'⟩, hne'⟩
        refine ⟨e', he', hk, ?_⟩
        intro y hy hye
        rcases List.mem_append.mp hy with hy | hy
        · exact hn' y hy hye
        · rw [List.mem_singleton.mp hy] at hye
          rw [← hye] at hk
          exact hne' (by rw [← hk, hid])
      · rintro ⟨e', he', hk, hn'⟩
        refine ⟨⟨e', he', hk, fun y hy => hn' y (List.mem_append_left _ hy)⟩, ?_⟩
        intro hkr
        have : e' = e := eq_of_nodup_map hT.rids he' he (by rw [hk, hkr, hid])
        exact hn' (e, rr) (List.mem_append_right _ (List.mem_singleton.mpr rfl)) this.symm
    · rw [h5]
      show s.planOptions.map _ = _
      rw [h.list, Option.map_some, List.map_append]
      rfl

/-- The answers when one more input has come. -/
theorem arrivals_snoc (t : Int) (T : List Entry) (g : List In) (i : In) :
    arrivals t T (g ++ [i]) = (match i with
    | .route rr =>
      if rr.task = t then
        match T.find? (·.rid == rr.id) with
        | some e => if (arrivals t T g).any (fun x => x.1.rid == rr.id) then arrivals t T g
            else arrivals t T g ++ [(e, rr)]
        | none => arrivals t T g
      else arrivals t T g
    | _ => arrivals t T g) := by
  rw [arrivals, List.foldl_append]
  rfl

theorem arrivals_mem (t : Int) (T : List Entry) (g : List In) : ∀ y ∈ arrivals t T g, y.1 ∈ T ∧ y.2.id = y.1.rid ∧
    y.2.task = t ∧ .route y.2 ∈ g := by
  induction g using snocRec with
  | nil => intro y hy; cases hy
  | append_singleton g i ih =>
    have old : ∀ y ∈ arrivals t T g, y.1 ∈ T ∧ y.2.id = y.1.rid ∧ y.2.task = t ∧ .route y.2 ∈ g ++ [i] := fun y hy =>
      ⟨(ih y hy).1, (ih y hy).2.1, (ih y hy).2.2.1, List.mem_append_left _ (ih y hy).2.2.2⟩
    rw [arrivals_snoc]
    split
    · rename_i rr
      split
      · rename_i ht
        split
        · rename_i e he
          split
          · exact old
          · intro y hy
            rcases List.mem_append.mp hy with hy | hy
            · exact old y hy
            · rw [List.mem_singleton.mp hy]
              have := List.find?_some he
              exact ⟨List.mem_of_find?_eq_some he, (by simpa using this : e.rid = rr.id).symm, ht,
                List.mem_append_right _ (List.mem_singleton.mpr rfl)⟩
        · exact old
      · exact old
    · exact old

/-- One input while the costs are found. -/
theorem Phase.step {c : Config} {req : Int} {T : List Entry} (hT : Table T) {g : List In} {s : St}
    (h : Phase c req T (arrivals c.task T g) s) {i : In} (hi : Calm c.task T i) :
    Phase c req T (arrivals c.task T (g ++ [i])) (step s i).1 ∧
    (AllDone T (arrivals c.task T (g ++ [i])) → ¬ AllDone T (arrivals c.task T g) →
      optionsOf (step s i).2 =
        [{ req := req, opts := (arrivals c.task T (g ++ [i])).map (fun x => x.1.priced x.2.plans) }]) ∧
    (¬ (AllDone T (arrivals c.task T (g ++ [i])) ∧ ¬ AllDone T (arrivals c.task T g)) → optionsOf (step s i).2 = []) := by
  have hst : ∀ x : St × List Out, (if s.ub = true then (s, []) else x) = x := fun x =>
    if_neg (by rw [h.fine]; exact Bool.false_ne_true)
  have quiet : ∀ s', arrivals c.task T (g ++ [i]) = arrivals c.task T g → Phase c req T (arrivals c.task T g) s' →
      optionsOf (Verif.Task.step s i).2 = [] → (Verif.Task.step s i).1 = s' →
      Phase c req T (arrivals c.task T (g ++ [i])) (Verif.Task.step s i).1 ∧
      (AllDone T (arrivals c.task T (g ++ [i])) → ¬ AllDone T (arrivals c.task T g) →
        optionsOf (Verif.Task.step s i).2 =
          [{ req := req, opts := (arrivals c.task T (g ++ [i])).map (fun x => x.1.priced x.2.plans) }]) ∧
      (¬ (AllDone T (arrivals c.task T (g ++ [i])) ∧ ¬ AllDone T (arrivals c.task T g)) →
        optionsOf (Verif.Task.step s i).2 = []) := by
    intro s' e1 hP e2 e3
    rw [e1, e2, e3]
    exact ⟨hP, fun h1 h2 => absurd h1 h2, fun _ => rfl⟩
  cases i with
  | state v =>
    have hs : (s.entityState v).1.rest = s.rest ∧ (s.entityState v).1.opts = s.opts ∧
        (s.entityState v).1.planOptions = s.planOptions ∧ optionsOf (s.entityState v).2 = [] := by
      rw [St.entityState]
      split
      · split
        · dsimp only
          split <;> exact ⟨rfl, rfl, rfl, rfl⟩
        · split <;> exact ⟨rfl, rfl, rfl, rfl⟩
      · exact ⟨rfl, rfl, rfl, rfl⟩
    refine quiet (s.entityState v).1 (arrivals_snoc _ _ _ _) (h.frame hs.1 hs.2.1 hs.2.2.1) ?_ ?_
    · rw [Verif.Task.step, hst]; exact hs.2.2.2
    · rw [Verif.Task.step, hst]
  | config v =>
    have hs : (s.entityConfig v).rest = s.rest ∧ (s.entityConfig v).opts = s.opts ∧
        (s.entityConfig v).planOptions = s.planOptions := by
      rw [St.entityConfig]
      repeat' split
      all_goals exact ⟨rfl, rfl, rfl⟩
    refine quiet (s.entityConfig v) (arrivals_snoc _ _ _ _) (h.frame hs.1 hs.2.1 hs.2.2) ?_ ?_
    · rw [Verif.Task.step, hst]; rfl
    · rw [Verif.Task.step, hst]
  | response id ms =>
    have hs : (s.autoResponse id ms).rest = s.rest ∧ (s.autoResponse id ms).opts = s.opts ∧
        (s.autoResponse id ms).planOptions = s.planOptions := by
      rw [St.autoResponse]
      split
      · exact ⟨rfl, rfl, rfl⟩
      · dsimp only
        split <;> exact ⟨rfl, rfl, rfl⟩
    refine quiet (s.autoResponse id ms) (arrivals_snoc _ _ _ _) (h.frame hs.1 hs.2.1 hs.2.2) ?_ ?_
    · rw [Verif.Task.step, hst]; rfl
    · rw [Verif.Task.step, hst]
  | own b => exact absurd hi id
  | request r b =>
    have hn : ¬ r.tasks.contains s.cfg.task = true := by
      rw [h.cfg]; exact fun hc => hi (List.contains_iff_mem.mp hc)
    have e : Verif.Task.step s (.request r b) = ({ s with latest := r.id, requests := s.requests.put r.id r }, []) := by
      rw [Verif.Task.step, hst, St.request]
      exact if_neg hn
    refine quiet { s with latest := r.id, requests := s.requests.put r.id r } (arrivals_snoc _ _ _ _)
      (h.frame rfl rfl rfl) ?_ ?_
    · rw [e]; rfl
    · rw [e]
  | implement q =>
    have hn : q.task ≠ s.cfg.task := by rw [h.cfg]; exact hi
    have e : Verif.Task.step s (.implement q) = (s, []) := by
      rw [Verif.Task.step, hst, St.implement, if_pos hn]
    refine quiet s (arrivals_snoc _ _ _ _) h ?_ ?_
    · rw [e]; rfl
    · rw [e]
  | route rr =>
    by_cases ht : rr.task = c.task
    · by_cases he : ∃ e ∈ T, e.rid = rr.id
      · obtain ⟨e, heT, hid⟩ := he
        have hfind : T.find? (·.rid == rr.id) = some e := by
          cases hf : T.find? (·.rid == rr.id) with
          | none =>
            have := List.find?_eq_none.mp hf e heT
            simp [hid] at this
          | some e' =>
            have h1 := List.find?_some hf
            have h2 := List.mem_of_find?_eq_some hf
            rw [eq_of_nodup_map hT.rids h2 heT (by rw [hid]; simpa using h1)]
        have harr := arrivals_snoc c.task T g (.route rr)
        simp only [if_pos ht, hfind] at harr
        have hstep : Verif.Task.step s (.route rr) = s.optionResponse rr := by
          rw [Verif.Task.step, hst, h.cfg, if_neg (by simpa using ht), ← hid, h.kind e heT]
        by_cases hd : ∃ y ∈ arrivals c.task T g, y.1 = e
        · obtain ⟨y, hy, hye⟩ := hd
          have hany : (arrivals c.task T g).any (fun x => x.1.rid == rr.id) = true :=
            List.any_eq_true.mpr ⟨y, hy, by simp [hye, hid]⟩
          rw [if_pos hany] at harr
          have hnp : ¬ s.pendingOpt.contains rr.id = true := by
            intro hc
            obtain ⟨e', he', hk, hn⟩ := (h.pend _).mp (List.contains_iff_mem.mp hc)
            have : e' = e := eq_of_nodup_map hT.rids he' heT (by rw [hk, hid])
            exact hn y hy (by rw [this, hye])
          have e0 : Verif.Task.step s (.route rr) = (s, []) := by
            rw [hstep, St.optionResponse, if_neg hnp]
          refine quiet s harr h ?_ ?_
          · rw [e0]; rfl
          · rw [e0]
        · have hn : ∀ y ∈ arrivals c.task T g, y.1 ≠ e := fun y hy hye => hd ⟨y, hy, hye⟩
          have hany : ¬ (arrivals c.task T g).any (fun x => x.1.rid == rr.id) = true := by
            intro hc
            obtain ⟨y, hy, hye⟩ := List.any_eq_true.mp hc
            have h1 := (arrivals_mem _ _ _ y hy).1
            exact hn y hy (eq_of_nodup_map hT.rids h1 heT (by rw [hid]; simpa using hye))
          rw [if_neg hany] at harr
          obtain ⟨s', h1, h2⟩ := h.answer hT heT hn hid.symm (hi ht e heT hid)
          rw [hstep, h1, harr]
          have hsend := h2.send hT
          refine ⟨h2, ?_, ?_⟩
          · intro hall _
            rw [hsend.1 hall]; rfl
          · intro hnot
            have : ¬ AllDone T (arrivals c.task T g ++ [(e, rr)]) := by
              intro hall
              refine hnot ⟨hall, ?_⟩
              intro hold
              obtain ⟨y, hy, hye⟩ := hold e heT
              exact hn y hy hye
            rw [hsend.2 this]; rfl
      · have hfind : T.find? (·.rid == rr.id) = none := by
          refine List.find?_eq_none.mpr ?_
          intro e heT hc
          exact he ⟨e, heT, by simpa using hc⟩
        have harr := arrivals_snoc c.task T g (.route rr)
        simp only [if_pos ht, hfind] at harr
        have e0 : Verif.Task.step s (.route rr) = (s, []) := by
          rw [Verif.Task.step, hst, h.cfg, if_neg (by simpa using ht)]
          split
          · rfl
          · rw [St.optionResponse, if_neg]
            intro hc
            obtain ⟨e', he', hk, _⟩ := (h.pend _).mp (List.contains_iff_mem.mp hc)
            exact he ⟨e', he', hk⟩
          · rw [St.implResponse]
            split
            · rfl
            · rw [if_neg]
              rw [h.impl]; simp
        refine quiet s harr h ?_ ?_
        · rw [e0]; rfl
        · rw [e0]
    · have harr := arrivals_snoc c.task T g (.route rr)
      simp only [if_neg ht] at harr
      have e0 : Verif.Task.step s (.route rr) = (s, []) := by
        rw [Verif.Task.step, hst, h.cfg, if_pos ht]
      refine quiet s harr h ?_ ?_
      · rw [e0]; rfl
      · rw [e0]

end Verif.Task
