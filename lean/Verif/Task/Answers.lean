import Verif.Task.Implement

/-! At most one implementation for each request for one. -/

namespace Verif.Task

open Verif

/-- The number of the requests for an implementation with the id that are waiting for routes. -/
def waiting (m : Map ImplReq) (k : Int) : Nat := m.countP (fun p => p.2.id == k)

theorem waiting_del_le (m : Map ImplReq) (j k : Int) : waiting (m.del j) k ≤ waiting m k := by
  rw [waiting, waiting, Map.del, List.countP_filter]
  exact List.countP_mono_left (fun x _ h => (by simp at h; simp [h.1]))

theorem waiting_put (m : Map ImplReq) (j k : Int) (q : ImplReq) :
    waiting (m.put j q) k ≤ waiting m k + (if q.id = k then 1 else 0) := by
  have := waiting_del_le m j k
  rw [waiting] at this ⊢
  rw [Map.put, List.countP_cons]
  simp only [beq_iff_eq]
  omega

theorem waiting_del {m : Map ImplReq} {j : Int} {q : ImplReq} (h : m.get j = some q) (k : Int) :
    waiting (m.del j) k + (if q.id = k then 1 else 0) ≤ waiting m k := by
  induction m with
  | nil => cases h
  | cons x m ih =>
    rw [Map.get, List.find?_cons] at h
    by_cases e : x.1 = j
    · have : (x.1 == j) = true := by simpa using e
      rw [this] at h
      have hx : x.2 = q := by simpa using h
      have hd : Map.del (x :: m) j = Map.del m j := by
        rw [Map.del, List.filter_cons]; simp [e]; rfl
      rw [hd]
      have := waiting_del_le m j k
      have hc : waiting (x :: m) k = waiting m k + (if q.id = k then 1 else 0) := by
        rw [waiting, List.countP_cons, hx]; simp only [beq_iff_eq]; rfl
      omega
    · have : (x.1 == j) = false := by simpa using e
      rw [this] at h
      have := ih h
      have hd : Map.del (x :: m) j = x :: Map.del m j := by
        rw [Map.del, List.filter_cons]; simp [e]; rfl
      rw [hd]
      have h1 : waiting (x :: Map.del m j) k = waiting (Map.del m j) k + (if x.2.id = k then 1 else 0) := by
        rw [waiting, List.countP_cons]; simp only [beq_iff_eq]; rfl
      have h2 : waiting (x :: m) k = waiting m k + (if x.2.id = k then 1 else 0) := by
        rw [waiting, List.countP_cons]; simp only [beq_iff_eq]; rfl
      omega

theorem implsOf_append (l m : List Out) : implsOf (l ++ m) = implsOf l ++ implsOf m := by
  induction l with
  | nil => rfl
  | cons o l ih => cases o <;> simp [implsOf, ih]

theorem implsOf_of_noImpl {l : List Out} (h : NoImpl l) : implsOf l = [] := by
  induction l with
  | nil => rfl
  | cons o l ih =>
    have h' : NoImpl l := fun r hr => h r (List.mem_cons_of_mem _ hr)
    cases o with
    | implemented r => exact absurd List.mem_cons_self (h r)
    | _ => exact ih h'

/-- The option has no route to wait for. -/
def Idle (s : St) (o : Int) : Prop := s.ub = true ∨ ∀ c, s.opts.get o = some c → c.pending = []

theorem implRoute_idle {s : St} {o : Int} (h : Idle s o) (sb : Bool) (v : Int) (q : ImplReq) (p : RoutePlan) :
    s.implRoute sb o v q p = (s, []) := by
  rw [St.implRoute]
  split
  · rfl
  · rename_i hu
    split
    · rfl
    · rename_i c hc
      rcases h with h | h
      · exact absurd h hu
      · rw [h c hc]; rfl

theorem implRoutes_idle {s : St} {o : Int} (h : Idle s o) (sb : Bool) (v : Int) (q : ImplReq) (ps : List RoutePlan) :
    s.implRoutes sb o v q ps = (s, []) := by
  induction ps with
  | nil => rfl
  | cons p ps ih =>
    rw [St.implRoutes]
    simp only [implRoute_idle h sb v q p, ih]
    rfl

theorem conclude_idle (s : St) (sb : Bool) (o v : Int) (q : ImplReq) {x : OptClass} (hx : x.pending = []) :
    Idle (s.conclude sb o v q x).1 o := by
  rw [St.conclude]
  split
  · dsimp only
    split
    · exact Or.inl rfl
    · split
      · refine Or.inr (fun c hc => ?_)
        dsimp only at hc
        rw [Map.get_put, if_pos rfl] at hc
        cases hc; exact hx
      · refine Or.inr (fun c hc => ?_)
        dsimp only at hc
        rw [Map.get_put, if_pos rfl] at hc
        cases hc; exact hx
  · refine Or.inr (fun c hc => ?_)
    dsimp only at hc
    rw [Map.get_put, if_pos rfl] at hc
    cases hc; exact hx

theorem conclude_ids (s : St) (sb : Bool) (o v : Int) (q : ImplReq) (x : OptClass) :
    ((implsOf (s.conclude sb o v q x).2).map (·.id)) = [] ∨ (implsOf (s.conclude sb o v q x).2).map (·.id) = [q.id] := by
  rw [St.conclude]
  split
  · dsimp only
    split
    · exact Or.inl rfl
    · split
      · exact Or.inl rfl
      · exact Or.inr rfl
  · exact Or.inr rfl

theorem implRoutes_ids (sb : Bool) (o v : Int) (q : ImplReq) (ps : List RoutePlan) (s : St) :
    ((implsOf (s.implRoutes sb o v q ps).2).map (·.id)) = [] ∨
      (implsOf (s.implRoutes sb o v q ps).2).map (·.id) = [q.id] := by
  induction ps generalizing s with
  | nil => exact Or.inl rfl
  | cons p ps ih =>
    rw [St.implRoutes]
    dsimp only
    rw [implsOf_append, List.map_append]
    have key : (Idle (s.implRoute sb o v q p).1 o ∧ ((implsOf (s.implRoute sb o v q p).2).map (·.id) = [] ∨
          (implsOf (s.implRoute sb o v q p).2).map (·.id) = [q.id])) ∨
        implsOf (s.implRoute sb o v q p).2 = [] := by
      rw [St.implRoute]
      split
      · exact Or.inr rfl
      · split
        · exact Or.inr rfl
        · split
          · split
            · rename_i hp
              exact Or.inl ⟨conclude_idle _ _ _ _ _ hp, conclude_ids _ _ _ _ _ _⟩
            · exact Or.inr rfl
          · exact Or.inr rfl
    rcases key with ⟨hi, h⟩ | h
    · rw [implRoutes_idle hi]
      simpa [implsOf] using h
    · rw [h]; exact ih _

/-- The implementations of the parts of the state. -/
theorem implReqs_drafts (ds : List Draft) (s : St) : (ds.foldl St.draft s).implReqs = s.implReqs := by
  induction ds generalizing s with
  | nil => rfl
  | cons d ds ih => rw [List.foldl_cons, ih]; rfl

theorem implReqs_askRoutes (s : St) (a : Ask) : (s.askRoutes a).1.implReqs = s.implReqs := by
  rw [St.askRoutes]; split <;> rfl

theorem implReqs_askAll (as : List Ask) (s : St) : (s.askAll as).1.implReqs = s.implReqs := by
  induction as generalizing s with
  | nil => rfl
  | cons a as ih => rw [St.askAll]; rw [ih, implReqs_askRoutes]

theorem implReqs_build (s : St) (b : Build) : (s.build b).1.implReqs = s.implReqs := by
  rw [St.build]; rw [implReqs_askAll, implReqs_drafts]

theorem implReqs_optionRoutes (o : Int) (ps : List RoutePlan) (s : St) :
    (s.optionRoutes o ps).1.implReqs = s.implReqs := by
  induction ps generalizing s with
  | nil => rfl
  | cons p ps ih =>
    rw [St.optionRoutes]; rw [ih, St.optionRoute]
    split
    · rfl
    · dsimp only
      rw [St.takeRoute]; split <;> rfl

theorem implReqs_implRoutes (sb : Bool) (o v : Int) (q : ImplReq) (ps : List RoutePlan) (s : St) :
    (s.implRoutes sb o v q ps).1.implReqs = s.implReqs := by
  induction ps generalizing s with
  | nil => rfl
  | cons p ps ih =>
    rw [St.implRoutes]; rw [ih, St.implRoute]
    repeat' split
    · rfl
    · rfl
    · rw [St.conclude]
      split
      · dsimp only
        split
        · rfl
        · split <;> rfl
      · rfl
    · rfl
    · rfl

/-- The request for an implementation with the id for the task. -/
def In.asksFor (c : Config) (k : Int) : In → Bool
  | .implement q => q.task == c.task && q.id == k
  | _ => false

/-- The number of implementations with the id. -/
def made (k : Int) (l : List Out) : Nat := ((implsOf l).map (·.id)).count k

theorem step_waiting {c : Config} {s : St} (hc : s.cfg = c) (i : In) (k : Int) :
    made k (step s i).2 + waiting (step s i).1.implReqs k ≤ waiting s.implReqs k + (if i.asksFor c k then 1 else 0) := by
  have none' : ∀ {l : List Out}, NoImpl l → made k l = 0 := by
    intro l h; rw [made, implsOf_of_noImpl h]; rfl
  cases hu : s.ub with
  | true => rw [ub_step i hu]; rw [none' NoImpl.nil]; dsimp only; omega
  | false =>
    have hst : ∀ x : St × List Out, (if s.ub = true then (s, []) else x) = x := fun x =>
      if_neg (by rw [hu]; exact Bool.false_ne_true)
    cases i with
    | state v =>
      rw [step, hst, none' (noImpl_state _ _)]
      have : (s.entityState v).1.implReqs = s.implReqs := by
        rw [St.entityState]
        split
        · split
          · dsimp only
            split <;> rfl
          · split <;> rfl
        · rfl
      rw [this]; omega
    | request q b =>
      rw [step, hst, none' (noImpl_request _ _ _)]
      have : waiting (s.request q b).1.implReqs k ≤ waiting s.implReqs k := by
        rw [St.request]
        dsimp only
        split
        · split
          · split <;> exact Nat.le_refl _
          · rw [implReqs_build]; exact Nat.zero_le _
        · exact Nat.le_refl _
      omega
    | response id ms =>
      rw [step, hst, none' NoImpl.nil]
      have : (s.autoResponse id ms).implReqs = s.implReqs := by
        rw [St.autoResponse]
        split
        · rfl
        · dsimp only
          split <;> rfl
      dsimp only
      rw [this]; omega
    | config v =>
      rw [step, hst, none' NoImpl.nil]
      have : (s.entityConfig v).implReqs = s.implReqs := by
        rw [St.entityConfig]
        repeat' split
        all_goals rfl
      dsimp only
      rw [this]; omega
    | own b => rw [step, hst, none' (noImpl_build _ _), implReqs_build]; omega
    | implement q =>
      rw [step, hst, none' (noImpl_implement _ _), St.implement]
      split
      · dsimp only; omega
      · rename_i ht
        split
        · dsimp only; omega
        · dsimp only
          have := waiting_put s.implReqs s.nextRoute k q
          have ha : (In.implement q).asksFor c k = decide (q.id = k) := by
            have ht' : q.task = c.task := by rw [← hc]; exact Decidable.of_not_not ht
            simp [In.asksFor, ht']
            rfl
          rw [ha]
          simp only [decide_eq_true_eq]
          omega
    | route rr =>
      rw [step, hst]
      have ha : (In.route rr).asksFor c k = false := rfl
      rw [ha, if_neg Bool.false_ne_true]
      split
      · rw [none' NoImpl.nil]; dsimp only; omega
      · split
        · rw [none' NoImpl.nil]; dsimp only; omega
        · rw [none' (noImpl_optionResponse _ _)]
          have : (s.optionResponse rr).1.implReqs = s.implReqs := by
            rw [St.optionResponse]; split
            · rw [implReqs_optionRoutes]
            · rfl
          rw [this]; omega
        · rw [St.implResponse]
          split
          · rw [none' NoImpl.nil]; dsimp only; omega
          · split
            · dsimp only
              split
              · rename_i rq _ _ _ _ x q hx hq
                dsimp only
                rw [implReqs_implRoutes]
                have hd := waiting_del hq k
                dsimp only at hd ⊢
                rw [made]
                rcases implRoutes_ids rq.sandbox ((s.routeOption.get rr.id).getD 0) rr.vehicle q rr.plans
                  { s with
                    pendingImpl := dropFrom s.pendingImpl rr.id
                    opts := s.opts.put ((s.routeOption.get rr.id).getD 0) { x with firstActive := -1 } } with e | e
                · rw [e]
                  simp only [List.count_nil]
                  omega
                · rw [e]
                  by_cases hk : q.id = k
                  · rw [if_pos hk] at hd
                    simp only [hk, List.count_singleton_self]
                    omega
                  · rw [List.count_eq_zero_of_not_mem (by simpa using fun h => hk h.symm)]
                    omega
              · rw [none' NoImpl.nil]; dsimp only; omega
            · rw [none' NoImpl.nil]; dsimp only; omega

theorem cfg_step (s : St) (i : In) : (step s i).1.cfg = s.cfg := by
  cases hu : s.ub with
  | true => rw [ub_step i hu]
  | false =>
    have hst : ∀ x : St × List Out, (if s.ub = true then (s, []) else x) = x := fun x =>
      if_neg (by rw [hu]; exact Bool.false_ne_true)
    have hcore : ∀ {a b : St}, a.core = b.core → a.cfg = b.cfg := fun h => congrArg Core.cfg h
    cases i with
    | state v =>
      rw [step, hst, St.entityState]
      split
      · split
        · dsimp only
          split <;> rfl
        · split <;> rfl
      · rfl
    | request q b =>
      rw [step, hst]
      exact congrArg Core.cfg (core_request s q b)
    | response id ms =>
      rw [step, hst, St.autoResponse]
      dsimp only
      split
      · rfl
      · dsimp only
        split <;> rfl
    | config v => rw [step, hst]; exact hcore (core_config _ _)
    | own b => rw [step, hst]; exact hcore (core_build _ _)
    | implement q => rw [step, hst]; exact hcore (core_implement _ _)
    | route rr => exact hcore (core_route _ _)

theorem cfg_after (c : Config) (h : List In) : (after c h).cfg = c := by
  induction h using snocRec with
  | nil => rfl
  | append_singleton h i ih => rw [after_snoc, cfg_step, ih]

theorem made_append (k : Int) (l m : List Out) : made k (l ++ m) = made k l + made k m := by
  rw [made, implsOf_append, List.map_append, List.count_append]; rfl

theorem sent_snoc (c : Config) (h : List In) (i : In) : sent c (h ++ [i]) = sent c h ++ [sends c h i] := by
  rw [sent, runM_snoc]

theorem made_le (c : Config) (h : List In) (k : Int) :
    made k (sent c h).flatten + waiting (after c h).implReqs k ≤ h.countP (In.asksFor c k) := by
  induction h using snocRec with
  | nil => exact Nat.le_refl _
  | append_singleton h i ih =>
    have := step_waiting (cfg_after c h) i k
    rw [sent_snoc, List.flatten_append, made_append, after_snoc, List.countP_append]
    simp only [List.flatten_cons, List.flatten_nil, List.append_nil, List.countP_cons, List.countP_nil, Nat.zero_add]
    have e : made k (sends c h i) = made k (step (after c h) i).2 := rfl
    omega

end Verif.Task
