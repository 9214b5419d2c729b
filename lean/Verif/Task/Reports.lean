import Verif.Task.Activity

/-! When activity and completion are reported. -/

namespace Verif.Task

open Verif

/-- The message reports activity or completion. -/
def Out.isReport : Out → Bool
  | .active _ => true
  | .complete _ => true
  | _ => false

/-- Not in the code: no message reports a state of the task. -/
def Silent (l : List Out) : Prop := ∀ o ∈ l, o.isReport = false

theorem Silent.nil : Silent [] := fun _ h => (by cases h)

theorem Silent.append {l m : List Out} (h1 : Silent l) (h2 : Silent m) : Silent (l ++ m) := by
  intro o h
  rcases List.mem_append.mp h with h | h
  · exact h1 o h
  · exact h2 o h

theorem silent_options (o : Option Options) : Silent (o.toList.map .options) := by
  intro x h
  obtain ⟨y, _, rfl⟩ := List.mem_map.mp h
  rfl

theorem Silent.singleton {o : Out} (h : o.isReport = false) : Silent [o] := by
  intro x hx
  rw [List.mem_singleton.mp hx]; exact h

theorem silent_askRoutes (s : St) (a : Ask) : Silent (s.askRoutes a).2 := by
  rw [St.askRoutes]; split
  · exact .nil
  · exact .singleton rfl

theorem silent_askAll (as : List Ask) (s : St) : Silent (s.askAll as).2 := by
  induction as generalizing s with
  | nil => exact .nil
  | cons a as ih => exact (silent_askRoutes s a).append (ih _)

theorem silent_build (s : St) (b : Build) : Silent (s.build b).2 := by
  rw [St.build]
  refine (silent_askAll _ _).append ?_
  split
  · exact silent_options _
  · exact .nil

theorem silent_request (s : St) (r : Request) (b : Build) : Silent (s.request r b).2 := by
  rw [St.request]
  dsimp only
  split
  · split
    · split
      · exact .singleton rfl
      · exact .nil
    · exact silent_build _ _
  · exact .nil

theorem silent_implement (s : St) (q : ImplReq) : Silent (s.implement q).2 := by
  rw [St.implement]
  split
  · exact .nil
  · split
    · exact .nil
    · exact .singleton rfl

theorem silent_optionRoute (s : St) (o : Int) (p : RoutePlan) : Silent (s.optionRoute o p).2 := by
  rw [St.optionRoute]
  split
  · exact .nil
  · dsimp only
    rw [St.sendIfDone]
    split
    · exact silent_options _
    · exact .nil

theorem silent_optionRoutes (o : Int) (ps : List RoutePlan) (s : St) : Silent (s.optionRoutes o ps).2 := by
  induction ps generalizing s with
  | nil => exact .nil
  | cons p ps ih => exact (silent_optionRoute s o p).append (ih _)

theorem silent_conclude (s : St) (b : Bool) (o v : Int) (q : ImplReq) (c : OptClass) :
    Silent (s.conclude b o v q c).2 := by
  rw [St.conclude]
  split
  · dsimp only
    split
    · exact .nil
    · split
      · exact .nil
      · exact .singleton rfl
  · exact .singleton rfl

theorem silent_implRoute (s : St) (b : Bool) (o v : Int) (q : ImplReq) (p : RoutePlan) :
    Silent (s.implRoute b o v q p).2 := by
  rw [St.implRoute]
  repeat' split
  · exact .nil
  · exact .nil
  · exact silent_conclude _ _ _ _ _ _
  · exact .nil
  · exact .nil

theorem silent_implRoutes (b : Bool) (o v : Int) (q : ImplReq) (ps : List RoutePlan) (s : St) :
    Silent (s.implRoutes b o v q ps).2 := by
  induction ps generalizing s with
  | nil => exact .nil
  | cons p ps ih => exact (silent_implRoute s b o v q p).append (ih _)

theorem silent_route (s : St) (r : RouteResp) : Silent (step s (.route r)).2 := by
  rw [step]
  repeat' split
  · exact .nil
  · exact .nil
  · exact .nil
  · rw [St.optionResponse]
    split
    · exact silent_optionRoutes _ _ _
    · exact .nil
  · rw [St.implResponse]
    split
    · exact .nil
    · split
      · dsimp only
        split
        · exact silent_implRoutes _ _ _ _ _ _
        · exact .nil
      · exact .nil

/-- Only a state makes the service report. -/
theorem silent_step {s : St} {i : In} (h : ∀ v, i ≠ .state v) : Silent (step s i).2 := by
  cases hu : s.ub with
  | true => rw [ub_step i hu]; exact .nil
  | false =>
    have hst : ∀ x : St × List Out, (if s.ub = true then (s, []) else x) = x := fun x =>
      if_neg (by rw [hu]; exact Bool.false_ne_true)
    cases i with
    | state v => exact absurd rfl (h v)
    | request r b => rw [step, hst]; exact silent_request _ _ _
    | response id ms => rw [step, hst]; exact .nil
    | config v => rw [step, hst]; exact .nil
    | own b => rw [step, hst]; exact silent_build _ _
    | implement q => rw [step, hst]; exact silent_implement _ _
    | route r => exact silent_route _ _

/-- What is sent for a state. -/
theorem sends_state {c : Config} {h : List In} (hf : Fine c h) (v : VState) :
    (Assigned c.task h v.id ∧ c.task ∈ v.tasks ∧ ¬ OnTask c.task h v.id ∧ sends c h (.state v) = [.active v.id]) ∨
    (Assigned c.task h v.id ∧ c.task ∉ v.tasks ∧ OnTask c.task h v.id ∧
      sends c h (.state v) = [.complete (after c h).assigned]) ∨
    (¬ (Assigned c.task h v.id ∧ (c.task ∈ v.tasks ↔ ¬ OnTask c.task h v.id)) ∧ sends c h (.state v) = []) := by
  have hk := knows c h hf
  have hcfg : (after c h).cfg = c := hk.cfg
  have ha : (after c h).assigned.contains v.id = true ↔ Assigned c.task h v.id := hk.assigned v.id
  have hb : (after c h).activeOn.contains v.id = true ↔ Assigned c.task h v.id ∧ OnTask c.task h v.id := hk.active v.id
  have hst : ∀ x : St × List Out, (if (after c h).ub = true then (after c h, []) else x) = x := fun x =>
    if_neg (by rw [hf]; exact Bool.false_ne_true)
  have ht : v.tasks.contains (after c h).cfg.task = true ↔ c.task ∈ v.tasks := by
    rw [hcfg]; exact List.contains_iff_mem
  rw [sends, step, hst, St.entityState]
  by_cases h1 : Assigned c.task h v.id
  · rw [if_pos (ha.mpr h1)]
    by_cases h2 : c.task ∈ v.tasks
    · rw [if_pos (ht.mpr h2)]
      by_cases h3 : OnTask c.task h v.id
      · have := hb.mpr ⟨h1, h3⟩
        refine Or.inr (Or.inr ⟨fun h => (h.2.mp h2) h3, ?_⟩)
        simp only [this, if_true]
      · refine Or.inl ⟨h1, h2, h3, ?_⟩
        have : ¬ (after c h).activeOn.contains v.id = true := fun h => h3 (hb.mp h).2
        simp only [if_neg this]
    · rw [if_neg (fun h => h2 (ht.mp h))]
      by_cases h3 : OnTask c.task h v.id
      · refine Or.inr (Or.inl ⟨h1, h2, h3, ?_⟩)
        rw [if_pos (hb.mpr ⟨h1, h3⟩)]
      · refine Or.inr (Or.inr ⟨fun h => h2 (h.2.mpr h3), ?_⟩)
        rw [if_neg (fun h => h3 (hb.mp h).2)]
  · rw [if_neg (fun h => h1 (ha.mp h))]
    exact Or.inr (Or.inr ⟨fun h => h1 h.1, rfl⟩)

/-- A vehicle that is on the task was reported as active when it began, and since then neither was its completion, nor was
it given another mission. -/
theorem began {c : Config} {h : List In} (hf : Fine c h) {w : Int} (ha : Assigned c.task h w) (ho : OnTask c.task h w) :
    ∃ h₁ v h₂, h = h₁ ++ .state v :: h₂ ∧ v.id = w ∧ sends c h₁ (.state v) = [.active w] ∧
      (∀ g j k, h₂ = g ++ j :: k → ¬ Commands (h₁ ++ .state v :: g) j w) ∧
      ∀ g u k, h₂ = g ++ .state u :: k → u.id = w → sends c (h₁ ++ .state v :: g) (.state u) = [] := by
  induction h using snocRec with
  | nil =>
    obtain ⟨h₁, v, h₂, e, _⟩ := ho
    cases h₁ <;> cases e
  | append_singleton h i ih =>
    have hf' : Fine c h := hf.prefix
    have keep : Assigned c.task h w → OnTask c.task h w → ¬ Commands h i w →
        (∀ u, i = .state u → u.id = w → sends c h i = []) →
        ∃ h₁ v h₂, h ++ [i] = h₁ ++ .state v :: h₂ ∧ v.id = w ∧ sends c h₁ (.state v) = [.active w] ∧
          (∀ g j k, h₂ = g ++ j :: k → ¬ Commands (h₁ ++ .state v :: g) j w) ∧
          ∀ g u k, h₂ = g ++ .state u :: k → u.id = w → sends c (h₁ ++ .state v :: g) (.state u) = [] := by
      intro ha' ho' hc hs
      obtain ⟨h₁, v, h₂, rfl, hv, hsd, hq, hz⟩ := ih hf' ha' ho'
      refine ⟨h₁, v, h₂ ++ [i], by simp, hv, hsd, ?_, ?_⟩
      · intro g j k e
        rcases snoc_split e with ⟨_, rfl, rfl⟩ | ⟨k', _, e'⟩
        · exact hc
        · exact hq g j k' e'
      · intro g u k e hu
        rcases snoc_split e with ⟨_, rfl, rfl⟩ | ⟨k', _, e'⟩
        · exact hs u rfl hu
        · exact hz g u k' e' hu
    rcases (OnTask.snoc_iff i).mp ho with ⟨v, rfl, rfl, ht⟩ | ⟨hns, hnc, ho'⟩
    · have hcm : ¬ Commands h (.state v) v.id := by
        rintro ⟨id, ms, r, e, _⟩; cases e
      have ha' : Assigned c.task h v.id := by
        rcases (Assigned.snoc_iff _).mp ha with ⟨hc, _⟩ | ⟨_, h⟩
        · exact absurd hc hcm
        · exact h
      rcases sends_state hf' v with ⟨_, _, _, hs⟩ | ⟨_, hnt, _⟩ | ⟨hn, hs⟩
      · refine ⟨h, v, [], rfl, rfl, hs, ?_, ?_⟩
        · intro g j k e; cases g <;> cases e
        · intro g j k e; cases g <;> cases e
      · exact absurd ht hnt
      · have ho' : OnTask c.task h v.id := by
          by_cases h : OnTask c.task h v.id
          · exact h
          · exact absurd ⟨ha', ⟨fun _ => h, fun _ => ht⟩⟩ hn
        exact keep ha' ho' hcm (fun _ _ _ => hs)
    · have ha' : Assigned c.task h w := by
        rcases (Assigned.snoc_iff _).mp ha with ⟨hc, _⟩ | ⟨_, h⟩
        · exact absurd hc hnc
        · exact h
      exact keep ha' ho' hnc (fun u e hu => absurd hu (hns u e))

/-- A vehicle that began the task and was given no other mission is on it, or its completion was reported. -/
theorem ended {c : Config} {h : List In} {v : VState} (ha : Assigned c.task h v.id) (ht : c.task ∈ v.tasks)
    (g : List In) (hf : Fine c (h ++ .state v :: g))
    (hq : ∀ a j k, g = a ++ j :: k → ¬ Commands (h ++ .state v :: a) j v.id) :
    (Assigned c.task (h ++ .state v :: g) v.id ∧ OnTask c.task (h ++ .state v :: g) v.id) ∨
    ∃ a u k l, g = a ++ .state u :: k ∧ u.id = v.id ∧ sends c (h ++ .state v :: a) (.state u) = [.complete l] := by
  induction g using snocRec with
  | nil =>
    have hc : ¬ Commands h (.state v) v.id := by
      rintro ⟨id, ms, r, e, _⟩; cases e
    exact Or.inl ⟨(Assigned.snoc_iff _).mpr (Or.inr ⟨hc, ha⟩), (OnTask.snoc_iff _).mpr (Or.inl ⟨v, rfl, rfl, ht⟩)⟩
  | append_singleton g i ih =>
    have e : h ++ .state v :: (g ++ [i]) = (h ++ .state v :: g) ++ [i] := by simp
    rw [e] at hf ⊢
    have hf' := hf.prefix
    have hc : ¬ Commands (h ++ .state v :: g) i v.id := hq g i [] rfl
    have hold := ih hf' (fun a j k e => hq a j (k ++ [i]) (by rw [e]; simp))
    rcases hold with ⟨ha', ho'⟩ | ⟨a, u, k, l, e, hu, hs⟩
    · by_cases hi : ∃ u, i = .state u ∧ u.id = v.id ∧ c.task ∉ u.tasks
      · obtain ⟨u, rfl, hu, hn⟩ := hi
        rw [← hu] at ha' ho'
        rcases sends_state hf' u with ⟨_, ht', _⟩ | ⟨_, _, _, hs⟩ | ⟨hn', _⟩
        · exact absurd ht' hn
        · exact Or.inr ⟨g, u, [], _, rfl, hu, hs⟩
        · exact absurd ⟨ha', ⟨fun h => absurd h hn, fun h => absurd ho' h⟩⟩ hn'
      · refine Or.inl ⟨(Assigned.snoc_iff _).mpr (Or.inr ⟨hc, ha'⟩), (OnTask.snoc_iff _).mpr ?_⟩
        by_cases hi2 : ∃ u, i = .state u ∧ u.id = v.id
        · obtain ⟨u, rfl, hu⟩ := hi2
          refine Or.inl ⟨u, rfl, hu, ?_⟩
          by_cases h : c.task ∈ u.tasks
          · exact h
          · exact absurd ⟨u, rfl, hu, h⟩ hi
        · exact Or.inr ⟨fun u e hu => hi2 ⟨u, e, hu⟩, hc, ho'⟩
    · exact Or.inr ⟨a, u, k ++ [i], l, by rw [e]; simp, hu, hs⟩

end Verif.Task
