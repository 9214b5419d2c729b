import Verif.PlanBuilder.Strong

/-! Consequences of the invariants, and a check for tasks answering in turn. -/

namespace Verif.PlanBuilder

open Verif

/-! ### Courses -/

theorem map_modifyLast {α β : Type} (f : α → α) (g : α → β) (h : ∀ a, g (f a) = g a) : ∀ l : List α,
    (modifyLast f l).map g = l.map g
  | [] => rfl
  | [a] => by simp [modifyLast, h]
  | a :: b :: l => by
    have := map_modifyLast f g h (b :: l)
    simp only [modifyLast, List.map_cons] at this ⊢
    rw [this]

theorem turned_course (c : Config) (ms : List Mission) : (turned c ms).map Mission.course = ms.map Mission.course := by
  simp only [turned]
  split
  · rfl
  · simp [Mission.course, Function.comp_def, Wp.leg]

theorem addLoiters_course {s : St} {ms ms' : List Mission} (h : s.addLoiters ms = some ms') :
    ms'.map Mission.course = ms.map Mission.course := by
  simp only [St.addLoiters] at h
  split at h
  · simp only [Option.some.injEq] at h; rw [h]
  · split at h
    · simp at h
    · split at h
      · split at h
        · simp only [Option.some.injEq] at h; rw [h]
        · simp only [Option.some.injEq] at h
          subst h
          refine map_modifyLast _ _ (fun m => ?_) _
          simp only [Mission.course, Course.mk.injEq, true_and]
          exact map_modifyLast _ Wp.leg (fun w => by rfl) _
      · simp only [Option.some.injEq] at h; rw [h]

theorem Finished.course {c : Config} {h : List In} {ms : List Mission} {p : Plan} (hf : Finished c h ms p) :
    p.missions.map Mission.course = ms.map Mission.course := by
  obtain ⟨s, ms', _, _, h1, h2⟩ := hf
  rw [h2, turned_course]
  split at h1
  · exact addLoiters_course h1
  · simp only [Option.some.injEq] at h1; rw [h1]

theorem Finished.plain {c : Config} {h : List In} {ms : List Mission} {p : Plan} (hf : Finished c h ms p)
    (hl : c.loiter = false) (ht : c.turn = none) : p.missions = ms := by
  obtain ⟨s, ms', _, _, h1, h2⟩ := hf
  rw [hl] at h1
  simp only [Bool.false_eq_true, if_false, Option.some.injEq] at h1
  rw [h2, turned, ht, h1]

/-! ### Undefined behaviour -/

theorem step_no_ub {s : St} (hl : s.cfg.loiter = false) (hu : s.ub = false) (i : In) : (step s i).1.ub = false := by
  have hsend : ∀ (s : St) q, (s.sendNext q).1.ub = s.ub := fun s q => by
    rcases sendNext_cases s q with e | ⟨_, _, _, _, _, _, _, e⟩ <;> rw [e]
  have hst : ∀ x : St × List Out, (if s.ub = true then (s, []) else x) = x := fun x => if_neg (by rw [hu]; simp)
  cases i with
  | state v => rw [step, hst]; exact hu
  | overrides k os => rw [step, hst]; dsimp only; split <;> exact hu
  | impactResponse k => rw [step, hst]; exact hu
  | request r => rw [step, hst]; exact hu
  | summary m =>
    rw [step, hst]
    rcases summary_cases s m with ⟨e, he⟩ | ⟨r, _, _, _, he⟩ <;> rw [he]
    · exact hu
    · rw [hsend]; exact hu
  | response r =>
    rw [step, hst]
    rcases response_cases s r with ⟨e, _⟩ | ⟨k, ms, h1, h2, e⟩ <;> rw [e]
    · exact hu
    · obtain ⟨_, _, _, _, _, _, e2, _, e4, _⟩ := taken_get s k r ms h2
      rcases checkNext_cases (s.taken k r ms) k (s.absorbed r ms) with ⟨e, _⟩ | ⟨e, _⟩ | ⟨_, _, h, _⟩ | ⟨ms', _, hm, e⟩
      · rw [e]; exact e4.trans hu
      · rw [e]; exact (hsend _ _).trans (e4.trans hu)
      · rw [e2, hl] at h; simp at h
      · rw [e]; exact e4.trans hu

theorem no_ub {c : Config} (hl : c.loiter = false) (h : List In) : (after c h).ub = false := by
  induction h using snocRec with
  | nil => rfl
  | append_singleton h i ih =>
    rw [after, runM_snoc]
    exact step_no_ub (by rw [(seen c h).cfg]; exact hl) ih i

/-! ### Projected states -/

theorem lastState_id {v : Int} {h : List In} {x : VState} (e : lastState v h = some x) : x.id = v := by
  have := List.mem_of_getLast? e
  simp only [List.mem_filterMap] at this
  obtain ⟨i, _, hi⟩ := this
  cases i with
  | state y =>
    simp only at hi
    split at hi
    · simp only [Option.some.injEq] at hi; subst hi; assumption
    · simp at hi
  | _ => simp at hi

theorem initial_planning (s : St) (r : Request) (x : VState) : (s.initial r x).planning = startOf s.cfg r x := by
  simp only [St.initial, startOf]
  have : (r.planning.filter (·.vehicle = x.id)).head? = r.planning.find? (·.vehicle == x.id) := by
    induction r.planning with
    | nil => rfl
    | cons p l ih =>
      rw [List.filter_cons, List.find?_cons]
      by_cases h : p.vehicle = x.id
      · simp [h]
      · simp only [decide_eq_false h, Bool.false_eq_true, if_false, beq_eq_false_iff_ne.mpr h, ih]
  rw [this]
  cases r.planning.find? (·.vehicle == x.id) <;> rfl

theorem startOf_vehicle (c : Config) (r : Request) (x : VState) : (startOf c r x).vehicle = x.id := by
  simp only [startOf]
  cases h : (r.planning.filter (·.vehicle = x.id)).head? with
  | none => rfl
  | some p =>
    have := List.mem_of_head? h
    simp only [List.mem_filter, decide_eq_true_eq] at this
    exact this.2

/-- The projected state of a vehicle at the beginning. -/
theorem initOf_find {c : Config} {A : List In} (hu : (after c A).ub = false) {r : Request} {v : Int} {p : Proj}
    (h : (initOf c A r).find? (·.planning.vehicle == v) = some p) :
    ∃ x, lastState v A = some x ∧ p = { planning := startOf c r x, last := 0, time := x.time } := by
  have hm := List.mem_of_find?_eq_some h
  have hv := List.find?_some h
  simp only [initOf, List.mem_map, List.mem_filterMap] at hm
  obtain ⟨x, ⟨k, _, hk⟩, rfl⟩ := hm
  rw [(seen c A).states hu] at hk
  have hx := lastState_id hk
  simp only [initial_planning, startOf_vehicle, beq_iff_eq] at hv
  rw [← hv, hx]
  refine ⟨x, hk, ?_⟩
  have : startOf c r x = ((after c A).initial r x).planning := by rw [initial_planning, (seen c A).cfg]
  rw [this]
  rfl

theorem initOf_vehicles {c : Config} {A : List In} (hu : (after c A).ub = false) {r : Request}
    (hv : ∀ v ∈ r.vehicles, (lastState v A).isSome = true) (hne : r.vehicles ≠ []) :
    (initOf c A r).map (·.planning) = r.vehicles.filterMap (fun v => (lastState v A).map (startOf c r)) ∧
    (initOf c A r).map (·.planning.vehicle) = r.vehicles := by
  have e : initOf c A r = (r.vehicles.filterMap (fun v => lastState v A)).map ((after c A).initial r) := by
    rw [initOf, St.participants, if_neg hne]
    congr 1
    congr 1
    funext v
    exact (seen c A).states hu v
  have e2 : ∀ x, ((after c A).initial r x).planning = startOf c r x := by
    intro x; rw [initial_planning, (seen c A).cfg]
  rw [e]
  constructor
  · simp only [List.map_map, Function.comp_def, e2]
    rw [List.map_filterMap]
  · simp only [List.map_map, Function.comp_def, e2, startOf_vehicle]
    clear e hne
    generalize r.vehicles = l at hv
    induction l with
    | nil => rfl
    | cons v l ih =>
      have h1 := hv v (by simp)
      cases hx : lastState v A with
      | none => rw [hx] at h1; simp at h1
      | some x =>
        rw [List.filterMap_cons, hx]
        simp only [List.map_cons]
        rw [ih (fun w hw => hv w (List.mem_cons_of_mem _ hw)), lastState_id hx]

/-- A projected state after the answers. -/
def movedBy (rs : List Response) (p : Proj) : Proj :=
  match lastFor p.planning.vehicle rs with
  | none => p
  | some a => { planning := { p.planning with place := a.place, heading := a.heading }
                last := ((a.wps.map (·.number)).getLast?).getD 0
                time := a.time }

theorem movedBy_vehicle (rs : List Response) (p : Proj) : (movedBy rs p).planning.vehicle = p.planning.vehicle := by
  simp only [movedBy]; split <;> rfl

theorem lastFor_snoc (v : Int) (rs : List Response) (r : Response) :
    lastFor v (rs ++ [r]) = if r.vehicle = v ∧ r.wps ≠ [] then some r else lastFor v rs := by
  rw [lastFor, givenFor_append]
  by_cases h : r.vehicle = v ∧ r.wps ≠ []
  · rw [if_pos h, if_pos h]; simp
  · rw [if_neg h, if_neg h, List.append_nil]; rfl

theorem movedBy_snoc_other {rs : List Response} {r : Response} {p : Proj}
    (h : ¬ (r.vehicle = p.planning.vehicle ∧ r.wps ≠ [])) : movedBy (rs ++ [r]) p = movedBy rs p := by
  rw [movedBy, lastFor_snoc, if_neg h]; rfl

theorem find_project (r : Response) (v : Int) : ∀ ps : List Proj,
    (project r ps).find? (·.planning.vehicle == v) =
      (ps.find? (·.planning.vehicle == v)).map fun p =>
        if p.planning.vehicle = r.vehicle then
          { planning := { p.planning with place := r.place, heading := r.heading }
            last := ((r.wps.map (·.number)).getLast?).getD 0
            time := r.time }
        else p
  | [] => rfl
  | p :: ps => by
    rw [project]
    by_cases h : p.planning.vehicle = r.vehicle
    · rw [if_pos h]
      by_cases hv : p.planning.vehicle = v
      · simp [hv, ← h]
      · simp only [List.find?_cons, beq_eq_false_iff_ne.mpr hv]
        cases hf : ps.find? (·.planning.vehicle == v) with
        | none => rfl
        | some p' =>
          have : p'.planning.vehicle = v := by have := List.find?_some hf; simpa using this
          simp only [Option.map_some]
          rw [if_neg]
          rw [this, ← h]
          exact fun e => hv e.symm
    · rw [if_neg h]
      by_cases hv : p.planning.vehicle = v
      · simp [hv, hv ▸ h]
      · simp only [List.find?_cons, beq_eq_false_iff_ne.mpr hv]
        exact find_project r v ps

theorem projAfter_find (init : List Proj) (rs : List Response) (v : Int) :
    (projAfter init rs).find? (·.planning.vehicle == v) =
      (init.find? (·.planning.vehicle == v)).map (movedBy rs) := by
  induction rs using snocRec with
  | nil =>
    rw [show movedBy [] = (fun p => p) from by funext p; rfl]
    simp [projAfter]
  | append_singleton rs r ih =>
    rw [projAfter_snoc, absorb]
    by_cases hw : r.wps = []
    · rw [if_pos hw, ih]
      congr 1
      funext p
      exact (movedBy_snoc_other (fun h => h.2 hw)).symm
    · rw [if_neg hw, find_project, ih, Option.map_map]
      congr 1
      funext p
      simp only [Function.comp, movedBy_vehicle]
      by_cases hv : p.planning.vehicle = r.vehicle
      · rw [if_pos hv]
        conv => rhs; rw [movedBy, lastFor_snoc, if_pos ⟨hv.symm, hw⟩]
      · rw [if_neg hv, movedBy_snoc_other (fun h => hv h.1.symm)]

theorem project_map {r : Response} : ∀ {ps : List Proj}, (ps.map (·.planning.vehicle)).Nodup →
    project r ps = ps.map fun p =>
        if p.planning.vehicle = r.vehicle then
          { planning := { p.planning with place := r.place, heading := r.heading }
            last := ((r.wps.map (·.number)).getLast?).getD 0
            time := r.time }
        else p
  | [], _ => rfl
  | p :: ps, hn => by
    simp only [List.map_cons, List.nodup_cons] at hn
    rw [project, List.map_cons]
    by_cases h : p.planning.vehicle = r.vehicle
    · rw [if_pos h, if_pos h]
      congr 1
      have : ∀ p' ∈ ps, ¬ p'.planning.vehicle = r.vehicle := fun p' hp' e =>
        hn.1 (by rw [h, ← e]; exact List.mem_map_of_mem (f := fun p : Proj => p.planning.vehicle) hp')
      conv => lhs; rw [← List.map_id ps]
      exact List.map_congr_left fun p' hp' => by rw [if_neg (this p' hp')]; rfl
    · rw [if_neg h, if_neg h, project_map hn.2]

theorem projAfter_map {init : List Proj} (hn : (init.map (·.planning.vehicle)).Nodup) (rs : List Response) :
    projAfter init rs = init.map (movedBy rs) := by
  induction rs using snocRec with
  | nil =>
    rw [show movedBy [] = (fun p => p) from by funext p; rfl]
    simp [projAfter]
  | append_singleton rs r ih =>
    rw [projAfter_snoc, absorb]
    by_cases hw : r.wps = []
    · rw [if_pos hw, ih]
      congr 1
      funext p
      exact (movedBy_snoc_other (fun h => h.2 hw)).symm
    · rw [if_neg hw, project_map (by rw [projAfter_vehicles]; exact hn), ih, List.map_map]
      congr 1
      funext p
      simp only [Function.comp, movedBy_vehicle]
      by_cases hv : p.planning.vehicle = r.vehicle
      · rw [if_pos hv]
        conv => rhs; rw [movedBy, lastFor_snoc, if_pos ⟨hv.symm, hw⟩]
      · rw [if_neg hv, movedBy_snoc_other (fun h => hv h.1.symm)]

/-! ### A check for answers in turn -/

/-- `Prompt`, to be computed; `seen` are the responses heard so far. -/
def promptB (q : Int) : List Out → List Int → List Ev → Bool
  | _, _, [] => true
  | b, seen, (.response r, o) :: es =>
    if r.id ∈ (asksOf q b).map (·.id) then
      (((asksOf q b).map (·.id)).getLast? == some r.id) && !(seen.contains r.id) && promptB q (b ++ o) (seen ++ [r.id]) es
    else promptB q (b ++ o) seen es
  | b, seen, (_, o) :: es => promptB q (b ++ o) seen es

theorem promptB_sound (q : Int) : ∀ (es : List Ev) (b : List Out) (seen : List Int), promptB q b seen es = true →
    ∀ P r o S, es = P ++ (.response r, o) :: S → r.id ∈ (asksOf q (b ++ sent P)).map (·.id) →
      ((asksOf q (b ++ sent P)).map (·.id)).getLast? = some r.id ∧ r.id ∉ seen ++ (heard q b P).map (·.id)
  | [], _, _, _, P, _, _, _, e, _ => by simp at e
  | (i, o) :: es, b, seen, h, P, r, o', S, e, hr => by
    cases P with
    | nil =>
      simp only [List.nil_append, List.cons.injEq, Prod.mk.injEq] at e
      obtain ⟨⟨rfl, rfl⟩, rfl⟩ := e
      simp only [sent_nil, List.append_nil] at hr ⊢
      rw [promptB, if_pos hr] at h
      simp only [Bool.and_eq_true, beq_iff_eq, Bool.not_eq_true', List.contains_eq_mem, decide_eq_false_iff_not] at h
      exact ⟨h.1.1, by simpa [heard] using h.1.2⟩
    | cons p P =>
      simp only [List.cons_append, List.cons.injEq] at e
      obtain ⟨rfl, e⟩ := e
      have hs : b ++ sent ((i, o) :: P) = (b ++ o) ++ sent P := by simp [sent]
      rw [hs] at hr ⊢
      simp only [heard, List.map_append]
      cases i with
      | response x =>
        rw [promptB] at h
        by_cases hx : x.id ∈ (asksOf q b).map (·.id)
        · rw [if_pos hx] at h
          simp only [Bool.and_eq_true] at h
          have := promptB_sound q es (b ++ o) (seen ++ [x.id]) h.2 P r o' S e hr
          simp only [responseTo, if_pos hx, List.map_cons, List.map_nil]
          exact ⟨this.1, by simpa using this.2⟩
        · rw [if_neg hx] at h
          have := promptB_sound q es (b ++ o) seen h P r o' S e hr
          simp only [responseTo, if_neg hx, List.map_nil, List.nil_append]
          exact this
      | _ =>
        have := promptB_sound q es (b ++ o) seen h P r o' S e hr
        simpa [responseTo] using this

theorem inTurn_of {c : Config} {A : List In} {m : Summary} {B : List In}
    (h : promptB m.req (sentIn c A) [] (during c A m B) = true) : InTurn c A m B := by
  intro P r o S e hr
  have := promptB_sound m.req _ _ _ h P r o S e hr
  exact ⟨this.1, by simpa using this.2⟩

end Verif.PlanBuilder
