import Verif.Routes.Spec

/-! The routes asked for: C25. -/

namespace Verif.Routes

open Verif

/-- What a route is for, without its id. -/
def MRoute.content (m : MRoute) : Point × Point × Pair := (m.route.start, m.route.stop, m.pair)

theorem number_content : ∀ (ls : List (Point × Point × Pair)) (n : Int), (number n ls).map MRoute.content = ls
  | [], _ => rfl
  | l :: ls, n => by simp [number, number_content ls, MRoute.content]

theorem number_length (ls : List (Point × Point × Pair)) (n : Int) : (number n ls).length = ls.length := by
  have := congrArg List.length (number_content ls n)
  simpa using this

theorem number_ids : ∀ (ls : List (Point × Point × Pair)) (n : Int),
    ((number n ls).map (·.route.id)).Nodup ∧ ∀ id ∈ (number n ls).map (·.route.id), n ≤ id ∧ id < n + ls.length
  | [], _ => by simp [number]
  | l :: ls, n => by
    obtain ⟨h1, h2⟩ := number_ids ls (n + 1)
    simp only [number, List.map_cons, List.nodup_cons, List.mem_cons, List.length_cons]
    refine ⟨⟨fun hh => ?_, h1⟩, ?_⟩
    · have := h2 _ hh; omega
    · rintro id (rfl | hid)
      · omega
      · have := h2 _ hid; omega

theorem vehicleReqs_ids (s : St) (r : AutoReq) : ∀ (vs : List Int) (n : Int),
    ((routesOf (vehicleReqs s r vs n)).map (·.route.id)).Nodup ∧
    ∀ id ∈ (routesOf (vehicleReqs s r vs n)).map (·.route.id),
      n ≤ id ∧ id < n + (routesOf (vehicleReqs s r vs n)).length
  | [], n => by simp [vehicleReqs, routesOf]
  | v :: vs, n => by
    simp only [vehicleReqs]
    split
    · next p _ =>
      obtain ⟨h1, h2⟩ := number_ids (legs v p (eligible s.options r.tasks v)) n
      obtain ⟨h3, h4⟩ := vehicleReqs_ids s r vs (n + (legs v p (eligible s.options r.tasks v)).length)
      generalize hr : vehicleReqs s r vs (n + (legs v p (eligible s.options r.tasks v)).length) = rest at *
      generalize legs v p (eligible s.options r.tasks v) = ls at *
      have e : routesOf ({ vehicle := v, ground := s.ground.contains v, routes := number n ls } :: rest) =
          number n ls ++ routesOf rest := by simp [routesOf]
      rw [e, List.map_append, List.length_append, number_length]
      refine ⟨List.nodup_append.mpr ⟨h1, h3, ?_⟩, ?_⟩
      · intro a ha b hb hab
        have := h2 a ha
        have := h4 b hb
        omega
      · intro id hid
        rw [List.mem_append] at hid
        rcases hid with hid | hid
        · have := h2 id hid; omega
        · have := h4 id hid; omega
    · exact vehicleReqs_ids s r vs n

theorem vehicleReqs_mem (s : St) (r : AutoReq) : ∀ (vs : List Int) (n : Int) (q : VReq), q ∈ vehicleReqs s r vs n →
    ∃ p m, startOf s r q.vehicle = some p ∧ q.ground = s.ground.contains q.vehicle ∧
      q.routes = number m (legs q.vehicle p (eligible s.options r.tasks q.vehicle))
  | [], _, _, h => by simp [vehicleReqs] at h
  | v :: vs, n, q, h => by
    simp only [vehicleReqs] at h
    split at h
    · next p hp =>
      simp only [List.mem_cons] at h
      rcases h with rfl | h
      · exact ⟨p, n, hp, rfl, rfl⟩
      · exact vehicleReqs_mem s r vs _ q h
    · exact vehicleReqs_mem s r vs _ q h

theorem vehicleReqs_vehicles (s : St) (r : AutoReq) : ∀ (vs : List Int) (n : Int),
    (vehicleReqs s r vs n).map (·.vehicle) = vs.filter fun v => (startOf s r v).isSome
  | [], _ => rfl
  | v :: vs, n => by
    simp only [vehicleReqs, List.filter_cons]
    split
    · next p hp => simp [hp, vehicleReqs_vehicles s r vs]
    · next hp => simp [hp, vehicleReqs_vehicles s r vs]

theorem mem_eligible {options : Map (List Opt)} {r : AutoReq} {v : Int} {o : Opt} :
    o ∈ eligible options r.tasks v ↔ Usable (fun t os => options.get t = some os) r v o := by
  simp only [eligible, List.mem_flatMap, List.mem_filter, Usable, Bool.or_eq_true, List.isEmpty_iff,
    List.contains_eq_mem, decide_eq_true_eq]
  constructor
  · rintro ⟨t, ht, ho, he⟩
    cases hg : options.get t with
    | none => rw [hg] at ho; simp at ho
    | some os => rw [hg] at ho; exact ⟨t, ht, os, hg, by simpa using ho, he⟩
  · rintro ⟨t, ht, os, hg, ho, he⟩
    exact ⟨t, ht, by simpa [hg] using ho, he⟩

/-- The name of an option. -/
def Opt.name (o : Opt) : Int × Int := (o.task, o.option)

theorem names_nodup {options : Map (List Opt)} {r : AutoReq} (hw : WellNamed (fun t os => options.get t = some os) r) (v : Int) :
    ((eligible options r.tasks v).map Opt.name).Nodup := by
  rw [List.nodup_iff_pairwise_ne, List.pairwise_map, eligible, List.pairwise_flatMap]
  refine ⟨?_, ?_⟩
  · intro t ht
    cases hg : options.get t with
    | none => simp
    | some os =>
      have := hw.option t ht os hg
      rw [List.nodup_iff_pairwise_ne, List.pairwise_map] at this
      refine (this.filter _).imp ?_
      intro a b hab hh
      exact hab (congrArg Prod.snd hh)
  · refine List.Pairwise.imp_of_mem ?_ (List.nodup_iff_pairwise_ne.mp hw.tasks)
    intro t t' ht ht' hne a ha b hb hh
    have key : ∀ t ∈ r.tasks, ∀ a, a ∈ ((options.get t).getD []).filter (fun o => o.eligible.isEmpty || o.eligible.contains v) →
        a.task = t := by
      intro t ht a ha
      rw [List.mem_filter] at ha
      cases hg : options.get t with
      | none => rw [hg] at ha; simp at ha
      | some os => rw [hg] at ha; exact hw.task t ht os hg a (by simpa using ha.1)
    have e1 := key t ht a ha
    have e2 := key t' ht' b hb
    have e3 := congrArg Prod.fst hh
    simp only [Opt.name] at e3
    exact hne (by rw [← e1, ← e2, e3])

theorem zipIdx_pairwise {os : List Opt} (h : (os.map Opt.name).Nodup) (n : Nat) :
    (os.zipIdx n).Pairwise fun a b => a.1.name ≠ b.1.name ∧ a.2 ≠ b.2 := by
  induction os generalizing n with
  | nil => simp
  | cons o os ih =>
    simp only [List.map_cons, List.nodup_cons] at h
    rw [List.zipIdx_cons, List.pairwise_cons]
    refine ⟨?_, ih h.2 (n + 1)⟩
    rintro ⟨b, j⟩ hb
    have := List.mem_zipIdx hb
    refine ⟨fun hh => h.1 ?_, by simp only; omega⟩
    simp only at hh
    rw [hh, this.2.2]
    exact List.mem_map_of_mem (List.getElem_mem _)

theorem zipIdx_name_iff {os : List Opt} (h : (os.map Opt.name).Nodup) {a b : Opt × Nat} (ha : a ∈ os.zipIdx)
    (hb : b ∈ os.zipIdx) : a.2 ≠ b.2 ↔ a.1.name ≠ b.1.name := by
  have hp := zipIdx_pairwise h 0
  have key : ∀ l : List (Opt × Nat), (l.Pairwise fun a b => a.1.name ≠ b.1.name ∧ a.2 ≠ b.2) → a ∈ l → b ∈ l →
      (a = b ∨ (a.1.name ≠ b.1.name ∧ a.2 ≠ b.2)) := by
    intro l hl ha hb
    induction l with
    | nil => simp at ha
    | cons x l ih =>
      rw [List.pairwise_cons] at hl
      simp only [List.mem_cons] at ha hb
      rcases ha with rfl | ha <;> rcases hb with rfl | hb
      · exact .inl rfl
      · exact .inr (hl.1 b hb)
      · have := hl.1 a ha
        exact .inr ⟨fun hh => this.1 hh.symm, fun hh => this.2 hh.symm⟩
      · exact ih hl.2 ha hb
  rcases key _ hp ha hb with rfl | ⟨h1, h2⟩
  · simp
  · exact ⟨fun _ => h1, fun _ => h2⟩

theorem mem_legs {v : Int} {p : Point} {os : List Opt} (h : (os.map Opt.name).Nodup) (x : Point × Point × Pair) :
    x ∈ legs v p os ↔ (∃ o ∈ os, x = (p, o.start, ⟨v, 0, 0, o.task, o.option⟩)) ∨
      ∃ a ∈ os, ∃ b ∈ os, a ≠ b ∧ x = (a.stop, b.start, ⟨v, a.task, a.option, b.task, b.option⟩) := by
  have hz : ∀ o, o ∈ os ↔ ∃ n, (o, n) ∈ os.zipIdx := by
    intro o
    constructor
    · intro ho
      have : o ∈ os.zipIdx.map Prod.fst := by rw [List.zipIdx_map_fst]; exact ho
      obtain ⟨⟨o', n⟩, h1, rfl⟩ := List.mem_map.mp this
      exact ⟨n, h1⟩
    · rintro ⟨n, hn⟩
      have : o ∈ os.zipIdx.map Prod.fst := List.mem_map_of_mem (f := Prod.fst) hn
      rwa [List.zipIdx_map_fst] at this
  simp only [legs, List.mem_append, List.mem_map, List.mem_flatMap, List.mem_filter, bne_iff_ne]
  constructor
  · rintro (⟨o, ho, rfl⟩ | ⟨⟨a, i⟩, ha, ⟨b, j⟩, ⟨hb, hij⟩, rfl⟩)
    · exact .inl ⟨o, ho, rfl⟩
    · refine .inr ⟨a, (hz a).mpr ⟨i, ha⟩, b, (hz b).mpr ⟨j, hb⟩, ?_, rfl⟩
      rintro rfl
      exact (zipIdx_name_iff h ha hb).mp hij rfl
  · rintro (⟨o, ho, rfl⟩ | ⟨a, ha, b, hb, hab, rfl⟩)
    · exact .inl ⟨o, ho, rfl⟩
    · obtain ⟨i, hi⟩ := (hz a).mp ha
      obtain ⟨j, hj⟩ := (hz b).mp hb
      refine .inr ⟨(a, i), hi, (b, j), ⟨hj, ?_⟩, rfl⟩
      rw [zipIdx_name_iff h hi hj]
      intro hh
      -- equal names, so equal options
      have key : ∀ l : List Opt, (l.map Opt.name).Nodup → a ∈ l → b ∈ l → a.name = b.name → a = b := by
        intro l hl h1 h2 h3
        induction l with
        | nil => simp at h1
        | cons x l ih =>
          simp only [List.map_cons, List.nodup_cons] at hl
          simp only [List.mem_cons] at h1 h2
          rcases h1 with rfl | h1 <;> rcases h2 with rfl | h2
          · rfl
          · exact absurd (h3 ▸ List.mem_map_of_mem (f := Opt.name) h2) hl.1
          · exact absurd (h3.symm ▸ List.mem_map_of_mem (f := Opt.name) h1) hl.1
          · exact ih hl.2 h1 h2
      exact hab (key os h ha hb hh)

theorem legs_nodup {v : Int} {p : Point} {os : List Opt} (h : (os.map Opt.name).Nodup)
    (h0 : ∀ o ∈ os, o.task ≠ 0) : (legs v p os).Nodup := by
  rw [List.nodup_iff_pairwise_ne, legs, List.pairwise_append]
  refine ⟨?_, ?_, ?_⟩
  · rw [List.pairwise_map]
    rw [List.nodup_iff_pairwise_ne, List.pairwise_map] at h
    refine h.imp fun hab hh => hab ?_
    simp only [Prod.mk.injEq, Pair.mk.injEq] at hh
    simp [Opt.name, hh]
  · rw [List.pairwise_flatMap]
    refine ⟨?_, ?_⟩
    · intro a ha
      rw [List.pairwise_map]
      refine ((zipIdx_pairwise h 0).filter _).imp fun hab hh => hab.1 ?_
      simp only [Prod.mk.injEq, Pair.mk.injEq] at hh
      simp [Opt.name, hh]
    · refine (zipIdx_pairwise h 0).imp fun hab x hx y hy hh => hab.1 ?_
      obtain ⟨b, _, rfl⟩ := List.mem_map.mp hx
      obtain ⟨c, _, rfl⟩ := List.mem_map.mp hy
      simp only [Prod.mk.injEq, Pair.mk.injEq] at hh
      simp [Opt.name, hh]
  · intro x hx y hy hh
    obtain ⟨o, ho, rfl⟩ := List.mem_map.mp hx
    obtain ⟨a, ha, hy⟩ := List.mem_flatMap.mp hy
    obtain ⟨b, _, rfl⟩ := List.mem_map.mp hy
    simp only [Prod.mk.injEq, Pair.mk.injEq] at hh
    have : a.1 ∈ os := by
      have : a.1 ∈ os.zipIdx.map Prod.fst := List.mem_map_of_mem (f := Prod.fst) ha
      rwa [List.zipIdx_map_fst] at this
    exact h0 a.1 this hh.2.2.2.1.symm

theorem timesAsked_eq (rs : List MRoute) (a b : Point) (p : Pair) :
    timesAsked rs a b p = (rs.map MRoute.content).count (a, b, p) := by
  rw [timesAsked, ← List.countP_eq_length_filter, List.count, List.countP_map]
  congr 1
  funext m
  rw [Bool.eq_iff_iff]
  simp [MRoute.content]

/-- The plan requests, for any state. -/
theorem build_complete (s : St) (k : Int) (r : AutoReq) (hw : WellNamed (fun t os => s.options.get t = some os) r) :
    ∃ reqs, (s.build k r).2 = .ask k reqs ∧
      reqs.map (·.vehicle) = ((if r.vehicles = [] then s.states.map (·.1) else r.vehicles).filter fun v =>
        (startOf s r v).isSome) ∧
      ((routesOf reqs).map (·.route.id)).Nodup ∧
      (∀ m ∈ routesOf reqs, s.routeId ≤ m.route.id ∧ m.route.id < (s.build k r).1.routeId) ∧
      ∀ q ∈ reqs, ∃ p, startOf s r q.vehicle = some p ∧
        Complete (fun t os => s.options.get t = some os) r q.vehicle p q.routes := by
  generalize hr' : (if r.vehicles.isEmpty then { r with vehicles := s.states.map (·.1) } else r) = r'
  have et : r'.tasks = r.tasks := by rw [← hr']; split <;> rfl
  have ep : r'.planning = r.planning := by rw [← hr']; split <;> rfl
  have es : ∀ v, startOf s r' v = startOf s r v := by intro v; simp only [startOf, ep]
  have ev : r'.vehicles = if r.vehicles = [] then s.states.map (·.1) else r.vehicles := by
    rw [← hr']
    by_cases h : r.vehicles = [] <;> simp [h]
  have eb : (s.build k r).2 = .ask k (vehicleReqs s r' r'.vehicles s.routeId) := by
    simp only [St.build, hr']
  have ei : (s.build k r).1.routeId = s.routeId + (routesOf (vehicleReqs s r' r'.vehicles s.routeId)).length := by
    simp only [St.build, hr']
  obtain ⟨h1, h2⟩ := vehicleReqs_ids s r' r'.vehicles s.routeId
  refine ⟨_, eb, ?_, h1, ?_, ?_⟩
  · rw [vehicleReqs_vehicles, ev]
    simp only [es]
  · intro m hm
    rw [ei]
    exact h2 _ (List.mem_map_of_mem (f := (·.route.id)) hm)
  · intro q hq
    obtain ⟨p, n, hp, _, hroutes⟩ := vehicleReqs_mem s r' _ _ q hq
    rw [et] at hroutes
    have hnn := names_nodup hw q.vehicle
    have h0 : ∀ o ∈ eligible s.options r.tasks q.vehicle, o.task ≠ 0 := by
      intro o ho
      obtain ⟨t, ht, os, hg, hos, _⟩ := mem_eligible.mp ho
      rw [hw.task t ht os hg o hos]
      rintro rfl
      exact hw.zero ht
    have hnd := legs_nodup (v := q.vehicle) (p := p) hnn h0
    have hc : q.routes.map MRoute.content = legs q.vehicle p (eligible s.options r.tasks q.vehicle) := by
      rw [hroutes, number_content]
    have one : ∀ x, x ∈ legs q.vehicle p (eligible s.options r.tasks q.vehicle) →
        timesAsked q.routes x.1 x.2.1 x.2.2 = 1 := by
      intro x hx
      rw [timesAsked_eq, hc, List.Nodup.count hnd, if_pos hx]
    refine ⟨p, by rw [← es]; exact hp, ?_, ?_, ?_⟩
    · intro o ho
      exact one (p, o.start, ⟨q.vehicle, 0, 0, o.task, o.option⟩) ((mem_legs hnn _).mpr (.inl ⟨o, mem_eligible.mpr ho, rfl⟩))
    · intro a b ha hb hab
      exact one (a.stop, b.start, ⟨q.vehicle, a.task, a.option, b.task, b.option⟩)
        ((mem_legs hnn _).mpr (.inr ⟨a, mem_eligible.mpr ha, b, mem_eligible.mpr hb, hab, rfl⟩))
    · intro m hm
      have : m.content ∈ legs q.vehicle p (eligible s.options r.tasks q.vehicle) := by
        rw [← hc]; exact List.mem_map_of_mem hm
      rcases (mem_legs hnn _).mp this with ⟨o, ho, e⟩ | ⟨a, ha, b, hb, hab, e⟩
      · simp only [MRoute.content, Prod.mk.injEq] at e
        exact .inl ⟨o, mem_eligible.mp ho, e.1, e.2.1, e.2.2⟩
      · simp only [MRoute.content, Prod.mk.injEq] at e
        exact .inr ⟨a, b, mem_eligible.mp ha, mem_eligible.mp hb, hab, e.1, e.2.1, e.2.2⟩

end Verif.Routes
