import Verif.Routes.Lemmas

/-! What is known about automation requests. -/

namespace Verif.Routes

open Verif

/-- A request as stored: only the vehicles may have been filled in, when its routes were asked for. -/
structure Stored (outs : List Out) (k : Int) (r r0 : AutoReq) : Prop where
  id : r.id = r0.id
  tasks : r.tasks = r0.tasks
  planning : r.planning = r0.planning
  region : r.region = r0.region
  vehicles : r0.vehicles ≠ [] ∨ lastAsk outs k = none → r.vehicles = r0.vehicles

/-- About automation requests: `R` requests and `Q` plan responses received, `outs` sent. -/
structure InvB (R : List AutoReq) (Q : List Resp) (outs : List Out) (req : Map AutoReq) (pa : Map (List Int))
    (pairing : Map Pair) (plans : Map (Int × Int)) (rid aid : Int) : Prop where
  auto : aid = 1 + R.length
  reqNd : (req.map (·.1)).Nodup
  reqR : ∀ k r, req.get k = some r → 1 ≤ k ∧ k < aid ∧ ∃ r0, R[(k - 1).toNat]? = some r0 ∧ Stored outs k r r0
  all : ∀ k, 1 ≤ k → k < aid → (req.get k).isSome = true ∨ k ∈ matrixKeys outs
  keys : (matrixKeys outs).Nodup
  keysReq : ∀ k ∈ matrixKeys outs, 1 ≤ k ∧ k < aid ∧ req.get k = none
  paReq : ∀ k ids, pa.get k = some ids → (req.get k).isSome = true
  paAsk : ∀ k ids, pa.get k = some ids → ∃ reqs, lastAsk outs k = some reqs ∧ ids = (routesOf reqs).map (·.route.id) ∧
    ∀ m ∈ routesOf reqs, pairing.get m.route.id = some m.pair
  askPa : ∀ k reqs, lastAsk outs k = some reqs → 1 ≤ k ∧ k < aid ∧ ((req.get k).isSome = true →
    pa.get k = some ((routesOf reqs).map (·.route.id)))
  ridPos : 1000000 ≤ rid
  asked : (askedIds outs).Nodup ∧ ∀ id ∈ askedIds outs, 1000000 ≤ id ∧ id < rid
  paIds : ∀ k ids, pa.get k = some ids → ids.Nodup ∧ ∀ id ∈ ids, id ∈ askedIds outs
  disj : ∀ k k' ids ids' id, pa.get k = some ids → pa.get k' = some ids' → id ∈ ids → id ∈ ids' → k = k'
  sound : ∀ id p, plans.get id = some p → lastReport Q id = some p
  cnt : ∀ n, (matrixIds outs).count n + (req.filter fun p => p.2.id = n).length = (R.filter fun r => r.id = n).length

/-- The invariant of automation requests for a state. -/
abbrev St.InvB (s : St) (R : List AutoReq) (Q : List Resp) (outs : List Out) : Prop :=
  Routes.InvB R Q outs s.requests s.pendingAuto s.pairing s.plans s.routeId s.autoId

/-- Neither asks for the routes of a matrix nor is one. -/
def Plain (o : Out) : Prop := (∀ k reqs, o ≠ .ask k reqs) ∧ ∀ k n g ts es, o ≠ .matrix k n g ts es

theorem lastAsk_plain {os : List Out} (h : ∀ o ∈ os, ∀ k reqs, o ≠ .ask k reqs) (outs : List Out) (k : Int) :
    lastAsk (outs ++ os) k = lastAsk outs k := by
  have : os.filterMap (askOf k) = [] := by
    rw [List.filterMap_eq_nil_iff]
    intro o ho
    cases o with
    | ask k' reqs => exact absurd rfl (h _ ho k' reqs)
    | _ => rfl
  simp only [lastAsk, List.filterMap_append, this, List.append_nil]

theorem lastAsk_snoc (outs : List Out) (k k' : Int) (reqs : List VReq) :
    lastAsk (outs ++ [.ask k reqs]) k' = if k = k' then some reqs else lastAsk outs k' := by
  simp only [lastAsk, List.filterMap_append, List.filterMap_cons, List.filterMap_nil, askOf]
  by_cases h : k = k' <;> simp [h]

theorem matrixKeys_append (a b : List Out) : matrixKeys (a ++ b) = matrixKeys a ++ matrixKeys b := by
  simp [matrixKeys, List.filterMap_append]

theorem matrixIds_append (a b : List Out) : matrixIds (a ++ b) = matrixIds a ++ matrixIds b := by
  simp [matrixIds, List.filterMap_append]

theorem askedIds_append (a b : List Out) : askedIds (a ++ b) = askedIds a ++ askedIds b := by
  simp [askedIds, List.flatMap_append]

theorem plain_nil {os : List Out} (h : ∀ o ∈ os, Plain o) : matrixKeys os = [] ∧ matrixIds os = [] ∧ askedIds os = [] := by
  refine ⟨?_, ?_, ?_⟩
  · rw [matrixKeys, List.filterMap_eq_nil_iff]
    intro o ho
    cases o with
    | matrix k n g ts es => exact absurd rfl ((h _ ho).2 k n g ts es)
    | _ => rfl
  · rw [matrixIds, List.filterMap_eq_nil_iff]
    intro o ho
    cases o with
    | matrix k n g ts es => exact absurd rfl ((h _ ho).2 k n g ts es)
    | _ => rfl
  · rw [askedIds, List.flatMap_eq_nil_iff]
    intro o ho
    cases o with
    | ask k reqs => exact absurd rfl ((h _ ho).1 k reqs)
    | _ => rfl

variable {R : List AutoReq} {Q : List Resp} {outs : List Out} {req : Map AutoReq} {pa : Map (List Int)}
  {pairing : Map Pair} {plans : Map (Int × Int)} {rid aid : Int}

theorem Stored.congr {outs outs' : List Out} {k : Int} {r r0 : AutoReq} (h : Stored outs k r r0)
    (e : lastAsk outs' k = none → lastAsk outs k = none) : Stored outs' k r r0 :=
  ⟨h.id, h.tasks, h.planning, h.region, fun hh => h.vehicles (hh.imp (fun x => x) e)⟩

/-- Plans are lost and other messages sent. -/
theorem InvB.mono (h : InvB R Q outs req pa pairing plans rid aid) {plans' : Map (Int × Int)}
    (hp : ∀ id p, plans'.get id = some p → plans.get id = some p) {os : List Out} (ho : ∀ o ∈ os, Plain o) :
    InvB R Q (outs ++ os) req pa pairing plans' rid aid := by
  obtain ⟨e1, e2, e3⟩ := plain_nil ho
  have e4 := lastAsk_plain (fun o h => (ho o h).1) outs
  constructor
  · exact h.auto
  · exact h.reqNd
  · intro k r hr
    obtain ⟨a, b, r0, c, d⟩ := h.reqR k r hr
    exact ⟨a, b, r0, c, d.congr (by rw [e4]; exact id)⟩
  · rw [matrixKeys_append, e1, List.append_nil]; exact h.all
  · rw [matrixKeys_append, e1, List.append_nil]; exact h.keys
  · rw [matrixKeys_append, e1, List.append_nil]; exact h.keysReq
  · exact h.paReq
  · simp only [e4]; exact h.paAsk
  · simp only [e4]; exact h.askPa
  · exact h.ridPos
  · rw [askedIds_append, e3, List.append_nil]; exact h.asked
  · rw [askedIds_append, e3, List.append_nil]; exact h.paIds
  · exact h.disj
  · exact fun id p hg => h.sound id p (hp id p hg)
  · rw [matrixIds_append, e2, List.append_nil]; exact h.cnt

theorem lastReport_snoc (Q : List Resp) (r : Resp) (id : Int) :
    lastReport (Q ++ [r]) id =
      match ((r.routes.filter fun p => p.1 = id).getLast?) with
      | some p => some (r.id, p.2)
      | none => lastReport Q id := by
  have e : (((reports [r]).filter fun p => p.1 = id).map (·.2)) =
      (r.routes.filter fun p => p.1 = id).map fun p => (r.id, p.2) := by
    simp only [reports, List.flatMap_cons, List.flatMap_nil, List.append_nil, List.filter_map, List.map_map]
    rfl
  have e2 : reports (Q ++ [r]) = reports Q ++ reports [r] := by simp [reports]
  simp only [lastReport, e2, List.filter_append, List.map_append, e, List.getLast?_append, List.getLast?_map]
  cases (r.routes.filter fun p => p.1 = id).getLast? <;> simp

theorem InvB.store {s : St} (h : s.InvB R Q outs) (r : Resp) : (s.store r).InvB R (Q ++ [r]) outs := by
  refine { h with sound := ?_ }
  intro id p hg
  simp only [St.store] at hg
  rw [get_puts] at hg
  rw [lastReport_snoc]
  cases hl : (r.routes.filter fun p => p.1 = id).getLast? with
  | some x => rw [hl] at hg; exact hg
  | none => rw [hl] at hg; exact h.sound id p hg

/-- What `checkMatrix` does. -/
theorem checkMatrix_cases (s : St) (k : Int) :
    ((s.checkMatrix k) = (s, []) ∧ ∀ ids, s.pendingAuto.get k = some ids → ∃ j ∈ ids, s.plans.get j = none) ∨
    ∃ ids, s.pendingAuto.get k = some ids ∧ (∀ j ∈ ids, (s.plans.get j).isSome = true) ∧
      s.checkMatrix k = s.sendMatrix k ids := by
  simp only [St.checkMatrix]
  cases hg : s.pendingAuto.get k with
  | none => exact .inl ⟨rfl, by simp⟩
  | some ids =>
    by_cases ha : (ids.all fun id => (s.plans.get id).isSome) = true
    · exact .inr ⟨ids, rfl, by simpa using ha, by simp [ha]⟩
    · refine .inl ⟨by simp [ha], ?_⟩
      rintro _ ⟨rfl⟩
      simpa using ha

/-- A matrix is right: `R` and `Q` were received and `outs` sent before it. -/
def GoodMatrix (R : List AutoReq) (Q : List Resp) (outs : List Out) (k : Int) (o : Out) : Prop :=
  ∃ r reqs, 1 ≤ k ∧ R[(k - 1).toNat]? = some r ∧ k ∉ matrixKeys outs ∧ lastAsk outs k = some reqs ∧
    (∀ m ∈ routesOf reqs, (lastReport Q m.route.id).isSome = true) ∧
    o = .matrix k r.id r.region r.tasks
      ((routesOf reqs).map fun m => { pair := m.pair, cost := ((lastReport Q m.route.id).getD (0, 0)).2 })

theorem InvB.checkMatrix {s : St} (h : s.InvB R Q outs) (k : Int) :
    (s.checkMatrix k).1.InvB R Q (outs ++ (s.checkMatrix k).2) ∧ (∀ o ∈ (s.checkMatrix k).2, GoodMatrix R Q outs k o) ∧
    (∃ a b c d e f, (s.checkMatrix k).1 =
      { s with options := a, requests := b, pendingAuto := c, pairing := d, plans := e, responses := f }) ∧
    (∀ j, (s.checkMatrix k).1.plans.get j =
      if (s.checkMatrix k).2 ≠ [] ∧ j ∈ (s.pendingAuto.get k).getD [] then none else s.plans.get j) ∧
    (∀ j r, (s.checkMatrix k).1.responses.get j = some r → s.responses.get j = some r) ∧
    (∀ j, (∀ id ∈ (s.pendingAuto.get k).getD [], ∀ c, s.plans.get id ≠ some (j, c)) →
      (s.checkMatrix k).1.responses.get j = s.responses.get j) ∧
    (s.checkMatrix k).1.pendingAuto = (if (s.checkMatrix k).2 = [] then s.pendingAuto else s.pendingAuto.del k) ∧
    (s.checkMatrix k).1.options = (if (s.checkMatrix k).2 = [] then s.options else []) := by
  rcases checkMatrix_cases s k with ⟨e, _⟩ | ⟨ids, hg, hall, e⟩
  · rw [e]
    simp only [List.append_nil, ne_eq, not_true_eq_false, false_and, if_false]
    exact ⟨h, by simp, ⟨_, _, _, _, _, _, rfl⟩, fun _ => trivial, fun _ _ h => h, fun _ _ => trivial, by simp, by simp⟩
  · obtain ⟨r, hr⟩ := Option.isSome_iff_exists.mp (h.paReq k ids hg)
    obtain ⟨hk1, hk2, r0, hR, hst⟩ := h.reqR k r hr
    obtain ⟨reqs, hlast, hids, hpair⟩ := h.paAsk k ids hg
    obtain ⟨hnd, hin⟩ := h.paIds k ids hg
    have hgp : ∀ id ∈ ids, s.pairing.get id = some ((s.pairing.get id).getD ⟨0, 0, 0, 0, 0⟩) := by
      intro id hid
      rw [hids] at hid
      obtain ⟨m, hm, rfl⟩ := List.mem_map.mp hid
      simp [hpair m hm]
    have hpp : ∀ id ∈ ids, s.plans.get id = some ((s.plans.get id).getD (0, 0)) := by
      intro id hid
      obtain ⟨x, hx⟩ := Option.isSome_iff_exists.mp (hall id hid)
      simp [hx]
    obtain ⟨h1, ⟨x, y, z, h2⟩, h3, h4, h5⟩ := entries_spec ids s _ _ hnd hgp hpp
    rw [e]
    simp only [St.sendMatrix, hr]
    have q1 : (s.entries ids).1.requests = s.requests := by rw [h2]
    have q2 : (s.entries ids).1.pendingAuto = s.pendingAuto := by rw [h2]
    have q3 : (s.entries ids).1.routeId = s.routeId := by rw [h2]
    have q4 : (s.entries ids).1.autoId = s.autoId := by rw [h2]
    have hkk : k ∉ matrixKeys outs := fun hh => by
      have := (h.keysReq k hh).2.2
      rw [hr] at this
      simp at this
    generalize hes : (s.entries ids).2 = es at *
    have eK : matrixKeys [Out.matrix k r.id r.region r.tasks es] = [k] := rfl
    have eI : matrixIds [Out.matrix k r.id r.region r.tasks es] = [r.id] := rfl
    have eA : askedIds [Out.matrix k r.id r.region r.tasks es] = [] := rfl
    have eL := lastAsk_plain (os := [Out.matrix k r.id r.region r.tasks es]) (by simp) outs
    refine ⟨?_, ?_, ?_, ?_, ?_, ?_, ?_, ?_⟩
    · show Routes.InvB R Q _ ((s.entries ids).1.requests.del k) ((s.entries ids).1.pendingAuto.del k)
        (s.entries ids).1.pairing (s.entries ids).1.plans (s.entries ids).1.routeId (s.entries ids).1.autoId
      rw [q1, q2, q3, q4]
      constructor
      · exact h.auto
      · exact Map.nodup_del h.reqNd k
      · intro k' r' hr'
        rw [Map.get_del] at hr'
        split at hr'
        · simp at hr'
        · obtain ⟨a, b, r1, c, d⟩ := h.reqR k' r' hr'
          exact ⟨a, b, r1, c, d.congr (by rw [eL]; exact id)⟩
      · intro k' hk1' hk2'
        rw [Map.get_del, matrixKeys_append, eK]
        by_cases ee : k' = k
        · simp [ee]
        · simp only [if_neg ee, List.mem_append]
          exact (h.all k' hk1' hk2').imp id .inl
      · rw [matrixKeys_append, eK, List.nodup_append]
        refine ⟨h.keys, by simp, ?_⟩
        intro a ha b hb hab
        simp only [List.mem_singleton] at hb
        exact hkk (by rw [← hb, ← hab]; exact ha)
      · intro k' hk'
        rw [matrixKeys_append, eK, List.mem_append, List.mem_singleton] at hk'
        rw [Map.get_del]
        rcases hk' with hk' | rfl
        · refine ⟨(h.keysReq k' hk').1, (h.keysReq k' hk').2.1, ?_⟩
          split
          · rfl
          · exact (h.keysReq k' hk').2.2
        · exact ⟨hk1, hk2, by simp⟩
      · intro k' ids' hg'
        rw [Map.get_del] at hg'
        split at hg'
        · simp at hg'
        · next hne => rw [Map.get_del, if_neg hne]; exact h.paReq k' ids' hg'
      · intro k' ids' hg'
        rw [Map.get_del] at hg'
        split at hg'
        · simp at hg'
        · next hne =>
          obtain ⟨reqs', f1, f2, f3⟩ := h.paAsk k' ids' hg'
          refine ⟨reqs', by rw [eL]; exact f1, f2, ?_⟩
          intro m hm
          rw [h3, if_neg, f3 m hm]
          intro hin'
          exact hne (h.disj k' k ids' ids m.route.id hg' hg (by rw [f2]; exact List.mem_map_of_mem (f := (·.route.id)) hm) hin')
      · intro k' reqs' hl
        rw [eL] at hl
        obtain ⟨f1, f2, f3⟩ := h.askPa k' reqs' hl
        refine ⟨f1, f2, ?_⟩
        intro hsome
        rw [Map.get_del] at hsome ⊢
        split at hsome
        · simp at hsome
        · next hne => rw [if_neg hne]; exact f3 hsome
      · exact h.ridPos
      · rw [askedIds_append, eA, List.append_nil]; exact h.asked
      · intro k' ids' hg'
        rw [askedIds_append, eA, List.append_nil]
        rw [Map.get_del] at hg'
        split at hg'
        · simp at hg'
        · exact h.paIds k' ids' hg'
      · intro k1 k2 i1 i2 id g1 g2
        rw [Map.get_del] at g1 g2
        split at g1
        · simp at g1
        · split at g2
          · simp at g2
          · exact h.disj k1 k2 i1 i2 id g1 g2
      · intro id p hp
        rw [h4] at hp
        split at hp
        · simp at hp
        · exact h.sound id p hp
      · intro n
        have hc := h.cnt n
        have hl := Map.length_del h.reqNd hr (fun r => decide (r.id = n))
        rw [matrixIds_append, eI, List.count_append, List.count_singleton]
        simp only [beq_iff_eq]
        by_cases hn : r.id = n
        · simp only [hn, decide_true, if_true] at hl ⊢; omega
        · simp only [hn, decide_false, if_false, Bool.false_eq_true] at hl ⊢; omega
    · intro o ho
      simp only [List.mem_singleton] at ho
      refine ⟨r0, reqs, hk1, hR, hkk, hlast, ?_, ?_⟩
      · intro m hm
        obtain ⟨x, hx⟩ := Option.isSome_iff_exists.mp
          (hall m.route.id (by rw [hids]; exact List.mem_map_of_mem (f := (·.route.id)) hm))
        rw [h.sound _ _ hx]; rfl
      · rw [ho, hst.id, hst.region, hst.tasks, h1, hids, List.map_map]
        congr 1
        refine List.map_congr_left fun m hm => ?_
        have hmi : m.route.id ∈ ids := by rw [hids]; exact List.mem_map_of_mem (f := (·.route.id)) hm
        obtain ⟨x, hx⟩ := Option.isSome_iff_exists.mp (hall m.route.id hmi)
        simp [hpair m hm, hx, h.sound _ _ hx]
    · rw [h2]; exact ⟨_, _, _, _, _, _, rfl⟩
    · intro j
      rw [hg]
      simp only [ne_eq, List.cons_ne_self, reduceCtorEq, not_false_eq_true, true_and, Option.getD_some]
      exact h4 j
    · intro j r hj
      rw [h5] at hj
      split at hj
      · simp at hj
      · exact hj
    · intro j hj
      rw [hg] at hj
      simp only [Option.getD_some] at hj
      rw [h5, if_neg]
      rw [List.mem_map]
      rintro ⟨id, hid, rfl⟩
      exact hj id hid _ (hpp id hid)
    · simp [q2]
    · simp

theorem pairs_get : ∀ (rs : List MRoute) (m : Map Pair), (rs.map (·.route.id)).Nodup →
    (∀ x ∈ rs, (pairs m rs).get x.route.id = some x.pair) ∧
    ∀ id, id ∉ rs.map (·.route.id) → (pairs m rs).get id = m.get id
  | [], m, _ => by simp [pairs]
  | r :: rs, m, h => by
    simp only [List.map_cons, List.nodup_cons] at h
    obtain ⟨h1, h2⟩ := pairs_get rs (m.put r.route.id r.pair) h.2
    simp only [pairs, List.mem_cons, List.map_cons]
    refine ⟨?_, ?_⟩
    · rintro x (rfl | hx)
      · rw [h2 _ h.1, Map.get_put, if_pos rfl]
      · exact h1 x hx
    · intro id hid
      rw [h2 id (fun hh => hid (.inr hh)), Map.get_put, if_neg (fun hh => hid (.inl hh))]

/-- What `build` does. -/
theorem build_spec (s : St) (k : Int) (r : AutoReq) : ∃ reqs, (s.build k r).2 = .ask k reqs ∧
    (s.build k r).1 = { s with
      requests := s.requests.put k (if r.vehicles.isEmpty then { r with vehicles := s.states.map (·.1) } else r)
      pendingAuto := s.pendingAuto.put k ((routesOf reqs).map (·.route.id))
      pairing := pairs s.pairing (routesOf reqs)
      routeId := s.routeId + (routesOf reqs).length } ∧
    ((routesOf reqs).map (·.route.id)).Nodup ∧
    ∀ id ∈ (routesOf reqs).map (·.route.id), s.routeId ≤ id ∧ id < s.routeId + (routesOf reqs).length :=
  ⟨_, rfl, rfl, (vehicleReqs_ids s _ _ _).1, (vehicleReqs_ids s _ _ _).2⟩

theorem InvB.build {s : St} (h : s.InvB R Q outs) {k : Int} {r : AutoReq} (hr : s.requests.get k = some r) :
    (s.build k r).1.InvB R Q (outs ++ [(s.build k r).2]) := by
  obtain ⟨reqs, e1, e2, hnd, hb⟩ := build_spec s k r
  rw [e1, e2]
  show Routes.InvB R Q _ (s.requests.put k _) (s.pendingAuto.put k _) (pairs s.pairing _) s.plans (s.routeId + _) s.autoId
  generalize hr' : (if r.vehicles.isEmpty then { r with vehicles := s.states.map (·.1) } else r) = r'
  have hsame : r'.id = r.id ∧ r'.tasks = r.tasks ∧ r'.planning = r.planning ∧ r'.region = r.region ∧
      (r.vehicles ≠ [] → r'.vehicles = r.vehicles) := by
    rw [← hr']
    by_cases hv : r.vehicles = [] <;> simp [hv]
  obtain ⟨p1, p2⟩ := pairs_get (routesOf reqs) s.pairing hnd
  obtain ⟨hk1, hk2, r0, hR, hst⟩ := h.reqR k r hr
  have eK : matrixKeys [Out.ask k reqs] = [] := rfl
  have eI : matrixIds [Out.ask k reqs] = [] := rfl
  have eA : askedIds [Out.ask k reqs] = (routesOf reqs).map (·.route.id) := by simp [askedIds]
  have fresh : ∀ id ∈ (routesOf reqs).map (·.route.id), id ∉ askedIds outs := by
    intro id hid hh
    have := hb id hid
    have := h.asked.2 id hh
    omega
  have isome : ∀ k', ((s.requests.put k r').get k').isSome = true ↔ (s.requests.get k').isSome = true := by
    intro k'
    rw [Map.get_put]
    by_cases e : k' = k
    · simp [e, hr]
    · simp [e]
  constructor
  · exact h.auto
  · exact Map.nodup_put h.reqNd _ _
  · intro k' x hx
    rw [Map.get_put] at hx
    by_cases e : k' = k
    · subst e
      simp only [if_true, Option.some.injEq] at hx
      subst hx
      refine ⟨hk1, hk2, r0, hR, ⟨by rw [hsame.1, hst.id], by rw [hsame.2.1, hst.tasks], by rw [hsame.2.2.1, hst.planning],
        by rw [hsame.2.2.2.1, hst.region], ?_⟩⟩
      rw [lastAsk_snoc, if_pos rfl]
      rintro (hv | hv)
      · have := hst.vehicles (.inl hv)
        rw [hsame.2.2.2.2 (by rw [this]; exact hv), this]
      · simp at hv
    · rw [if_neg e] at hx
      obtain ⟨a, b, r1, c, d⟩ := h.reqR k' x hx
      refine ⟨a, b, r1, c, d.congr ?_⟩
      rw [lastAsk_snoc, if_neg (fun e' => e e'.symm)]
      exact id
  · intro k' a b
    rw [matrixKeys_append, eK, List.append_nil, isome]
    exact h.all k' a b
  · rw [matrixKeys_append, eK, List.append_nil]; exact h.keys
  · intro k' hk'
    rw [matrixKeys_append, eK, List.append_nil] at hk'
    obtain ⟨a, b, c⟩ := h.keysReq k' hk'
    refine ⟨a, b, ?_⟩
    rw [Map.get_put]
    split
    · next e => rw [e, hr] at c; simp at c
    · exact c
  · intro k' ids hg
    rw [isome]
    rw [Map.get_put] at hg
    split at hg
    · next e => rw [e, hr]; rfl
    · exact h.paReq k' ids hg
  · intro k' ids hg
    rw [Map.get_put] at hg
    rw [lastAsk_snoc]
    by_cases e : k' = k
    · rw [if_pos e] at hg
      simp only [Option.some.injEq] at hg
      exact ⟨reqs, by rw [if_pos e.symm], hg.symm, p1⟩
    · rw [if_neg e] at hg
      obtain ⟨reqs', f1, f2, f3⟩ := h.paAsk k' ids hg
      refine ⟨reqs', by rw [if_neg (fun e' => e e'.symm)]; exact f1, f2, ?_⟩
      intro m hm
      rw [p2, f3 m hm]
      intro hh
      refine fresh _ hh ((h.paIds k' ids hg).2 _ ?_)
      rw [f2]; exact List.mem_map_of_mem (f := (·.route.id)) hm
  · intro k' reqs' hl
    rw [lastAsk_snoc] at hl
    rw [isome, Map.get_put]
    by_cases e : k = k'
    · subst e
      simp only [if_true, Option.some.injEq] at hl
      subst hl
      exact ⟨hk1, hk2, fun _ => by simp⟩
    · rw [if_neg e] at hl
      rw [if_neg (fun e' => e e'.symm)]
      exact h.askPa k' reqs' hl
  · have := h.ridPos; omega
  · rw [askedIds_append, eA, List.nodup_append]
    refine ⟨⟨h.asked.1, hnd, ?_⟩, ?_⟩
    · intro a ha b hb' hab
      exact fresh b hb' (hab ▸ ha)
    · intro id hid
      have h0 := h.ridPos
      rw [List.mem_append] at hid
      rcases hid with hid | hid
      · have := h.asked.2 id hid; omega
      · have := hb id hid; omega
  · intro k' ids hg
    rw [askedIds_append, eA]
    rw [Map.get_put] at hg
    split at hg
    · simp only [Option.some.injEq] at hg
      subst hg
      exact ⟨hnd, fun id hid => List.mem_append_right _ hid⟩
    · obtain ⟨a, b⟩ := h.paIds k' ids hg
      exact ⟨a, fun id hid => List.mem_append_left _ (b id hid)⟩
  · intro k1 k2 i1 i2 id g1 g2 m1 m2
    rw [Map.get_put] at g1 g2
    by_cases e1' : k1 = k <;> by_cases e2' : k2 = k
    · rw [e1', e2']
    · rw [if_pos e1'] at g1
      rw [if_neg e2'] at g2
      simp only [Option.some.injEq] at g1
      subst g1
      exact absurd ((h.paIds k2 i2 g2).2 id m2) (fresh id m1)
    · rw [if_neg e1'] at g1
      rw [if_pos e2'] at g2
      simp only [Option.some.injEq] at g2
      subst g2
      exact absurd ((h.paIds k1 i1 g1).2 id m1) (fresh id m2)
    · rw [if_neg e1'] at g1
      rw [if_neg e2'] at g2
      exact h.disj k1 k2 i1 i2 id g1 g2 m1 m2
  · exact h.sound
  · intro n
    have hc := h.cnt n
    have hl := Map.length_del h.reqNd hr (fun r => decide (r.id = n))
    rw [matrixIds_append, eI, List.append_nil]
    simp only [Map.put, List.filter_cons, hsame.1]
    by_cases hn : r.id = n
    · simp only [hn, decide_true, if_true, List.length_cons] at hl ⊢; omega
    · simp only [hn, decide_false, if_false, Bool.false_eq_true] at hl ⊢; omega

/-- A new request. -/
theorem InvB.request (h : InvB R Q outs req pa pairing plans rid aid) (r : AutoReq) :
    InvB (R ++ [r]) Q outs (req.put aid r) pa pairing plans rid (aid + 1) := by
  have ha := h.auto
  have hnew : req.get aid = none := by
    cases hg : req.get aid with
    | none => rfl
    | some x => have := (h.reqR aid x hg).2.1; omega
  constructor
  · simp [ha]; omega
  · exact Map.nodup_put h.reqNd _ _
  · intro k x hx
    rw [Map.get_put] at hx
    split at hx
    · next e =>
      simp only [Option.some.injEq] at hx
      subst hx; subst e
      refine ⟨by omega, by omega, r, ?_, ⟨rfl, rfl, rfl, rfl, fun _ => rfl⟩⟩
      have : (k - 1).toNat = R.length := by omega
      rw [this]; simp
    · obtain ⟨a, b, r0, c, d⟩ := h.reqR k x hx
      refine ⟨a, by omega, r0, ?_, d⟩
      rw [List.getElem?_append_left (by omega)]; exact c
  · intro k h1 h2
    rw [Map.get_put]
    by_cases e : k = aid
    · simp [e]
    · rw [if_neg e]; exact h.all k h1 (by omega)
  · exact h.keys
  · intro k hk
    obtain ⟨a, b, c⟩ := h.keysReq k hk
    refine ⟨a, by omega, ?_⟩
    rw [Map.get_put, if_neg (by omega)]; exact c
  · intro k ids hg
    rw [Map.get_put]
    split
    · rfl
    · exact h.paReq k ids hg
  · exact h.paAsk
  · intro k reqs hl
    obtain ⟨a, b, c⟩ := h.askPa k reqs hl
    refine ⟨a, by omega, ?_⟩
    rw [Map.get_put, if_neg (by omega)]; exact c
  · exact h.ridPos
  · exact h.asked
  · exact h.paIds
  · exact h.disj
  · exact h.sound
  · intro n
    have hc := h.cnt n
    simp only [Map.put, Map.del_of_none hnew, List.filter_cons, List.filter_append, List.filter_nil, List.length_append]
    by_cases hn : r.id = n
    · simp only [hn, decide_true, if_true, List.length_cons, List.length_nil]; omega
    · simp only [hn, decide_false, if_false, Bool.false_eq_true, List.length_nil]; omega

end Verif.Routes
