import Verif.Routes.Replies
import Verif.Routes.Requests

/-! The invariants along a history. -/

namespace Verif.Routes

open Verif

/-- All that is known without fast planning. -/
structure Full (R : List AutoReq) (Q : List Resp) (W : List RouteReq) (outs : List Out) (s : St) : Prop where
  fast : s.fast = false
  ub : s.ub = false
  a : s.InvA Q W outs
  b : s.InvB R Q outs
  compA : NoClash Q → ∀ j, 1 ≤ j → (s.routeReqId ≤ j ∨ ∃ q, j ∈ since outs q) → s.responses.get j = lastResp Q j
  compB : NoClash Q → ∀ id, 1000000 ≤ id →
    (s.routeId ≤ id ∨ ∃ k ids, s.pendingAuto.get k = some ids ∧ id ∈ ids) → s.plans.get id = lastReport Q id

variable {R : List AutoReq} {Q : List Resp} {W : List RouteReq} {outs : List Out} {s : St}

theorem NoClash.of_append {Q Q' : List Resp} (h : NoClash (Q ++ Q')) : NoClash Q :=
  fun r hr => h r (List.mem_append_left _ hr)

theorem Full.store (h : Full R Q W outs s) (r : Resp) : Full R (Q ++ [r]) W outs (s.store r) where
  fast := h.fast
  ub := h.ub
  a := h.a.store r
  b := h.b.store r
  compA := fun hn j h1 h2 => by
    rw [lastResp_snoc]
    have := h.compA hn.of_append j h1 h2
    show (s.responses.put r.id r).get j = _
    rw [Map.get_put]
    by_cases e : r.id = j
    · rw [if_pos e, if_pos e.symm]
    · rw [if_neg e, if_neg (fun e' => e e'.symm)]; exact this
  compB := fun hn id h1 h2 => by
    rw [lastReport_snoc]
    have := h.compB hn.of_append id h1 h2
    show (r.routes.foldl (fun m p => m.put p.1 (r.id, p.2)) s.plans).get id = _
    rw [get_puts, this]
    cases (r.routes.filter fun p => p.1 = id).getLast? <;> rfl

theorem lastResp_id {Q : List Resp} {j : Int} {r : Resp} (h : lastResp Q j = some r) : r ∈ Q ∧ r.id = j := by
  have := List.mem_of_getLast? h
  rw [List.mem_filter] at this
  exact ⟨this.1, by simpa using this.2⟩

theorem lastReport_mem {Q : List Resp} {id : Int} {p : Int × Int} (h : lastReport Q id = some p) :
    ∃ r ∈ Q, r.id = p.1 ∧ (id, p.2) ∈ r.routes := by
  have := List.mem_of_getLast? h
  obtain ⟨x, hx, rfl⟩ := List.mem_map.mp this
  rw [List.mem_filter] at hx
  obtain ⟨r, hr, hx1⟩ := List.mem_flatMap.mp hx.1
  obtain ⟨y, hy, rfl⟩ := List.mem_map.mp hx1
  simp only [decide_eq_true_eq] at hx
  exact ⟨r, hr, rfl, by rw [← hx.2]; exact hy⟩

theorem plain_answer (q : Int) (rs : List Resp) : Plain (.answer q rs) := by constructor <;> simp

theorem Full.checkRoute (h : Full R Q W outs s) (q : Int) :
    Full R Q W (outs ++ (s.checkRoute q).2) (s.checkRoute q).1 ∧
    (∀ o ∈ (s.checkRoute q).2, ∃ rs, o = .answer q rs ∧ since outs q ≠ [] ∧
      rs.map some = (since outs q).map (lastResp Q)) ∧
    (∃ a b c, (s.checkRoute q).1 = { s with responses := a, plans := b, pendingRoute := c }) ∧
    (∀ q', q' ≠ q → (s.checkRoute q).1.pendingRoute.get q' = s.pendingRoute.get q') ∧
    (∀ j r, (s.checkRoute q).1.responses.get j = some r → s.responses.get j = some r) ∧
    (∀ ids, (s.checkRoute q).1.pendingRoute.get q = some ids →
      ∃ j ∈ ids, (s.checkRoute q).1.responses.get j = none) := by
  obtain ⟨hA, hf⟩ := h.a.checkRoute q
  rcases checkRoute_cases s q with ⟨e, hnr⟩ | ⟨ids, hg, hall, e⟩
  · rw [e] at hA hf ⊢
    simp only [List.append_nil] at hA ⊢
    exact ⟨h, hf, ⟨_, _, _, rfl⟩, fun _ _ => trivial, fun _ _ h => h, hnr⟩
  · have hids : since outs q ≠ [] ∧ ids = since outs q := by
      have := h.a.pend q
      rw [hg] at this
      by_cases hn : since outs q = []
      · simp [hn] at this
      · simp [hn] at this; exact ⟨hn, this⟩
    obtain ⟨hn, rfl⟩ := hids
    obtain ⟨h1, ⟨a, b, h2⟩, h3, h4, h5⟩ := collect_spec _ s (h.a.ndids q) hall
    have epr : (s.collect (since outs q)).1.pendingRoute = s.pendingRoute := by rw [h2]
    have hplans : ∀ x p, (s.collect (since outs q)).1.plans.get x = some p → s.plans.get x = some p := by
      intro x p hx
      by_cases hin : ∃ r ∈ (s.collect (since outs q)).2, x ∈ r.routes.map (·.1)
      · rw [h4 x hin] at hx; simp at hx
      · rw [h5 x hin] at hx; exact hx
    have hB : (s.checkRoute q).1.InvB R Q (outs ++ (s.checkRoute q).2) := by
      have := h.b.mono hplans (os := (s.checkRoute q).2) (fun o ho => by
        obtain ⟨rs, rfl, _⟩ := hf o ho; exact plain_answer _ _)
      rw [e] at this ⊢
      show Routes.InvB R Q _ (s.collect (since outs q)).1.requests (s.collect (since outs q)).1.pendingAuto
        (s.collect (since outs q)).1.pairing (s.collect (since outs q)).1.plans (s.collect (since outs q)).1.routeId
        (s.collect (since outs q)).1.autoId
      have q1 : (s.collect (since outs q)).1.requests = s.requests := by rw [h2]
      have q2 : (s.collect (since outs q)).1.pendingAuto = s.pendingAuto := by rw [h2]
      have q3 : (s.collect (since outs q)).1.pairing = s.pairing := by rw [h2]
      have q4 : (s.collect (since outs q)).1.routeId = s.routeId := by rw [h2]
      have q5 : (s.collect (since outs q)).1.autoId = s.autoId := by rw [h2]
      rw [q1, q2, q3, q4, q5]
      exact this
    rw [e] at hA hf hB ⊢
    refine ⟨⟨?_, ?_, hA, hB, ?_, ?_⟩, hf, ?_, ?_, ?_, ?_⟩
    · show (s.collect (since outs q)).1.fast = false
      rw [h2]; exact h.fast
    · show (s.collect (since outs q)).1.ub = false
      rw [h2]; exact h.ub
    · intro hc j hj1 hj2
      show (s.collect (since outs q)).1.responses.get j = _
      have hj2' : (s.routeReqId ≤ j ∨ ∃ q', q' ≠ q ∧ j ∈ since outs q') := by
        rcases hj2 with hj2 | ⟨q', hq'⟩
        · left
          have : (s.collect (since outs q)).1.routeReqId = s.routeReqId := by rw [h2]
          rw [← this]; exact hj2
        · right
          rw [since_answer] at hq'
          split at hq'
          · simp at hq'
          · next hne => exact ⟨q', fun e => hne e.symm, hq'⟩
      rw [h3, if_neg]
      · exact h.compA hc j hj1 (hj2'.imp id fun ⟨q', _, x⟩ => ⟨q', x⟩)
      · intro hin
        rcases hj2' with hj2 | ⟨q', hne, hq'⟩
        · have := h.a.bound q j hin; omega
        · exact hne (h.a.disj q' q j hq' hin)
    · intro hc id hid1 hid2
      show (s.collect (since outs q)).1.plans.get id = _
      have hid2' : (s.routeId ≤ id ∨ ∃ k ids, s.pendingAuto.get k = some ids ∧ id ∈ ids) := by
        have q2 : (s.collect (since outs q)).1.pendingAuto = s.pendingAuto := by rw [h2]
        have q4 : (s.collect (since outs q)).1.routeId = s.routeId := by rw [h2]
        rw [← q2, ← q4]
        exact hid2
      rw [h5, h.compB hc id hid1 hid2']
      rintro ⟨r, hr, hx⟩
      have hr' : some r ∈ (since outs q).map s.responses.get := by rw [← h1]; exact List.mem_map_of_mem hr
      obtain ⟨j, hj, hjr⟩ := List.mem_map.mp hr'
      obtain ⟨g1, g2⟩ := lastResp_id (h.a.sound j r hjr)
      have hj0 := h.a.bound q j hj
      obtain ⟨p, hp, rfl⟩ := List.mem_map.mp hx
      have := hc r g1 (by omega) p hp
      omega
    · rw [h2]; exact ⟨_, _, _, rfl⟩
    · intro q' hne
      show ((s.collect (since outs q)).1.pendingRoute.del q).get q' = _
      rw [Map.get_del, if_neg hne, epr]
    · intro j r hr
      have hr : (s.collect (since outs q)).1.responses.get j = some r := hr
      rw [h3] at hr
      split at hr
      · simp at hr
      · exact hr
    · intro ids hids
      have hids : ((s.collect (since outs q)).1.pendingRoute.del q).get q = some ids := hids
      rw [Map.get_del, if_pos rfl] at hids
      simp at hids

theorem other_matrix (k n g : Int) (ts : List Int) (es : List Entry) : Other (.matrix k n g ts es) := by
  constructor <;> simp

theorem Full.checkMatrix (h : Full R Q W outs s) (k : Int) :
    Full R Q W (outs ++ (s.checkMatrix k).2) (s.checkMatrix k).1 ∧
    (∀ o ∈ (s.checkMatrix k).2, GoodMatrix R Q outs k o) ∧
    (s.checkMatrix k).1.pendingRoute = s.pendingRoute ∧
    (∀ k', k' ≠ k → (s.checkMatrix k).1.pendingAuto.get k' = s.pendingAuto.get k') ∧
    (∀ j r, (s.checkMatrix k).1.responses.get j = some r → s.responses.get j = some r) ∧
    (∀ j r, (s.checkMatrix k).1.plans.get j = some r → s.plans.get j = some r) ∧
    (∀ ids, (s.checkMatrix k).1.pendingAuto.get k = some ids → ∃ j ∈ ids, (s.checkMatrix k).1.plans.get j = none) ∧
    (s.checkMatrix k).1.states = s.states ∧
    (s.checkMatrix k).1.options = (if (s.checkMatrix k).2 = [] then s.options else []) := by
  obtain ⟨hB, hgood, ⟨x1, x2, x3, x4, x5, x6, hst⟩, hplans, hresp1, hresp2, hpa, hopt⟩ := h.b.checkMatrix k
  have hother : ∀ o ∈ (s.checkMatrix k).2, Other o := by
    intro o ho
    obtain ⟨r, reqs, _, _, _, _, _, rfl⟩ := hgood o ho
    exact other_matrix _ _ _ _ _
  have q1 : (s.checkMatrix k).1.pendingRoute = s.pendingRoute := by rw [hst]
  have q2 : (s.checkMatrix k).1.routeReqId = s.routeReqId := by rw [hst]
  have q3 : (s.checkMatrix k).1.routeId = s.routeId := by rw [hst]
  have hpm : ∀ j r, (s.checkMatrix k).1.plans.get j = some r → s.plans.get j = some r := by
    intro j r hj
    rw [hplans] at hj
    split at hj
    · simp at hj
    · exact hj
  have hpg : ∀ k' ids, (s.checkMatrix k).1.pendingAuto.get k' = some ids →
      s.pendingAuto.get k' = some ids ∧ (k' = k → (s.checkMatrix k).2 = []) := by
    intro k' ids hg
    rw [hpa] at hg
    split at hg
    · next e => exact ⟨hg, fun _ => e⟩
    · rw [Map.get_del] at hg
      split at hg
      · simp at hg
      · next hne => exact ⟨hg, fun e => absurd e hne⟩
  refine ⟨⟨by rw [hst]; exact h.fast, by rw [hst]; exact h.ub, ?_, hB, ?_, ?_⟩, hgood, q1, ?_, hresp1, hpm, ?_, ?_, hopt⟩
  · show Routes.InvA Q W _ (s.checkMatrix k).1.pendingRoute (s.checkMatrix k).1.routeReqId (s.checkMatrix k).1.responses
    rw [q1, q2]
    exact h.a.mono hresp1 hother
  · intro hc j hj1 hj2
    rw [q2] at hj2
    simp only [since_other hother] at hj2
    rw [hresp2, h.compA hc j hj1 hj2]
    intro id hid c hp
    cases hg : s.pendingAuto.get k with
    | none => rw [hg] at hid; simp at hid
    | some ids =>
      rw [hg] at hid
      simp only [Option.getD_some] at hid
      obtain ⟨r, hr, e1, e2⟩ := lastReport_mem (h.b.sound id _ hp)
      have e1 : r.id = j := e1
      have := hc r hr (by omega) _ e2
      have := h.b.asked.2 id ((h.b.paIds k ids hg).2 id hid)
      omega
  · intro hc id hid1 hid2
    rw [q3] at hid2
    rw [hplans, if_neg]
    · refine h.compB hc id hid1 (hid2.imp (fun x => x) ?_)
      rintro ⟨k', ids, hg, hin⟩
      exact ⟨k', ids, (hpg k' ids hg).1, hin⟩
    · rintro ⟨hne, hin⟩
      cases hg : s.pendingAuto.get k with
      | none => rw [hg] at hin; simp at hin
      | some ids =>
        rw [hg] at hin
        simp only [Option.getD_some] at hin
        rcases hid2 with hid2 | ⟨k', ids', hg', hin'⟩
        · have := h.b.asked.2 id ((h.b.paIds k ids hg).2 id hin); omega
        · obtain ⟨a, b⟩ := hpg k' ids' hg'
          exact hne (b (h.b.disj k' k ids' ids id a hg hin' hin))
  · intro k' hne
    rw [hpa]
    split
    · rfl
    · rw [Map.get_del, if_neg hne]
  · intro ids hids
    obtain ⟨g1, g2⟩ := hpg k ids hids
    have hnil := g2 rfl
    rcases checkMatrix_cases s k with ⟨e, hnr⟩ | ⟨ids', hg, _, e⟩
    · rw [e]; exact hnr ids g1
    · exfalso
      obtain ⟨r, hr⟩ := Option.isSome_iff_exists.mp (h.b.paReq k ids' hg)
      rw [e] at hnil
      simp [St.sendMatrix, hr] at hnil
  · rw [hst]

/-- An answer is right. -/
def GoodAnswer (Q : List Resp) (outs : List Out) (o : Out) : Prop :=
  ∃ q rs, o = .answer q rs ∧ since outs q ≠ [] ∧ rs.map some = (since outs q).map (lastResp Q)

theorem Full.checkPlans (h : Full R Q W outs s) :
    Full R Q W (outs ++ s.checkPlans.2) s.checkPlans.1 ∧
    (∀ o ∈ s.checkPlans.2, GoodAnswer Q outs o ∨ ∃ k, GoodMatrix R Q outs k o) ∧
    (∀ q ids, s.checkPlans.1.pendingRoute.get q = some ids → ∃ j ∈ ids, s.checkPlans.1.responses.get j = none) ∧
    (∀ k ids, s.checkPlans.1.pendingAuto.get k = some ids → ∃ j ∈ ids, s.checkPlans.1.plans.get j = none) ∧
    s.checkPlans.1.states = s.states ∧
    (matrixKeys s.checkPlans.2 = [] → s.checkPlans.1.options = s.options) ∧
    (matrixKeys s.checkPlans.2 ≠ [] → s.checkPlans.1.options = []) := by
  simp only [St.checkPlans]
  -- first loop
  generalize hr : forKeys St.checkRoute s (s.pendingRoute.map (·.1)) = r
  have l1 : Full R Q W (outs ++ r.2) r.1 ∧ (∀ o ∈ r.2, GoodAnswer Q outs o) ∧ r.1.states = s.states ∧
      r.1.options = s.options := by
    have := forKeys_induct (f := St.checkRoute) (P := fun s' os => Full R Q W (outs ++ os) s' ∧
        (∀ o ∈ os, GoodAnswer Q outs o) ∧ s'.states = s.states ∧ s'.options = s.options) ?_ (s.pendingRoute.map (·.1)) s []
      ⟨by simpa using h, by simp, rfl, rfl⟩
    · rw [hr] at this; simpa using this
    · rintro s' os q ⟨hF, hG, e1, e2⟩
      obtain ⟨g1, g2, ⟨_, _, _, g3⟩, _⟩ := hF.checkRoute q
      refine ⟨by rw [← List.append_assoc]; exact g1, ?_, by rw [g3]; exact e1, by rw [g3]; exact e2⟩
      intro o ho
      rw [List.mem_append] at ho
      rcases ho with ho | ho
      · exact hG o ho
      · obtain ⟨rs, rfl, hn, hrs⟩ := g2 o ho
        have : since (outs ++ os) q = since outs q := by
          refine since_of_ne_nil outs os q ?_ hn
          intro o' ho'
          obtain ⟨_, _, rfl, _⟩ := hG o' ho'
          simp
        rw [this] at hn hrs
        exact ⟨q, rs, rfl, hn, hrs⟩
  have d1 : ∀ q ids, r.1.pendingRoute.get q = some ids → ∃ j ∈ ids, r.1.responses.get j = none := by
    have := forKeys_all (f := St.checkRoute) (I := fun s => ∃ outs, Full R Q W outs s)
      (D := fun q s => ∀ ids, s.pendingRoute.get q = some ids → ∃ j ∈ ids, s.responses.get j = none)
      (fun s k ⟨o, ho⟩ => ⟨_, (ho.checkRoute k).1⟩) (fun s k ⟨o, ho⟩ => (ho.checkRoute k).2.2.2.2.2)
      (fun s k j ⟨o, ho⟩ hD ids hids => by
        obtain ⟨_, _, _, g4, g5, g6⟩ := ho.checkRoute k
        by_cases e : j = k
        · subst e; exact g6 ids hids
        · rw [g4 j e] at hids
          obtain ⟨x, hx, hx2⟩ := hD ids hids
          refine ⟨x, hx, ?_⟩
          cases hh : (s.checkRoute k).1.responses.get x with
          | none => rfl
          | some r => rw [g5 x r hh] at hx2; simp at hx2)
      (s.pendingRoute.map (·.1)) s ⟨outs, h⟩
    intro q ids hq
    rw [hr] at this
    refine this.2 q ?_ ids hq
    by_cases hm : q ∈ s.pendingRoute.map (·.1)
    · exact .inr hm
    · left
      intro ids' hids'
      exact absurd (Map.get_isSome_iff.mp (by rw [hids']; rfl)) hm
  -- second loop
  generalize hq : forKeys St.checkMatrix r.1 (r.1.pendingAuto.map (·.1)) = q
  have l2 : Full R Q W (outs ++ r.2 ++ q.2) q.1 ∧ (∀ o ∈ q.2, ∃ k, GoodMatrix R Q outs k o) ∧
      q.1.states = s.states ∧ q.1.options = (if q.2 = [] then s.options else []) := by
    have := forKeys_induct (f := St.checkMatrix) (P := fun s' os => Full R Q W (outs ++ r.2 ++ os) s' ∧
        (∀ o ∈ os, ∃ k, GoodMatrix R Q outs k o) ∧ s'.states = s.states ∧
        s'.options = (if os = [] then s.options else [])) ?_ (r.1.pendingAuto.map (·.1)) r.1 []
      ⟨by simpa using l1.1, by simp, l1.2.2.1, by simpa using l1.2.2.2⟩
    · rw [hq] at this; simpa using this
    · rintro s' os k ⟨hF, hG, e1, e2⟩
      obtain ⟨g1, g2, _, _, _, _, _, g8, g9⟩ := hF.checkMatrix k
      refine ⟨by rw [← List.append_assoc]; exact g1, ?_, by rw [g8]; exact e1, ?_⟩
      · intro o ho
        rw [List.mem_append] at ho
        rcases ho with ho | ho
        · exact hG o ho
        · refine ⟨k, ?_⟩
          obtain ⟨r0, reqs, f1, f2, f3, f4, f5, f6⟩ := g2 o ho
          refine ⟨r0, reqs, f1, f2, ?_, ?_, f5, f6⟩
          · intro hh
            exact f3 (by rw [List.append_assoc, matrixKeys_append]; exact List.mem_append_left _ hh)
          · rw [List.append_assoc, lastAsk_plain] at f4
            · exact f4
            · intro o' ho'
              rw [List.mem_append] at ho'
              rcases ho' with ho' | ho'
              · obtain ⟨_, _, rfl, _⟩ := l1.2.1 o' ho'; simp
              · obtain ⟨_, _, _, _, _, _, _, _, rfl⟩ := hG o' ho'; simp
      · rw [g9]
        split
        · next e => rw [e, List.append_nil]; exact e2
        · next e => simp [e]
  have d2 : (∀ q' ids, q.1.pendingRoute.get q' = some ids → ∃ j ∈ ids, q.1.responses.get j = none) ∧
      ∀ k ids, q.1.pendingAuto.get k = some ids → ∃ j ∈ ids, q.1.plans.get j = none := by
    have := forKeys_all (f := St.checkMatrix) (I := fun s => (∃ outs, Full R Q W outs s) ∧
        ∀ q ids, s.pendingRoute.get q = some ids → ∃ j ∈ ids, s.responses.get j = none)
      (D := fun k s => ∀ ids, s.pendingAuto.get k = some ids → ∃ j ∈ ids, s.plans.get j = none)
      (fun s k ⟨⟨o, ho⟩, hd⟩ => by
        obtain ⟨g1, _, g3, _, g5, _⟩ := ho.checkMatrix k
        refine ⟨⟨_, g1⟩, ?_⟩
        intro q ids hids
        rw [g3] at hids
        obtain ⟨x, hx, hx2⟩ := hd q ids hids
        refine ⟨x, hx, ?_⟩
        cases hh : (s.checkMatrix k).1.responses.get x with
        | none => rfl
        | some r => rw [g5 x r hh] at hx2; simp at hx2)
      (fun s k ⟨⟨o, ho⟩, _⟩ => (ho.checkMatrix k).2.2.2.2.2.2.1)
      (fun s k j ⟨⟨o, ho⟩, _⟩ hD ids hids => by
        obtain ⟨_, _, _, g4, _, g6, g7, _, _⟩ := ho.checkMatrix k
        by_cases e : j = k
        · subst e; exact g7 ids hids
        · rw [g4 j e] at hids
          obtain ⟨x, hx, hx2⟩ := hD ids hids
          refine ⟨x, hx, ?_⟩
          cases hh : (s.checkMatrix k).1.plans.get x with
          | none => rfl
          | some r => rw [g6 x r hh] at hx2; simp at hx2)
      (r.1.pendingAuto.map (·.1)) r.1 ⟨⟨_, l1.1⟩, d1⟩
    rw [hq] at this
    refine ⟨this.1.2, fun k ids hk => this.2 k ?_ ids hk⟩
    by_cases hm : k ∈ r.1.pendingAuto.map (·.1)
    · exact .inr hm
    · left
      intro ids' hids'
      exact absurd (Map.get_isSome_iff.mp (by rw [hids']; rfl)) hm
  have ek : matrixKeys (r.2 ++ q.2) = [] ↔ q.2 = [] := by
    have e1 : matrixKeys r.2 = [] := by
      refine (plain_nil fun o ho => ?_).1
      obtain ⟨_, _, rfl, _⟩ := l1.2.1 o ho
      exact plain_answer _ _
    rw [matrixKeys_append, e1, List.nil_append]
    constructor
    · intro hh
      cases hq2 : q.2 with
      | nil => rfl
      | cons o os =>
        obtain ⟨k, _, _, _, _, _, _, _, rfl⟩ := l2.2.1 o (by rw [hq2]; simp)
        rw [hq2] at hh
        simp [matrixKeys] at hh
    · intro hh; rw [hh]; rfl
  refine ⟨by rw [← List.append_assoc]; exact l2.1, ?_, d2.1, d2.2, l2.2.2.1, ?_, ?_⟩
  · intro o ho
    rw [List.mem_append] at ho
    exact ho.imp (l1.2.1 o) (l2.2.1 o)
  · intro hh; rw [l2.2.2.2, if_pos (ek.mp hh)]
  · intro hh; rw [l2.2.2.2, if_neg (fun e => hh (ek.mpr e))]

end Verif.Routes
