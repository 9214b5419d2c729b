import Verif.Routes.Lemmas

/-! What is known about route requests. -/

namespace Verif.Routes

open Verif

/-- About route requests: `Q` plan responses and `W` route requests received, `outs` sent. -/
structure InvA (Q : List Resp) (W : List RouteReq) (outs : List Out) (pr : Map (List Int)) (n : Int) (resp : Map Resp) :
    Prop where
  nd : (pr.map (·.1)).Nodup
  pend : ∀ q, pr.get q = if since outs q = [] then none else some (since outs q)
  pos : 1 ≤ n
  bound : ∀ q, ∀ j ∈ since outs q, 1 ≤ j ∧ j < n
  ndids : ∀ q, (since outs q).Nodup
  disj : ∀ q q' j, j ∈ since outs q → j ∈ since outs q' → q = q'
  sound : ∀ j r, resp.get j = some r → lastResp Q j = some r
  count : ∀ q, (answers outs).count q + (if since outs q = [] then 0 else 1) ≤ (W.filter fun r => r.id = q).length

/-- Neither a plan request for a route request nor an answer. -/
def Other (o : Out) : Prop := (∀ q j v g r, o ≠ .askRoute q j v g r) ∧ ∀ q rs, o ≠ .answer q rs

theorem answers_append (a b : List Out) : answers (a ++ b) = answers a ++ answers b := by
  simp [answers, List.filterMap_append]

theorem answers_other {os : List Out} (h : ∀ o ∈ os, Other o) : answers os = [] := by
  rw [answers, List.filterMap_eq_nil_iff]
  intro o ho
  cases o with
  | answer q rs => exact absurd rfl ((h _ ho).2 q rs)
  | _ => rfl

theorem since_other {os : List Out} (h : ∀ o ∈ os, Other o) (outs : List Out) (q : Int) :
    since (outs ++ os) q = since outs q :=
  since_append outs os q fun o ho => ⟨fun j v g r => (h o ho).1 q j v g r, fun rs => (h o ho).2 q rs⟩

variable {Q : List Resp} {W : List RouteReq} {outs : List Out} {pr : Map (List Int)} {n : Int} {resp : Map Resp}

theorem InvA.mono (h : InvA Q W outs pr n resp) {resp' : Map Resp}
    (hr : ∀ j r, resp'.get j = some r → resp.get j = some r) {os : List Out} (ho : ∀ o ∈ os, Other o) :
    InvA Q W (outs ++ os) pr n resp' where
  nd := h.nd
  pend := fun q => by rw [since_other ho]; exact h.pend q
  pos := h.pos
  bound := fun q => by rw [since_other ho]; exact h.bound q
  ndids := fun q => by rw [since_other ho]; exact h.ndids q
  disj := fun q q' j => by rw [since_other ho, since_other ho]; exact h.disj q q' j
  sound := fun j r hg => h.sound j r (hr j r hg)
  count := fun q => by rw [since_other ho, answers_append, answers_other ho, List.append_nil]; exact h.count q

theorem lastResp_snoc (Q : List Resp) (r : Resp) (j : Int) :
    lastResp (Q ++ [r]) j = if r.id = j then some r else lastResp Q j := by
  simp only [lastResp, List.filter_append, List.filter_cons, List.filter_nil]
  by_cases h : r.id = j <;> simp [h]

theorem InvA.store (h : InvA Q W outs pr n resp) (r : Resp) : InvA (Q ++ [r]) W outs pr n (resp.put r.id r) where
  nd := h.nd
  pend := h.pend
  pos := h.pos
  bound := h.bound
  ndids := h.ndids
  disj := h.disj
  sound := fun j r' hg => by
    rw [lastResp_snoc]
    rw [Map.get_put] at hg
    by_cases e : r.id = j
    · rw [if_pos e.symm] at hg; rw [if_pos e]; exact hg
    · rw [if_neg (fun e' => e e'.symm)] at hg; rw [if_neg e]; exact h.sound j r' hg
  count := h.count

/-- What `checkRoute` does. -/
theorem checkRoute_cases (s : St) (q : Int) :
    ((s.checkRoute q) = (s, []) ∧ ∀ ids, s.pendingRoute.get q = some ids → ∃ j ∈ ids, s.responses.get j = none) ∨
    ∃ ids, s.pendingRoute.get q = some ids ∧ (∀ j ∈ ids, (s.responses.get j).isSome = true) ∧
      s.checkRoute q = ({ (s.collect ids).1 with pendingRoute := (s.collect ids).1.pendingRoute.del q },
        [.answer q (s.collect ids).2]) := by
  simp only [St.checkRoute]
  cases hg : s.pendingRoute.get q with
  | none => exact .inl ⟨rfl, by simp⟩
  | some ids =>
    by_cases ha : (ids.all fun id => (s.responses.get id).isSome) = true
    · exact .inr ⟨ids, rfl, by simpa using ha, by simp [ha]⟩
    · refine .inl ⟨by simp [ha], ?_⟩
      rintro _ ⟨rfl⟩
      simpa using ha

/-- The invariant of route requests for a state. -/
abbrev St.InvA (s : St) (Q : List Resp) (W : List RouteReq) (outs : List Out) : Prop :=
  Routes.InvA Q W outs s.pendingRoute s.routeReqId s.responses

theorem InvA.checkRoute {s : St} (h : s.InvA Q W outs) (q : Int) :
    (s.checkRoute q).1.InvA Q W (outs ++ (s.checkRoute q).2) ∧
    ∀ o ∈ (s.checkRoute q).2, ∃ rs, o = .answer q rs ∧ since outs q ≠ [] ∧
      rs.map some = (since outs q).map (lastResp Q) := by
  rcases checkRoute_cases s q with ⟨e, _⟩ | ⟨ids, hg, hall, e⟩
  · rw [e]; simp only [List.append_nil, List.not_mem_nil, false_implies, implies_true, and_true]; exact h
  · have hids : since outs q ≠ [] ∧ ids = since outs q := by
      have := h.pend q
      rw [hg] at this
      by_cases hn : since outs q = []
      · simp [hn] at this
      · simp [hn] at this; exact ⟨hn, this⟩
    obtain ⟨hn, rfl⟩ := hids
    obtain ⟨h1, ⟨a, b, h2⟩, h3, _, _⟩ := collect_spec _ s (h.ndids q) hall
    rw [e]
    have epr : (s.collect (since outs q)).1.pendingRoute = s.pendingRoute := by rw [h2]
    have ern : (s.collect (since outs q)).1.routeReqId = s.routeReqId := by rw [h2]
    constructor
    · show Routes.InvA Q W _ ((s.collect (since outs q)).1.pendingRoute.del q) (s.collect (since outs q)).1.routeReqId
        (s.collect (since outs q)).1.responses
      rw [epr, ern]
      refine ⟨Map.nodup_del h.nd q, ?_, h.pos, ?_, ?_, ?_, ?_, ?_⟩
      · intro q'
        rw [Map.get_del, since_answer]
        by_cases e : q = q'
        · subst e; simp
        · rw [if_neg (fun e' => e e'.symm), if_neg e]; exact h.pend q'
      · intro q' j hj
        rw [since_answer] at hj
        split at hj
        · simp at hj
        · exact h.bound q' j hj
      · intro q'
        rw [since_answer]
        split
        · exact List.nodup_nil
        · exact h.ndids q'
      · intro q' q'' j h1 h2
        rw [since_answer] at h1 h2
        split at h1
        · simp at h1
        · split at h2
          · simp at h2
          · exact h.disj _ _ j h1 h2
      · intro j r hr
        rw [h3] at hr
        split at hr
        · simp at hr
        · exact h.sound j r hr
      · intro q'
        have hc := h.count q'
        rw [answers_append, List.count_append, since_answer]
        have ea : answers [.answer q (s.collect (since outs q)).2] = [q] := rfl
        rw [ea, List.count_singleton]
        by_cases e : q = q'
        · subst e; simp [hn] at hc ⊢; exact hc
        · simp [e] at hc ⊢; exact hc
    · intro o ho
      simp only [List.mem_cons, List.not_mem_nil, or_false] at ho
      refine ⟨_, ho, hn, ?_⟩
      rw [h1]
      refine List.map_congr_left fun j hj => ?_
      obtain ⟨r, hr⟩ := Option.isSome_iff_exists.mp (hall j hj)
      rw [hr, h.sound j r hr]

/-- A vehicle of a route request. -/
theorem InvA.ask (h : InvA Q W outs pr n resp) (q v : Int) (g : Bool) (rs : List Route)
    (hc : (answers outs).count q + 1 ≤ (W.filter fun r => r.id = q).length) :
    InvA Q W (outs ++ [.askRoute q n v g rs]) (pr.put q ((pr.get q).getD [] ++ [n])) (n + 1) resp := by
  have eg : (pr.get q).getD [] = since outs q := by
    rw [h.pend q]
    by_cases hn : since outs q = [] <;> simp [hn]
  have hnew : ∀ q', n ∉ since outs q' := fun q' hh => by have := h.bound q' n hh; omega
  rw [eg]
  refine ⟨Map.nodup_put h.nd _ _, ?_, by have := h.pos; omega, ?_, ?_, ?_, h.sound, ?_⟩
  · intro q'
    rw [Map.get_put, since_ask]
    by_cases e : q = q'
    · subst e; simp
    · rw [if_neg (fun e' => e e'.symm), if_neg e]; exact h.pend q'
  · intro q' j hj
    have hp := h.pos
    rw [since_ask] at hj
    split at hj
    · rw [List.mem_append, List.mem_singleton] at hj
      rcases hj with hj | rfl
      · have := h.bound q' j hj; omega
      · omega
    · have := h.bound q' j hj; omega
  · intro q'
    rw [since_ask]
    split
    · rw [List.nodup_append]
      refine ⟨h.ndids q', by simp, ?_⟩
      intro a ha b hb hab
      simp only [List.mem_singleton] at hb
      exact hnew q' (by rw [← hb, ← hab]; exact ha)
    · exact h.ndids q'
  · intro q1 q2 j h1 h2
    rw [since_ask] at h1 h2
    by_cases e1 : q = q1 <;> by_cases e2 : q = q2
    · rw [← e1, ← e2]
    · rw [if_pos e1, List.mem_append, List.mem_singleton] at h1
      rw [if_neg e2] at h2
      rcases h1 with h1 | rfl
      · exact h.disj _ _ j h1 h2
      · exact absurd h2 (hnew q2)
    · rw [if_neg e1] at h1
      rw [if_pos e2, List.mem_append, List.mem_singleton] at h2
      rcases h2 with h2 | rfl
      · exact h.disj _ _ j h1 h2
      · exact absurd h1 (hnew q1)
    · rw [if_neg e1] at h1
      rw [if_neg e2] at h2
      exact h.disj _ _ j h1 h2
  · intro q'
    rw [answers_append, List.count_append, since_ask]
    have ea : answers [Out.askRoute q n v g rs] = [] := rfl
    rw [ea, List.count_nil]
    by_cases e : q = q'
    · subst e; simp; exact hc
    · rw [if_neg e]; exact h.count q'

/-- The vehicles of a route request; without fast planning nothing else changes. -/
theorem routeVehicles_spec (r : RouteReq) : ∀ (vs : List Int) (s : St) (outs : List Out), s.fast = false →
    s.InvA Q W outs → (answers outs).count r.id + 1 ≤ (W.filter fun x => x.id = r.id).length →
    (s.routeVehicles r vs).1.InvA Q W (outs ++ (s.routeVehicles r vs).2) ∧
    (∃ a b, (s.routeVehicles r vs).1 = { s with pendingRoute := a, routeReqId := b } ∧ s.routeReqId ≤ b) ∧
    (s.routeVehicles r vs).2.length = vs.length ∧
    ∀ k (hk : k < (s.routeVehicles r vs).2.length), ∃ v, vs[k]? = some v ∧
      (s.routeVehicles r vs).2[k] = .askRoute r.id (s.routeReqId + k) v (s.ground.contains v) r.routes
  | [], s, outs, _, h, _ => by
    simp only [St.routeVehicles, List.append_nil, List.length_nil, List.getElem?_nil]
    exact ⟨h, ⟨_, _, rfl, Int.le_refl _⟩, trivial, fun k hk => absurd hk (by omega)⟩
  | v :: vs, s, outs, hf, h, hc => by
    obtain ⟨s1, hs1⟩ : ∃ s1, ({ s with
      pendingRoute := s.pendingRoute.put r.id ((s.pendingRoute.get r.id).getD [] ++ [s.routeReqId])
      routeReqId := s.routeReqId + 1 } : St) = s1 := ⟨_, rfl⟩
    have heq : s.routeVehicles r (v :: vs) = ((s1.routeVehicles r vs).1,
        .askRoute r.id s.routeReqId v (s.ground.contains v) r.routes :: (s1.routeVehicles r vs).2) := by
      have e : (s.ground.contains v && s.fast) = false := by simp [hf]
      simp only [St.routeVehicles, e, ← hs1]
      rfl
    rw [heq]
    have hi : s1.InvA Q W (outs ++ [.askRoute r.id s.routeReqId v (s.ground.contains v) r.routes]) := by
      rw [← hs1]
      exact InvA.ask h r.id v _ r.routes hc
    have hc1 : (answers (outs ++ [.askRoute r.id s.routeReqId v (s.ground.contains v) r.routes])).count r.id + 1 ≤
        (W.filter fun x => x.id = r.id).length := by
      rw [answers_append]
      have ea : answers [Out.askRoute r.id s.routeReqId v (s.ground.contains v) r.routes] = [] := rfl
      rw [ea, List.append_nil]; exact hc
    obtain ⟨g1, ⟨a, b, g2, hb⟩, g3, g4⟩ := routeVehicles_spec r vs s1 _ (by rw [← hs1]; exact hf) hi hc1
    have en : s1.routeReqId = s.routeReqId + 1 := by rw [← hs1]
    have eg : s1.ground = s.ground := by rw [← hs1]
    refine ⟨by simpa using g1, ⟨a, b, by rw [g2, ← hs1], by omega⟩, by simp [g3], ?_⟩
    intro k hk
    cases k with
    | zero => exact ⟨v, rfl, by simp⟩
    | succ k =>
      simp only [List.length_cons] at hk
      obtain ⟨v', e1, e2⟩ := g4 k (by omega)
      refine ⟨v', by simpa using e1, ?_⟩
      simp only [List.getElem_cons_succ, e2, en, eg, Out.askRoute.injEq, and_true, true_and]
      omega

end Verif.Routes
